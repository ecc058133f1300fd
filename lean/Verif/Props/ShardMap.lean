import Verif.Proofs.ShardMap
import Verif.Spec.FlatMap
/-!
# Property C07: the sharded map is a map

Specification: `Verif/Spec/FlatMap.lean`.
-/
namespace Godis
open FlatMap

/-- One operation on the sharded map (each iteration order may be different). -/
def smapStep {V : Type} (it : Iter) (m : SMap V) : Op Bytes V → SMap V × Out Bytes V
  | .get k => (m, .val (m.get k))
  | .has k => (m, .bool (m.has k))
  | .set k v => (m.set k v, .unit)
  | .setIfAbsent k v => ((m.setIfAbsent k v).1, .bool (m.setIfAbsent k v).2)
  | .delete k => (m.del k, .unit)
  | .deleteIfExists k => ((m.deleteIfExists k).1, .bool (m.deleteIfExists k).2)
  | .loadAndDelete k => ((m.loadAndDelete k).1, .val (m.loadAndDelete k).2)
  | .upsert k f =>
    let g : Option V → Except Unit V := fun o => match f o with | some v => .ok v | none => .error ()
    ((m.upsert k g).1, .val (match (m.upsert k g).2 with | .ok v => some v | .error _ => none))
  | .keys => (m, .keys (m.keys it))
  | .range => (m, .visited (m.range it (fun es k v => es ++ [(k, v)]) []))
  | .rangeAndDelete f =>
    let (m, es) := m.rangeAndDelete it (fun (seen : List (Bytes × V)) k v => (seen ++ [(k, v)], f seen k v)) []
    (m, .visited es)

/-- Any number of operations; the trace of operations and answers. -/
def smapRun {V : Type} : SMap V → List (Iter × Op Bytes V) → SMap V × List (Op Bytes V × Out Bytes V)
  | m, [] => (m, [])
  | m, (it, op) :: ops =>
    let (m', out) := smapStep it m op
    let (m'', tr) := smapRun m' ops
    (m'', (op, out) :: tr)

theorem rangeAndDeleteLoop_visit {V : Type} (f : List (Bytes × V) → Bytes → V → Bool × Bool) (es : List (Bytes × V)) :
    ∀ (m : SMap V) (seen : List (Bytes × V)), m.WF →
    let r := SMap.rangeAndDeleteLoop (fun (seen : List (Bytes × V)) k v => (seen ++ [(k, v)], f seen k v)) es m seen
    r.1.WF ∧ r.2 = seen ++ (visit f seen es).1 ∧ ∀ x, r.1.get x = if x ∈ (visit f seen es).2 then none else m.get x := by
  induction es with
  | nil => intro m seen hm; simp [SMap.rangeAndDeleteLoop, visit, hm]
  | cons e es ih =>
    obtain ⟨k, v⟩ := e
    intro m seen hm
    have hm' : (if (f seen k v).1 then m.del k else m).WF := by split; exacts [hm.del k, hm]
    have hg : ∀ x, (if (f seen k v).1 then m.del k else m).get x = if (f seen k v).1 ∧ x = k then none else m.get x := by
      intro x
      by_cases hd : (f seen k v).1 = true
      · simp only [hd, if_true, true_and]; exact SMap.get_del m k x hm
      · simp [hd]
    have hi := ih _ (seen ++ [(k, v)]) hm'
    simp only [SMap.rangeAndDeleteLoop, visit]
    by_cases hr : (f seen k v).2 = true
    · simp only [hr, if_true]
      refine ⟨hi.1, by rw [hi.2.1]; simp, ?_⟩
      intro x
      rw [hi.2.2, hg]
      by_cases hd : (f seen k v).1 = true <;> simp [hd]
      by_cases hx : x = k <;> simp [hx]
    · simp only [hr, if_false, Bool.false_eq_true]
      refine ⟨hm', trivial, ?_⟩
      intro x
      rw [hg]
      by_cases hd : (f seen k v).1 = true <;> simp [hd]

theorem range_collect {V : Type} (it : Iter) (m : SMap V) : m.range it (fun es k v => es ++ [(k, v)]) [] = m.entries it := by
  unfold SMap.range
  have : ∀ (l acc : List (Bytes × V)), l.foldl (fun s kv => s ++ [(kv.1, kv.2)]) acc = acc ++ l := by
    intro l
    induction l with
    | nil => simp
    | cons a l ih => intro acc; rw [List.foldl_cons, ih]; simp
  rw [this]; rfl

theorem smapStep_refines {V : Type} (it : Iter) (m : SMap V) (hm : m.WF) (op : Op Bytes V) :
    (smapStep it m op).1.WF ∧ Step m.get op (smapStep it m op).2 (smapStep it m op).1.get := by
  have ext : ∀ {f g : Bytes → Option V}, (∀ x, f x = g x) → f = g := funext
  cases op with
  | get k => exact ⟨hm, .get⟩
  | has k => exact ⟨hm, .has⟩
  | set k v =>
    refine ⟨hm.set k v, ?_⟩
    have : (m.set k v).get = fun x => if x = k then some v else m.get x := ext (fun x => SMap.get_set m k x v)
    simp only [smapStep, this]
    exact .set
  | setIfAbsent k v =>
    refine ⟨hm.setIfAbsent k v, ?_⟩
    cases hk : m.get k with
    | none =>
      have e1 : (m.setIfAbsent k v).2 = true := by rw [SMap.setIfAbsent_snd, SMap.has_eq, hk]; rfl
      have e2 : (m.setIfAbsent k v).1.get = fun x => if x = k then some v else m.get x :=
        ext (fun x => by rw [SMap.get_setIfAbsent, hk]; rfl)
      simp only [smapStep, e1, e2]
      exact .setIfAbsentNew hk
    | some w =>
      have e1 : (m.setIfAbsent k v).2 = false := by rw [SMap.setIfAbsent_snd, SMap.has_eq, hk]; rfl
      have e2 : (m.setIfAbsent k v).1.get = m.get :=
        ext (fun x => by
          rw [SMap.get_setIfAbsent, hk]
          split
          · next h => rw [h, hk]; rfl
          · rfl)
      simp only [smapStep, e1, e2]
      exact .setIfAbsentOld hk
  | delete k =>
    refine ⟨hm.del k, ?_⟩
    have : (m.del k).get = fun x => if x = k then none else m.get x := ext (fun x => SMap.get_del m k x hm)
    simp only [smapStep, this]
    exact .delete
  | deleteIfExists k =>
    refine ⟨hm.deleteIfExists k, ?_⟩
    have e2 : (m.deleteIfExists k).1.get = fun x => if x = k then none else m.get x :=
      ext (fun x => SMap.get_deleteIfExists m hm k x)
    simp only [smapStep, SMap.deleteIfExists_snd, e2, SMap.has_eq]
    exact .deleteIfExists
  | loadAndDelete k =>
    refine ⟨hm.loadAndDelete k, ?_⟩
    have e2 : (m.loadAndDelete k).1.get = fun x => if x = k then none else m.get x :=
      ext (fun x => SMap.get_loadAndDelete m hm k x)
    simp only [smapStep, SMap.loadAndDelete_snd, e2]
    exact .loadAndDelete
  | upsert k f =>
    refine ⟨hm.upsert k _, ?_⟩
    simp only [smapStep, SMap.upsert]
    cases hf : f (m.get k) with
    | none =>
      simp only
      exact .upsertAbort hf
    | some v =>
      simp only
      have : (m.set k v).get = fun x => if x = k then some v else m.get x := ext (fun x => SMap.get_set m k x v)
      rw [this]
      exact .upsert hf
  | keys =>
    exact ⟨hm, .keys (SMap.entries_keys_nodup it m hm) (SMap.mem_keys it m hm)⟩
  | range =>
    refine ⟨hm, ?_⟩
    simp only [smapStep, range_collect]
    exact .range (SMap.entries_keys_nodup it m hm) (SMap.mem_entries it m hm)
  | rangeAndDelete f =>
    obtain ⟨h1, h2, h3⟩ := rangeAndDeleteLoop_visit f (m.entries it) m [] hm
    refine ⟨h1, ?_⟩
    have e : (smapStep it m (.rangeAndDelete f)).2 = .visited (visit f [] (m.entries it)).1 := by
      simp only [smapStep, SMap.rangeAndDelete, h2, List.nil_append]
    have e2 : (smapStep it m (.rangeAndDelete f)).1.get = fun x => if x ∈ (visit f [] (m.entries it)).2 then none else m.get x := ext h3
    rw [e, e2]
    convert Step.rangeAndDelete (f := f) (SMap.entries_keys_nodup it m hm) (SMap.mem_entries it m hm)

/-- C07: whatever operations are applied to a new sharded map, in whatever order and with whatever iteration
orders, the answers are those of a flat map. -/
theorem C07_sharded_map_is_map {V : Type} (ops : List (Iter × Op Bytes V)) :
    Run (fun _ => none) (smapRun SMap.empty ops).2 (smapRun SMap.empty ops).1.get := by
  have key : ∀ (ops : List (Iter × Op Bytes V)) (m : SMap V), m.WF →
      Run m.get (smapRun m ops).2 (smapRun m ops).1.get := by
    intro ops
    induction ops with
    | nil => intro m _; exact .nil
    | cons a ops ih =>
      obtain ⟨it, op⟩ := a
      intro m hm
      have h := smapStep_refines it m hm op
      exact .cons h.2 (ih _ h.1)
  exact key ops SMap.empty SMap.WF.empty

/-- C07: an operation on one key never changes what any other key returns. -/
theorem C07_other_keys {V : Type} (m : SMap V) (hm : m.WF) (k k' : Bytes) (hne : k' ≠ k) (v : V) :
    (m.set k v).get k' = m.get k' ∧ (m.del k).get k' = m.get k' ∧
    (m.setIfAbsent k v).1.get k' = m.get k' ∧ (m.deleteIfExists k).1.get k' = m.get k' ∧
    (m.loadAndDelete k).1.get k' = m.get k' := by
  refine ⟨SMap.get_set_ne m v hne, SMap.get_del_ne m hne, ?_, ?_, ?_⟩
  · rw [SMap.get_setIfAbsent, if_neg hne]
  · rw [SMap.get_deleteIfExists m hm, if_neg hne]
  · rw [SMap.get_loadAndDelete m hm, if_neg hne]

-- the hypotheses are met by a map with two keys that share a shard (63 keys, 32 shards)
example : ((SMap.empty.set (b! "a") 1).set (b! "b") 2 : SMap Nat).WF := (SMap.WF.empty.set _ _).set _ _
example : (((SMap.empty.set (b! "a") 1).set (b! "b") 2 : SMap Nat).del (b! "a")).get (b! "b") = some 2 := by decide
example : shardIdx (b! "a") = shardIdx (b! "A") := by decide

end Godis
