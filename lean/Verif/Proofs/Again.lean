import Verif.Proofs.Batch
import Verif.Proofs.Scores
/-!
# The same request twice
-/
namespace Godis

/-! ## maps -/

namespace GoMap
variable {V : Type}

theorem set_same : ∀ {m : GoMap V} {k : Bytes} {v : V}, m.get k = some v → m.set k v = m
  | [], _, _, h => by cases h
  | (k', v') :: m, k, v, h => by
    unfold get at h
    unfold set
    split at h
    · next e => cases h; rw [if_pos e, e]
    · next e => rw [if_neg e, set_same h]

theorem ext_keys : ∀ {m n : GoMap V}, m.keys = n.keys → m.keys.Nodup → (∀ k, m.get k = n.get k) → m = n
  | [], [], _, _, _ => rfl
  | [], _ :: _, h, _, _ => by simp [keys] at h
  | _ :: _, [], h, _, _ => by simp [keys] at h
  | (k, v) :: m, (k', v') :: n, h, hd, hg => by
    simp only [keys, List.map_cons, List.cons.injEq] at h
    obtain ⟨rfl, h⟩ := h
    simp only [keys, List.map_cons, List.nodup_cons] at hd
    have e : v = v' := by
      have := hg k
      unfold get at this
      simpa using this
    subst e
    congr 1
    refine ext_keys h hd.2 fun k' => ?_
    by_cases e : k = k'
    · subst e
      rw [(get_eq_none m k).mpr hd.1, (get_eq_none n k).mpr (by unfold keys; rw [← h]; exact hd.1)]
    · have := hg k'
      unfold get at this
      simpa [e] using this

end GoMap

namespace SMap
variable {V : Type}

theorem upd_same {m : SMap V} {i : Fin 32} : m.upd i (m.shards i) = m := by
  obtain ⟨f⟩ := m
  unfold upd
  congr 1
  funext j
  split
  · next h => subst h; rfl
  · rfl

theorem set_same {m : SMap V} {k : Bytes} {v : V} (h : m.get k = some v) : m.set k v = m := by
  unfold set
  rw [GoMap.set_same h, upd_same]

theorem setIfAbsent_same {m : SMap V} {k : Bytes} {v : V} (h : m.has k = true) : m.setIfAbsent k v = (m, false) := by
  unfold setIfAbsent
  rw [h]; rfl

theorem deleteIfExists_same {m : SMap V} {k : Bytes} (h : m.has k = false) : m.deleteIfExists k = (m, false) := by
  unfold deleteIfExists
  rw [h]; rfl

end SMap

/-! ## MSET -/

namespace Store

/-- the value the last pair gives to a key -/
def lastVal : List Bytes → Bytes → Option Bytes
  | k' :: v :: rest, k => match lastVal rest k with
    | some w => some w
    | none => if k = k' then some v else none
  | _, _ => none

theorem mSet_get : ∀ (l : List Bytes) (s : Store) (k : Bytes), (s.mSet l).keys.get k = match lastVal l k with
    | some v => some ⟨.string, .str v⟩
    | none => s.keys.get k
  | [], _, _ => rfl
  | [_], _, _ => rfl
  | k' :: v :: rest, s, k => by
    show ((s.set k' v).mSet rest).keys.get k = _
    rw [mSet_get rest, show lastVal (k' :: v :: rest) k = (match lastVal rest k with
      | some w => some w
      | none => if k = k' then some v else none) from rfl]
    cases lastVal rest k with
    | some w => rfl
    | none =>
      simp only [Store.set, SMap.get_set]
      by_cases e : k = k'
      · simp [e]
      · simp [e]

theorem mSet_keys : ∀ (l : List Bytes) (s : Store), (∀ k, (lastVal l k).isSome → (s.keys.get k).isSome) → ∀ i,
    ((s.mSet l).keys.shards i).keys = (s.keys.shards i).keys
  | [], _, _, _ => rfl
  | [_], _, _, _ => rfl
  | k' :: v :: rest, s, h, i => by
    show (((s.set k' v).mSet rest).keys.shards i).keys = _
    have hk : (s.keys.get k').isSome := h k' (by unfold lastVal; split <;> simp)
    rw [mSet_keys rest]
    · simp only [Store.set, SMap.set, SMap.upd]
      split
      · next e =>
        subst e
        rw [GoMap.set_keys, if_pos ((GoMap.mem_keys _ _).mpr hk)]
      · rfl
    · intro k hk'
      simp only [Store.set, SMap.get_set]
      split
      · rfl
      · exact h k (by unfold lastVal; cases hl : lastVal rest k <;> simp_all)

theorem mSet_rest : ∀ (l : List Bytes) (s : Store), (s.mSet l).heap = s.heap ∧ (s.mSet l).rng = s.rng
  | [], _ => ⟨rfl, rfl⟩
  | [_], _ => ⟨rfl, rfl⟩
  | _ :: _ :: rest, s => by
    show ((s.set _ _).mSet rest).heap = _ ∧ ((s.set _ _).mSet rest).rng = _
    exact mSet_rest rest _

theorem mSet_wf : ∀ (l : List Bytes) {s : Store}, s.keys.WF → (s.mSet l).keys.WF
  | [], _, h => h
  | [_], _, h => h
  | _ :: _ :: rest, _, h => mSet_wf rest (h.set _ _)

theorem mSet_mSet (l : List Bytes) {s : Store} (h : s.keys.WF) : (s.mSet l).mSet l = s.mSet l := by
  have hk : ((s.mSet l).mSet l).keys = (s.mSet l).keys := by
    have : ((s.mSet l).mSet l).keys.shards = (s.mSet l).keys.shards := by
      funext i
      have e := mSet_keys l (s.mSet l) (fun k hk => by rw [mSet_get]; cases hl : lastVal l k <;> simp_all) i
      refine GoMap.ext_keys e ?_ fun k => ?_
      · exact (mSet_wf l (mSet_wf l h)).1 i
      · have hg : ∀ k, ((s.mSet l).mSet l).keys.get k = (s.mSet l).keys.get k := fun k => by
          rw [mSet_get l (s.mSet l), mSet_get l s]
          cases lastVal l k <;> rfl
        by_cases hi : shardIdx k = i
        · subst hi; exact hg k
        · have n1 : ∀ {t : Store}, t.keys.WF → (t.keys.shards i).get k = none := fun {t} ht => by
            rw [GoMap.get_eq_none]
            intro hm
            exact hi (ht.2 i k hm)
          rw [n1 (mSet_wf l (mSet_wf l h)), n1 (mSet_wf l h)]
    calc ((s.mSet l).mSet l).keys = ⟨((s.mSet l).mSet l).keys.shards⟩ := rfl
      _ = (s.mSet l).keys := by rw [this]
  obtain ⟨h1, h2⟩ := mSet_rest l (s.mSet l)
  calc (s.mSet l).mSet l = ⟨((s.mSet l).mSet l).keys, ((s.mSet l).mSet l).heap, ((s.mSet l).mSet l).rng⟩ := rfl
    _ = s.mSet l := by rw [hk, h1, h2]

end Store

/-! ## sets -/

theorem SObj.sAddAll_same {o : SObj} : ∀ {vs : List Bytes}, (∀ v ∈ vs, o.m.has v = true) → o.sAddAll vs = (o, 0)
  | [], _ => rfl
  | v :: vs, h => by
    have e : o.sAdd v = (o, 0) := by
      unfold SObj.sAdd
      rw [SMap.setIfAbsent_same (h v (by simp))]; rfl
    unfold SObj.sAddAll
    rw [e]
    simp only
    rw [SObj.sAddAll_same (fun v hv => h v (List.mem_cons_of_mem _ hv))]; rfl

theorem SObj.sRemAll_same {o : SObj} : ∀ {vs : List Bytes}, (∀ v ∈ vs, o.m.has v = false) → o.sRemAll vs = (o, 0)
  | [], _ => rfl
  | v :: vs, h => by
    have e : o.sRem v = (o, 0) := by
      unfold SObj.sRem
      rw [SMap.deleteIfExists_same (h v (by simp))]; rfl
    unfold SObj.sRemAll
    rw [e]
    simp only
    rw [SObj.sRemAll_same (fun v hv => h v (List.mem_cons_of_mem _ hv))]; rfl

theorem SObj.sAdd_has (o : SObj) (v w : Bytes) : ((o.sAdd v).1.m.has w) = (o.m.has w || decide (w = v)) := by
  unfold SObj.sAdd
  have := SMap.get_setIfAbsent o.m v w ()
  cases h : (o.m.setIfAbsent v ()) with
  | mk m b =>
    rw [h] at this
    simp only at this
    have e : m.has w = (o.m.has w || decide (w = v)) := by
      rw [SMap.has_eq, this, SMap.has_eq]
      by_cases hw : w = v
      · subst hw; simp
      · simp [hw]
    cases b <;> exact e

theorem SObj.sAddAll_has : ∀ (vs : List Bytes) (o : SObj) (w : Bytes), o.m.has w = true ∨ w ∈ vs → (o.sAddAll vs).1.m.has w = true
  | [], _, _, h => h.resolve_right (by simp)
  | v :: vs, o, w, h => by
    show ((o.sAdd v).1.sAddAll vs).1.m.has w = true
    refine sAddAll_has vs _ w ?_
    rw [SObj.sAdd_has]
    simp only [List.mem_cons] at h
    rcases h with h | h | h
    · simp [h]
    · simp [h]
    · exact .inr h

namespace Store
variable {s s1 s2 : Store} {k : Bytes}

theorem write_same {r : Nat} {o : Obj} (h : s.heap[r]? = some o) : s.write r o = s := by
  unfold write
  obtain ⟨hr, e⟩ := List.getElem?_eq_some_iff.mp h
  rw [← e, List.set_getElem_self]

theorem write_self (s : Store) (r : Nat) (o : Obj) : (s.write r o).write r o = s.write r o := write_write s r o o

theorem sAdd_again {vs : List Bytes} {r : Ret Int} (h : s.sAdd k vs = .ok (s1, r)) : ∃ r', s1.sAdd k vs = .ok (s1, r') := by
  unfold sAdd at h
  obtain ⟨q, h1, h2⟩ := bind_ok h
  have hall : ∀ (o : SObj), (o.sAddAll vs).1.sAddAll vs = ((o.sAddAll vs).1, 0) :=
    fun o => SObj.sAddAll_same (fun v hv => SObj.sAddAll_has vs o v (.inr hv))
  match q, h1, h2 with
  | .error .nil, h1, h2 =>
    cases h2
    refine ⟨(0, none), ?_⟩
    unfold sAdd
    rw [loadSet_putNew]
    simp only [bind, Except.bind, hall, putNew_write]
  | .ok (r, o), h1, h2 =>
    cases h2
    refine ⟨(0, none), ?_⟩
    unfold sAdd
    rw [loadSet_write h1]
    simp only [bind, Except.bind, hall, write_self, Bool.false_and, Bool.false_eq_true, if_false]
  | .error .keyAndCommandNotMatch, h1, h2 | .error .notInteger, h1, h2 | .error .notFloat, h1, h2 | .error .unknownCommand, h1, h2
  | .error .commandArgsNotEnough, h1, h2 | .error .valueOutOfRange, h1, h2 =>
    cases h2
    exact ⟨_, by unfold sAdd; rw [h1]; rfl⟩

theorem sRem_again {vs : List Bytes} {r : Ret Int} (hs : SetsOk s) (h : s.sRem k vs = .ok (s1, r)) : ∃ r', s1.sRem k vs = .ok (s1, r') := by
  unfold sRem at h
  obtain ⟨q, h1, h2⟩ := bind_ok h
  match q, h1, h2 with
  | .ok (r, o), h1, h2 =>
    cases h2
    obtain ⟨X, g, hi⟩ := hs r o (loadSet_heap h1)
    have hall : (o.sRemAll vs).1.sRemAll vs = ((o.sRemAll vs).1, 0) := by
      refine SObj.sRemAll_same fun v hv => ?_
      rw [(hi.sRemAll vs).1.has]
      simp [hv]
    unfold sRem
    rw [loadSet_write h1]
    split
    · exact ⟨_, rfl⟩
    · refine ⟨(0, none), ?_⟩
      simp only [bind, Except.bind, hall, write_self]
  | .error e, h1, h2 =>
    cases h2
    exact ⟨_, by unfold sRem; rw [h1]; rfl⟩

end Store

/-! ## lists -/

namespace LObj

theorem load_set {h : List LNode} {a : Nat} {n : LNode} (hn : h[a]? = some n) (v : Bytes) (p : Option Nat) :
    (load (h.set a { n with value := v }) p).map (fun m => (m.next, m.prev)) = (load h p).map (fun m => (m.next, m.prev)) := by
  cases p with
  | none => rfl
  | some b =>
    unfold load
    simp only
    by_cases e : a = b
    · subst e
      rw [List.getElem?_set_self (List.getElem?_eq_some_iff.mp hn).1, hn]; rfl
    · rw [List.getElem?_set_ne e]

theorem lIndexLoop_set {h : List LNode} {a : Nat} {n : LNode} (hn : h[a]? = some n) (v : Bytes) (rev : Bool) : ∀ k p,
    lIndexLoop (h.set a { n with value := v }) rev k p = lIndexLoop h rev k p
  | 0, _ => rfl
  | k + 1, p => by
    have e := load_set hn v p
    unfold lIndexLoop
    cases h1 : load (h.set a { n with value := v }) p <;> cases h2 : load h p <;> rw [h1, h2] at e
    · cases e; rfl
    · cases e
    · cases e
    · next x y =>
      simp only [Except.map, Except.ok.injEq, Prod.mk.injEq] at e
      simp only [bind, Except.bind, e.1, e.2]
      exact lIndexLoop_set hn v rev k _

theorem lSet_again {l l1 : LObj} {i : Int} {v : Bytes} {b : Bool} (h : l.lSet i v = .ok (l1, b)) : l1.lSet i v = .ok (l1, b) := by
  unfold lSet at h
  obtain ⟨q, h1, h2⟩ := bind_ok h
  cases q with
  | none => cases h2; unfold lSet; rw [h1]; rfl
  | some a =>
    obtain ⟨hs, h3, h4⟩ := bind_ok (show (setValue l.nodes (some a) v >>= fun h => .ok ({ l with nodes := h }, true)) = Except.ok (l1, b) from h2)
    cases h4
    unfold setValue at h3
    simp only at h3
    cases hn : l.nodes[a]? with
    | none => rw [hn] at h3; cases h3
    | some n =>
      rw [hn] at h3
      cases h3
      have e : lIndexNode { l with nodes := l.nodes.set a { n with value := v } } i = lIndexNode l i := by
        unfold lIndexNode
        simp only [lIndexLoop_set hn v]
      unfold lSet
      rw [e, h1]
      simp only [bind, Except.bind, setValue]
      rw [List.getElem?_set_self (List.getElem?_eq_some_iff.mp hn).1]
      simp only [List.set_set]

theorem lSet_length {l l1 : LObj} {i : Int} {v : Bytes} {b : Bool} (h : l.lSet i v = .ok (l1, b)) : l1.length = l.length := by
  unfold lSet at h
  obtain ⟨q, h1, h2⟩ := bind_ok h
  cases q with
  | none => cases h2; rfl
  | some a =>
    obtain ⟨hs, h3, h4⟩ := bind_ok (show (setValue l.nodes (some a) v >>= fun h => .ok ({ l with nodes := h }, true)) = Except.ok (l1, b) from h2)
    cases h4; rfl

end LObj

theorem Store.lSet_again {s s1 : Store} {k : Bytes} {i : Int} {v : Bytes} {e : Option Err} (h : s.lSet k i v = .ok (s1, e)) :
    s1.lSet k i v = .ok (s1, e) := by
  unfold Store.lSet at h
  obtain ⟨q, h1, h2⟩ := bind_ok h
  match q, h1, h2 with
  | .error e, h1, h2 =>
    cases h2
    unfold Store.lSet; rw [h1]; rfl
  | .ok (r, l), h1, h2 =>
    obtain ⟨⟨l1, b⟩, h3, h4⟩ := bind_ok (show (l.lSet i v >>= fun p => .ok (s.write r (.list p.1), if p.2 then none else some .nil)) = Except.ok (s1, e) from h2)
    cases h4
    unfold Store.lSet
    rw [Store.loadList_write h1]
    split
    · next hl =>
      exfalso
      have := LObj.lSet_length h3
      unfold Store.loadList at h1
      split at h1
      · cases h1
      · split at h1
        · cases h1
        · split at h1
          · split at h1
            · cases h1
            · next hne => cases h1; rw [this] at hl; exact hne hl
          · cases h1
    · simp only [bind, Except.bind, LObj.lSet_again h3, Store.write_self]


/-! ## sorted sets -/

namespace ZObj

theorem zRemAll_same : ∀ {vs : List Bytes} {z : ZObj}, (∀ v ∈ vs, z.m.get v = none) → z.zRemAll vs = .ok (z, 0)
  | [], _, _ => rfl
  | v :: vs, z, h => by
    have e : z.m.loadAndDelete v = (z.m, none) := by
      unfold SMap.loadAndDelete
      rw [h v (by simp)]
    unfold zRemAll
    rw [e]
    exact zRemAll_same (fun v hv => h v (List.mem_cons_of_mem _ hv))

/-- adding this pair would change nothing -/
def Done (f : ZAddFlags) (t : ScoreSpec.Table) (e : F64 × Bytes) : Prop :=
  match t.score e.2 with
  | none => f.xx = true
  | some old => f.nx = true ∨ e.1.eq old = true

theorem zAdd_done {ext : Ext} {z : ZObj} (K : Keyed z) {f : ZAddFlags} (hi : f.incr = false) {e : F64 × Bytes} (h : Done f (tab z) e) (rng : Rng) :
    z.zAdd ext e.1 e.2 f rng = .ok (z, none, rng) := by
  unfold zAdd
  unfold Done at h
  cases hg : z.m.get e.2 with
  | none =>
    rw [tab_none hg] at h
    simp only at h ⊢
    rw [if_pos h]
  | some x =>
    obtain ⟨n, hn, _⟩ := K.dict _ _ hg
    rw [tab_some hg hn] at h
    simp only at h ⊢
    by_cases hx : f.nx = true
    · rw [if_pos hx]
    · rw [if_neg hx]
      have e1 := h.resolve_left hx
      have e2 : ZSL.load z.zsl.nodes x = .ok n := by unfold ZSL.load; rw [hn]
      simp only [bind, Except.bind, e2, hi, Bool.false_eq_true, if_false, e1, Bool.not_true]

theorem zAddAll_done {ext : Ext} {f : ZAddFlags} (hi : f.incr = false) {z : ZObj} (K : Keyed z) : ∀ {ms : List (F64 × Bytes)},
    (∀ e ∈ ms, Done f (tab z) e) → ∀ rng, z.zAddAll ext f ms rng = .ok (z, 0, rng)
  | [], _, _ => rfl
  | (sc, v) :: ms, h, rng => by
    have e := zAdd_done (ext := ext) K hi (h (sc, v) (by simp)) rng
    have ih := zAddAll_done (ext := ext) hi K (fun e he => h e (List.mem_cons_of_mem _ he)) rng
    unfold zAddAll
    simp only at e
    simp only [bind, Except.bind, e, ih]
    rfl

theorem _root_.Godis.ZSL.wp_updateScore_none (z : ZSL) (cur new value rng) : Wp (z.updateScore cur new value rng) (fun p => p.2.1 = none → p = (z, none, rng)) := by
  unfold ZSL.updateScore
  refine (Wp.triv _).bind fun a _ _ => ?_
  dsimp only
  refine (Wp.triv _).bind fun l _ _ => ?_
  split
  · exact Wp.pure fun _ => rfl
  · next x _ =>
    refine (Wp.triv _).bind fun n _ _ => ?_
    split
    · exact Wp.pure fun _ => rfl
    · have fin : ∀ c : Bool, Wp (if c = true then do
            let h ← ZSL.setScore z.nodes x new
            .ok ({ z with nodes := h }, some x, rng)
          else do
            let z ← ZSL.deleteNode z x a.2
            let (z, y) ← ZSL.insert z new value (rng 0)
            .ok (z, some y, fun i => rng (i + 1)) : Go (ZSL × Option Nat × Rng)) (fun p => p.2.1 = none → p = (z, none, rng)) := by
        intro c
        split
        · exact (Wp.triv _).bind fun _ _ _ => Wp.pure (by rintro ⟨⟩)
        · exact (Wp.triv _).bind fun _ _ _ => (Wp.triv _).bind fun _ _ _ => Wp.pure (by rintro ⟨⟩)
      cases hb : n.backward with
      | none =>
        dsimp only
        refine (Wp.triv _).bind fun ok1 _ _ => (Wp.triv _).bind fun l0 _ _ => ?_
        split
        · exact (Wp.triv _).bind fun ok2 _ _ => fin _
        · exact (Wp.triv _).bind fun nf _ _ => (Wp.triv _).bind fun ok2 _ _ => fin _
      | some b =>
        dsimp only
        refine (Wp.triv _).bind fun nb _ _ => (Wp.triv _).bind fun ok1 _ _ => (Wp.triv _).bind fun l0 _ _ => ?_
        split
        · exact (Wp.triv _).bind fun ok2 _ _ => fin _
        · exact (Wp.triv _).bind fun nf _ _ => (Wp.triv _).bind fun ok2 _ _ => fin _

theorem wp_zAdd_none (zs : ZObj) (ext score value flag rng) : Wp (zs.zAdd ext score value flag rng) (fun p => p.2.1 = none → p = (zs, none, rng)) := by
  unfold zAdd
  dsimp only
  split
  · split
    · exact Wp.pure fun _ => rfl
    · exact (Wp.triv _).bind fun _ _ _ => Wp.pure (by rintro ⟨⟩)
  · split
    · exact Wp.pure fun _ => rfl
    · refine (Wp.triv _).bind fun n _ _ => ?_
      generalize (if flag.incr = true then ext.fadd score n.score else score) = sc
      split
      · refine (ZSL.wp_updateScore_none _ _ _ _ _).bind fun a _ ha => ?_
        obtain ⟨z, node, rng'⟩ := a
        dsimp only at ha ⊢
        cases node with
        | none => obtain ⟨rfl, rfl⟩ : z = zs.zsl ∧ rng' = rng := by simpa using ha rfl
                  exact Wp.pure fun _ => rfl
        | some y => exact Wp.pure (by rintro ⟨⟩)
      · exact Wp.pure fun _ => rfl

open ScoreSpec (Table Offer Offers put)
open ZSpec (Num Flags)

theorem offer_other {N : Num} {f : Flags} {t t' : Table} {e : F64 × Bytes} {n : Nat} (h : Offer N f t e t' n)
    {v : Bytes} (hv : v ≠ e.2) : t'.score v = t.score v := by
  unfold Offer at h
  split at h
  · split at h <;> obtain ⟨rfl, _⟩ := h
    · rfl
    · simp [put, hv]
  · rcases h with ⟨rfl, _⟩ | ⟨_, _, rfl, _⟩
    · rfl
    · simp [put, hv]

theorem offer_le {N : Num} {f : Flags} {t t' : Table} {e : F64 × Bytes} {n : Nat} (h : Offer N f t e t' n) : n ≤ 1 := by
  unfold Offer at h
  split at h
  · split at h <;> omega
  · omega

theorem offers_le {N : Num} {f : Flags} : ∀ {ms : List (F64 × Bytes)} {t t' : Table} {n : Nat}, Offers N f ms t t' n → n ≤ ms.length
  | [], _, _, _, h => by rw [h.2]; exact Nat.le_refl _
  | _ :: ms, _, _, _, ⟨_, _, _, h1, h2, h3⟩ => by
    have := offer_le h1
    have := offers_le h2
    simp only [List.length_cons]; omega

/-- what was counted is now so -/
theorem offer_done {N : Num} {f : ZAddFlags} (hi : f.incr = false) {t t' : Table} {e : F64 × Bytes} (hn : e.1.eq e.1 = true)
    (h : Offer N (fl f) t e t' 1) : Done f t' e := by
  unfold Offer at h
  unfold Done
  rw [show (fl f).incr = false from hi] at h
  split at h
  · split at h
    · cases h.2
    · rw [h.1]; simp [put, hn]
  · rcases h with ⟨_, h⟩ | ⟨_, _, rfl, _⟩
    · cases h
    · simp [put, hn]

theorem done_congr {f : ZAddFlags} {t t' : Table} {e : F64 × Bytes} (h : t'.score e.2 = t.score e.2) : Done f t' e ↔ Done f t e := by
  unfold Done; rw [h]

theorem offers_other {N : Num} {f : Flags} : ∀ {ms : List (F64 × Bytes)} {t t' : Table} {n : Nat}, Offers N f ms t t' n → ∀ {v}, v ∉ ms.map (·.2) → t'.score v = t.score v
  | [], _, _, _, h, _, _ => by rw [h.1]
  | e :: ms, _, _, _, ⟨_, _, _, h1, h2, _⟩, v, hv => by
    simp only [List.map_cons, List.mem_cons, not_or] at hv
    rw [offers_other h2 hv.2, offer_other h1 hv.1]

theorem offers_done {N : Num} {f : ZAddFlags} (hi : f.incr = false) : ∀ {ms : List (F64 × Bytes)} {t t' : Table},
    Offers N (fl f) ms t t' ms.length → (ms.map (·.2)).Nodup → (∀ e ∈ ms, e.1.eq e.1 = true) → ∀ e ∈ ms, Done f t' e
  | [], _, _, _, _, _, _, h => by cases h
  | e :: ms, t, t', ⟨t1, n1, n2, h1, h2, h3⟩, hd, hn, e', he' => by
    simp only [List.map_cons, List.nodup_cons] at hd
    simp only [List.length_cons] at h3
    have l1 := offer_le h1
    have l2 := offers_le h2
    obtain rfl : n1 = 1 := by omega
    obtain rfl : n2 = ms.length := by omega
    rcases List.mem_cons.mp he' with rfl | hm
    · exact (done_congr (offers_other h2 hd.1)).mpr (offer_done hi (hn _ (by simp)) h1)
    · exact offers_done hi h2 hd.2 (fun e he => hn e (List.mem_cons_of_mem _ he)) e' hm

/-- the same pairs again: nothing happens, if all had been counted or if there is one pair -/
theorem zAddAll_again {ext : Ext} {f : ZAddFlags} (hi : f.incr = false) {ms : List (F64 × Bytes)} {z z1 : ZObj} {rng rng1 : Rng} {c : Int} (K : Keyed z)
    (h : z.zAddAll ext f ms rng = .ok (z1, c, rng1)) (hn : ∀ e ∈ ms, e.1.eq e.1 = true) (hd : (ms.map (·.2)).Nodup)
    (hc : ms.length = 1 ∨ c = ms.length) : ∃ c', z1.zAddAll ext f ms rng1 = .ok (z1, c', rng1) := by
  obtain ⟨K1, n, ho, e⟩ := wp_zAddAll ext f ms rng K _ h
  have done : n = ms.length → ∃ c', z1.zAddAll ext f ms rng1 = .ok (z1, c', rng1) := fun e => by
    subst e
    exact ⟨0, zAddAll_done hi K1 (offers_done hi ho hd hn) rng1⟩
  simp only at e
  rcases hc with hl | rfl
  · match ms, hl with
    | [(sc, v)], _ =>
      unfold zAddAll at h
      obtain ⟨⟨z2, node, rng2⟩, h1, h2⟩ := bind_ok h
      cases h2
      cases node with
      | none =>
        have := wp_zAdd_none z ext sc v f rng _ h1 rfl
        cases this
        refine ⟨0, ?_⟩
        unfold zAddAll
        rw [h1]; rfl
      | some x =>
        refine done ?_
        simp only [Option.isSome_some, if_true] at e
        simp only [List.length_singleton]; omega
  · exact done (by omega)

end ZObj

/-- the dictionaries of all sorted sets are in order -/
def KeyedStore (s : Store) : Prop := ∀ (r : Nat) (z : ZObj), s.heap[r]? = some (Obj.zset z) → z.Keyed

section
variable {s s' : Store} {k : Bytes} {ext : Ext} {c : Cmd} {args N : List Bytes}

theorem OStep.keyed {rng} {o : Obj} {b : ZObj} (h : OStep ext c args rng o (.zset b)) (ha : ∀ a, o = .zset a → a.Keyed) : b.Keyed := by
  cases h with
  | zadd _ _ h => exact (ZObj.wp_zAddAll ext _ _ _ (ha _ rfl) _ h).1
  | zincr _ _ _ h => exact (ZObj.wp_zAdd (ha _ rfl) ext _ _ _ _ _ h).1
  | zrem _ h => exact (ZObj.wp_zRemAll _ (ha _ rfl) _ h).1
  | zpopmin _ h => exact ((ha _ rfl).keep (ZObj.wp_zPopMin ext _ _ _ h).1).1
  | zpopmax _ h => exact ((ha _ rfl).keep (ZObj.wp_zPopMax ext _ _ _ h).1).1

theorem Change.keyed (h : Change ext c args N s s') (hs : KeyedStore s) : KeyedStore s' := by
  cases h with
  | str => exact hs
  | del => exact hs
  | @new k o rng _ _ hn _ =>
    intro r b hb
    simp only at hb
    by_cases hr : r < s.heap.length
    · rw [List.getElem?_append_left hr] at hb; exact hs r b hb
    · rw [List.getElem?_append_right (by omega)] at hb
      obtain ⟨rfl⟩ : o = .zset b := by
        cases hq : r - s.heap.length with
        | zero => rw [hq] at hb; simpa using hb
        | succ n => rw [hq] at hb; simp at hb
      cases hn with
      | zset h => exact h.keyed (fun a ha => by cases ha; exact ZObj.keyed_empty)
  | @write k r' o1 o2 rng _ _ ho1 hst _ =>
    intro r b hb
    simp only at hb
    by_cases e : r' = r
    · subst e
      have hr : r' < s.heap.length := (List.getElem?_eq_some_iff.mp ho1).1
      rw [List.getElem?_set_self hr] at hb
      cases hb
      exact hst.keyed (fun a ha => by subst ha; exact hs _ _ ho1)
    · rw [List.getElem?_set_ne e] at hb
      exact hs r b hb
  | «alias» => exact hs

theorem Eff.keyed (h : Eff ext c args N s s') (hs : KeyedStore s) : KeyedStore s' := by
  induction h with
  | refl => exact hs
  | step h _ ih => exact ih (h.keyed hs)

theorem Reachable.keyed (h : Reachable ext s) : KeyedStore s := by
  obtain ⟨rng, tr, h⟩ := h
  induction h with
  | nil => intro r o h; simp [Store.init] at h
  | @snoc tr s it req m s' h0 ha ih =>
    have ht := h0.typed (typed_init rng)
    obtain ⟨name, args, rfl, ⟨_, rfl, _⟩ | ⟨c, o, _, hf, _⟩⟩ := ha.cases
    · exact ih
    · exact (fn_eff c ht hf).keyed ih
end

namespace Store
variable {s s1 : Store} {k : Bytes}

theorem loadZSet_heap {s : Store} {k : Bytes} {b : Bool} {r : Nat} {o : ZObj} (h : s.loadZSet k b = .ok (.ok (r, o))) : s.heap[r]? = some (.zset o) := by
  unfold loadZSet at h
  split at h
  · cases h
  · split at h
    · cases h
    · split at h
      · next he =>
        split at h
        · cases h
        · cases h; exact he
      · cases h

theorem zRem_again {vs : List Bytes} {r : Ret Int} (hs : KeyedStore s) (h : s.zRem k vs = .ok (s1, r)) : ∃ r', s1.zRem k vs = .ok (s1, r') := by
  unfold zRem at h
  obtain ⟨q, h1, h2⟩ := bind_ok h
  match q, h1, h2 with
  | .ok (r, z), h1, h2 =>
    obtain ⟨⟨z1, c⟩, h3, h4⟩ := bind_ok (show (z.zRemAll vs >>= fun p => .ok (s.write r (.zset p.1), p.2, none)) = Except.ok (s1, _) from h2)
    cases h4
    obtain ⟨K1, _, ht, _⟩ := ZObj.wp_zRemAll vs (hs r z (loadZSet_heap h1)) _ h3
    have hall : z1.zRemAll vs = .ok (z1, 0) := ZObj.zRemAll_same fun v hv => K1.none (by rw [ht, if_pos hv])
    have e : (s.write r (.zset z1)).loadZSet k true = _ := loadZSet_write (g := s.rng) h1 true
    unfold zRem
    rw [e]
    split
    · exact ⟨_, rfl⟩
    · refine ⟨(0, none), ?_⟩
      simp only [bind, Except.bind, hall, write_self]
  | .error e, h1, h2 =>
    cases h2
    exact ⟨_, by unfold zRem; rw [h1]; rfl⟩

theorem zAdd_again {ext : Ext} {ms : List (F64 × Bytes)} {f : ZAddFlags} {r : Ret Int} (hs : KeyedStore s) (hi : f.incr = false) (h : s.zAdd ext k ms f = .ok (s1, r))
    (hn : ∀ e ∈ ms, e.1.eq e.1 = true) (hd : (ms.map (·.2)).Nodup) (hc : ms.length = 1 ∨ r.1 = ms.length) : ∃ r', s1.zAdd ext k ms f = .ok (s1, r') := by
  unfold zAdd at h
  obtain ⟨q, h1, h2⟩ := bind_ok h
  match q, h1, h2 with
  | .error .nil, h1, h2 =>
    obtain ⟨⟨z1, c, rng1⟩, h3, h4⟩ := bind_ok (show (ZObj.empty.zAddAll ext f ms s.rng >>= fun p => .ok ({ s.putNew k .sortedSet (.zset p.1) with rng := p.2.2 }, p.2.1, none)) =
      Except.ok (s1, r) from h2)
    cases h4
    obtain ⟨c', e⟩ := ZObj.zAddAll_again hi ZObj.keyed_empty h3 hn hd hc
    refine ⟨(c', none), ?_⟩
    unfold zAdd
    rw [loadZSet_putNew]
    simp only [bind, Except.bind, e]
    have e := congrArg (fun t : Store => ({ t with rng := rng1 } : Store)) (putNew_write s k .sortedSet (.zset z1) (.zset z1))
    exact congrArg (fun t => Except.ok (t, c', none)) e
  | .ok (r, z), h1, h2 =>
    obtain ⟨⟨z1, c, rng1⟩, h3, h4⟩ := bind_ok (show (z.zAddAll ext f ms s.rng >>= fun p => .ok ({ s.write r (.zset p.1) with rng := p.2.2 }, p.2.1, none)) =
      Except.ok (s1, _) from h2)
    cases h4
    obtain ⟨c', e⟩ := ZObj.zAddAll_again hi (hs r z (loadZSet_heap h1)) h3 hn hd hc
    refine ⟨(c', none), ?_⟩
    unfold zAdd
    rw [loadZSet_write h1]
    simp only [Bool.false_and, Bool.false_eq_true, if_false, bind, Except.bind, e]
    have e := congrArg (fun t : Store => ({ t with rng := rng1 } : Store)) (write_self s r (.zset z1))
    exact congrArg (fun t => Except.ok (t, c', none)) e
  | .error .keyAndCommandNotMatch, h1, h2 | .error .notInteger, h1, h2 | .error .notFloat, h1, h2 | .error .unknownCommand, h1, h2
  | .error .commandArgsNotEnough, h1, h2 | .error .valueOutOfRange, h1, h2 =>
    cases h2
    exact ⟨_, by unfold zAdd; rw [h1]; rfl⟩

theorem sMove_same {src dst v : Bytes} (h : ∀ x, s.loadSet src true = .ok x → ∀ r o, x = .ok (r, o) → o.m.has v = false) {q} (hq : s.loadSet src true = .ok q) :
    ∃ r', s.sMove src dst v = .ok (s, r') := by
  unfold sMove
  rw [hq]
  match q, hq with
  | .error e, _ => exact ⟨_, rfl⟩
  | .ok (r, o), hq =>
    refine ⟨(0, some .nil), ?_⟩
    simp only [bind, Except.bind, SMap.deleteIfExists_same (h _ hq r o rfl), Bool.not_false, if_true]
    rw [write_same (loadSet_heap hq)]

theorem del_again (hs : s.keys.WF) (k : Bytes) : ((s.del k).1.del k).1 = (s.del k).1 := by
  unfold del
  simp only
  have h : (s.keys.deleteIfExists k).1.has k = false := by
    rw [SMap.has_eq, SMap.get_deleteIfExists _ hs]; simp
  rw [SMap.deleteIfExists_same h]

theorem set_again (s : Store) (k v : Bytes) : (s.set k v).set k v = s.set k v := by
  unfold set
  simp only
  rw [SMap.set_same (SMap.get_set_self _ _ _)]

end Store
end Godis
