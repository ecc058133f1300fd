import Verif.Proofs.Same
/-!
# Stores that agree on some keys

Two stores agree on the keys `K` when these keys hold the same values, with the same sharing of objects, in both.
`B r q` says that the object `r` of the first store plays the role of the object `q` of the second.
-/
namespace Godis
open Same (G)

/-- the entries of one key in the two stores -/
inductive InfoRel (B : Nat → Nat → Prop) : Option KeyInfo → Option KeyInfo → Prop
  | none : InfoRel B none none
  | str {t v} : InfoRel B (some ⟨t, .str v⟩) (some ⟨t, .str v⟩)
  | ref {t r q} : B r q → InfoRel B (some ⟨t, .ref r⟩) (some ⟨t, .ref q⟩)

theorem InfoRel.mono {B B' : Nat → Nat → Prop} (hB : ∀ r q, B r q → B' r q) {a b} (h : InfoRel B a b) : InfoRel B' a b := by
  cases h with
  | none => exact .none
  | str => exact .str
  | ref h => exact .ref (hB _ _ h)

theorem InfoRel.flip {B : Nat → Nat → Prop} {a b} (h : InfoRel B a b) : InfoRel (fun q r => B r q) b a := by
  cases h with
  | none => exact .none
  | str => exact .str
  | ref h => exact .ref h

/-- the stores agree on the keys `K`, and no other key has one of their objects -/
structure IsoB (K : Bytes → Prop) (B : Nat → Nat → Prop) (s t : Store) : Prop where
  fn : ∀ {r q q'}, B r q → B r q' → q = q'
  inj : ∀ {r r' q}, B r q → B r' q → r = r'
  heap : ∀ {r q}, B r q → ∃ o, s.heap[r]? = some o ∧ t.heap[q]? = some o
  keys : ∀ {k}, K k → InfoRel B (s.keys.get k) (t.keys.get k)
  sepS : ∀ {k tp r q}, ¬ K k → s.keys.get k = some ⟨tp, .ref r⟩ → ¬ B r q
  sepT : ∀ {k tp r q}, ¬ K k → t.keys.get k = some ⟨tp, .ref q⟩ → ¬ B r q
  wfS : s.keys.WF
  wfT : t.keys.WF
  bdS : ∀ {k tp r}, s.keys.get k = some ⟨tp, .ref r⟩ → r < s.heap.length
  bdT : ∀ {k tp r}, t.keys.get k = some ⟨tp, .ref r⟩ → r < t.heap.length

namespace IsoB
variable {K : Bytes → Prop} {B : Nat → Nat → Prop} {s t : Store}

theorem flip (h : IsoB K B s t) : IsoB K (fun q r => B r q) t s :=
  ⟨fun a b => h.inj a b, fun a b => h.fn a b, fun a => by obtain ⟨o, h1, h2⟩ := h.heap a; exact ⟨o, h2, h1⟩,
   fun a => (h.keys a).flip, fun a b => h.sepT a b, fun a b => h.sepS a b, h.wfT, h.wfS, h.bdT, h.bdS⟩

theorem rng (h : IsoB K B s t) (g g' : Rng) : IsoB K B { s with rng := g } { t with rng := g' } :=
  ⟨h.fn, h.inj, h.heap, h.keys, h.sepS, h.sepT, h.wfS, h.wfT, h.bdS, h.bdT⟩

theorem init (K : Bytes → Prop) (g g' : Rng) : IsoB K (fun _ _ => False) (Store.init g) (Store.init g') :=
  ⟨fun h => h.elim, fun h => h.elim, fun h => h.elim, fun _ => .none, fun _ _ h => h, fun _ _ h => h, .empty, .empty,
   (fun hk => by cases hk), (fun hk => by cases hk)⟩

theorem write (h : IsoB K B s t) {r q} (hb : B r q) (o : Obj) : IsoB K B (s.write r o) (t.write q o) := by
  refine ⟨h.fn, h.inj, ?_, h.keys, h.sepS, h.sepT, h.wfS, h.wfT, ?_, ?_⟩
  · intro r' q' hb'
    obtain ⟨o', h1, h2⟩ := h.heap hb'
    by_cases hr : r' = r
    · subst hr
      cases h.fn hb hb'
      refine ⟨o, ?_, ?_⟩
      · exact List.getElem?_set_self (List.getElem?_eq_some_iff.mp h1).1
      · exact List.getElem?_set_self (List.getElem?_eq_some_iff.mp h2).1
    · have hq : q' ≠ q := fun e => hr (h.inj hb' (e ▸ hb))
      refine ⟨o', ?_, ?_⟩
      · show (s.heap.set r o)[r']? = _
        rw [List.getElem?_set_ne (Ne.symm hr)]; exact h1
      · show (t.heap.set q o)[q']? = _
        rw [List.getElem?_set_ne (Ne.symm hq)]; exact h2
  · intro k tp r' hk; show r' < (s.heap.set r o).length; rw [List.length_set]; exact h.bdS hk
  · intro k tp r' hk; show r' < (t.heap.set q o).length; rw [List.length_set]; exact h.bdT hk

theorem setKey (h : IsoB K B s t) {k} (hk : K k) {i j : KeyInfo} (hi : InfoRel B (some i) (some j)) :
    IsoB K B { s with keys := s.keys.set k i } { t with keys := t.keys.set k j } := by
  refine ⟨h.fn, h.inj, h.heap, ?_, ?_, ?_, h.wfS.set _ _, h.wfT.set _ _, ?_, ?_⟩
  · intro k' hk'
    show InfoRel B ((s.keys.set k i).get k') ((t.keys.set k j).get k')
    rw [SMap.get_set, SMap.get_set]
    split
    · exact hi
    · exact h.keys hk'
  · intro k' tp r q hk' hg
    replace hg : (s.keys.set k i).get k' = _ := hg
    rw [SMap.get_set] at hg
    split at hg
    · next e => exact absurd (e ▸ hk) hk'
    · exact h.sepS hk' hg
  · intro k' tp r q hk' hg
    replace hg : (t.keys.set k j).get k' = _ := hg
    rw [SMap.get_set] at hg
    split at hg
    · next e => exact absurd (e ▸ hk) hk'
    · exact h.sepT hk' hg
  · intro k' tp r hg
    replace hg : (s.keys.set k i).get k' = _ := hg
    rw [SMap.get_set] at hg
    split at hg
    · cases hg
      cases hi with
      | ref hb => obtain ⟨o, h1, _⟩ := h.heap hb; exact (List.getElem?_eq_some_iff.mp h1).1
    · exact h.bdS hg
  · intro k' tp r hg
    replace hg : (t.keys.set k j).get k' = _ := hg
    rw [SMap.get_set] at hg
    split at hg
    · cases hg
      cases hi with
      | ref hb => obtain ⟨o, _, h1⟩ := h.heap hb; exact (List.getElem?_eq_some_iff.mp h1).1
    · exact h.bdT hg

theorem delKey (h : IsoB K B s t) (k : Bytes) :
    IsoB K B { s with keys := s.keys.del k } { t with keys := t.keys.del k } := by
  refine ⟨h.fn, h.inj, h.heap, ?_, ?_, ?_, h.wfS.del _, h.wfT.del _, ?_, ?_⟩
  · intro k' hk'
    show InfoRel B ((s.keys.del k).get k') ((t.keys.del k).get k')
    rw [SMap.get_del _ _ _ h.wfS, SMap.get_del _ _ _ h.wfT]
    split
    · exact .none
    · exact h.keys hk'
  · intro k' tp r q hk' hg
    replace hg : (s.keys.del k).get k' = _ := hg
    rw [SMap.get_del _ _ _ h.wfS] at hg
    split at hg
    · cases hg
    · exact h.sepS hk' hg
  · intro k' tp r q hk' hg
    replace hg : (t.keys.del k).get k' = _ := hg
    rw [SMap.get_del _ _ _ h.wfT] at hg
    split at hg
    · cases hg
    · exact h.sepT hk' hg
  · intro k' tp r hg
    replace hg : (s.keys.del k).get k' = _ := hg
    rw [SMap.get_del _ _ _ h.wfS] at hg
    split at hg
    · cases hg
    · exact h.bdS hg
  · intro k' tp r hg
    replace hg : (t.keys.del k).get k' = _ := hg
    rw [SMap.get_del _ _ _ h.wfT] at hg
    split at hg
    · cases hg
    · exact h.bdT hg

/-- both stores get a new object -/
theorem grow (h : IsoB K B s t) (o : Obj) :
    IsoB K (fun r q => B r q ∨ r = s.heap.length ∧ q = t.heap.length) { s with heap := s.heap ++ [o] } { t with heap := t.heap ++ [o] } := by
  have lS : ∀ {r q}, B r q → r < s.heap.length := fun hb => by
    obtain ⟨o, h1, _⟩ := h.heap hb; exact (List.getElem?_eq_some_iff.mp h1).1
  have lT : ∀ {r q}, B r q → q < t.heap.length := fun hb => by
    obtain ⟨o, _, h1⟩ := h.heap hb; exact (List.getElem?_eq_some_iff.mp h1).1
  refine ⟨?_, ?_, ?_, fun hk => (h.keys hk).mono (fun _ _ hb => .inl hb), ?_, ?_, h.wfS, h.wfT, ?_, ?_⟩
  · rintro r q q' (a | ⟨a, b⟩) (c | ⟨c, d⟩)
    · exact h.fn a c
    · have := lS a; omega
    · have := lS c; omega
    · omega
  · rintro r r' q (a | ⟨a, b⟩) (c | ⟨c, d⟩)
    · exact h.inj a c
    · have := lT a; omega
    · have := lT c; omega
    · omega
  · rintro r q (a | ⟨rfl, rfl⟩)
    · obtain ⟨o', h1, h2⟩ := h.heap a
      refine ⟨o', ?_, ?_⟩
      · show (s.heap ++ [o])[r]? = _
        rw [List.getElem?_append_left (lS a)]; exact h1
      · show (t.heap ++ [o])[q]? = _
        rw [List.getElem?_append_left (lT a)]; exact h2
    · exact ⟨o, by simp, by simp⟩
  · rintro k tp r q hk hg (a | ⟨rfl, rfl⟩)
    · exact h.sepS hk hg a
    · have := h.bdS hg; omega
  · rintro k tp r q hk hg (a | ⟨rfl, rfl⟩)
    · exact h.sepT hk hg a
    · have := h.bdT hg; omega
  · intro k tp r hk
    have := h.bdS hk
    show r < (s.heap ++ [o]).length
    rw [List.length_append]; omega
  · intro k tp r hk
    have := h.bdT hk
    show r < (t.heap ++ [o]).length
    rw [List.length_append]; omega

theorem putNew (h : IsoB K B s t) {k} (hk : K k) (tp : KeyType) (o : Obj) :
    IsoB K (fun r q => B r q ∨ r = s.heap.length ∧ q = t.heap.length) (s.putNew k tp o) (t.putNew k tp o) :=
  (h.grow o).setKey hk (.ref (.inr ⟨rfl, rfl⟩))

end IsoB

/-! ### the functions of `datastruct` -/

/-- the stores agree on `K`; what is left of the random draws is `g` and `g'` -/
def Iso (K : Bytes → Prop) (g g' : Rng) (s t : Store) : Prop := (∃ B, IsoB K B s t) ∧ s.rng = g ∧ t.rng = g'

/-- results: the stores agree, the answers are equal -/
def RI (K : Bytes → Prop) (g g' : Rng) {α : Type} (p q : Store × α) : Prop := Iso K g g' p.1 q.1 ∧ p.2 = q.2

/-- a loaded object -/
inductive LR (B : Nat → Nat → Prop) {α : Type} : Except Err (Nat × α) → Except Err (Nat × α) → Prop
  | err (e) : LR B (.error e) (.error e)
  | ok {r q a} : B r q → LR B (.ok (r, a)) (.ok (q, a))

namespace IsoB
variable {K : Bytes → Prop} {B : Nat → Nat → Prop} {s t : Store} {g g' : Rng}

/-- the common shape of the load functions -/
def loadG (s : Store) (k : Bytes) (tp : KeyType) {α : Type} (ex : Obj → Option α) (bad : α → Bool) : Go (Except Err (Nat × α)) :=
  match s.loadKeyInfo k tp with
  | .error e => .ok (.error e)
  | .ok info => match info.value with
    | .str _ => .error .typeAssertion
    | .ref r => match (s.heap[r]?).bind ex with
      | some a => if bad a then .ok (.error .nil) else .ok (.ok (r, a))
      | none => .error .typeAssertion

theorem load (h : IsoB K B s t) {k} (hk : K k) (tp : KeyType) {α : Type} (ex : Obj → Option α) (bad : α → Bool) :
    G (LR B) (loadG s k tp ex bad) (loadG t k tp ex bad) := by
  unfold loadG Store.loadKeyInfo
  have := h.keys hk
  revert this
  generalize s.keys.get k = i
  generalize t.keys.get k = j
  rintro (_ | _ | @⟨t', r, q, hb⟩)
  · exact .ok (.err _)
  · simp only
    split <;> next e =>
      split at e <;> cases e
      first | exact .ok (.err _) | exact .error
  · simp only
    obtain ⟨o, h1, h2⟩ := h.heap hb
    by_cases ht : t' = tp
    · simp only [ht, ne_eq, not_true_eq_false, if_false, h1, h2]
      cases (some o).bind ex with
      | none => exact .error
      | some a =>
        simp only
        split
        · exact .ok (.err _)
        · exact .ok (.ok hb)
    · simp only [ne_eq, ht, not_false_eq_true, if_true]
      exact .ok (.err _)

theorem loadList (h : IsoB K B s t) {k} (hk : K k) (b) : G (LR B) (s.loadList k b) (t.loadList k b) := by
  have e : ∀ s : Store, s.loadList k b = loadG s k .list (fun | .list l => some l | _ => none) (fun l => b && l.length == 0) := by
    intro s
    unfold Store.loadList loadG
    cases s.loadKeyInfo k .list with
    | error e => rfl
    | ok info =>
      simp only
      cases info.value with
      | str => rfl
      | ref r =>
        simp only
        cases s.heap[r]? with
        | none => rfl
        | some o => cases o <;> rfl
  rw [e s, e t]; exact h.load hk _ _ _

theorem loadSet (h : IsoB K B s t) {k} (hk : K k) (b) : G (LR B) (s.loadSet k b) (t.loadSet k b) := by
  have e : ∀ s : Store, s.loadSet k b = loadG s k .set (fun | .set l => some l | _ => none) (fun l => b && l.length == 0) := by
    intro s
    unfold Store.loadSet loadG
    cases s.loadKeyInfo k .set with
    | error e => rfl
    | ok info =>
      simp only
      cases info.value with
      | str => rfl
      | ref r =>
        simp only
        cases s.heap[r]? with
        | none => rfl
        | some o => cases o <;> rfl
  rw [e s, e t]; exact h.load hk _ _ _

theorem loadHash (h : IsoB K B s t) {k} (hk : K k) (b) : G (LR B) (s.loadHash k b) (t.loadHash k b) := by
  have e : ∀ s : Store, s.loadHash k b = loadG s k .hashTable (fun | .hash l => some l | _ => none) (fun l => b && l.length == 0) := by
    intro s
    unfold Store.loadHash loadG
    cases s.loadKeyInfo k .hashTable with
    | error e => rfl
    | ok info =>
      simp only
      cases info.value with
      | str => rfl
      | ref r =>
        simp only
        cases s.heap[r]? with
        | none => rfl
        | some o => cases o <;> rfl
  rw [e s, e t]; exact h.load hk _ _ _

theorem loadZSet (h : IsoB K B s t) {k} (hk : K k) (b) : G (LR B) (s.loadZSet k b) (t.loadZSet k b) := by
  have e : ∀ s : Store, s.loadZSet k b = loadG s k .sortedSet (fun | .zset l => some l | _ => none) (fun l => b && l.zsl.length == 0) := by
    intro s
    unfold Store.loadZSet loadG
    cases s.loadKeyInfo k .sortedSet with
    | error e => rfl
    | ok info =>
      simp only
      cases info.value with
      | str => rfl
      | ref r =>
        simp only
        cases s.heap[r]? with
        | none => rfl
        | some o => cases o <;> rfl
  rw [e s, e t]; exact h.load hk _ _ _

end IsoB
end Godis
