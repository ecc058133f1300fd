import Mathlib.Data.List.Nodup
import Mathlib.Data.Finset.Card
import Mathlib.Data.Finset.Range
import Verif.Model.ListObj
import Verif.Spec.Lists
/-!
# The linked list object refines a sequence

A list of pairs (address, value) describes the chain of nodes from head to tail.
-/
set_option linter.unusedSimpArgs false
namespace Godis
namespace LObj

/-- address of the first node of `r`, or `q` -/
def first : List (Nat × Bytes) → Option Nat → Option Nat
  | [], q => q
  | (a, _) :: _, _ => some a

/-- address of the last node of `r`, or `p` -/
def last : Option Nat → List (Nat × Bytes) → Option Nat
  | p, [] => p
  | _, (a, _) :: r => last (some a) r

/-- In heap `h` the nodes of `r` are chained in both directions; `p` is before the first, `q` after the last. -/
def Seg (h : List LNode) : Option Nat → List (Nat × Bytes) → Option Nat → Prop
  | _, [], _ => True
  | p, (a, v) :: r, q => h[a]? = some ⟨first r q, p, v⟩ ∧ Seg h (some a) r q

/-- the addresses of a chain -/
abbrev addrs (r : List (Nat × Bytes)) : List Nat := r.map (·.1)

theorem first_nil (q) : first [] q = q := rfl
theorem first_cons (x r q) : first (x :: r) q = some x.1 := rfl
theorem first_append (r1 r2 : List (Nat × Bytes)) (q) : first (r1 ++ r2) q = first r1 (first r2 q) := by
  cases r1 <;> rfl
theorem last_append (r1 r2 : List (Nat × Bytes)) (p) : last p (r1 ++ r2) = last (last p r1) r2 := by
  induction r1 generalizing p with
  | nil => rfl
  | cons a r ih => exact ih _
@[simp] theorem last_concat (r : List (Nat × Bytes)) (p a) : last p (r ++ [a]) = some a.1 := by
  rw [last_append]; rfl

theorem first_eq_none {r : List (Nat × Bytes)} : first r none = none ↔ r = [] := by
  cases r <;> simp [first_nil, first_cons]

theorem last_ne_nil {r : List (Nat × Bytes)} (h : r ≠ []) (p p') : last p r = last p' r := by
  cases r with
  | nil => exact absurd rfl h
  | cons => rfl

theorem last_mem {r : List (Nat × Bytes)} (h : r ≠ []) (p) : ∃ a ∈ addrs r, last p r = some a := by
  induction r generalizing p with
  | nil => exact absurd rfl h
  | cons x r ih =>
    cases r with
    | nil => exact ⟨x.1, by simp, rfl⟩
    | cons y r =>
      obtain ⟨a, h1, h2⟩ := ih (by simp) (some x.1)
      exact ⟨a, by simp only [addrs, List.map_cons, List.mem_cons] at h1 ⊢; exact .inr h1, h2⟩

theorem last_eq_none {r : List (Nat × Bytes)} : last none r = none ↔ r = [] := by
  constructor
  · intro h
    by_contra hr
    obtain ⟨a, _, h2⟩ := last_mem hr none
    rw [h] at h2; cases h2
  · rintro rfl; rfl

theorem seg_append (h : List LNode) (r1 r2 p q) :
    Seg h p (r1 ++ r2) q ↔ Seg h p r1 (first r2 q) ∧ Seg h (last p r1) r2 q := by
  induction r1 generalizing p with
  | nil => simp [Seg, last]
  | cons x r ih =>
    obtain ⟨a, v⟩ := x
    simp only [List.cons_append, Seg, ih, last, first_append, and_assoc]

theorem seg_lt {h : List LNode} {r p q} (hs : Seg h p r q) : ∀ a ∈ addrs r, a < h.length := by
  induction r generalizing p with
  | nil => simp
  | cons x r ih =>
    obtain ⟨a, v⟩ := x
    intro b hb
    simp only [addrs, List.map_cons, List.mem_cons] at hb
    rcases hb with rfl | hb
    · exact (List.getElem?_eq_some_iff.mp hs.1).1
    · exact ih hs.2 b hb

theorem seg_congr {h h' : List LNode} {r p q} (hs : Seg h p r q) (he : ∀ a ∈ addrs r, h'[a]? = h[a]?) : Seg h' p r q := by
  induction r generalizing p with
  | nil => trivial
  | cons x r ih =>
    obtain ⟨a, v⟩ := x
    refine ⟨by rw [he a (by simp)]; exact hs.1, ih hs.2 fun b hb => he b ?_⟩
    simp only [addrs, List.map_cons, List.mem_cons] at hb ⊢; exact .inr hb

theorem addrs_append (r1 r2 : List (Nat × Bytes)) : addrs (r1 ++ r2) = addrs r1 ++ addrs r2 := List.map_append

/-! ## reversal -/

/-- swap the two pointers -/
def LNode.flip (n : LNode) : LNode := ⟨n.prev, n.next, n.value⟩
/-- the list seen from its other end -/
def flip (l : LObj) : LObj := ⟨l.length, l.tail, l.head, l.nodes.map LNode.flip⟩

@[simp] theorem LNode.flip_flip (n : LNode) : (LNode.flip (LNode.flip n)) = n := rfl
@[simp] theorem LNode.flip_comp : LNode.flip ∘ LNode.flip = id := rfl
@[simp] theorem map_flip_flip (h : List LNode) : (h.map LNode.flip).map LNode.flip = h := by
  simp [List.map_map]
@[simp] theorem flip_flip (l : LObj) : l.flip.flip = l := by simp [flip]

theorem first_reverse (r : List (Nat × Bytes)) (q) : first r.reverse q = last q r := by
  induction r using List.reverseRecOn with
  | nil => rfl
  | append_singleton r x => simp [first_nil, first_cons]
theorem last_reverse (r : List (Nat × Bytes)) (q) : last q r.reverse = first r q := by
  rw [← first_reverse, List.reverse_reverse]

theorem seg_flip {h : List LNode} {r p q} (hs : Seg h p r q) : Seg (h.map LNode.flip) q r.reverse p := by
  induction r generalizing p with
  | nil => trivial
  | cons x r ih =>
    obtain ⟨a, v⟩ := x
    simp only [List.reverse_cons, seg_append]
    refine ⟨ih hs.2, ?_, trivial⟩
    rw [List.getElem?_map, hs.1, last_reverse]
    rfl

/-- `l` represents the chain `r`. -/
structure Rep (l : LObj) (r : List (Nat × Bytes)) : Prop where
  seg : Seg l.nodes none r none
  nodup : (addrs r).Nodup
  length : l.length = r.length
  head : l.head = first r none
  tail : l.tail = last none r

theorem Rep.flip {l : LObj} {r} (h : Rep l r) : Rep l.flip r.reverse := by
  refine ⟨seg_flip h.seg, ?_, by simp [LObj.flip, h.length], ?_, ?_⟩
  · rw [addrs, List.map_reverse]; exact List.nodup_reverse.mpr h.nodup
  · rw [first_reverse]; exact h.tail
  · rw [last_reverse]; exact h.head

/-- what the list contains -/
def Is (l : LObj) (vs : List Bytes) : Prop := ∃ r, Rep l r ∧ r.map (·.2) = vs

theorem Is.flip {l : LObj} {vs} (h : l.Is vs) : l.flip.Is vs.reverse := by
  obtain ⟨r, h, rfl⟩ := h
  exact ⟨r.reverse, h.flip, by simp⟩
theorem is_flip_iff {l : LObj} {vs} : l.flip.Is vs ↔ l.Is vs.reverse :=
  ⟨fun h => by have := h.flip; rwa [flip_flip] at this, fun h => by have := h.flip; rwa [List.reverse_reverse] at this⟩

theorem Is.length {l : LObj} {vs} (h : l.Is vs) : l.length = vs.length := by
  obtain ⟨r, h, rfl⟩ := h; simp [h.length]
theorem Is.head_none {l : LObj} {vs} (h : l.Is vs) : l.head = none ↔ vs = [] := by
  obtain ⟨r, h, rfl⟩ := h; simp [h.head, first_eq_none]

theorem is_empty : empty.Is [] := ⟨[], ⟨trivial, by simp, rfl, rfl, rfl⟩, rfl⟩

theorem nodup_length_le {as : List Nat} {n : Nat} (h : as.Nodup) (hlt : ∀ a ∈ as, a < n) : as.length ≤ n := by
  have := Finset.card_le_card (s := as.toFinset) (t := Finset.range n) (fun a ha => by
    rw [Finset.mem_range]; exact hlt a (by simpa using ha))
  rwa [Finset.card_range, List.toFinset_card_of_nodup h] at this

theorem Rep.length_le {l : LObj} {r} (h : Rep l r) : r.length ≤ l.nodes.length := by
  have := nodup_length_le h.nodup (seg_lt h.seg)
  simpa using this

/-! ## heap access -/

theorem load_some {h : List LNode} {a n} (hn : h[a]? = some n) : load h (some a) = .ok n := by simp [load, hn]
theorem setNext_some {h : List LNode} {a n} (hn : h[a]? = some n) (v) :
    setNext h (some a) v = .ok (h.set a { n with next := v }) := by simp [setNext, hn]
theorem setPrev_some {h : List LNode} {a n} (hn : h[a]? = some n) (v) :
    setPrev h (some a) v = .ok (h.set a { n with prev := v }) := by simp [setPrev, hn]
theorem setValue_some {h : List LNode} {a n} (hn : h[a]? = some n) (v) :
    setValue h (some a) v = .ok (h.set a { n with value := v }) := by simp [setValue, hn]

theorem load_flip (h : List LNode) (p) : load (h.map LNode.flip) p = (load h p).map LNode.flip := by
  cases p with
  | none => rfl
  | some a => simp only [load, List.getElem?_map]; cases h[a]? <;> rfl
theorem setNext_flip (h : List LNode) (p v) :
    setNext (h.map LNode.flip) p v = (setPrev h p v).map (·.map LNode.flip) := by
  cases p with
  | none => rfl
  | some a =>
    simp only [setNext, setPrev, List.getElem?_map]
    cases h[a]? with
    | none => rfl
    | some n => simp only [Option.map_some, Except.map, List.map_set]; rfl
theorem setPrev_flip (h : List LNode) (p v) :
    setPrev (h.map LNode.flip) p v = (setNext h p v).map (·.map LNode.flip) := by
  cases p with
  | none => rfl
  | some a =>
    simp only [setNext, setPrev, List.getElem?_map]
    cases h[a]? with
    | none => rfl
    | some n => simp only [Option.map_some, Except.map, List.map_set]; rfl
theorem setNextIf_flip (h : List LNode) (p v) :
    setNextIf (h.map LNode.flip) p v = (setPrevIf h p v).map (·.map LNode.flip) := by
  cases p with
  | none => rfl
  | some a => exact setNext_flip h (some a) v
theorem setPrevIf_flip (h : List LNode) (p v) :
    setPrevIf (h.map LNode.flip) p v = (setNextIf h p v).map (·.map LNode.flip) := by
  cases p with
  | none => rfl
  | some a => exact setPrev_flip h (some a) v

/-! ## push -/

theorem lPush_is {l : LObj} {vs} (h : l.Is vs) (v : Bytes) : ∃ l', l.lPush v = .ok l' ∧ l'.Is (v :: vs) := by
  obtain ⟨r, h, rfl⟩ := h
  have hlt := seg_lt h.seg
  cases r with
  | nil =>
    have hh := h.head; have ht := h.tail; have hl := h.length
    simp only [first_nil, first_cons, last] at hh ht
    refine ⟨⟨l.length + 1, some l.nodes.length, some l.nodes.length, l.nodes ++ [⟨none, none, v⟩]⟩,
      by simp only [lPush, hh], [(l.nodes.length, v)], ⟨⟨?_, trivial⟩, by simp, ?_, rfl, rfl⟩, rfl⟩
    · simp [first_nil, first_cons]
    · simp [hl]
  | cons x r =>
    obtain ⟨a, w⟩ := x
    have hh := h.head
    simp only [first_nil, first_cons] at hh
    have ha : a < l.nodes.length := hlt a (by simp)
    have hs := h.seg
    have hn : (l.nodes ++ [(⟨some a, none, v⟩ : LNode)])[a]? = some ⟨first r none, none, w⟩ := by
      rw [List.getElem?_append_left ha]; exact hs.1
    refine ⟨_, by simp only [lPush, hh, setPrev_some hn]; rfl, (l.nodes.length, v) :: (a, w) :: r, ⟨⟨?_, ?_, ?_⟩, ?_, ?_, rfl, ?_⟩, rfl⟩
    · rw [List.getElem?_set_ne (by omega)]; simp [first_nil, first_cons]
    · rw [List.getElem?_set_self (by simp; omega)]
    · refine seg_congr hs.2 fun b hb => ?_
      have hne : a ≠ b := fun e => by
        have := h.nodup; simp only [addrs, List.map_cons, List.nodup_cons] at this
        exact this.1 (e ▸ hb)
      rw [List.getElem?_set_ne hne, List.getElem?_append_left (hlt b (by simp only [addrs, List.map_cons, List.mem_cons]; exact .inr hb))]
    · simp only [addrs, List.map_cons]
      rw [List.nodup_cons]
      exact ⟨fun hm => absurd (hlt _ hm) (by omega), h.nodup⟩
    · simp only [h.length, List.length_cons]; push_cast; omega
    · simp only [h.tail, last]

theorem rPush_flip (l : LObj) (v : Bytes) : l.rPush v = (l.flip.lPush v).map LObj.flip := by
  unfold rPush lPush
  simp only [LObj.flip, List.length_map]
  cases l.tail with
  | none => simp [Except.map, LObj.flip, LNode.flip]
  | some t =>
    have := setPrev_flip (l.nodes ++ [⟨none, some t, v⟩]) (some t) (some l.nodes.length)
    simp only [List.map_append, List.map_cons, List.map_nil, LNode.flip] at this
    simp only [bind, Except.bind, this]
    cases setNext (l.nodes ++ [⟨none, some t, v⟩]) (some t) (some l.nodes.length) with
    | error e => rfl
    | ok h => simp [Except.map, LObj.flip]

theorem rPush_is {l : LObj} {vs} (h : l.Is vs) (v : Bytes) : ∃ l', l.rPush v = .ok l' ∧ l'.Is (vs ++ [v]) := by
  obtain ⟨l', h1, h2⟩ := lPush_is h.flip v
  exact ⟨l'.flip, by rw [rPush_flip, h1]; rfl, by rw [is_flip_iff]; simpa using h2⟩

theorem lPushAll_is {l : LObj} {vs} (h : l.Is vs) (ws : List Bytes) :
    ∃ l', l.lPushAll ws = .ok l' ∧ l'.Is (ws.reverse ++ vs) := by
  induction ws generalizing l vs with
  | nil => exact ⟨l, rfl, h⟩
  | cons w ws ih =>
    obtain ⟨l1, h1, h2⟩ := lPush_is h w
    obtain ⟨l2, h3, h4⟩ := ih h2
    exact ⟨l2, by simp only [lPushAll, h1, bind, Except.bind, h3], by simpa using h4⟩

theorem rPushAll_is {l : LObj} {vs} (h : l.Is vs) (ws : List Bytes) :
    ∃ l', l.rPushAll ws = .ok l' ∧ l'.Is (vs ++ ws) := by
  induction ws generalizing l vs with
  | nil => exact ⟨l, rfl, by simpa using h⟩
  | cons w ws ih =>
    obtain ⟨l1, h1, h2⟩ := rPush_is h w
    obtain ⟨l2, h3, h4⟩ := ih h2
    exact ⟨l2, by simp only [rPushAll, h1, bind, Except.bind, h3], by simpa using h4⟩

/-! ## pop -/

theorem lPop_is {l : LObj} {v vs} (h : l.Is (v :: vs)) : ∃ l', l.lPop = .ok (l', some v) ∧ l'.Is vs := by
  obtain ⟨r, h, hr⟩ := h
  cases r with
  | nil => cases hr
  | cons x r =>
    obtain ⟨a, w⟩ := x
    simp only [List.map_cons, List.cons.injEq] at hr
    obtain ⟨rfl, rfl⟩ := hr
    have hh := h.head
    simp only [first_nil, first_cons] at hh
    have hs := h.seg
    have hlt := seg_lt h.seg
    have ha : a < l.nodes.length := hlt a (by simp)
    have hnd := h.nodup
    simp only [addrs, List.map_cons, List.nodup_cons] at hnd
    cases r with
    | nil =>
      refine ⟨⟨l.length - 1, none, none, l.nodes.set a ⟨none, none, w⟩⟩, ?_, [], ⟨trivial, by simp, ?_, rfl, rfl⟩, rfl⟩
      · simp only [lPop, hh, load_some hs.1, bind, Except.bind, first_nil, first_cons, setNext_some hs.1, setPrevIf, if_true]
      · have := h.length; simp only [List.length_cons, List.length_nil] at this ⊢; push_cast at this; omega
    | cons y r =>
      obtain ⟨b, z⟩ := y
      have hab : a ≠ b := fun e => hnd.1 (by simp [e])
      have hb : (l.nodes.set a { (⟨some b, none, w⟩ : LNode) with next := none })[b]? = some ⟨first r none, some a, z⟩ := by
        rw [List.getElem?_set_ne hab]; exact hs.2.1
      refine ⟨⟨l.length - 1, some b, l.tail, (l.nodes.set a ⟨none, none, w⟩).set b ⟨first r none, none, z⟩⟩, ?_,
        (b, z) :: r, ⟨⟨?_, ?_⟩, hnd.2, ?_, rfl, ?_⟩, rfl⟩
      · simp only [lPop, hh, load_some hs.1, bind, Except.bind, first_nil, first_cons, setNext_some hs.1, setPrevIf, setPrev_some hb,
          reduceCtorEq, if_false]
      · rw [List.getElem?_set_self (by simp; exact hlt b (by simp))]
      · refine seg_congr hs.2.2 fun c hc => ?_
        have h2 := hnd.2
        rw [List.map_cons, List.nodup_cons] at h2
        have e1 : b ≠ c := fun e => h2.1 (by subst e; exact hc)
        have e2 : a ≠ c := fun e => hnd.1 (by subst e; exact List.mem_cons_of_mem _ hc)
        rw [List.getElem?_set_ne e1, List.getElem?_set_ne e2]
      · have := h.length; simp only [List.length_cons] at this ⊢; push_cast at this ⊢; omega
      · simp only [h.tail, last]

theorem rPop_flip (l : LObj) : l.rPop = (l.flip.lPop).map (fun p => (p.1.flip, p.2)) := by
  unfold rPop lPop
  simp only [LObj.flip]
  cases ht : l.tail with
  | none => simp [Except.map, ← ht]
  | some t =>
    simp only [bind, Except.bind, load_flip]
    cases hl : load l.nodes (some t) with
    | error e => rfl
    | ok n =>
      simp only [Except.map, setNext_flip, LNode.flip]
      cases hp : setPrev l.nodes (some t) none with
      | error e => rfl
      | ok h =>
        simp only [Except.map, setPrevIf_flip]
        cases hp : setNextIf h n.prev none with
        | error e => rfl
        | ok h => simp

theorem rPop_is {l : LObj} {v vs} (h : l.Is (vs ++ [v])) : ∃ l', l.rPop = .ok (l', some v) ∧ l'.Is vs := by
  have h1 := h.flip
  rw [List.reverse_append] at h1
  obtain ⟨l', h2, h3⟩ := lPop_is h1
  exact ⟨l'.flip, by rw [rPop_flip, h2]; rfl, by rw [is_flip_iff]; exact h3⟩

theorem lPopLoop_is {l : LObj} {vs} (h : l.Is vs) (k : Nat) (hk : vs.length ≤ k) (n : Nat) :
    ∃ l', l.lPopLoop k n = .ok (l', vs.take n) ∧ l'.Is (vs.drop n) := by
  induction k generalizing l vs n with
  | zero =>
    have : vs = [] := List.length_eq_zero_iff.mp (by omega)
    subst this
    exact ⟨l, by simp [lPopLoop], by simpa using h⟩
  | succ k ih =>
    cases n with
    | zero => exact ⟨l, by simp [lPopLoop], by simpa using h⟩
    | succ n =>
      cases vs with
      | nil => exact ⟨l, by simp [lPopLoop, h.length], by simpa using h⟩
      | cons v vs =>
        obtain ⟨l1, h1, h2⟩ := lPop_is h
        obtain ⟨l2, h3, h4⟩ := ih h2 (by simpa using hk) n
        refine ⟨l2, ?_, h4⟩
        have e : ((n + 1 : Nat) : Int) - 1 = n := by omega
        rw [lPopLoop, if_pos ⟨by omega, by rw [h.length]; simp⟩]
        simp only [h1, bind, Except.bind, e, h3, List.take_succ_cons]

theorem rPopLoop_is {l : LObj} {vs} (h : l.Is vs) (k : Nat) (hk : vs.length ≤ k) (n : Nat) :
    ∃ l', l.rPopLoop k n = .ok (l', vs.reverse.take n) ∧ l'.Is (vs.take (vs.length - n)) := by
  induction k generalizing l vs n with
  | zero =>
    have : vs = [] := List.length_eq_zero_iff.mp (by omega)
    subst this
    exact ⟨l, by simp [rPopLoop], by simpa using h⟩
  | succ k ih =>
    cases n with
    | zero => exact ⟨l, by simp [rPopLoop], by simpa using h⟩
    | succ n =>
      cases vs using List.reverseRecOn with
      | nil => exact ⟨l, by simp [rPopLoop, h.length], by simpa using h⟩
      | append_singleton vs v =>
        obtain ⟨l1, h1, h2⟩ := rPop_is h
        obtain ⟨l2, h3, h4⟩ := ih h2 (by simp at hk; omega) n
        refine ⟨l2, ?_, ?_⟩
        · have e : ((n + 1 : Nat) : Int) - 1 = n := by omega
          rw [rPopLoop, if_pos ⟨by omega, by rw [h.length]; simp⟩]
          simp only [h1, bind, Except.bind, e, h3]
          simp
        · have : (vs ++ [v]).length - (n + 1) = vs.length - n := by simp
          rw [this, List.take_append_of_le_length (by omega)]; exact h4

/-! ## range -/

theorem lRangeLoop_seg {h : List LNode} {r p} (hs : Seg h p r none) (start : Int) (k : Nat) (idx : Nat) :
    lRangeLoop h start k (first r none) idx =
      .ok ((((r.map (·.2)).take k).zipIdx idx).filterMap (fun x => if start ≤ x.2 then some x.1 else none)) := by
  induction r generalizing p k idx with
  | nil => cases k <;> simp [lRangeLoop, first_nil, first_cons]
  | cons x r ih =>
    obtain ⟨a, v⟩ := x
    cases k with
    | zero => simp [lRangeLoop]
    | succ k =>
      have := ih hs.2 k (idx + 1)
      push_cast at this
      simp only [lRangeLoop, first_nil, first_cons, load_some hs.1, bind, Except.bind, this, List.map_cons, List.take_succ_cons,
        List.zipIdx_cons, List.filterMap_cons, ge_iff_le]
      split <;> rfl

theorem window_eq (vs : List Bytes) (start stop : Int) (k : Nat)
    (hk : ∀ i : Nat, i < vs.length → (i < k ↔ (i : Int) ≤ ListSpec.position vs stop)) (st : Int)
    (hst : ∀ i : Nat, i < vs.length → (st ≤ i ↔ ListSpec.position vs start ≤ i)) :
    ((vs.take k).zipIdx).filterMap (fun x => if st ≤ x.2 then some x.1 else none) = ListSpec.window vs start stop := by
  unfold ListSpec.window
  generalize ListSpec.position vs start = a at *
  generalize ListSpec.position vs stop = b at *
  have key : ∀ (l : List Bytes) (n k : Nat), (∀ i : Nat, n ≤ i → i < n + l.length → (i < n + k ↔ (i : Int) ≤ b)) →
      (∀ i : Nat, n ≤ i → i < n + l.length → (st ≤ i ↔ a ≤ i)) →
      ((l.take k).zipIdx n).filterMap (fun x => if st ≤ x.2 then some x.1 else none) =
        ((l.zipIdx n).filter (fun p => decide (a ≤ p.2 ∧ (p.2 : Int) ≤ b))).map (·.1) := by
    intro l
    induction l with
    | nil => simp
    | cons x l ih =>
      intro n k h1 h2
      have e1 := h1 n (by omega) (by simp)
      have e2 := h2 n (by omega) (by simp)
      have hr := ih (n + 1) (k - 1) (fun i hi hl => by
          rw [← h1 i (by omega) (by simp only [List.length_cons]; omega)]
          have h0 := h1 n (by omega) (by simp)
          have h3 := h1 i (by omega) (by simp only [List.length_cons]; omega)
          omega) (fun i hi hl => h2 i (by omega) (by simp only [List.length_cons]; omega))
      cases k with
      | zero =>
        simp only [List.take_zero, List.zipIdx_nil, List.filterMap_nil] at hr ⊢
        rw [List.zipIdx_cons, List.filter_cons, if_neg (by simp; omega)]
        exact hr
      | succ k =>
        have hr : ((l.take k).zipIdx (n + 1)).filterMap (fun x => if st ≤ x.2 then some x.1 else none) =
          ((l.zipIdx (n + 1)).filter (fun p => decide (a ≤ p.2 ∧ (p.2 : Int) ≤ b))).map (·.1) := by simpa using hr
        simp only [List.take_succ_cons, List.zipIdx_cons, List.filterMap_cons, List.filter_cons]
        by_cases hc : st ≤ (n : Int)
        · rw [if_pos hc, if_pos (by simp; omega), List.map_cons, hr]
        · rw [if_neg hc, if_neg (by simp; omega), hr]
  exact key vs 0 k (fun i _ hi => by have := hk i (by omega); omega) (fun i _ hi => hst i (by omega))

theorem window_out (vs : List Bytes) (start stop : Int)
    (h : ∀ i : Nat, i < vs.length → ¬ (ListSpec.position vs start ≤ i ∧ (i : Int) ≤ ListSpec.position vs stop)) :
    ListSpec.window vs start stop = [] := by
  unfold ListSpec.window
  rw [List.map_eq_nil_iff, List.filter_eq_nil_iff]
  intro p hp
  have := List.snd_lt_of_mem_zipIdx hp
  simpa using h p.2 this

theorem lRange_is {l : LObj} {vs} (h : l.Is vs) (start stop : Int) :
    l.lRange start stop = .ok (ListSpec.window vs start stop) := by
  unfold lRange
  by_cases hh : l.head = none
  · rw [if_pos hh]
    rw [h.head_none] at hh; subst hh; rfl
  · rw [if_neg hh]
    have hlen := h.length
    obtain ⟨r, hr, rfl⟩ := h
    generalize hvs : r.map (·.2) = vs at *
    simp only
    generalize hst : (if start < 0 then (if start + l.length < 0 then 0 else start + l.length) else start) = st
    generalize hsp : (if stop < 0 then stop + l.length else stop) = sp
    have hsp' : ListSpec.position vs stop = sp := by rw [← hsp, hlen]; rfl
    have hst' : ∀ i : Nat, i < vs.length → (st ≤ i ↔ ListSpec.position vs start ≤ i) := by
      intro i hi
      rw [← hst, hlen]; unfold ListSpec.position
      split <;> (try split) <;> omega
    split
    · next hc =>
      rw [window_out]
      intro i hi
      rw [← hst' i hi, hsp']; omega
    · next hc =>
      rw [hr.head]
      have := lRangeLoop_seg hr.seg st ((if sp ≥ l.length then l.length - 1 else sp) + 1).toNat 0
      rw [show ((0 : Nat) : Int) = 0 from rfl] at this
      rw [this, hvs, window_eq _ start stop _ _ _ hst']
      intro i hi
      rw [hsp']
      split <;> omega

/-! ## index and set -/

theorem lIndexLoop_fwd {h : List LNode} {r p q} (hs : Seg h p r q) (k : Nat) (hk : k < r.length) :
    lIndexLoop h false k (first r q) = .ok (some (r[k].1)) := by
  induction r generalizing p k with
  | nil => simp at hk
  | cons x r ih =>
    obtain ⟨a, v⟩ := x
    cases k with
    | zero => rfl
    | succ k =>
      simp only [lIndexLoop, first_nil, first_cons, load_some hs.1, bind, Except.bind, Bool.false_eq_true, if_false]
      exact ih hs.2 k (by simpa using hk)

theorem lIndexLoop_flip (h : List LNode) (b : Bool) (k : Nat) (p) :
    lIndexLoop (h.map LNode.flip) b k p = lIndexLoop h (!b) k p := by
  induction k generalizing p with
  | zero => rfl
  | succ k ih =>
    simp only [lIndexLoop, load_flip, bind, Except.bind]
    cases load h p with
    | error e => rfl
    | ok n => simp only [Except.map, LNode.flip, ih]; cases b <;> rfl

theorem lIndexNode_rep {l : LObj} {r} (h : Rep l r) (i : Int) :
    l.lIndexNode i = .ok ((r[(ListSpec.position (r.map (·.2)) i).toNat]?.filter
      (fun _ => decide (0 ≤ ListSpec.position (r.map (·.2)) i))).map (·.1)) := by
  unfold lIndexNode
  have hpos : (if i < 0 then i + l.length else i) = ListSpec.position (r.map (·.2)) i := by
    unfold ListSpec.position; rw [h.length]; simp
  by_cases hh : l.head = none
  · rw [if_pos hh]
    rw [h.head, first_eq_none] at hh; subst hh; rfl
  rw [if_neg hh]
  simp only [hpos]
  generalize ListSpec.position (r.map (·.2)) i = j
  have hl := h.length
  by_cases hc : j ≥ l.length ∨ j < 0
  · rw [if_pos hc]
    by_cases hj : 0 ≤ j
    · rw [List.getElem?_eq_none (by omega)]; rfl
    · simp only [hj, decide_false]
      cases r[j.toNat]? <;> rfl
  · rw [if_neg hc]
    have hlt : j.toNat < r.length := by omega
    rw [List.getElem?_eq_getElem hlt]
    simp only [Option.filter, show 0 ≤ j by omega, decide_true, if_true, Option.map_some]
    by_cases hrev : j > l.length.tdiv 2 + 1
    · simp only [hrev, decide_true, if_true]
      have hf := h.flip
      have : l.tail = first r.reverse none := hf.head
      rw [this]
      have e := lIndexLoop_flip l.nodes false (j - (l.length - 1)).natAbs (first r.reverse none)
      simp only [Bool.not_false] at e
      rw [← e, lIndexLoop_fwd (seg_flip h.seg) _ (by simp; omega)]
      simp only [List.getElem_reverse]
      congr 4
      omega
    · simp only [hrev, decide_false, Bool.false_eq_true, if_false]
      rw [h.head, lIndexLoop_fwd h.seg _ (by omega)]
      congr 4
      omega

theorem lIndex_is {l : LObj} {vs} (h : l.Is vs) (i : Int) :
    l.lIndex i = .ok (if 0 ≤ ListSpec.position vs i then vs[(ListSpec.position vs i).toNat]? else none) := by
  obtain ⟨r, h, rfl⟩ := h
  unfold lIndex
  rw [lIndexNode_rep h]
  generalize ListSpec.position (r.map (·.2)) i = j
  by_cases hj : 0 ≤ j
  · rw [if_pos hj, List.getElem?_map]
    cases hr : r[j.toNat]? with
    | none => rfl
    | some x =>
      obtain ⟨hlt, hx⟩ := List.getElem?_eq_some_iff.mp hr
      have hs := h.seg
      rw [← List.take_append_drop j.toNat r, List.drop_eq_getElem_cons hlt, seg_append, hx] at hs
      have := hs.2.1
      simp only [Option.filter, hj, decide_true, if_true, Option.map_some, bind, Except.bind, load_some this]
  · rw [if_neg hj]
    simp only [hj, decide_false]
    cases r[j.toNat]? <;> rfl

theorem seg_setValue {h : List LNode} {r p q} (hs : Seg h p r q) (hnd : (addrs r).Nodup) (j : Nat) (hj : j < r.length)
    (v : Bytes) : ∃ n, h[r[j].1]? = some n ∧ Seg (h.set r[j].1 { n with value := v }) p (r.set j (r[j].1, v)) q := by
  induction r generalizing p j with
  | nil => simp at hj
  | cons x r ih =>
    obtain ⟨a, w⟩ := x
    simp only [addrs, List.map_cons, List.nodup_cons] at hnd
    cases j with
    | zero =>
      refine ⟨_, hs.1, ?_, seg_congr hs.2 fun b hb => ?_⟩
      · simp only [List.getElem_cons_zero]
        rw [List.getElem?_set_self (List.getElem?_eq_some_iff.mp hs.1).1]
      · rw [List.getElem?_set_ne (fun e => hnd.1 (by simp only [List.getElem_cons_zero] at e; exact e ▸ hb))]
    | succ j =>
      have hj' : j < r.length := by simpa using hj
      obtain ⟨n, h1, h2⟩ := ih hs.2 hnd.2 j hj'
      refine ⟨n, by simpa using h1, ?_, by simpa using h2⟩
      simp only [List.getElem_cons_succ]
      have : r[j].1 ≠ a := fun e => hnd.1 (e ▸ List.mem_map_of_mem (List.getElem_mem hj'))
      rw [List.getElem?_set_ne this, hs.1]
      cases j with
      | zero => cases r with
        | nil => simp at hj'
        | cons => rfl
      | succ j => cases r with
        | nil => simp at hj'
        | cons => rfl

theorem addrs_set (r : List (Nat × Bytes)) (j : Nat) (hj : j < r.length) (v : Bytes) :
    addrs (r.set j (r[j].1, v)) = addrs r := by
  rw [addrs, List.map_set]
  apply List.ext_getElem
  · simp
  · intro i h1 h2
    simp only [List.getElem_set, List.getElem_map]
    split
    · next e => subst e; rfl
    · rfl

theorem first_addrs {r r' : List (Nat × Bytes)} (h : addrs r = addrs r') (q) : first r q = first r' q := by
  cases r <;> cases r' <;> simp_all [first]
theorem last_addrs {r r' : List (Nat × Bytes)} (h : addrs r = addrs r') (q) : last q r = last q r' := by
  induction r generalizing r' q with
  | nil => cases r' <;> simp_all [last]
  | cons x r ih =>
    cases r' with
    | nil => simp at h
    | cons y r' =>
      simp only [addrs, List.map_cons, List.cons.injEq] at h
      simp only [last, h.1]
      exact ih h.2 _

theorem rep_setValue {l : LObj} {r} (h : Rep l r) (j : Nat) (hj : j < r.length) (v : Bytes) :
    ∃ nodes, setValue l.nodes (some r[j].1) v = .ok nodes ∧ Rep { l with nodes := nodes } (r.set j (r[j].1, v)) := by
  obtain ⟨n, h1, h2⟩ := seg_setValue h.seg h.nodup j hj v
  have ha := addrs_set r j hj v
  exact ⟨_, setValue_some h1 v, ⟨h2, by rw [ha]; exact h.nodup, by simp [h.length],
    by simp only [h.head]; exact first_addrs ha.symm _, by simp only [h.tail]; exact last_addrs ha.symm _⟩⟩

theorem lSet_is {l : LObj} {vs} (h : l.Is vs) (i : Int) (v : Bytes) :
    ∃ l', l.lSet i v = .ok (l', (ListSpec.assign i v vs).isSome) ∧ l'.Is ((ListSpec.assign i v vs).getD vs) := by
  obtain ⟨r, h, rfl⟩ := h
  unfold lSet ListSpec.assign
  rw [lIndexNode_rep h]
  generalize ListSpec.position (r.map (·.2)) i = j
  by_cases hj : 0 ≤ j ∧ j < (r.map (·.2)).length
  · rw [if_pos hj]
    have hlt : j.toNat < r.length := by have := hj.2; simp at this; omega
    obtain ⟨nodes, h1, h2⟩ := rep_setValue h j.toNat hlt v
    refine ⟨{ l with nodes := nodes }, ?_, _, h2, ?_⟩
    · simp only [List.getElem?_eq_getElem hlt, Option.filter, hj.1, decide_true, if_true, Option.map_some, bind, Except.bind,
        h1, Option.isSome_some]
    · simp [List.map_set]
  · rw [if_neg hj]
    refine ⟨l, ?_, r, h, rfl⟩
    by_cases h0 : 0 ≤ j
    · rw [List.getElem?_eq_none (by simp at hj; omega)]; rfl
    · simp only [h0, decide_false]
      cases r[j.toNat]? <;> rfl

/-! ## insert -/

theorem findNode_seg {h : List LNode} {r p} (hs : Seg h p r none) (v : Bytes) (fuel : Nat) (hf : r.length ≤ fuel) :
    (v ∉ r.map (·.2) ∧ findNode h v fuel (first r none) = .ok none) ∨
    ∃ r1 a r2, r = r1 ++ (a, v) :: r2 ∧ v ∉ r1.map (·.2) ∧ findNode h v fuel (first r none) = .ok (some a) := by
  induction r generalizing p fuel with
  | nil => exact .inl ⟨by simp, by cases fuel <;> rfl⟩
  | cons x r ih =>
    obtain ⟨a, w⟩ := x
    cases fuel with
    | zero => simp at hf
    | succ fuel =>
      simp only [first_nil, first_cons, findNode, load_some hs.1, bind, Except.bind]
      by_cases hw : w = v
      · subst hw
        exact .inr ⟨[], a, r, rfl, by simp, by simp⟩
      · rcases ih hs.2 fuel (by simpa using hf) with ⟨h1, h2⟩ | ⟨r1, b, r2, rfl, h1, h2⟩
        · exact .inl ⟨by simp only [List.map_cons, List.mem_cons, not_or]; exact ⟨fun e => hw e.symm, h1⟩,
            by rw [if_neg hw]; exact h2⟩
        · exact .inr ⟨(a, w) :: r1, b, r2, rfl, by
            simp only [List.map_cons, List.mem_cons, not_or]; exact ⟨fun e => hw e.symm, h1⟩, by rw [if_neg hw]; exact h2⟩

theorem insertAt_none {before : Bool} {p v : Bytes} {vs : List Bytes} (h : p ∉ vs) :
    ListSpec.insertAt before p v vs = none := by
  induction vs with
  | nil => rfl
  | cons x vs ih =>
    simp only [List.mem_cons, not_or] at h
    rw [ListSpec.insertAt, if_neg (fun e => h.1 e.symm), ih h.2]; rfl

theorem insertAt_some {before : Bool} {p v : Bytes} {vs ws : List Bytes} (h : p ∉ vs) :
    ListSpec.insertAt before p v (vs ++ p :: ws) = some (vs ++ (if before then v :: p :: ws else p :: v :: ws)) := by
  induction vs with
  | nil => simp [ListSpec.insertAt]
  | cons x vs ih =>
    simp only [List.mem_cons, not_or] at h
    rw [List.cons_append, ListSpec.insertAt, if_neg (fun e => h.1 e.symm), ih h.2]; rfl

theorem nodup_mid {r1 r2 : List (Nat × Bytes)} {a v} (h : (addrs (r1 ++ (a, v) :: r2)).Nodup) :
    a ∉ addrs r1 ∧ a ∉ addrs r2 ∧ (∀ b ∈ addrs r1, b ∉ addrs r2) := by
  rw [addrs_append] at h
  simp only [addrs, List.map_cons] at h ⊢
  rw [List.nodup_append'] at h
  obtain ⟨_, h2, h3⟩ := h
  rw [List.nodup_cons] at h2
  refine ⟨fun hm => h3 hm (by simp), h2.1, fun b hb hb2 => h3 hb (List.mem_cons_of_mem _ hb2)⟩

/-- link a new node `b` between two parts of a chain -/
theorem rep_insert {l : LObj} {r1 r2 : List (Nat × Bytes)} (h : Rep l (r1 ++ r2)) (hne : r1 ++ r2 ≠ []) (v : Bytes) :
    ∃ nodes, (do
        let h ← setNextIf (l.nodes ++ [(⟨first r2 none, last none r1, v⟩ : LNode)]) (last none r1) (some l.nodes.length)
        setPrevIf h (first r2 none) (some l.nodes.length)) = .ok nodes ∧
      Rep ⟨l.length + 1, if r1 = [] then some l.nodes.length else l.head,
        if r2 = [] then some l.nodes.length else l.tail, nodes⟩ (r1 ++ (l.nodes.length, v) :: r2) := by
  have hlt := seg_lt h.seg
  rw [addrs_append] at hlt
  have hs := (seg_append _ _ _ _ _).mp h.seg
  have hnd := h.nodup
  rw [addrs_append, List.nodup_append'] at hnd
  set b := l.nodes.length with hb
  set h0 := l.nodes ++ [(⟨first r2 none, last none r1, v⟩ : LNode)] with hh0
  have e0 : ∀ a, a < b → h0[a]? = l.nodes[a]? := fun a ha => by rw [hh0, List.getElem?_append_left ha]
  have eb : h0[b]? = some ⟨first r2 none, last none r1, v⟩ := by simp [hh0, hb]
  have hl0 : h0.length = b + 1 := by simp [hh0, hb]
  -- first update
  have step1 : ∃ h1, setNextIf h0 (last none r1) (some b) = .ok h1 ∧ Seg h1 none r1 (some b) ∧ h1.length = b + 1 ∧
      (∀ a, a ∉ addrs r1 → h1[a]? = h0[a]?) := by
    cases hr1 : r1 using List.reverseRecOn with
    | nil => exact ⟨h0, rfl, trivial, hl0, fun _ _ => rfl⟩
    | append_singleton r1' x =>
      obtain ⟨a, w⟩ := x
      subst hr1
      rw [last_concat]
      have hs1 := (seg_append _ _ _ _ _).mp hs.1
      have ha : a < b := hlt a (by simp)
      have hn : h0[a]? = some ⟨first r2 none, last none r1', w⟩ := by rw [e0 a ha]; exact hs1.2.1
      have hn2 := hnd.1
      rw [addrs_append, List.nodup_append'] at hn2
      refine ⟨_, setNext_some hn _, ?_, by simp [hl0], fun c hc => ?_⟩
      · rw [seg_append]
        refine ⟨seg_congr hs1.1 fun c hc => ?_, ?_, trivial⟩
        · rw [List.getElem?_set_ne (fun e => hn2.2.2 hc (by simp [e])), e0 c (hlt c (by
            rw [addrs_append]; simp only [List.mem_append]; exact .inl (.inl hc)))]
        · rw [List.getElem?_set_self (by rw [hl0]; omega)]; rfl
      · rw [List.getElem?_set_ne (fun e => hc (by simp [e]))]
  obtain ⟨h1, e1, hs1, hl1, hf1⟩ := step1
  have step2 : ∃ h2, setPrevIf h1 (first r2 none) (some b) = .ok h2 ∧ Seg h2 (some b) r2 none ∧
      (∀ a, a ∉ addrs r2 → h2[a]? = h1[a]?) := by
    cases hr2 : r2 with
    | nil => exact ⟨h1, rfl, trivial, fun _ _ => rfl⟩
    | cons x r2' =>
      obtain ⟨a, w⟩ := x
      subst hr2
      have ha : a < b := hlt a (by simp)
      have hn2 := hnd.2.1
      simp only [addrs, List.map_cons, List.nodup_cons] at hn2
      have hn : h1[a]? = some ⟨first r2' none, last none r1, w⟩ := by
        rw [hf1 a (fun hm => hnd.2.2 hm (by simp)), e0 a ha]; exact hs.2.1
      refine ⟨_, setPrev_some hn _, ⟨?_, seg_congr hs.2.2 fun c hc => ?_⟩, fun c hc => ?_⟩
      · rw [List.getElem?_set_self (by rw [hl1]; omega)]
      · have hc2 : c ∈ addrs ((a, w) :: r2') := List.mem_cons_of_mem _ hc
        have e1 : a ≠ c := fun e => hn2.1 (by subst e; exact hc)
        rw [List.getElem?_set_ne e1, hf1 c (fun hm => hnd.2.2 hm hc2),
          e0 c (hlt c (by simp only [List.mem_append]; exact .inr hc2))]
      · rw [List.getElem?_set_ne (fun e => hc (by simp [e]))]
  obtain ⟨h2, e2, hs2, hf2⟩ := step2
  have hb1 : b ∉ addrs r1 := fun hm => absurd (hlt b (by simp only [List.mem_append]; exact .inl hm)) (by omega)
  have hb2 : b ∉ addrs r2 := fun hm => absurd (hlt b (by simp only [List.mem_append]; exact .inr hm)) (by omega)
  refine ⟨h2, by simp only [bind, Except.bind, e1, e2], ?_, ?_, ?_, ?_, ?_⟩
  · rw [seg_append]
    refine ⟨seg_congr hs1 fun c hc => hf2 c (fun hm => hnd.2.2 hc hm), ?_, hs2⟩
    rw [hf2 b hb2, hf1 b hb1, eb]
  · rw [addrs_append, List.nodup_append']
    refine ⟨hnd.1, List.nodup_cons.mpr ⟨hb2, hnd.2.1⟩, ?_⟩
    exact List.disjoint_cons_right.mpr ⟨hb1, hnd.2.2⟩
  · simp only [h.length, List.length_append, List.length_cons]; push_cast; omega
  · simp only [h.head]
    cases r1 <;> simp [first_nil, first_cons]
  · simp only [h.tail, last_append, last]
    cases r2 <;> simp [last]

theorem lInsert_is {l : LObj} {vs} (h : l.Is vs) (p v : Bytes) (flag : Int) (hf : flag = 1 ∨ flag = -1) :
    ∃ l', l.lInsert p v flag = .ok (l', (ListSpec.insertAt (flag = -1) p v vs).isSome) ∧
      l'.Is ((ListSpec.insertAt (flag = -1) p v vs).getD vs) := by
  obtain ⟨r, h, rfl⟩ := h
  unfold lInsert
  by_cases hh : l.head = none
  · rw [if_pos hh]
    have := hh
    rw [h.head, first_eq_none] at this; subst this
    exact ⟨l, rfl, [], h, rfl⟩
  rw [if_neg hh]
  have hfind := findNode_seg h.seg p l.nodes.length h.length_le
  rw [← h.head] at hfind
  rcases hfind with ⟨h1, h2⟩ | ⟨r1, a, r2, rfl, h1, h2⟩
  · rw [insertAt_none h1]
    exact ⟨l, by simp only [h2, bind, Except.bind]; rfl, r, h, rfl⟩
  · have hs := (seg_append _ _ _ _ _).mp h.seg
    have hn := hs.2.1
    have hm : (r1 ++ (a, p) :: r2).map (·.2) = r1.map (·.2) ++ p :: r2.map (·.2) := by simp
    have hlt := seg_lt h.seg
    have ha : a < l.nodes.length := hlt a (by simp)
    rw [hm, insertAt_some h1]
    simp only [h2, bind, Except.bind, load_some hn]
    rcases hf with rfl | rfl
    · simp only [show ¬ ((1 : Int) = 0) by omega, if_false, show (1 : Int) > 0 by omega, if_true, Option.isSome_some,
        Option.getD_some, show ¬ ((1 : Int) = -1) by omega, decide_false, Bool.false_eq_true]
      have hr : Rep l ((r1 ++ [(a, p)]) ++ r2) := by simpa using h
      obtain ⟨nodes, e, hrep⟩ := rep_insert hr (by simp) v
      simp only [last_concat, bind, Except.bind] at e
      simp only [List.append_eq_nil_iff, List.cons_ne_nil, and_false, if_false] at hrep
      cases r2 with
      | nil =>
        simp only [first_nil, first_cons] at e ⊢
        simp only [setNextIf] at e
        cases hx : setNext (l.nodes ++ [⟨none, some a, v⟩]) (some a) (some l.nodes.length) with
        | error _ => rw [hx] at e; cases e
        | ok h' =>
          rw [hx] at e
          simp only [setPrevIf] at e
          cases e
          simp only [if_true] at hrep
          exact ⟨_, rfl, _, hrep, by simp⟩
      | cons x r2 =>
        obtain ⟨b, w⟩ := x
        simp only [first_nil, first_cons] at e ⊢
        simp only [setNextIf] at e
        cases hx : setNext (l.nodes ++ [⟨some b, some a, v⟩]) (some a) (some l.nodes.length) with
        | error _ => rw [hx] at e; cases e
        | ok h' =>
          rw [hx] at e
          simp only [setPrevIf] at e
          simp only [e]
          exact ⟨_, rfl, _, hrep, by simp⟩
    · simp only [show ¬ ((-1 : Int) = 0) by omega, if_false, show ¬ (-1 : Int) > 0 by omega, Option.isSome_some,
        Option.getD_some, decide_true, if_true]
      obtain ⟨nodes, e, hrep⟩ := rep_insert (r1 := r1) (r2 := (a, p) :: r2) h (by simp) v
      simp only [first_nil, first_cons, bind, Except.bind] at e
      simp only [List.cons_ne_nil, if_false] at hrep
      cases r1 using List.reverseRecOn with
      | nil =>
        simp only [last, setNextIf, setPrevIf] at e ⊢
        rw [e]
        exact ⟨_, rfl, _, hrep, by simp⟩
      | append_singleton r1 x =>
        obtain ⟨b, w⟩ := x
        have hb : b < l.nodes.length := hlt b (by simp)
        have hab : a ≠ b := fun e => (nodup_mid h.nodup).1 (by simp [e])
        simp only [last_concat, setNextIf, setPrevIf] at e ⊢
        -- the code does the two updates in the other order
        have hs1 := (seg_append _ _ _ _ _).mp hs.1
        rw [last_concat] at hn
        have hb1 : (l.nodes ++ [(⟨some a, some b, v⟩ : LNode)])[b]? = some ⟨some a, last none r1, w⟩ := by
          rw [List.getElem?_append_left hb]; exact hs1.2.1
        have ha1 : (l.nodes ++ [(⟨some a, some b, v⟩ : LNode)])[a]? = some ⟨first r2 none, some b, p⟩ := by
          rw [List.getElem?_append_left ha]; exact hn
        rw [setNext_some hb1] at e
        simp only at e
        rw [setPrev_some (n := ⟨first r2 none, some b, p⟩) (by rw [List.getElem?_set_ne (Ne.symm hab)]; exact ha1)] at e
        rw [setPrev_some ha1]
        simp only
        rw [setNext_some (n := ⟨some a, last none r1, w⟩) (by rw [List.getElem?_set_ne hab]; exact hb1)]
        rw [List.set_comm _ _ (Ne.symm hab)] at e
        cases e
        simp only [List.append_eq_nil_iff, List.cons_ne_nil, and_false, if_false] at hrep
        exact ⟨_, rfl, _, hrep, by simp⟩

end LObj
end Godis
