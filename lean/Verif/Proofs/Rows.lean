import Verif.Proofs.ListRem
import Verif.Spec.Rows
/-! The linked list object refines a row, in every state it can get into. -/
set_option linter.unusedSimpArgs false
namespace Godis
namespace LObj
open RowSpec
open ListSpec (removeFirst)

/-- `o` holds the row `c` in the chain `r` -/
structure HoldsAt (o : LObj) (c : Row) (r : List (Nat × Bytes)) : Prop where
  seg : Seg o.nodes none r none
  nodup : (addrs r).Nodup
  items : r.map (·.2) = c.items
  count : o.length = c.count
  head : o.head = if c.left then first r none else none
  tail : o.tail = if c.right then last none r else none
  norm : c.items = [] → c.left = true ∧ c.right = true

/-- `o` holds the row `c` -/
def Holds (o : LObj) (c : Row) : Prop := ∃ r, HoldsAt o c r

theorem HoldsAt.nil {o : LObj} {c : Row} {r} (h : HoldsAt o c r) : r = [] ↔ c.items = [] := by
  rw [← h.items]; simp

theorem HoldsAt.flip {o : LObj} {c : Row} {r} (h : HoldsAt o c r) : HoldsAt o.flip c.mirror r.reverse := by
  refine ⟨seg_flip h.seg, ?_, by simp [Row.mirror, ← h.items], h.count, ?_, ?_, fun hn => ?_⟩
  · rw [addrs, List.map_reverse]; exact List.nodup_reverse.mpr h.nodup
  · rw [first_reverse]; exact h.tail
  · rw [last_reverse]; exact h.head
  · have := h.norm (by simpa [Row.mirror] using hn)
    exact ⟨this.2, this.1⟩

theorem Holds.flip {o : LObj} {c : Row} (h : Holds o c) : Holds o.flip c.mirror := by
  obtain ⟨r, h⟩ := h; exact ⟨_, h.flip⟩

theorem mirror_mirror (c : Row) : c.mirror.mirror = c := by simp [Row.mirror]

theorem Holds.of_flip {o : LObj} {c : Row} (h : Holds o c.mirror) : Holds o.flip c := by
  have := h.flip; rwa [mirror_mirror] at this

theorem holds_of_is {o : LObj} {vs} (h : o.Is vs) : Holds o (.good vs) := by
  obtain ⟨r, h, rfl⟩ := h
  exact ⟨r, h.seg, h.nodup, rfl, by simp [Row.good, h.length], by simp [Row.good, h.head], by simp [Row.good, h.tail], fun _ => ⟨rfl, rfl⟩⟩

theorem holds_empty : Holds empty (.good []) := holds_of_is is_empty

/-! ## push -/

theorem lPush_holds {o : LObj} {c : Row} (h : Holds o c) (x : Bytes) : ∃ o', o.lPush x = .ok o' ∧ Holds o' (c.pushLeft x) := by
  obtain ⟨r, h⟩ := h
  have hlt := seg_lt h.seg
  by_cases hn : c.left = false ∨ r = []
  · have hh : o.head = none := by
      rw [h.head]; rcases hn with hn | hn
      · simp [hn]
      · subst hn; simp [first]
    refine ⟨⟨o.length + 1, some o.nodes.length, some o.nodes.length, o.nodes ++ [⟨none, none, x⟩]⟩, by simp only [lPush, hh],
      [(o.nodes.length, x)], ⟨by simp [first_nil], trivial⟩, by simp, ?_, ?_, ?_, ?_, ?_⟩
    all_goals
      rcases hn with hn | hn
      · simp [Row.pushLeft, hn, h.count, first, last]
      · have := h.norm (h.nil.mp hn)
        simp [Row.pushLeft, this.1, this.2, h.nil.mp hn, h.count, first, last]
  · simp only [not_or, Bool.not_eq_false] at hn
    obtain ⟨hl, hn⟩ := hn
    cases r with
    | nil => exact absurd rfl hn
    | cons y r =>
      obtain ⟨a, w⟩ := y
      have hh := h.head
      simp only [hl, if_true, first_cons] at hh
      have ha : a < o.nodes.length := hlt a (by simp)
      have hs := h.seg
      have hnn : (o.nodes ++ [(⟨some a, none, x⟩ : LNode)])[a]? = some ⟨first r none, none, w⟩ := by
        rw [List.getElem?_append_left ha]; exact hs.1
      refine ⟨_, by simp only [lPush, hh, setPrev_some hnn]; rfl, (o.nodes.length, x) :: (a, w) :: r, ⟨?_, ?_, ?_⟩, ?_, ?_, ?_, ?_, ?_, ?_⟩
      · rw [List.getElem?_set_ne (by omega)]; simp [first_cons]
      · rw [List.getElem?_set_self (by simp; omega)]
      · refine seg_congr hs.2 fun b hb => ?_
        have hne : a ≠ b := fun e => by
          have := h.nodup; simp only [addrs, List.map_cons, List.nodup_cons] at this
          exact this.1 (e ▸ hb)
        rw [List.getElem?_set_ne hne, List.getElem?_append_left (hlt b (by simp only [addrs, List.map_cons, List.mem_cons]; exact .inr hb))]
      · simp only [addrs, List.map_cons]
        rw [List.nodup_cons]
        exact ⟨fun hm => absurd (hlt _ hm) (by omega), h.nodup⟩
      · simp [Row.pushLeft, hl, ← h.items]
      · simp [Row.pushLeft, hl, h.count]
      · simp [Row.pushLeft, hl, first_cons]
      · simp [Row.pushLeft, hl, h.tail, last]
      · simp [Row.pushLeft, hl]

theorem rPush_holds {o : LObj} {c : Row} (h : Holds o c) (x : Bytes) : ∃ o', o.rPush x = .ok o' ∧ Holds o' (c.pushRight x) := by
  obtain ⟨o', h1, h2⟩ := lPush_holds h.flip x
  exact ⟨o'.flip, by rw [rPush_flip, h1]; rfl, h2.flip⟩

theorem lPushAll_holds {o : LObj} {c : Row} (h : Holds o c) (xs : List Bytes) :
    ∃ o', o.lPushAll xs = .ok o' ∧ Holds o' (xs.foldl Row.pushLeft c) := by
  induction xs generalizing o c with
  | nil => exact ⟨o, rfl, h⟩
  | cons w ws ih =>
    obtain ⟨l1, h1, h2⟩ := lPush_holds h w
    obtain ⟨l2, h3, h4⟩ := ih h2
    exact ⟨l2, by simp only [lPushAll, h1, bind, Except.bind, h3], h4⟩

theorem rPushAll_holds {o : LObj} {c : Row} (h : Holds o c) (xs : List Bytes) :
    ∃ o', o.rPushAll xs = .ok o' ∧ Holds o' (xs.foldl Row.pushRight c) := by
  induction xs generalizing o c with
  | nil => exact ⟨o, rfl, h⟩
  | cons w ws ih =>
    obtain ⟨l1, h1, h2⟩ := rPush_holds h w
    obtain ⟨l2, h3, h4⟩ := ih h2
    exact ⟨l2, by simp only [rPushAll, h1, bind, Except.bind, h3], h4⟩

theorem pushLeft_count (c : Row) (x : Bytes) : (c.pushLeft x).count = c.count + 1 := by
  unfold Row.pushLeft; split <;> rfl
theorem pushRight_count (c : Row) (x : Bytes) : (c.pushRight x).count = c.count + 1 := pushLeft_count c.mirror x

theorem foldl_count {f : Row → Bytes → Row} (hf : ∀ c x, (f c x).count = c.count + 1) (xs : List Bytes) (c : Row) :
    (xs.foldl f c).count = c.count + xs.length := by
  induction xs generalizing c with
  | nil => simp
  | cons x xs ih => rw [List.foldl_cons, ih, hf]; simp; omega

/-! ## pop -/

theorem lPop_holds_none {o : LObj} {c : Row} (h : Holds o c) (hn : c.left = false ∨ c.items = []) : o.lPop = .ok (o, none) := by
  obtain ⟨r, h⟩ := h
  have hh : o.head = none := by
    rw [h.head]; rcases hn with hn | hn
    · simp [hn]
    · rw [h.nil.mpr hn]; simp [first]
  simp only [lPop, hh]

theorem lPop_holds {o : LObj} {c : Row} (h : Holds o c) (hl : c.left = true) {x : Bytes} {xs : List Bytes} (hi : c.items = x :: xs) :
    ∃ o', o.lPop = .ok (o', some x) ∧ Holds o' ⟨xs, true, c.right || xs.isEmpty, c.count - 1⟩ := by
  obtain ⟨r, h⟩ := h
  cases r with
  | nil => rw [h.nil.mp rfl] at hi; cases hi
  | cons y r =>
    obtain ⟨a, w⟩ := y
    have hr := h.items
    rw [hi] at hr
    simp only [List.map_cons, List.cons.injEq] at hr
    obtain ⟨rfl, rfl⟩ := hr
    have hh := h.head
    simp only [hl, if_true, first_cons] at hh
    have hs := h.seg
    have hlt := seg_lt h.seg
    have ha : a < o.nodes.length := hlt a (by simp)
    have hnd := h.nodup
    simp only [addrs, List.map_cons, List.nodup_cons] at hnd
    cases r with
    | nil =>
      refine ⟨⟨o.length - 1, none, none, o.nodes.set a ⟨none, none, w⟩⟩, ?_, [], trivial, by simp, rfl, ?_, ?_, ?_, ?_⟩
      · simp only [lPop, hh, load_some hs.1, bind, Except.bind, first_nil, first_cons, setNext_some hs.1, setPrevIf, if_true]
      all_goals simp [h.count, first, last]
    | cons y r =>
      obtain ⟨b, z⟩ := y
      have hab : a ≠ b := fun e => hnd.1 (by simp [e])
      have hb : (o.nodes.set a { (⟨some b, none, w⟩ : LNode) with next := none })[b]? = some ⟨first r none, some a, z⟩ := by
        rw [List.getElem?_set_ne hab]; exact hs.2.1
      refine ⟨⟨o.length - 1, some b, o.tail, (o.nodes.set a ⟨none, none, w⟩).set b ⟨first r none, none, z⟩⟩, ?_,
        (b, z) :: r, ⟨?_, ?_⟩, hnd.2, rfl, ?_, ?_, ?_, ?_⟩
      · simp only [lPop, hh, load_some hs.1, bind, Except.bind, first_nil, first_cons, setNext_some hs.1, setPrevIf, setPrev_some hb,
          reduceCtorEq, if_false]
      · rw [List.getElem?_set_self (by simp; exact hlt b (by simp))]
      · refine seg_congr hs.2.2 fun c hc => ?_
        have h2 := hnd.2
        rw [List.map_cons, List.nodup_cons] at h2
        have e1 : b ≠ c := fun e => h2.1 (by subst e; exact hc)
        have e2 : a ≠ c := fun e => hnd.1 (by subst e; exact List.mem_cons_of_mem _ hc)
        rw [List.getElem?_set_ne e1, List.getElem?_set_ne e2]
      · simp [h.count]
      · simp [first_cons]
      · simp [h.tail, last]
      · simp

theorem popLeft_zero {o : LObj} {c : Row} (h : Holds o c) {n : Nat} (h0 : min n c.count.toNat = 0 ∨ c.items = []) :
    c.popLeft n = c ∧ c.popped n = [] := by
  obtain ⟨r, h⟩ := h
  have hn := h.norm
  obtain ⟨items, left, right, count⟩ := c
  simp only [Row.popLeft, Row.popped] at *
  cases left with
  | false => simp
  | true =>
    have e1 : items.take (min n count.toNat) = [] := by
      rcases h0 with h0 | h0
      · rw [h0]; rfl
      · rw [h0]; simp
    have e2 : items.drop (min n count.toNat) = items := by
      rcases h0 with h0 | h0
      · rw [h0]; rfl
      · rw [h0]; simp
    simp only [if_true, e1, e2, List.length_nil, Int.natCast_zero, Int.sub_zero, Row.mk.injEq, true_and, and_true]
    cases items with
    | nil => simp [(hn rfl).2]
    | cons x xs => simp

theorem lPopLoop_holds {o : LObj} {c : Row} (h : Holds o c) (n : Nat) :
    ∀ k, k = c.count.toNat → ∃ o', o.lPopLoop k n = .ok (o', c.popped n) ∧ Holds o' (c.popLeft n) := by
  intro k
  induction k generalizing o c n with
  | zero =>
    intro hk
    obtain ⟨e1, e2⟩ := popLeft_zero h (n := n) (.inl (by omega))
    exact ⟨o, by rw [e2, lPopLoop], by rw [e1]; exact h⟩
  | succ k ih =>
    intro hk
    have hlen : o.length = c.count := by obtain ⟨r, h⟩ := h; exact h.count
    cases n with
    | zero =>
      obtain ⟨e1, e2⟩ := popLeft_zero h (n := 0) (.inl (by omega))
      exact ⟨o, by rw [e2, lPopLoop, if_neg (by simp)], by rw [e1]; exact h⟩
    | succ n =>
      by_cases hn : c.left = false ∨ c.items = []
      · have e : c.popLeft (n + 1) = c ∧ c.popped (n + 1) = [] := by
          rcases hn with hn | hn
          · simp [Row.popLeft, Row.popped, hn]
          · exact popLeft_zero h (.inr hn)
        refine ⟨o, ?_, by rw [e.1]; exact h⟩
        rw [e.2, lPopLoop, if_pos ⟨by omega, by omega⟩]
        simp only [lPop_holds_none h hn, bind, Except.bind]
      · simp only [not_or, Bool.not_eq_false] at hn
        obtain ⟨hl, hne⟩ := hn
        obtain ⟨items, left, right, count⟩ := c
        simp only at hl hne hk hlen
        subst hl
        cases items with
        | nil => exact absurd rfl hne
        | cons x xs =>
          obtain ⟨o1, h1, h2⟩ := lPop_holds h rfl rfl
          obtain ⟨o2, h3, h4⟩ := ih h2 n (by simp only; omega)
          have e1 : (count - 1).toNat = count.toNat - 1 := by omega
          have e2 : min (n + 1) count.toNat = min n (count - 1).toNat + 1 := by omega
          refine ⟨o2, ?_, ?_⟩
          · have e : ((n + 1 : Nat) : Int) - 1 = n := by omega
            rw [lPopLoop, if_pos ⟨by omega, by omega⟩]
            simp only [h1, bind, Except.bind, e, h3]
            simp only [Row.popped, if_true, e2, List.take_succ_cons]
          · have : (Row.mk xs true (right || xs.isEmpty) (count - 1)).popLeft n = (Row.mk (x :: xs) true right count).popLeft (n + 1) := by
              simp only [Row.popLeft, Row.popped, if_true, e2, List.drop_succ_cons, List.take_succ_cons, List.length_cons, Row.mk.injEq, true_and]
              constructor
              · cases xs with
                | nil => simp
                | cons y ys => simp
              · push_cast; omega
            rw [← this]; exact h4

theorem rPopLoop_flip (k : Nat) (o : LObj) (n : Int) : o.rPopLoop k n = (o.flip.lPopLoop k n).map (fun p => (p.1.flip, p.2)) := by
  induction k generalizing o n with
  | zero => simp [rPopLoop, lPopLoop, Except.map]
  | succ k ih =>
    rw [rPopLoop, lPopLoop]
    have : o.flip.length = o.length := rfl
    rw [this]
    split
    · simp only [rPop_flip, bind, Except.bind]
      cases o.flip.lPop with
      | error e => rfl
      | ok p =>
        obtain ⟨o', v⟩ := p
        simp only [Except.map]
        cases v with
        | none => rfl
        | some v =>
          simp only [ih, flip_flip]
          cases o'.lPopLoop k (n - 1) with
          | error e => rfl
          | ok p => rfl
    · simp [Except.map]

theorem rPopLoop_holds {o : LObj} {c : Row} (h : Holds o c) (n : Nat) :
    ∃ o', o.rPopLoop c.count.toNat n = .ok (o', c.mirror.popped n) ∧ Holds o' (c.popRight n) := by
  obtain ⟨o', h1, h2⟩ := lPopLoop_holds h.flip n _ rfl
  refine ⟨o'.flip, ?_, h2.flip⟩
  rw [rPopLoop_flip]
  have : c.mirror.count = c.count := rfl
  rw [this] at h1
  rw [h1]; rfl

/-! ## range -/

theorem filter_zipIdx {p q : Nat → Bool} {l : List Bytes} (h : ∀ i < l.length, p i = q i) :
    (l.zipIdx.filter (fun x => p x.2)).map (·.1) = (l.zipIdx.filter (fun x => q x.2)).map (·.1) := by
  congr 1
  refine List.filter_congr fun x hx => ?_
  exact h x.2 (List.snd_lt_of_mem_zipIdx hx)

theorem take_window (l : List Bytes) (st : Int) (k : Nat) :
    ((l.take k).zipIdx).filterMap (fun x => if st ≤ x.2 then some x.1 else none) =
      (l.zipIdx.filter (fun x => decide (st ≤ x.2 ∧ x.2 < k))).map (·.1) := by
  have key : ∀ (l : List Bytes) (n k : Nat), ((l.take k).zipIdx n).filterMap (fun x => if st ≤ x.2 then some x.1 else none) =
      ((l.zipIdx n).filter (fun x => decide (st ≤ x.2 ∧ x.2 < n + k))).map (·.1) := by
    intro l
    induction l with
    | nil => simp
    | cons x l ih =>
      intro n k
      cases k with
      | zero =>
        simp only [List.take_zero, List.zipIdx_nil, List.filterMap_nil]
        symm
        rw [List.map_eq_nil_iff, List.filter_eq_nil_iff]
        intro p hp
        have := List.le_snd_of_mem_zipIdx hp
        simp; omega
      | succ k =>
        have hr := ih (n + 1) k
        simp only [List.take_succ_cons, List.zipIdx_cons, List.filterMap_cons, List.filter_cons]
        have e : n + 1 + k = n + (k + 1) := by omega
        rw [e] at hr
        by_cases hc : st ≤ (n : Int)
        · rw [if_pos hc, if_pos (by simp; omega), List.map_cons, hr]
        · rw [if_neg hc, if_neg (by simp; omega), hr]
  simpa using key l 0 k

theorem lRange_holds {o : LObj} {c : Row} (h : Holds o c) (start stop : Int) : o.lRange start stop = .ok (c.window start stop) := by
  obtain ⟨r, h⟩ := h
  unfold lRange Row.window
  by_cases hl : c.left = true
  swap
  · rw [if_pos (by rw [h.head, if_neg hl]), if_neg hl]
  rw [if_pos hl]
  by_cases hr : r = []
  · rw [if_pos (by rw [h.head, hr]; simp [first]), h.nil.mp hr]; rfl
  rw [if_neg (by rw [h.head, if_pos hl, first_eq_none]; exact hr)]
  simp only [h.count]
  generalize hst : (if start < 0 then (if start + c.count < 0 then 0 else start + c.count) else start) = st
  generalize hsp : (if stop < 0 then stop + c.count else stop) = sp
  have hsp' : c.position stop = sp := by rw [← hsp]; rfl
  have hst' : ∀ i : Nat, (st ≤ i ↔ c.position start ≤ i) := by
    intro i
    rw [← hst]; unfold Row.position
    split <;> (try split) <;> omega
  split
  · next hc =>
    congr 1
    symm
    rw [List.map_eq_nil_iff, List.filter_eq_nil_iff]
    intro p _
    have := hst' p.2
    simp only [decide_eq_true_eq, hsp']
    omega
  · next hc =>
    have := lRangeLoop_seg h.seg st ((if sp ≥ c.count then c.count - 1 else sp) + 1).toNat 0
    rw [show ((0 : Nat) : Int) = 0 from rfl] at this
    rw [h.head, if_pos hl, this, h.items, take_window]
    congr 1
    refine filter_zipIdx (p := fun i => decide (st ≤ (i : Int) ∧ i < ((if sp ≥ c.count then c.count - 1 else sp) + 1).toNat))
      (q := fun i => decide (c.position start ≤ (i : Int) ∧ (i : Int) ≤ c.position stop ∧ (i : Int) < c.count)) fun i _ => ?_
    have := hst' i
    rw [hsp']
    simp only [decide_eq_decide]
    split <;> omega

/-! ## remove -/

theorem removeLeft_none {c : Row} {v : Bytes} {n : Nat} : c.removeLeft v n = none ↔ c.left = false ∨ c.items = [] := by
  unfold Row.removeLeft
  split
  · next h => simp [h]
  · next h => simp only [h, iff_false]; split <;> simp

theorem lRemHead_holds {o : LObj} {c : Row} (h : Holds o c) (v : Bytes) (n : Int) :
    match c.removeLeft v n.toNat with
    | none => o.lRemCountFromHead v n = .error .nilDeref
    | some c' => ∃ o', o.lRemCountFromHead v n = .ok (o', c.count - c'.count) ∧ Holds o' c' := by
  obtain ⟨r, h⟩ := h
  by_cases hn : c.left = false ∨ c.items = []
  · rw [removeLeft_none.mpr hn]
    have hh : o.head = none := by
      rw [h.head]; rcases hn with hn | hn
      · simp [hn]
      · rw [h.nil.mpr hn]; simp [first]
    simp only [lRemCountFromHead, hh, load]
    rfl
  · have hn' := hn
    simp only [not_or, Bool.not_eq_false] at hn
    obtain ⟨hl, hne⟩ := hn
    have hr : r ≠ [] := fun e => hne (h.nil.mp e)
    obtain ⟨h2, dn', rest', e, hs, hnd, hv, hsuf, hbe, hdumb⟩ := lRemHead_core h.seg h.nodup hr (by rw [h.head, if_pos hl]) v n
    rw [h.items] at hv hbe
    have hlen : ((dn' ++ rest').length : Int) = (removeFirst v n.toNat c.items).length := by rw [← hv]; simp
    have hlen2 : (r.length : Int) = c.items.length := by rw [← h.items]; simp
    have hrest : (Row.beyond v n.toNat c.items).isEmpty = decide (rest' = []) := by
      rw [← hbe]; cases rest' <;> simp
    have ht : o.tail = if c.right then last none r else none := h.tail
    unfold Row.removeLeft
    rw [if_neg hn']
    simp only
    by_cases hk : removeFirst v n.toNat c.items = []
    · rw [if_pos hk]
      have hnil : dn' ++ rest' = [] := by
        have : (dn' ++ rest').map (·.2) = [] := by rw [hv, hk]
        simpa using this
      have hdn : dn' = [] := (List.append_eq_nil_iff.mp hnil).1
      have hre : rest' = [] := (List.append_eq_nil_iff.mp hnil).2
      have hd := hdumb hnil
      subst hdn hre
      refine ⟨⟨c.count - c.items.length, none, some o.nodes.length, h2⟩, ?_, [(o.nodes.length, [])], ?_, by simp, rfl, ?_, ?_, ?_, by simp⟩
      · rw [e, hk, hlen2]; simp [h.count, first, last]; omega
      · exact ⟨hd, trivial⟩
      · simp [hk]
      · simp
      · simp [last]
    · rw [if_neg hk]
      refine ⟨⟨o.length - ((r.length : Int) - (dn' ++ rest').length), first (dn' ++ rest') none,
        if rest' = [] then last (some o.nodes.length) dn' else o.tail, h2⟩, ?_, dn' ++ rest', hs, hnd, hv, ?_, ?_, ?_, ?_⟩
      · rw [e]
        simp only [hlen2, hlen, h.count]
        congr 2
        omega
      · simp only [h.count, hlen2, hlen]
      · simp
      · simp only [hrest]
        have hne'' : dn' ++ rest' ≠ [] := fun e => hk (by rw [← hv, e]; rfl)
        by_cases hre : rest' = []
        · subst hre
          rw [List.append_nil] at hne'' ⊢
          simp only [if_true, decide_true, Bool.or_true]
          exact last_ne_nil hne'' _ _
        · simp only [if_neg hre, decide_false, hre, Bool.or_false, ht]
          obtain ⟨pre, rfl⟩ := hsuf
          rw [last_append, last_append, last_ne_nil hre (last none pre) (last none dn'), if_neg not_false]
      · intro hi; exact absurd hi hk

theorem lRemTail_holds {o : LObj} {c : Row} (h : Holds o c) (v : Bytes) (n : Int) :
    match c.removeRight v n.toNat with
    | none => o.lRemCountFromTail v n = .error .nilDeref
    | some c' => ∃ o', o.lRemCountFromTail v n = .ok (o', c.count - c'.count) ∧ Holds o' c' := by
  have := lRemHead_holds h.flip v n
  unfold Row.removeRight
  rw [lRemTail_flip]
  cases hr : c.mirror.removeLeft v n.toNat with
  | none => rw [hr] at this; simp only at this; simp only [Option.map_none, this]; rfl
  | some c' =>
    rw [hr] at this
    obtain ⟨o', h1, h2⟩ := this
    exact ⟨o'.flip, by rw [h1]; rfl, h2.flip⟩

/-! ## index and set -/

theorem lIndexLoop_end {h : List LNode} {r p} (hs : Seg h p r none) (k : Nat) (hk : k = r.length) :
    lIndexLoop h false k (first r none) = .ok none := by
  induction r generalizing p k with
  | nil => subst hk; rfl
  | cons x r ih =>
    obtain ⟨a, v⟩ := x
    subst hk
    simp only [List.length_cons, lIndexLoop, first_cons, load_some hs.1, bind, Except.bind, Bool.false_eq_true, if_false]
    exact ih hs.2 _ rfl

theorem lIndexLoop_over {h : List LNode} {r p} (hs : Seg h p r none) (k : Nat) (hk : r.length < k) :
    lIndexLoop h false k (first r none) = .error .nilDeref := by
  induction r generalizing p k with
  | nil =>
    cases k with
    | zero => simp at hk
    | succ k => rfl
  | cons x r ih =>
    obtain ⟨a, v⟩ := x
    cases k with
    | zero => simp at hk
    | succ k =>
      simp only [lIndexLoop, first_cons, load_some hs.1, bind, Except.bind, Bool.false_eq_true, if_false]
      exact ih hs.2 _ (by simpa using hk)

theorem lIndexLoop_walk {h : List LNode} {r p} (hs : Seg h p r none) (k : Nat) :
    match Row.walk r.length k with
    | .found p => ∃ hp : p < r.length, p = k ∧ lIndexLoop h false k (first r none) = .ok (some r[p].1)
    | .missing => lIndexLoop h false k (first r none) = .ok none
    | .crash => lIndexLoop h false k (first r none) = .error .nilDeref := by
  unfold Row.walk
  by_cases h1 : k < r.length
  · rw [if_pos h1]; exact ⟨h1, rfl, lIndexLoop_fwd hs k h1⟩
  · rw [if_neg h1]
    by_cases h2 : k = r.length
    · rw [if_pos h2]; exact lIndexLoop_end hs k h2
    · rw [if_neg h2]; exact lIndexLoop_over hs k (by omega)

theorem lIndexNode_holds {o : LObj} {c : Row} {r} (h : HoldsAt o c r) (i : Int) :
    match c.seek i with
    | .found p => ∃ hp : p < r.length, o.lIndexNode i = .ok (some r[p].1)
    | .missing => o.lIndexNode i = .ok none
    | .crash => o.lIndexNode i = .error .nilDeref := by
  unfold lIndexNode Row.seek
  have hlen : r.length = c.items.length := by rw [← h.items]; simp
  by_cases hn : c.left = false ∨ r = []
  · have hh : o.head = none := by
      rw [h.head]; rcases hn with hn | hn
      · simp [hn]
      · rw [hn]; simp [first]
    rw [if_pos hh, if_pos (by rw [← h.nil]; tauto)]
  · simp only [not_or, Bool.not_eq_false] at hn
    have hh : o.head ≠ none := by rw [h.head, if_pos hn.1, ne_eq, first_eq_none]; exact hn.2
    rw [if_neg hh]
    have hp : (if i < 0 then i + o.length else i) = c.position i := by rw [h.count]; rfl
    simp only [hp]
    generalize c.position i = j
    have hi := mt h.nil.mpr hn.2
    simp only [hn.1, hi, Bool.true_eq_false, false_or, h.count]
    by_cases hc : j < 0 ∨ c.count ≤ j
    · have hc' : j ≥ c.count ∨ j < 0 := by omega
      simp only [if_pos hc, if_pos hc']
    · have hc' : ¬ (j ≥ c.count ∨ j < 0) := by omega
      simp only [if_neg hc, if_neg hc']
      have hdiv : c.count.tdiv 2 = c.count / 2 := Int.tdiv_eq_ediv_of_nonneg (by omega)
      rw [hdiv]
      by_cases hrev : j > c.count / 2 + 1
      · simp only [hrev, decide_true, if_true]
        have ek : (j - (c.count - 1)).natAbs = (c.count - 1 - j).toNat := by omega
        rw [ek]
        generalize (c.count - 1 - j).toNat = n
        cases hrt : c.right with
        | false =>
          have ht : o.tail = none := by rw [h.tail, hrt]; rfl
          simp only [Bool.false_eq_true, if_false, ht]
          have := lIndexLoop_walk (h := o.nodes.map LNode.flip) (r := []) (p := none) trivial n
          simp only [List.length_nil, first_nil, lIndexLoop_flip, Bool.not_false] at this
          cases hw : Row.walk 0 n with
          | found p => rw [hw] at this; obtain ⟨hp, _⟩ := this; exact absurd hp (by simp)
          | missing => rw [hw] at this; exact this
          | crash => rw [hw] at this; exact this
        | true =>
          have ht : o.tail = last none r := by rw [h.tail, hrt]; rfl
          simp only [if_true]
          have := lIndexLoop_walk (seg_flip h.seg) n
          simp only [List.length_reverse, first_reverse, lIndexLoop_flip, Bool.not_false, ← ht, hlen] at this
          cases hw : Row.walk c.items.length n with
          | found p =>
            rw [hw] at this
            obtain ⟨hp, rfl, e⟩ := this
            have hp' : p < c.items.length := by simpa [hlen] using hp
            refine ⟨by omega, ?_⟩
            rw [e]
            simp only [List.getElem_reverse, hlen]
          | missing => rw [hw] at this; exact this
          | crash => rw [hw] at this; exact this
      · simp only [hrev, decide_false, Bool.false_eq_true, if_false]
        have ek : (j - 0).natAbs = j.toNat := by omega
        rw [ek]
        have := lIndexLoop_walk h.seg j.toNat
        rw [h.head, if_pos hn.1, ← hlen]
        cases hw : Row.walk r.length j.toNat with
        | found p => rw [hw] at this; obtain ⟨hp, rfl, e⟩ := this; exact ⟨by omega, e⟩
        | missing => rw [hw] at this; exact this
        | crash => rw [hw] at this; exact this

theorem seg_value {h : List LNode} {r p q} (hs : Seg h p r q) (j : Nat) (hj : j < r.length) :
    ∃ n, h[r[j].1]? = some n ∧ n.value = r[j].2 := by
  rw [← List.take_append_drop j r, List.drop_eq_getElem_cons hj, seg_append] at hs
  exact ⟨_, hs.2.1, rfl⟩

theorem lIndex_holds {o : LObj} {c : Row} (h : Holds o c) (i : Int) :
    match c.seek i with
    | .found p => ∃ v, c.items[p]? = some v ∧ o.lIndex i = .ok (some v)
    | .missing => o.lIndex i = .ok none
    | .crash => o.lIndex i = .error .nilDeref := by
  obtain ⟨r, h⟩ := h
  have := lIndexNode_holds h i
  unfold lIndex
  cases hs : c.seek i with
  | found p =>
    rw [hs] at this
    obtain ⟨hp, e⟩ := this
    obtain ⟨n, h1, h2⟩ := seg_value h.seg p hp
    refine ⟨r[p].2, by rw [← h.items]; simp [hp], ?_⟩
    simp only [e, bind, Except.bind, load_some h1, h2]
  | missing => rw [hs] at this; simp only at this; simp only [this, bind, Except.bind]
  | crash => rw [hs] at this; simp only at this; simp only [this, bind, Except.bind]

theorem lSet_holds {o : LObj} {c : Row} (h : Holds o c) (i : Int) (v : Bytes) :
    match c.seek i with
    | .found p => ∃ o', o.lSet i v = .ok (o', true) ∧ Holds o' { c with items := c.items.set p v }
    | .missing => o.lSet i v = .ok (o, false)
    | .crash => o.lSet i v = .error .nilDeref := by
  obtain ⟨r, h⟩ := h
  have := lIndexNode_holds h i
  unfold lSet
  cases hs : c.seek i with
  | found p =>
    rw [hs] at this
    obtain ⟨hp, e⟩ := this
    obtain ⟨n, h1, h2⟩ := seg_setValue h.seg h.nodup p hp v
    have ha := addrs_set r p hp v
    refine ⟨{ o with nodes := o.nodes.set r[p].1 { n with value := v } }, by simp only [e, bind, Except.bind, setValue_some h1],
      r.set p (r[p].1, v), h2, by rw [ha]; exact h.nodup, ?_, h.count, ?_, ?_, ?_⟩
    · rw [List.map_set, h.items]
    · simp only [h.head, first_addrs ha]
    · simp only [h.tail, last_addrs ha]
    · intro hi
      refine h.norm ?_
      simpa using hi
  | missing => rw [hs] at this; simp only at this; simp only [this, bind, Except.bind]
  | crash => rw [hs] at this; simp only at this; simp only [this, bind, Except.bind]

/-! ## insert -/

theorem idxOf_split {p : Bytes} {l1 l2 : List Bytes} (h : p ∉ l1) : (l1 ++ p :: l2).idxOf p = l1.length := by
  rw [List.idxOf_append_of_notMem h]; simp

theorem lInsert_holds {o : LObj} {c : Row} (h : Holds o c) (p v : Bytes) (flag : Int) (hf : flag = 1 ∨ flag = -1) :
    match c.insert (decide (flag = -1)) p v with
    | some c' => ∃ o', o.lInsert p v flag = .ok (o', true) ∧ Holds o' c' ∧ o'.length = c'.count
    | none => o.lInsert p v flag = .ok (o, false) := by
  obtain ⟨r, h⟩ := h
  unfold lInsert Row.insert
  by_cases hn : c.left = false ∨ r = []
  · have hh : o.head = none := by
      rw [h.head]; rcases hn with hn | hn
      · simp [hn]
      · rw [hn]; simp [first]
    rw [if_pos hh]
    rcases hn with hn | hn
    · simp [hn]
    · rw [h.nil.mp hn]; simp [ListSpec.insertAt]
  · simp only [not_or, Bool.not_eq_false] at hn
    obtain ⟨hl, hn⟩ := hn
    rw [if_pos hl]
    have hhd : o.head = first r none := by rw [h.head, if_pos hl]
    have hh : o.head ≠ none := by rw [hhd, ne_eq, first_eq_none]; exact hn
    rw [if_neg hh]
    have hrl : r.length ≤ o.nodes.length := by simpa using nodup_length_le h.nodup (seg_lt h.seg)
    have hfind := findNode_seg h.seg p o.nodes.length hrl
    rw [← hhd] at hfind
    rcases hfind with ⟨h1, h2⟩ | ⟨r1, a, r2, rfl, h1, h2⟩
    · rw [← h.items, insertAt_none h1]
      simp only [h2, bind, Except.bind, Option.map_none]
    · have hs := (seg_append _ _ _ _ _).mp h.seg
      have hnd := hs.2.1
      have hm : (r1 ++ (a, p) :: r2).map (·.2) = r1.map (·.2) ++ p :: r2.map (·.2) := by simp
      have hlt := seg_lt h.seg
      have ha : a < o.nodes.length := hlt a (by simp)
      have hR : Rep ⟨(r1 ++ (a, p) :: r2).length, first (r1 ++ (a, p) :: r2) none, last none (r1 ++ (a, p) :: r2), o.nodes⟩
          (r1 ++ (a, p) :: r2) := ⟨h.seg, h.nodup, rfl, rfl, rfl⟩
      have htl := h.tail
      rw [← h.items, hm, insertAt_some h1]
      simp only [h2, bind, Except.bind, load_some hnd, Option.map_some, idxOf_split h1]
      rcases hf with rfl | rfl
      · simp only [show ¬ ((1 : Int) = 0) by omega, if_false, show (1 : Int) > 0 by omega, if_true,
          show ¬ ((1 : Int) = -1) by omega, decide_false, Bool.false_eq_true, Bool.not_false, Bool.true_and]
        have hr : Rep ⟨(r1 ++ (a, p) :: r2).length, first (r1 ++ (a, p) :: r2) none, last none (r1 ++ (a, p) :: r2), o.nodes⟩
          ((r1 ++ [(a, p)]) ++ r2) := by simpa using hR
        obtain ⟨nodes, e, hrep⟩ := rep_insert hr (by simp) v
        simp only [last_concat, bind, Except.bind] at e
        cases r2 with
        | nil =>
          simp only [first_nil] at e ⊢
          simp only [setNextIf] at e
          cases hx : setNext (o.nodes ++ [⟨none, some a, v⟩]) (some a) (some o.nodes.length) with
          | error _ => rw [hx] at e; cases e
          | ok h' =>
            rw [hx] at e
            simp only [setPrevIf] at e
            cases e
            refine ⟨_, rfl, ⟨_, hrep.seg, hrep.nodup, by simp, by simp [h.count], ?_, ?_, by simp⟩, by simp [h.count]⟩
            · simp only [hhd, if_true]
              cases r1 <;> rfl
            · simp [last_append, last]
        | cons x r2 =>
          obtain ⟨b, w⟩ := x
          simp only [first_cons] at e ⊢
          simp only [setNextIf] at e
          cases hx : setNext (o.nodes ++ [⟨some b, some a, v⟩]) (some a) (some o.nodes.length) with
          | error _ => rw [hx] at e; cases e
          | ok h' =>
            rw [hx] at e
            simp only [setPrevIf] at e
            simp only [e]
            refine ⟨_, rfl, ⟨_, hrep.seg, hrep.nodup, by simp, by simp [h.count], ?_, ?_, by simp⟩, by simp [h.count]⟩
            · simp only [hhd, if_true]
              cases r1 <;> rfl
            · simp [last_append, last, htl]
      · simp only [show ¬ ((-1 : Int) = 0) by omega, if_false, show ¬ (-1 : Int) > 0 by omega, decide_true, if_true,
          Bool.not_true, Bool.false_and, Bool.or_false]
        obtain ⟨nodes, e, hrep⟩ := rep_insert (r1 := r1) (r2 := (a, p) :: r2) hR (by simp) v
        simp only [first_cons, bind, Except.bind] at e
        cases r1 using List.reverseRecOn with
        | nil =>
          simp only [last, setNextIf, setPrevIf] at e ⊢
          rw [e]
          refine ⟨_, rfl, ⟨_, hrep.seg, hrep.nodup, by simp, by simp [h.count], ?_, ?_, by simp⟩, by simp [h.count]⟩
          · simp [first]
          · simp [last, htl]
        | append_singleton r1 x =>
          obtain ⟨b, w⟩ := x
          have hb : b < o.nodes.length := hlt b (by simp)
          have hab : a ≠ b := fun e => (nodup_mid h.nodup).1 (by simp [e])
          simp only [last_concat, setNextIf, setPrevIf] at e ⊢
          -- the code does the two updates in the other order
          have hs1 := (seg_append _ _ _ _ _).mp hs.1
          rw [last_concat] at hnd
          have hb1 : (o.nodes ++ [(⟨some a, some b, v⟩ : LNode)])[b]? = some ⟨some a, last none r1, w⟩ := by
            rw [List.getElem?_append_left hb]; exact hs1.2.1
          have ha1 : (o.nodes ++ [(⟨some a, some b, v⟩ : LNode)])[a]? = some ⟨first r2 none, some b, p⟩ := by
            rw [List.getElem?_append_left ha]; exact hnd
          rw [setNext_some hb1] at e
          simp only at e
          rw [setPrev_some (n := ⟨first r2 none, some b, p⟩) (by rw [List.getElem?_set_ne (Ne.symm hab)]; exact ha1)] at e
          rw [setPrev_some ha1]
          simp only
          rw [setNext_some (n := ⟨some a, last none r1, w⟩) (by rw [List.getElem?_set_ne hab]; exact hb1)]
          rw [List.set_comm _ _ (Ne.symm hab)] at e
          cases e
          refine ⟨_, rfl, ⟨_, hrep.seg, hrep.nodup, by simp, by simp [h.count], ?_, ?_, by simp⟩, by simp [h.count]⟩
          · simp only [hhd, if_true]
            cases r1 <;> rfl
          · simp [last_append, last, htl]

end LObj
end Godis
