import Verif.Proofs.NoPanic
/-!
# No command loops for ever: the links of lists and skip lists have no cycles

Whatever else goes wrong with a list or a sorted set, its links always run along some order of the nodes.
-/
namespace Godis

/-- the computation is not an endless loop -/
def ND {α : Type} (x : Go α) : Prop := x ≠ .error .diverge

theorem ND.ok {α : Type} (a : α) : ND (.ok a : Go α) := by intro h; cases h

theorem ND.bind {α β : Type} {x : Go α} {f : α → Go β} (h : ND x) (hf : ∀ a, x = .ok a → ND (f a)) : ND (x >>= f) := by
  cases x with
  | error e => intro h'; exact h (by cases h'; rfl)
  | ok a => exact hf a rfl

theorem NP.nd {α : Type} {x : Go α} (h : NP x) : ND x := by obtain ⟨a, rfl⟩ := h; exact .ok a

/-- the nodes above `x` -/
def above (r : Nat → Int) (n x : Nat) : Nat := ((List.range n).filter (fun a => decide (r x < r a))).length

theorem above_le (r : Nat → Int) (n x : Nat) : above r n x ≤ n := by
  unfold above
  exact Nat.le_trans (List.length_filter_le _ _) (by simp)

theorem filter_lt {α : Type} {p q : α → Bool} (hpq : ∀ a, p a = true → q a = true) {y : α} (hq : q y = true) (hp : p y = false) :
    ∀ {l : List α}, y ∈ l → (l.filter p).length < (l.filter q).length
  | [], h => by simp at h
  | x :: l, h => by
    have hle : (l.filter p).length ≤ (l.filter q).length := by
      have := List.countP_mono_left (l := l) (p := p) (q := q) (fun a _ => hpq a)
      simpa [List.countP_eq_length_filter] using this
    rcases List.mem_cons.mp h with rfl | h
    · rw [List.filter_cons, List.filter_cons, hq, hp]; simp; omega
    · have ih := filter_lt hpq hq hp h
      rw [List.filter_cons, List.filter_cons]
      by_cases hx : p x = true
      · rw [if_pos hx, if_pos (hpq x hx)]; simpa using ih
      · rw [if_neg hx]
        split
        · simp; omega
        · exact ih

theorem above_lt {r : Nat → Int} {n x y : Nat} (h : r x < r y) (hy : y < n) : above r n y < above r n x :=
  filter_lt (y := y) (fun a ha => by simp only [decide_eq_true_eq] at *; omega) (by simpa using h) (by simp) (List.mem_range.mpr hy)

theorem above_lt_n {r : Nat → Int} {n x : Nat} (hx : x < n) : above r n x < n := by
  have := filter_lt (p := fun a => decide (r x < r a)) (q := fun _ => true) (y := x) (fun _ _ => rfl) rfl (by simp) (List.mem_range.mpr hx)
  rw [List.filter_true, List.length_range] at this
  exact this

namespace LObj

/-- the links follow the order `r` -/
structure Ordered (r : Nat → Int) (h : List LNode) : Prop where
  next : ∀ a n b, h[a]? = some n → n.next = some b → r a < r b ∧ b < h.length
  prev : ∀ a n b, h[a]? = some n → n.prev = some b → r b < r a ∧ b < h.length

/-- the links of the list follow some order -/
def Ok (l : LObj) : Prop := ∃ r, Ordered r l.nodes ∧ (∀ a, l.head = some a → a < l.nodes.length) ∧ ∀ a, l.tail = some a → a < l.nodes.length

theorem load_ok {h : List LNode} {p : Option Nat} {n : LNode} (hl : load h p = .ok n) : ∃ a, p = some a ∧ h[a]? = some n := by
  unfold load at hl
  split at hl
  · cases hl
  · next a =>
    split at hl
    · next m hm => cases hl; exact ⟨a, rfl, hm⟩
    · cases hl

theorem setNext_ok {h h' : List LNode} {p v : Option Nat} (hl : setNext h p v = .ok h') :
    ∃ a n, p = some a ∧ h[a]? = some n ∧ h' = h.set a { n with next := v } := by
  unfold setNext at hl
  split at hl
  · cases hl
  · next a =>
    split at hl
    · next m hm => cases hl; exact ⟨a, m, rfl, hm, rfl⟩
    · cases hl

theorem setPrev_ok {h h' : List LNode} {p v : Option Nat} (hl : setPrev h p v = .ok h') :
    ∃ a n, p = some a ∧ h[a]? = some n ∧ h' = h.set a { n with prev := v } := by
  unfold setPrev at hl
  split at hl
  · cases hl
  · next a =>
    split at hl
    · next m hm => cases hl; exact ⟨a, m, rfl, hm, rfl⟩
    · cases hl

theorem setValue_ok {h h' : List LNode} {p : Option Nat} {v : Bytes} (hl : setValue h p v = .ok h') :
    ∃ a n, p = some a ∧ h[a]? = some n ∧ h' = h.set a { n with value := v } := by
  unfold setValue at hl
  split at hl
  · cases hl
  · next a =>
    split at hl
    · next m hm => cases hl; exact ⟨a, m, rfl, hm, rfl⟩
    · cases hl

theorem Ordered.set {r h} (hh : Ordered r h) {a : Nat} {n m : LNode} (hn : h[a]? = some n)
    (h1 : ∀ b, m.next = some b → r a < r b ∧ b < h.length) (h2 : ∀ b, m.prev = some b → r b < r a ∧ b < h.length) :
    Ordered r (h.set a m) := by
  have hlt := (List.getElem?_eq_some_iff.mp hn).1
  constructor
  · intro x k b hk hb
    rw [List.length_set]
    rw [List.getElem?_set] at hk
    split at hk
    · next he => subst he; cases hk; exact h1 b hb
    · exact hh.next x k b hk hb
  · intro x k b hk hb
    rw [List.length_set]
    rw [List.getElem?_set] at hk
    split at hk
    · next he => subst he; cases hk; exact h2 b hb
    · exact hh.prev x k b hk hb

theorem Ordered.setNext {r h h' p v} (hh : Ordered r h) (hl : LObj.setNext h p v = .ok h')
    (h1 : ∀ a b, p = some a → v = some b → r a < r b ∧ b < h.length) : Ordered r h' ∧ h'.length = h.length := by
  obtain ⟨a, n, rfl, hn, rfl⟩ := setNext_ok hl
  exact ⟨hh.set hn (fun b hb => h1 a b rfl hb) (fun b hb => hh.prev a n b hn hb), List.length_set⟩

theorem Ordered.setPrev {r h h' p v} (hh : Ordered r h) (hl : LObj.setPrev h p v = .ok h')
    (h1 : ∀ a b, p = some a → v = some b → r b < r a ∧ b < h.length) : Ordered r h' ∧ h'.length = h.length := by
  obtain ⟨a, n, rfl, hn, rfl⟩ := setPrev_ok hl
  exact ⟨hh.set hn (fun b hb => hh.next a n b hn hb) (fun b hb => h1 a b rfl hb), List.length_set⟩

theorem Ordered.setValue {r h h' p v} (hh : Ordered r h) (hl : LObj.setValue h p v = .ok h') : Ordered r h' ∧ h'.length = h.length := by
  obtain ⟨a, n, rfl, hn, rfl⟩ := setValue_ok hl
  exact ⟨hh.set hn (fun b hb => hh.next a n b hn hb) (fun b hb => hh.prev a n b hn hb), List.length_set⟩

theorem Ordered.setPrevIf {r h h' p v} (hh : Ordered r h) (hl : LObj.setPrevIf h p v = .ok h')
    (h1 : ∀ a b, p = some a → v = some b → r b < r a ∧ b < h.length) : Ordered r h' ∧ h'.length = h.length := by
  unfold LObj.setPrevIf at hl
  split at hl
  · cases hl; exact ⟨hh, rfl⟩
  · exact hh.setPrev hl h1

theorem Ordered.setNextIf {r h h' p v} (hh : Ordered r h) (hl : LObj.setNextIf h p v = .ok h')
    (h1 : ∀ a b, p = some a → v = some b → r a < r b ∧ b < h.length) : Ordered r h' ∧ h'.length = h.length := by
  unfold LObj.setNextIf at hl
  split at hl
  · cases hl; exact ⟨hh, rfl⟩
  · exact hh.setNext hl h1

/-- room for a new node `n` at place `q` -/
def widen (r : Nat → Int) (n : Nat) (q : Int) : Nat → Int := fun a => if a = n then q else 2 * r a

theorem widen_new (r : Nat → Int) (n : Nat) (q : Int) : widen r n q n = q := by simp [widen]
theorem widen_old {r : Nat → Int} {n : Nat} {q : Int} {a : Nat} (h : a < n) : widen r n q a = 2 * r a := by
  unfold widen; rw [if_neg (by omega)]

theorem Ordered.fresh {r h} (hh : Ordered r h) (q : Int) {m : LNode}
    (h1 : ∀ b, m.next = some b → q < 2 * r b ∧ b < h.length) (h2 : ∀ b, m.prev = some b → 2 * r b < q ∧ b < h.length) :
    Ordered (widen r h.length q) (h ++ [m]) := by
  constructor
  · intro x k b hk hb
    rw [List.length_append]
    rcases Nat.lt_or_ge x h.length with hx | hx
    · rw [List.getElem?_append_left hx] at hk
      obtain ⟨h3, h4⟩ := hh.next x k b hk hb
      rw [widen_old hx, widen_old h4]
      exact ⟨by omega, by omega⟩
    · rw [List.getElem?_append_right hx] at hk
      have : x = h.length := by
        have := (List.getElem?_eq_some_iff.mp hk).1
        simp at this; omega
      subst this
      simp at hk
      subst hk
      obtain ⟨h3, h4⟩ := h1 b hb
      rw [widen_new, widen_old h4]
      exact ⟨h3, by omega⟩
  · intro x k b hk hb
    rw [List.length_append]
    rcases Nat.lt_or_ge x h.length with hx | hx
    · rw [List.getElem?_append_left hx] at hk
      obtain ⟨h3, h4⟩ := hh.prev x k b hk hb
      rw [widen_old hx, widen_old h4]
      exact ⟨by omega, by omega⟩
    · rw [List.getElem?_append_right hx] at hk
      have : x = h.length := by
        have := (List.getElem?_eq_some_iff.mp hk).1
        simp at this; omega
      subst this
      simp at hk
      subst hk
      obtain ⟨h3, h4⟩ := h2 b hb
      rw [widen_new, widen_old h4]
      exact ⟨h3, by omega⟩

theorem ok_empty : Ok LObj.empty := ⟨fun _ => 0, ⟨fun a n b h => by simp [LObj.empty] at h, fun a n b h => by simp [LObj.empty] at h⟩,
  fun a h => (by cases h), fun a h => (by cases h)⟩

theorem ok_lPush {l l' : LObj} {v} (hl : Ok l) (h : l.lPush v = .ok l') : Ok l' := by
  obtain ⟨r, ho, h1, h2⟩ := hl
  unfold lPush at h
  split at h
  · next a ha =>
    obtain ⟨nodes, h3, h4⟩ := bind_ok h
    cases h4
    have hlt := h1 a ha
    obtain ⟨h5, h6⟩ := (ho.fresh (2 * r a - 1) (m := ⟨some a, none, v⟩) (fun b hb => by cases hb; exact ⟨by omega, hlt⟩) (fun b hb => by cases hb)).setPrev h3
      (fun x b hx hb => by
        cases hx; cases hb
        rw [widen_new, widen_old hlt]
        exact ⟨by omega, by simp⟩)
    rw [List.length_append, List.length_singleton] at h6
    exact ⟨_, h5, fun b hb => by cases hb; simp only [h6]; omega, fun b hb => by have := h2 b hb; simp only [h6]; omega⟩
  · cases h
    refine ⟨_, ho.fresh 0 (m := ⟨none, none, v⟩) (fun b hb => by cases hb) (fun b hb => by cases hb), fun b hb => ?_, fun b hb => ?_⟩ <;> cases hb <;> simp

theorem ok_rPush {l l' : LObj} {v} (hl : Ok l) (h : l.rPush v = .ok l') : Ok l' := by
  obtain ⟨r, ho, h1, h2⟩ := hl
  unfold rPush at h
  split at h
  · next a ha =>
    obtain ⟨nodes, h3, h4⟩ := bind_ok h
    cases h4
    have hlt := h2 a ha
    obtain ⟨h5, h6⟩ := (ho.fresh (2 * r a + 1) (m := ⟨none, some a, v⟩) (fun b hb => by cases hb) (fun b hb => by cases hb; exact ⟨by omega, hlt⟩)).setNext h3
      (fun x b hx hb => by
        cases hx; cases hb
        rw [widen_new, widen_old hlt]
        exact ⟨by omega, by simp⟩)
    rw [List.length_append, List.length_singleton] at h6
    exact ⟨_, h5, fun b hb => by have := h1 b hb; simp only [h6]; omega, fun b hb => by cases hb; simp only [h6]; omega⟩
  · cases h
    refine ⟨_, ho.fresh 0 (m := ⟨none, none, v⟩) (fun b hb => by cases hb) (fun b hb => by cases hb), fun b hb => ?_, fun b hb => ?_⟩ <;> cases hb <;> simp

theorem ok_lPushAll : ∀ {vs} {l l' : LObj}, Ok l → l.lPushAll vs = .ok l' → Ok l'
  | [], _, _, hl, h => by cases h; exact hl
  | v :: vs, l, l', hl, h => by
    obtain ⟨l1, h1, h2⟩ := bind_ok h
    exact ok_lPushAll (ok_lPush hl h1) h2

theorem ok_rPushAll : ∀ {vs} {l l' : LObj}, Ok l → l.rPushAll vs = .ok l' → Ok l'
  | [], _, _, hl, h => by cases h; exact hl
  | v :: vs, l, l', hl, h => by
    obtain ⟨l1, h1, h2⟩ := bind_ok h
    exact ok_rPushAll (ok_rPush hl h1) h2

theorem ok_lPop {l l' : LObj} {v} (hl : Ok l) (h : l.lPop = .ok (l', v)) : Ok l' := by
  obtain ⟨r, ho, h1, h2⟩ := hl
  unfold lPop at h
  split at h
  · cases h; exact ⟨r, ho, h1, h2⟩
  · next a ha =>
    obtain ⟨n, h3, h⟩ := bind_ok h
    obtain ⟨x, h4, h⟩ := bind_ok h
    obtain ⟨y, h5, h⟩ := bind_ok h
    cases h
    obtain ⟨_, e, hn⟩ := load_ok h3
    cases e
    obtain ⟨o1, e1⟩ := ho.setNext h4 (fun _ _ _ hb => by cases hb)
    obtain ⟨o2, e2⟩ := o1.setPrevIf h5 (fun _ _ _ hb => by cases hb)
    refine ⟨r, o2, fun b hb => ?_, fun b hb => ?_⟩
    · dsimp only at *; rw [e2, e1]; exact (ho.next a n b hn hb).2
    · dsimp only at *
      split at hb
      · cases hb
      · rw [e2, e1]; exact h2 b hb

theorem ok_rPop {l l' : LObj} {v} (hl : Ok l) (h : l.rPop = .ok (l', v)) : Ok l' := by
  obtain ⟨r, ho, h1, h2⟩ := hl
  unfold rPop at h
  split at h
  · cases h; exact ⟨r, ho, h1, h2⟩
  · next a ha =>
    obtain ⟨n, h3, h⟩ := bind_ok h
    obtain ⟨x, h4, h⟩ := bind_ok h
    obtain ⟨y, h5, h⟩ := bind_ok h
    cases h
    obtain ⟨_, e, hn⟩ := load_ok h3
    cases e
    obtain ⟨o1, e1⟩ := ho.setPrev h4 (fun _ _ _ hb => by cases hb)
    obtain ⟨o2, e2⟩ := o1.setNextIf h5 (fun _ _ _ hb => by cases hb)
    refine ⟨r, o2, fun b hb => ?_, fun b hb => ?_⟩
    · dsimp only at *
      split at hb
      · cases hb
      · rw [e2, e1]; exact h1 b hb
    · dsimp only at *; rw [e2, e1]; exact (ho.prev a n b hn hb).2

theorem ok_lPopLoop : ∀ {k} {l l' : LObj} {c vs}, Ok l → l.lPopLoop k c = .ok (l', vs) → Ok l'
  | 0, _, _, _, _, hl, h => by cases h; exact hl
  | k + 1, l, l', c, vs, hl, h => by
    unfold lPopLoop at h
    split at h
    · obtain ⟨⟨l1, v⟩, h1, h⟩ := bind_ok h
      dsimp only at h
      split at h
      · cases h; exact ok_lPop hl h1
      · obtain ⟨⟨l2, w⟩, h2, h⟩ := bind_ok h
        cases h
        exact ok_lPopLoop (ok_lPop hl h1) h2
    · cases h; exact hl

theorem ok_rPopLoop : ∀ {k} {l l' : LObj} {c vs}, Ok l → l.rPopLoop k c = .ok (l', vs) → Ok l'
  | 0, _, _, _, _, hl, h => by cases h; exact hl
  | k + 1, l, l', c, vs, hl, h => by
    unfold rPopLoop at h
    split at h
    · obtain ⟨⟨l1, v⟩, h1, h⟩ := bind_ok h
      dsimp only at h
      split at h
      · cases h; exact ok_rPop hl h1
      · obtain ⟨⟨l2, w⟩, h2, h⟩ := bind_ok h
        cases h
        exact ok_rPopLoop (ok_rPop hl h1) h2
    · cases h; exact hl

theorem ok_lSet {l l' : LObj} {i v b} (hl : Ok l) (h : l.lSet i v = .ok (l', b)) : Ok l' := by
  obtain ⟨r, ho, h1, h2⟩ := hl
  unfold lSet at h
  obtain ⟨p, _, h⟩ := bind_ok h
  split at h
  · cases h; exact ⟨r, ho, h1, h2⟩
  · obtain ⟨nodes, h3, h⟩ := bind_ok h
    cases h
    obtain ⟨o1, e1⟩ := ho.setValue h3
    exact ⟨r, o1, fun b hb => by dsimp only; rw [e1]; exact h1 b hb, fun b hb => by dsimp only; rw [e1]; exact h2 b hb⟩

/-! ## searching a list -/

theorem nd_load (h : List LNode) (p : Option Nat) : ND (load h p) := by
  unfold load ND
  split
  · simp
  · split <;> simp

theorem nd_setNext (h : List LNode) (p v : Option Nat) : ND (setNext h p v) := by
  unfold setNext ND
  split
  · simp
  · split <;> simp

theorem nd_setPrev (h : List LNode) (p v : Option Nat) : ND (setPrev h p v) := by
  unfold setPrev ND
  split
  · simp
  · split <;> simp

theorem nd_setValue (h : List LNode) (p : Option Nat) (v : Bytes) : ND (setValue h p v) := by
  unfold setValue ND
  split
  · simp
  · split <;> simp

theorem nd_setPrevIf (h : List LNode) (p v : Option Nat) : ND (setPrevIf h p v) := by
  unfold setPrevIf
  split
  · exact .ok _
  · exact nd_setPrev _ _ _

theorem nd_setNextIf (h : List LNode) (p v : Option Nat) : ND (setNextIf h p v) := by
  unfold setNextIf
  split
  · exact .ok _
  · exact nd_setNext _ _ _

theorem nd_findNode {r h} (ho : Ordered r h) (val : Bytes) : ∀ fuel (p : Option Nat), (∀ a, p = some a → above r h.length a < fuel) →
    ND (findNode h val fuel p)
  | _, none, _ => by unfold findNode; exact .ok _
  | 0, some a, hp => absurd (hp a rfl) (Nat.not_lt_zero _)
  | fuel + 1, some a, hp => by
    unfold findNode
    refine (nd_load _ _).bind (fun n hn => ?_)
    split
    · exact .ok _
    · refine nd_findNode ho val fuel n.next (fun b hb => ?_)
      obtain ⟨_, e, hn⟩ := load_ok hn
      cases e
      obtain ⟨h1, h2⟩ := ho.next a n b hn hb
      have := above_lt h1 h2
      have := hp a rfl
      omega

theorem nd_lInsert {l : LObj} (hl : Ok l) (t v : Bytes) (f : Int) : ND (l.lInsert t v f) := by
  obtain ⟨r, ho, h1, h2⟩ := hl
  unfold lInsert
  split
  · exact .ok _
  · refine (nd_findNode ho t _ _ (fun a ha => above_lt_n (h1 a ha))).bind (fun p _ => ?_)
    split
    · exact .ok _
    · split
      · exact (nd_setValue _ _ _).bind (fun _ _ => .ok _)
      · refine (nd_load _ _).bind (fun n hn => ?_)
        split
        · split
          · exact (nd_setNext _ _ _).bind (fun _ _ => .ok _)
          · exact (nd_setNext _ _ _).bind (fun _ _ => (nd_setPrev _ _ _).bind (fun _ _ => .ok _))
        · split
          · exact (nd_setPrev _ _ _).bind (fun _ _ => .ok _)
          · exact (nd_setPrev _ _ _).bind (fun _ _ => (nd_setNext _ _ _).bind (fun _ _ => .ok _))

theorem ok_lInsert {l l' : LObj} {t v f b} (hl : Ok l) (h : l.lInsert t v f = .ok (l', b)) : Ok l' := by
  obtain ⟨r, ho, h1, h2⟩ := hl
  unfold lInsert at h
  split at h
  · cases h; exact ⟨r, ho, h1, h2⟩
  · obtain ⟨p, hf, h⟩ := bind_ok h
    cases p with
    | none => cases h; exact ⟨r, ho, h1, h2⟩
    | some a =>
      dsimp only at h
      split at h
      · obtain ⟨nodes, h3, h⟩ := bind_ok h
        cases h
        obtain ⟨o1, e1⟩ := ho.setValue h3
        exact ⟨r, o1, fun b hb => by dsimp only; rw [e1]; exact h1 b hb, fun b hb => by dsimp only; rw [e1]; exact h2 b hb⟩
      · obtain ⟨n, h3, h⟩ := bind_ok h
        obtain ⟨_, e, hn⟩ := load_ok h3
        cases e
        have hlt := (List.getElem?_eq_some_iff.mp hn).1
        split at h
        · -- after
          split at h
          · obtain ⟨nodes, h4, h⟩ := bind_ok h
            cases h
            obtain ⟨o1, e1⟩ := (ho.fresh (2 * r a + 1) (m := ⟨none, some a, v⟩) (fun b hb => by cases hb) (fun b hb => by cases hb; exact ⟨by omega, hlt⟩)).setNext h4
              (fun x b hx hb => by cases hx; cases hb; rw [widen_new, widen_old hlt]; exact ⟨by omega, by simp⟩)
            rw [List.length_append, List.length_singleton] at e1
            exact ⟨_, o1, fun b hb => by have := h1 b hb; simp only [e1]; omega, fun b hb => by cases hb; simp only [e1]; omega⟩
          · next c hc =>
            obtain ⟨nodes, h4, h⟩ := bind_ok h
            obtain ⟨nodes', h5, h⟩ := bind_ok h
            cases h
            obtain ⟨hac, hcl⟩ := ho.next a n c hn hc
            obtain ⟨o1, e1⟩ := (ho.fresh (2 * r a + 1) (m := ⟨some c, some a, v⟩) (fun b hb => by cases hb; exact ⟨by omega, hcl⟩)
                (fun b hb => by cases hb; exact ⟨by omega, hlt⟩)).setNext h4
              (fun x b hx hb => by cases hx; cases hb; rw [widen_new, widen_old hlt]; exact ⟨by omega, by simp⟩)
            rw [List.length_append, List.length_singleton] at e1
            obtain ⟨o2, e2⟩ := o1.setPrev h5 (fun x b hx hb => by cases hx; cases hb; rw [widen_new, widen_old hcl]; exact ⟨by omega, by omega⟩)
            rw [e1] at e2
            exact ⟨_, o2, fun b hb => by have := h1 b hb; simp only [e2]; omega, fun b hb => by have := h2 b hb; simp only [e2]; omega⟩
        · split at h
          · obtain ⟨nodes, h4, h⟩ := bind_ok h
            cases h
            obtain ⟨o1, e1⟩ := (ho.fresh (2 * r a - 1) (m := ⟨some a, none, v⟩) (fun b hb => by cases hb; exact ⟨by omega, hlt⟩) (fun b hb => by cases hb)).setPrev h4
              (fun x b hx hb => by cases hx; cases hb; rw [widen_new, widen_old hlt]; exact ⟨by omega, by simp⟩)
            rw [List.length_append, List.length_singleton] at e1
            exact ⟨_, o1, fun b hb => by cases hb; simp only [e1]; omega, fun b hb => by have := h2 b hb; simp only [e1]; omega⟩
          · next c hc =>
            obtain ⟨nodes, h4, h⟩ := bind_ok h
            obtain ⟨nodes', h5, h⟩ := bind_ok h
            cases h
            obtain ⟨hac, hcl⟩ := ho.prev a n c hn hc
            obtain ⟨o1, e1⟩ := (ho.fresh (2 * r a - 1) (m := ⟨some a, some c, v⟩) (fun b hb => by cases hb; exact ⟨by omega, hlt⟩)
                (fun b hb => by cases hb; exact ⟨by omega, hcl⟩)).setPrev h4
              (fun x b hx hb => by cases hx; cases hb; rw [widen_new, widen_old hlt]; exact ⟨by omega, by simp⟩)
            rw [List.length_append, List.length_singleton] at e1
            obtain ⟨o2, e2⟩ := o1.setNext h5 (fun x b hx hb => by cases hx; cases hb; rw [widen_new, widen_old hcl]; exact ⟨by omega, by omega⟩)
            rw [e1] at e2
            exact ⟨_, o2, fun b hb => by have := h1 b hb; simp only [e2]; omega, fun b hb => by have := h2 b hb; simp only [e2]; omega⟩

/-! ## LREM -/

/-- the `next` field of a node -/
def nextOf (h : List LNode) (a : Nat) : Option (Option Nat) := (h[a]?).map (·.next)
/-- the `prev` field of a node -/
def prevOf (h : List LNode) (a : Nat) : Option (Option Nat) := (h[a]?).map (·.prev)

theorem nextOf_setNext {h h' : List LNode} {a v} (hl : setNext h (some a) v = .ok h') (x : Nat) :
    nextOf h' x = if x = a then some v else nextOf h x := by
  obtain ⟨_, m, e, hm, rfl⟩ := setNext_ok hl
  cases e
  have hlt := (List.getElem?_eq_some_iff.mp hm).1
  unfold nextOf
  rw [List.getElem?_set]
  split
  · next he => rw [if_pos he.symm]; rfl
  · next he => rw [if_neg (Ne.symm he)]

theorem nextOf_setPrev {h h' : List LNode} {p v} (hl : setPrev h p v = .ok h') (x : Nat) : nextOf h' x = nextOf h x := by
  obtain ⟨a, m, rfl, hm, rfl⟩ := setPrev_ok hl
  have hlt := (List.getElem?_eq_some_iff.mp hm).1
  unfold nextOf
  rw [List.getElem?_set]
  split
  · next he => subst he; rw [hm]; rfl
  · rfl

theorem nextOf_setPrevIf {h h' : List LNode} {p v} (hl : setPrevIf h p v = .ok h') (x : Nat) : nextOf h' x = nextOf h x := by
  unfold setPrevIf at hl
  split at hl
  · cases hl; rfl
  · exact nextOf_setPrev hl x

theorem load_nextOf {h : List LNode} {p n} (hl : load h p = .ok n) : ∃ a, p = some a ∧ nextOf h a = some n.next := by
  obtain ⟨a, rfl, hn⟩ := load_ok hl
  exact ⟨a, rfl, by unfold nextOf; rw [hn]; rfl⟩

theorem Ordered.nextOf {r h} (ho : Ordered r h) {a b} (hn : LObj.nextOf h a = some (some b)) : r a < r b ∧ b < h.length := by
  unfold LObj.nextOf at hn
  rw [Option.map_eq_some_iff] at hn
  obtain ⟨m, hm, hb⟩ := hn
  exact ho.next a m b hm hb

/-- where the loop of `LRemCountFromHead` is -/
structure HeadInv (r : Nat → Int) (h : List LNode) (prev cur next : Option Nat) : Prop where
  ord : Ordered r h
  prev : ∀ p, prev = some p → p < h.length ∧ nextOf h p = some cur
  next : ∀ c, cur = some c → nextOf h c = some next

theorem HeadInv.cur_lt {r h p c next} (hi : HeadInv r h (some p) (some c) next) : r p < r c ∧ c < h.length := hi.ord.nextOf (hi.prev p rfl).2
theorem HeadInv.next_lt {r h prev c d} (hi : HeadInv r h prev (some c) (some d)) : r c < r d ∧ d < h.length := hi.ord.nextOf (hi.next c rfl)

theorem lRemHeadLoop_links {r : Nat → Int} {value : Bytes} : ∀ fuel h p cur next n cnt, HeadInv r h (some p) cur next →
    (∀ c, cur = some c → above r h.length c < fuel) →
    ND (lRemHeadLoop value fuel h (some p) cur next n cnt) ∧
    ∀ h' p' cnt', lRemHeadLoop value fuel h (some p) cur next n cnt = .ok (h', p', cnt') → Ordered r h' ∧ h'.length = h.length := by
  intro fuel
  induction fuel with
  | zero =>
    intro h p cur next n cnt hi hf
    cases cur with
    | some c => exact absurd (hf c rfl) (Nat.not_lt_zero _)
    | none =>
      unfold lRemHeadLoop
      rw [if_pos (.inl rfl)]
      exact ⟨.ok _, fun h' p' cnt' e => by cases e; exact ⟨hi.ord, rfl⟩⟩
  | succ fuel ih =>
    intro h p cur next n cnt hi hf
    unfold lRemHeadLoop
    split
    · exact ⟨.ok _, fun h' p' cnt' e => by cases e; exact ⟨hi.ord, rfl⟩⟩
    · next hc =>
      cases cur with
      | none => exact absurd (.inl rfl) hc
      | some c =>
        have hpc := hi.cur_lt
        have hca := hf c rfl
        -- the node after `next` in a heap with the same order
        have hstep : ∀ h2, Ordered r h2 → h2.length = h.length → ∀ d, next = some d → above r h2.length d < fuel := by
          rintro h2 o2 e2 d rfl
          obtain ⟨h3, h4⟩ := hi.next_lt
          have := above_lt (r := r) (n := h.length) (x := c) (y := d) (by omega) h4
          rw [e2]; omega
        have hnx : ∀ h2, ND (match next with | none => (.ok none : Go (Option Nat)) | some _ => do let x ← load h2 next; .ok x.next) := by
          intro h2
          split
          · exact .ok _
          · exact (nd_load _ _).bind (fun _ _ => .ok _)
        have hnx2 : ∀ h2 nx, (match next with | none => (.ok none : Go (Option Nat)) | some _ => do let x ← load h2 next; .ok x.next) = .ok nx →
            ∀ d, next = some d → nextOf h2 d = some nx := by
          rintro h2 nx he d rfl
          obtain ⟨x, hx, he⟩ := bind_ok he
          cases he
          obtain ⟨_, e, hx⟩ := load_nextOf hx
          cases e; exact hx
        have hrem : ∀ h1 h2 h3 h4 nx, setNext h (some p) next = .ok h1 → setPrevIf h1 next (some p) = .ok h2 → setPrev h2 (some c) none = .ok h3 →
            setNext h3 (some c) none = .ok h4 →
            (match next with | none => (.ok none : Go (Option Nat)) | some _ => do let x ← load h4 next; .ok x.next) = .ok nx →
            HeadInv r h4 (some p) next nx ∧ h4.length = h.length := by
          intro h1 h2 h3 h4 nx e1 e2 e3 e4 en
          obtain ⟨o1, l1⟩ := hi.ord.setNext e1 (fun a b ha hb => by
            cases ha; subst hb
            have := hi.next_lt
            exact ⟨by omega, this.2⟩)
          obtain ⟨o2, l2⟩ := o1.setPrevIf e2 (fun a b ha hb => by
            subst ha; cases hb
            have := hi.next_lt
            exact ⟨by omega, by rw [l1]; exact (hi.prev p rfl).1⟩)
          obtain ⟨o3, l3⟩ := o2.setPrev e3 (fun _ _ _ hb => by cases hb)
          obtain ⟨o4, l4⟩ := o3.setNext e4 (fun _ _ _ hb => by cases hb)
          have hne : p ≠ c := by rintro rfl; omega
          refine ⟨⟨o4, fun q hq => ?_, fun d hd => hnx2 h4 nx en d hd⟩, by omega⟩
          cases hq
          refine ⟨by rw [l4, l3, l2, l1]; exact (hi.prev p rfl).1, ?_⟩
          rw [nextOf_setNext e4, if_neg hne, nextOf_setPrev e3, nextOf_setPrevIf e2, nextOf_setNext e1, if_pos rfl]
        have hskip : ∀ pn nx, load h (some p) = .ok pn →
            (match next with | none => (.ok none : Go (Option Nat)) | some _ => do let x ← load h next; .ok x.next) = .ok nx →
            pn.next = some c ∧ HeadInv r h (some c) next nx := by
          intro pn nx e1 en
          obtain ⟨_, e, hpn⟩ := load_nextOf e1
          cases e
          refine ⟨?_, hi.ord, fun q hq => ?_, fun d hd => hnx2 h nx en d hd⟩
          · have := (hi.prev p rfl).2
            rw [this] at hpn; exact (Option.some.inj hpn).symm
          · cases hq; exact ⟨hpc.2, hi.next c rfl⟩
        constructor
        · refine (nd_load _ _).bind (fun cn hcn => ?_)
          dsimp only
          split
          · refine (nd_setNext _ _ _).bind (fun h1 e1 => (nd_setPrevIf _ _ _).bind (fun h2 e2 => (nd_setPrev _ _ _).bind (fun h3 e3 => (nd_setNext _ _ _).bind (fun h4 e4 => ?_))))
            refine (hnx h4).bind (fun nx en => ?_)
            obtain ⟨hi', hl⟩ := hrem h1 h2 h3 h4 nx e1 e2 e3 e4 en
            exact (ih h4 p next nx (n - 1) (cnt + 1) hi' (hstep h4 hi'.ord hl)).1
          · refine (nd_load _ _).bind (fun pn e1 => (hnx h).bind (fun nx en => ?_))
            obtain ⟨e, hi'⟩ := hskip pn nx e1 en
            rw [e]
            exact (ih h c next nx n cnt hi' (hstep h hi.ord rfl)).1
        · intro h' p' cnt' he
          obtain ⟨cn, hcn, he⟩ := bind_ok he
          dsimp only at he
          split at he
          · obtain ⟨h1, e1, he⟩ := bind_ok he
            obtain ⟨h2, e2, he⟩ := bind_ok he
            obtain ⟨h3, e3, he⟩ := bind_ok he
            obtain ⟨h4, e4, he⟩ := bind_ok he
            obtain ⟨nx, en, he⟩ := bind_ok he
            obtain ⟨hi', hl⟩ := hrem h1 h2 h3 h4 nx e1 e2 e3 e4 en
            obtain ⟨o5, l5⟩ := (ih h4 p next nx (n - 1) (cnt + 1) hi' (hstep h4 hi'.ord hl)).2 _ _ _ he
            exact ⟨o5, by omega⟩
          · obtain ⟨pn, e1, he⟩ := bind_ok he
            obtain ⟨nx, en, he⟩ := bind_ok he
            obtain ⟨e, hi'⟩ := hskip pn nx e1 en
            rw [e] at he
            exact (ih h c next nx n cnt hi' (hstep h hi.ord rfl)).2 _ _ _ he

theorem prevOf_setPrev {h h' : List LNode} {a v} (hl : setPrev h (some a) v = .ok h') (x : Nat) :
    prevOf h' x = if x = a then some v else prevOf h x := by
  obtain ⟨_, m, e, hm, rfl⟩ := setPrev_ok hl
  cases e
  have hlt := (List.getElem?_eq_some_iff.mp hm).1
  unfold prevOf
  rw [List.getElem?_set]
  split
  · next he => rw [if_pos he.symm]; rfl
  · next he => rw [if_neg (Ne.symm he)]

theorem prevOf_setNext {h h' : List LNode} {p v} (hl : setNext h p v = .ok h') (x : Nat) : prevOf h' x = prevOf h x := by
  obtain ⟨a, m, rfl, hm, rfl⟩ := setNext_ok hl
  have hlt := (List.getElem?_eq_some_iff.mp hm).1
  unfold prevOf
  rw [List.getElem?_set]
  split
  · next he => subst he; rw [hm]; rfl
  · rfl

theorem prevOf_setNextIf {h h' : List LNode} {p v} (hl : setNextIf h p v = .ok h') (x : Nat) : prevOf h' x = prevOf h x := by
  unfold setNextIf at hl
  split at hl
  · cases hl; rfl
  · exact prevOf_setNext hl x

theorem load_prevOf {h : List LNode} {p n} (hl : load h p = .ok n) : ∃ a, p = some a ∧ prevOf h a = some n.prev := by
  obtain ⟨a, rfl, hn⟩ := load_ok hl
  exact ⟨a, rfl, by unfold prevOf; rw [hn]; rfl⟩

theorem Ordered.prevOf {r h} (ho : Ordered r h) {a b} (hn : LObj.prevOf h a = some (some b)) : r b < r a ∧ b < h.length := by
  unfold LObj.prevOf at hn
  rw [Option.map_eq_some_iff] at hn
  obtain ⟨m, hm, hb⟩ := hn
  exact ho.prev a m b hm hb

/-- where the loop of `LRemCountFromTail` is -/
structure TailInv (r : Nat → Int) (h : List LNode) (prev cur next : Option Nat) : Prop where
  ord : Ordered r h
  prev : ∀ p, prev = some p → p < h.length ∧ prevOf h p = some cur
  next : ∀ c, cur = some c → prevOf h c = some next

theorem TailInv.cur_lt {r h p c next} (hi : TailInv r h (some p) (some c) next) : r c < r p ∧ c < h.length := hi.ord.prevOf (hi.prev p rfl).2
theorem TailInv.next_lt {r h prev c d} (hi : TailInv r h prev (some c) (some d)) : r d < r c ∧ d < h.length := hi.ord.prevOf (hi.next c rfl)

theorem lRemTailLoop_links {r : Nat → Int} {value : Bytes} : ∀ fuel h p cur next n cnt, TailInv r h (some p) cur next →
    (∀ c, cur = some c → above (fun a => - r a) h.length c < fuel) →
    ND (lRemTailLoop value fuel h (some p) cur next n cnt) ∧
    ∀ h' p' cnt', lRemTailLoop value fuel h (some p) cur next n cnt = .ok (h', p', cnt') → Ordered r h' ∧ h'.length = h.length := by
  intro fuel
  induction fuel with
  | zero =>
    intro h p cur next n cnt hi hf
    cases cur with
    | some c => exact absurd (hf c rfl) (Nat.not_lt_zero _)
    | none =>
      unfold lRemTailLoop
      rw [if_pos (.inl rfl)]
      exact ⟨.ok _, fun h' p' cnt' e => by cases e; exact ⟨hi.ord, rfl⟩⟩
  | succ fuel ih =>
    intro h p cur next n cnt hi hf
    unfold lRemTailLoop
    split
    · exact ⟨.ok _, fun h' p' cnt' e => by cases e; exact ⟨hi.ord, rfl⟩⟩
    · next hc =>
      cases cur with
      | none => exact absurd (.inl rfl) hc
      | some c =>
        have hpc := hi.cur_lt
        have hca := hf c rfl
        -- the node after `next` in a heap with the same order
        have hstep : ∀ h2, Ordered r h2 → h2.length = h.length → ∀ d, next = some d → above (fun a => - r a) h2.length d < fuel := by
          rintro h2 o2 e2 d rfl
          obtain ⟨h3, h4⟩ := hi.next_lt
          have := above_lt (r := (fun a => - r a)) (n := h.length) (x := c) (y := d) (by omega) h4
          rw [e2]; omega
        have hnx : ∀ h2, ND (match next with | none => (.ok none : Go (Option Nat)) | some _ => do let x ← load h2 next; .ok x.prev) := by
          intro h2
          split
          · exact .ok _
          · exact (nd_load _ _).bind (fun _ _ => .ok _)
        have hnx2 : ∀ h2 nx, (match next with | none => (.ok none : Go (Option Nat)) | some _ => do let x ← load h2 next; .ok x.prev) = .ok nx →
            ∀ d, next = some d → prevOf h2 d = some nx := by
          rintro h2 nx he d rfl
          obtain ⟨x, hx, he⟩ := bind_ok he
          cases he
          obtain ⟨_, e, hx⟩ := load_prevOf hx
          cases e; exact hx
        have hrem : ∀ h1 h2 h3 h4 nx, setPrev h (some p) next = .ok h1 → setNextIf h1 next (some p) = .ok h2 → setPrev h2 (some c) none = .ok h3 →
            setNext h3 (some c) none = .ok h4 →
            (match next with | none => (.ok none : Go (Option Nat)) | some _ => do let x ← load h4 next; .ok x.prev) = .ok nx →
            TailInv r h4 (some p) next nx ∧ h4.length = h.length := by
          intro h1 h2 h3 h4 nx e1 e2 e3 e4 en
          obtain ⟨o1, l1⟩ := hi.ord.setPrev e1 (fun a b ha hb => by
            cases ha; subst hb
            have := hi.next_lt
            exact ⟨by omega, this.2⟩)
          obtain ⟨o2, l2⟩ := o1.setNextIf e2 (fun a b ha hb => by
            subst ha; cases hb
            have := hi.next_lt
            exact ⟨by omega, by rw [l1]; exact (hi.prev p rfl).1⟩)
          obtain ⟨o3, l3⟩ := o2.setPrev e3 (fun _ _ _ hb => by cases hb)
          obtain ⟨o4, l4⟩ := o3.setNext e4 (fun _ _ _ hb => by cases hb)
          have hne : p ≠ c := by rintro rfl; omega
          refine ⟨⟨o4, fun q hq => ?_, fun d hd => hnx2 h4 nx en d hd⟩, by omega⟩
          cases hq
          refine ⟨by rw [l4, l3, l2, l1]; exact (hi.prev p rfl).1, ?_⟩
          rw [prevOf_setNext e4, prevOf_setPrev e3, if_neg hne, prevOf_setNextIf e2, prevOf_setPrev e1, if_pos rfl]
        have hskip : ∀ pn nx, load h (some p) = .ok pn →
            (match next with | none => (.ok none : Go (Option Nat)) | some _ => do let x ← load h next; .ok x.prev) = .ok nx →
            pn.prev = some c ∧ TailInv r h (some c) next nx := by
          intro pn nx e1 en
          obtain ⟨_, e, hpn⟩ := load_prevOf e1
          cases e
          refine ⟨?_, hi.ord, fun q hq => ?_, fun d hd => hnx2 h nx en d hd⟩
          · have := (hi.prev p rfl).2
            rw [this] at hpn; exact (Option.some.inj hpn).symm
          · cases hq; exact ⟨hpc.2, hi.next c rfl⟩
        constructor
        · refine (nd_load _ _).bind (fun cn hcn => ?_)
          dsimp only
          split
          · refine (nd_setPrev _ _ _).bind (fun h1 e1 => (nd_setNextIf _ _ _).bind (fun h2 e2 => (nd_setPrev _ _ _).bind (fun h3 e3 => (nd_setNext _ _ _).bind (fun h4 e4 => ?_))))
            refine (hnx h4).bind (fun nx en => ?_)
            obtain ⟨hi', hl⟩ := hrem h1 h2 h3 h4 nx e1 e2 e3 e4 en
            exact (ih h4 p next nx (n - 1) (cnt + 1) hi' (hstep h4 hi'.ord hl)).1
          · refine (nd_load _ _).bind (fun pn e1 => (hnx h).bind (fun nx en => ?_))
            obtain ⟨e, hi'⟩ := hskip pn nx e1 en
            rw [e]
            exact (ih h c next nx n cnt hi' (hstep h hi.ord rfl)).1
        · intro h' p' cnt' he
          obtain ⟨cn, hcn, he⟩ := bind_ok he
          dsimp only at he
          split at he
          · obtain ⟨h1, e1, he⟩ := bind_ok he
            obtain ⟨h2, e2, he⟩ := bind_ok he
            obtain ⟨h3, e3, he⟩ := bind_ok he
            obtain ⟨h4, e4, he⟩ := bind_ok he
            obtain ⟨nx, en, he⟩ := bind_ok he
            obtain ⟨hi', hl⟩ := hrem h1 h2 h3 h4 nx e1 e2 e3 e4 en
            obtain ⟨o5, l5⟩ := (ih h4 p next nx (n - 1) (cnt + 1) hi' (hstep h4 hi'.ord hl)).2 _ _ _ he
            exact ⟨o5, by omega⟩
          · obtain ⟨pn, e1, he⟩ := bind_ok he
            obtain ⟨nx, en, he⟩ := bind_ok he
            obtain ⟨e, hi'⟩ := hskip pn nx e1 en
            rw [e] at he
            exact (ih h c next nx n cnt hi' (hstep h hi.ord rfl)).2 _ _ _ he

theorem lRemCountFromHead_spec {l : LObj} (hl : Ok l) (value : Bytes) (n : Int) :
    ND (l.lRemCountFromHead value n) ∧ ∀ l' m, l.lRemCountFromHead value n = .ok (l', m) → Ok l' := by
  obtain ⟨r, ho, h1, h2⟩ := hl
  have key : ∀ hd, load (l.nodes ++ [(⟨l.head, none, []⟩ : LNode)]) l.head = .ok hd → ∃ r',
      (ND (lRemHeadLoop value (l.nodes ++ [(⟨l.head, none, []⟩ : LNode)]).length (l.nodes ++ [(⟨l.head, none, []⟩ : LNode)]) (some l.nodes.length) l.head hd.next n 0)) ∧
      ∀ h' p' cnt', lRemHeadLoop value (l.nodes ++ [(⟨l.head, none, []⟩ : LNode)]).length (l.nodes ++ [(⟨l.head, none, []⟩ : LNode)]) (some l.nodes.length) l.head hd.next n 0 = .ok (h', p', cnt') →
        Ordered r' h' ∧ h'.length = (l.nodes ++ [(⟨l.head, none, []⟩ : LNode)]).length := by
    intro hd hhd
    obtain ⟨a, e, hn⟩ := load_nextOf hhd
    have halt := h1 a e
    have o1 : Ordered (widen r l.nodes.length (2 * r a - 1)) (l.nodes ++ [(⟨l.head, none, []⟩ : LNode)]) :=
      ho.fresh _ (fun b hb => by rw [e] at hb; cases hb; exact ⟨by omega, halt⟩) (fun b hb => by cases hb)
    refine ⟨_, lRemHeadLoop_links (r := widen r l.nodes.length (2 * r a - 1)) _ _ _ _ _ n 0 ⟨o1, ?_, ?_⟩ ?_⟩
    · intro p hp
      cases hp
      refine ⟨by simp, ?_⟩
      unfold nextOf
      simp
    · intro c hc
      rw [e] at hc; cases hc; exact hn
    · intro c hc
      rw [e] at hc; cases hc
      exact above_lt_n (by rw [List.length_append]; omega)
  unfold lRemCountFromHead
  constructor
  · refine (nd_load _ _).bind (fun hd hhd => ?_)
    obtain ⟨r', k1, k2⟩ := key hd hhd
    refine k1.bind (fun x _ => ?_)
    refine (nd_load _ _).bind (fun p _ => (nd_load _ _).bind (fun d _ => ?_))
    exact (nd_setPrevIf _ _ _).bind (fun _ _ => .ok _)
  · intro l' m he
    obtain ⟨hd, hhd, he⟩ := bind_ok he
    obtain ⟨r', k1, k2⟩ := key hd hhd
    obtain ⟨⟨h', p', cnt'⟩, hx, he⟩ := bind_ok he
    obtain ⟨o2, l2⟩ := k2 h' p' cnt' hx
    obtain ⟨p, hp, he⟩ := bind_ok he
    obtain ⟨d, hd', he⟩ := bind_ok he
    obtain ⟨h3, hs, he⟩ := bind_ok he
    cases he
    obtain ⟨o3, l3⟩ := o2.setPrevIf hs (fun _ _ _ hb => by cases hb)
    obtain ⟨a, e1, hpa⟩ := load_ok hp
    subst e1
    obtain ⟨b, e2, hd'⟩ := load_nextOf hd'
    have hal := (List.getElem?_eq_some_iff.mp hpa).1
    rw [List.length_append] at l2
    have hx1 : ∀ c, d.next = some c → c < h3.length := fun c hc => by
      rw [l3]; exact (o2.nextOf (by rw [hd', hc])).2
    have hx2 : ∀ c, (if p.next = none then some a else l.tail) = some c → c < h3.length := fun c hc => by
      split at hc
      · cases hc; rw [l3]; exact hal
      · have := h2 c hc
        omega
    exact ⟨r', o3, hx1, hx2⟩

theorem lRemCountFromTail_spec {l : LObj} (hl : Ok l) (value : Bytes) (n : Int) :
    ND (l.lRemCountFromTail value n) ∧ ∀ l' m, l.lRemCountFromTail value n = .ok (l', m) → Ok l' := by
  obtain ⟨r, ho, h1, h2⟩ := hl
  have key : ∀ hd, load (l.nodes ++ [(⟨none, l.tail, []⟩ : LNode)]) l.tail = .ok hd → ∃ r',
      (ND (lRemTailLoop value (l.nodes ++ [(⟨none, l.tail, []⟩ : LNode)]).length (l.nodes ++ [(⟨none, l.tail, []⟩ : LNode)]) (some l.nodes.length) l.tail hd.prev n 0)) ∧
      ∀ h' p' cnt', lRemTailLoop value (l.nodes ++ [(⟨none, l.tail, []⟩ : LNode)]).length (l.nodes ++ [(⟨none, l.tail, []⟩ : LNode)]) (some l.nodes.length) l.tail hd.prev n 0 = .ok (h', p', cnt') →
        Ordered r' h' ∧ h'.length = (l.nodes ++ [(⟨none, l.tail, []⟩ : LNode)]).length := by
    intro hd hhd
    obtain ⟨a, e, hn⟩ := load_prevOf hhd
    have halt := h2 a e
    have o1 : Ordered (widen r l.nodes.length (2 * r a + 1)) (l.nodes ++ [(⟨none, l.tail, []⟩ : LNode)]) :=
      ho.fresh _ (fun b hb => by cases hb) (fun b hb => by rw [e] at hb; cases hb; exact ⟨by omega, halt⟩)
    refine ⟨_, lRemTailLoop_links (r := widen r l.nodes.length (2 * r a + 1)) _ _ _ _ _ n 0 ⟨o1, ?_, ?_⟩ ?_⟩
    · intro p hp
      cases hp
      refine ⟨by simp, ?_⟩
      unfold prevOf
      simp
    · intro c hc
      rw [e] at hc; cases hc; exact hn
    · intro c hc
      rw [e] at hc; cases hc
      exact above_lt_n (by rw [List.length_append]; omega)
  unfold lRemCountFromTail
  constructor
  · refine (nd_load _ _).bind (fun hd hhd => ?_)
    obtain ⟨r', k1, k2⟩ := key hd hhd
    refine k1.bind (fun x _ => ?_)
    refine (nd_load _ _).bind (fun p _ => (nd_load _ _).bind (fun d _ => ?_))
    exact (nd_setNextIf _ _ _).bind (fun _ _ => .ok _)
  · intro l' m he
    obtain ⟨hd, hhd, he⟩ := bind_ok he
    obtain ⟨r', k1, k2⟩ := key hd hhd
    obtain ⟨⟨h', p', cnt'⟩, hx, he⟩ := bind_ok he
    obtain ⟨o2, l2⟩ := k2 h' p' cnt' hx
    obtain ⟨p, hp, he⟩ := bind_ok he
    obtain ⟨d, hd', he⟩ := bind_ok he
    obtain ⟨h3, hs, he⟩ := bind_ok he
    cases he
    obtain ⟨o3, l3⟩ := o2.setNextIf hs (fun _ _ _ hb => by cases hb)
    obtain ⟨a, e1, hpa⟩ := load_ok hp
    subst e1
    obtain ⟨b, e2, hd'⟩ := load_prevOf hd'
    have hal := (List.getElem?_eq_some_iff.mp hpa).1
    rw [List.length_append] at l2
    have hx1 : ∀ c, d.prev = some c → c < h3.length := fun c hc => by
      rw [l3]; exact (o2.prevOf (by rw [hd', hc])).2
    have hx2 : ∀ c, (if p.prev = none then some a else l.head) = some c → c < h3.length := fun c hc => by
      split at hc
      · cases hc; rw [l3]; exact hal
      · have := h1 c hc
        omega
    exact ⟨r', o3, hx2, hx1⟩

end LObj
end Godis
