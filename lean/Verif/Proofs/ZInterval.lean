import Verif.Proofs.ZSets4
/-! Score intervals: when the positions the server computes are right. -/
namespace Godis
open ZSpec
open ListSpec (window)

theorem before_iff {a b : Entry} : before a b = true ↔
    a.1.isNaN = false ∧ b.1.isNaN = false ∧ (a.1.key < b.1.key ∨ a.1.key = b.1.key ∧ a.2 < b.2) := by
  simp only [before, Bool.or_eq_true, Bool.and_eq_true, F64.lt_iff, F64.eq_iff, decide_eq_true_eq]
  constructor
  · rintro (⟨h1, h2, h3⟩ | ⟨⟨h1, h2, h3⟩, h4⟩)
    · exact ⟨h1, h2, .inl h3⟩
    · exact ⟨h1, h2, .inr ⟨h3, h4⟩⟩
  · rintro ⟨h1, h2, h3 | ⟨h3, h4⟩⟩
    · exact .inl ⟨h1, h2, h3⟩
    · exact .inr ⟨⟨h1, h2, h3⟩, h4⟩

theorem before_key {a b : Entry} (h : before a b = true) : a.1.key ≤ b.1.key := by
  rw [before_iff] at h
  obtain ⟨_, _, h | ⟨h, _⟩⟩ := h <;> omega

/-- a condition that holds of a prefix -/
theorem filter_cut {α : Type} {R : α → α → Prop} {c : α → Bool} (hc : ∀ a b, R a b → c b = true → c a = true) :
    ∀ {l : List α}, l.Pairwise R → l = l.filter c ++ l.filter (fun e => !c e)
  | [], _ => rfl
  | a :: l, h => by
    obtain ⟨h1, h2⟩ := List.pairwise_cons.mp h
    cases ha : c a with
    | true =>
      rw [List.filter_cons_of_pos ha, List.filter_cons_of_neg (by simp [ha]), List.cons_append, ← filter_cut hc h2]
    | false =>
      have hn : ∀ b ∈ l, c b = false := fun b hb => by
        cases hcb : c b with
        | false => rfl
        | true => rw [hc a b (h1 b hb) hcb] at ha; cases ha
      rw [List.filter_cons_of_neg (by simp [ha]), List.filter_cons_of_pos (by simp [ha])]
      rw [List.filter_eq_nil_iff.mpr (fun b hb => by simp [hn b hb]), List.filter_eq_self.mpr (fun b hb => by simp [hn b hb])]
      rfl

/-- between two prefixes -/
theorem filter_between {α : Type} {R : α → α → Prop} {c1 c2 : α → Bool} (h1 : ∀ a b, R a b → c1 b = true → c1 a = true)
    (h2 : ∀ a b, R a b → c2 b = true → c2 a = true) {l : List α} (hl : l.Pairwise R) (h12 : ∀ a ∈ l, c1 a = true → c2 a = true) :
    l.filter (fun e => !c1 e && c2 e) = (l.drop (l.filter c1).length).take ((l.filter c2).length - (l.filter c1).length) ∧
      (l.filter c1).length ≤ (l.filter c2).length ∧
      (l.filter (fun e => !c1 e && c2 e)).length = (l.filter c2).length - (l.filter c1).length := by
  have e1 : (l.filter c2).filter c1 = l.filter c1 := by
    rw [List.filter_filter]
    refine List.filter_congr (fun a ha => ?_)
    cases hc : c1 a with
    | false => simp
    | true => simp [h12 a ha hc]
  have e2 : l.filter (fun e => !c1 e && c2 e) = (l.filter c2).filter (fun e => !c1 e) := by rw [List.filter_filter]
  have e3 := filter_cut h1 (hl.filter c2)
  rw [e1, ← e2] at e3
  have e4 := filter_cut h2 hl
  have e5 : l.take (l.filter c2).length = l.filter c2 := by
    conv_lhs => arg 2; rw [e4]
    rw [List.take_left']
    rfl
  have len : (l.filter c2).length = (l.filter c1).length + (l.filter (fun e => !c1 e && c2 e)).length := by
    conv_lhs => rw [e3]
    rw [List.length_append]
  refine ⟨?_, by omega, by omega⟩
  rw [← List.drop_take, e5]
  conv_rhs => arg 2; rw [e3]
  rw [List.drop_left']
  rfl

theorem key_bounds {x : F64} (h : x.isNaN = false) : F64.negInf.key ≤ x.key ∧ x.key ≤ F64.posInf.key := by
  have h1 : F64.negInf.key = -(F64.infMag : Int) := by decide
  have h2 : F64.posInf.key = (F64.infMag : Int) := by decide
  have h3 : x.mag ≤ F64.infMag := by unfold F64.isNaN at h; simpa using h
  rw [h1, h2]
  unfold F64.key
  split <;> omega

theorem less_le (l : List Entry) (hnum : ∀ e ∈ l, e.1.isNaN = false) (sc : F64) : atMost l sc = less l sc + equal l sc := by
  unfold atMost less equal
  induction l with
  | nil => rfl
  | cons a l ih =>
    have ih := ih (fun e he => hnum e (by simp [he]))
    have ha := hnum a (by simp)
    simp only [List.filter_cons]
    cases hs : sc.isNaN with
    | true => simp [F64.le, F64.lt, F64.eq, hs] at ih ⊢
    | false =>
      rcases Int.lt_trichotomy a.1.key sc.key with h | h | h
      · have h1 : a.1.le sc = true := F64.le_iff.mpr ⟨ha, hs, by omega⟩
        have h2 : a.1.lt sc = true := F64.lt_iff.mpr ⟨ha, hs, h⟩
        have h3 : a.1.eq sc = false := by simp [F64.eq]; intros; omega
        simp [h1, h2, h3]; omega
      · have h1 : a.1.le sc = true := F64.le_iff.mpr ⟨ha, hs, by omega⟩
        have h2 : a.1.lt sc = false := by simp [F64.lt]; intros; omega
        have h3 : a.1.eq sc = true := F64.eq_iff.mpr ⟨ha, hs, h⟩
        simp [h1, h2, h3]; omega
      · have h1 : a.1.le sc = false := by simp [F64.le]; intros; omega
        have h2 : a.1.lt sc = false := by simp [F64.lt]; intros; omega
        have h3 : a.1.eq sc = false := by simp [F64.eq]; intros; omega
        simp [h1, h2, h3]; omega

/-- below the interval -/
def under (lo : F64 × Bool) (e : Entry) : Bool := if lo.2 then e.1.le lo.1 else e.1.lt lo.1
/-- not above the interval -/
def upto (hi : F64 × Bool) (e : Entry) : Bool := if hi.2 then e.1.lt hi.1 else e.1.le hi.1

theorem within_eq {lo hi : F64 × Bool} {e : Entry} (he : e.1.isNaN = false) (hlo : lo.1.isNaN = false) :
    within lo hi e.1 = (!under lo e && upto hi e) := by
  have h1 : lo.1.lt e.1 = !e.1.le lo.1 := by
    rw [Bool.eq_iff_iff]; simp only [F64.lt, F64.le, he, hlo]; simp
  have h2 : lo.1.le e.1 = !e.1.lt lo.1 := by
    rw [Bool.eq_iff_iff]; simp only [F64.lt, F64.le, he, hlo]; simp
  unfold within under upto
  rw [h1, h2]
  cases lo.2 <;> rfl

theorem under_mono {lo : F64 × Bool} {a b : Entry} (h : before a b = true) (hb : under lo b = true) : under lo a = true := by
  have hk := before_key h
  have ha := (before_iff.mp h).1
  unfold under at *
  split at hb
  · next hh =>
    rw [if_pos hh]
    obtain ⟨_, h2, h3⟩ := F64.le_iff.mp hb
    exact F64.le_iff.mpr ⟨ha, h2, by omega⟩
  · next hh =>
    rw [if_neg hh]
    obtain ⟨_, h2, h3⟩ := F64.lt_iff.mp hb
    exact F64.lt_iff.mpr ⟨ha, h2, by omega⟩

theorem upto_mono {hi : F64 × Bool} {a b : Entry} (h : before a b = true) (hb : upto hi b = true) : upto hi a = true := by
  have hk := before_key h
  have ha := (before_iff.mp h).1
  unfold upto at *
  split at hb
  · next hh =>
    rw [if_pos hh]
    obtain ⟨_, h2, h3⟩ := F64.lt_iff.mp hb
    exact F64.lt_iff.mpr ⟨ha, h2, by omega⟩
  · next hh =>
    rw [if_neg hh]
    obtain ⟨_, h2, h3⟩ := F64.le_iff.mp hb
    exact F64.le_iff.mpr ⟨ha, h2, by omega⟩

theorem under_upto {lo hi : F64 × Bool} (h : Upright lo hi) {a : Entry} (ha : under lo a = true) : upto hi a = true := by
  unfold under at ha; unfold upto
  rcases h with h | ⟨h, hf⟩
  · obtain ⟨h1, h2, h3⟩ := F64.lt_iff.mp h
    split at ha
    · obtain ⟨h4, h5, h6⟩ := F64.le_iff.mp ha
      split
      · exact F64.lt_iff.mpr ⟨h4, h2, by omega⟩
      · exact F64.le_iff.mpr ⟨h4, h2, by omega⟩
    · obtain ⟨h4, h5, h6⟩ := F64.lt_iff.mp ha
      split
      · exact F64.lt_iff.mpr ⟨h4, h2, by omega⟩
      · exact F64.le_iff.mpr ⟨h4, h2, by omega⟩
  · obtain ⟨h1, h2, h3⟩ := F64.le_iff.mp h
    split at ha
    · next hl =>
      rcases hf with hf | hf
      · rw [hf] at hl; cases hl
      · obtain ⟨h4, h5, h6⟩ := F64.le_iff.mp ha
        rw [hf]
        exact F64.le_iff.mpr ⟨h4, h2, by omega⟩
    · obtain ⟨h4, h5, h6⟩ := F64.lt_iff.mp ha
      split
      · exact F64.lt_iff.mpr ⟨h4, h2, by omega⟩
      · exact F64.le_iff.mpr ⟨h4, h2, by omega⟩

/-- the entries in the interval, by position -/
theorem within_slice {l : List Entry} (hl : Entries l) {lo hi : F64 × Bool} (hu : Upright lo hi) :
    l.filter (fun e => within lo hi e.1) = (l.drop (l.filter (under lo)).length).take ((l.filter (upto hi)).length - (l.filter (under lo)).length) ∧
      (l.filter (under lo)).length ≤ (l.filter (upto hi)).length ∧
      (l.filter (fun e => within lo hi e.1)).length = (l.filter (upto hi)).length - (l.filter (under lo)).length := by
  have hlo : lo.1.isNaN = false := by
    rcases hu with h | ⟨h, _⟩
    · exact (F64.lt_iff.mp h).1
    · exact (F64.le_iff.mp h).1
  have he : l.filter (fun e => within lo hi e.1) = l.filter (fun e => !under lo e && upto hi e) :=
    List.filter_congr (fun e he => within_eq (hl.num e he) hlo)
  rw [he]
  exact filter_between (fun a b h => under_mono h) (fun a b h => upto_mono h) hl.ascending (fun a _ => under_upto hu)

/-- the lower position -/
theorem low_cut {l : List Entry} (hl : Entries l) {lo : F64 × Bool} {r : Int} (hr : Cut 1 l lo r)
    (h : lo = (F64.negInf, false) ∨ lo.1.isInf = false ∧ (equal l lo.1 = 1 ∨ atMost l lo.1 = 0)) :
    (r ≤ 0 ∧ (l.filter (under lo)).length = 0) ∨ (r = (l.filter (under lo)).length + 1 ∧ lo.1.isInf = false) := by
  have hle := less_le l hl.num lo.1
  rcases h with rfl | ⟨hf, h⟩
  · left
    have h1 : (F64.negInf, false).1.isInf = true := by decide
    unfold Cut at hr
    rw [if_pos h1] at hr
    refine ⟨by omega, ?_⟩
    rw [List.length_eq_zero_iff, List.filter_eq_nil_iff]
    intro e he hc
    unfold under at hc
    simp only [Bool.false_eq_true, if_false] at hc
    obtain ⟨_, _, h2⟩ := F64.lt_iff.mp hc
    have := (key_bounds (hl.num e he)).1
    omega
  · unfold Cut at hr
    rw [if_neg (by simp [hf])] at hr
    rcases h with h | h
    · right
      refine ⟨?_, hf⟩
      by_cases ho : lo.2 = true
      · rw [if_pos ⟨ho, by omega⟩] at hr
        obtain ⟨j, j1, j2, j3⟩ := hr
        have : (l.filter (under lo)).length = atMost l lo.1 := by
          unfold under atMost; simp only [ho, if_true]
        omega
      · rw [if_neg (fun hh => ho hh.1)] at hr
        have : (l.filter (under lo)).length = less l lo.1 := by
          unfold under less; simp only [ho, Bool.false_eq_true, if_false]
        omega
    · left
      rw [if_neg (fun hh => hh.2 (by omega))] at hr
      refine ⟨by omega, ?_⟩
      have h1 : (l.filter (under lo)).length = atMost l lo.1 ∨ (l.filter (under lo)).length = less l lo.1 := by
        unfold under atMost less
        cases lo.2
        · right; rfl
        · left; rfl
      omega

/-- the upper position -/
theorem high_cut {l : List Entry} (hl : Entries l) {hi : F64 × Bool} {r : Int} (hr : Cut (-1) l hi r)
    (hf : hi.1.isInf = false) (h : hi.2 = false ∨ equal l hi.1 ≤ 1) : r = (l.filter (upto hi)).length := by
  have hle := less_le l hl.num hi.1
  unfold Cut at hr
  rw [if_neg (by simp [hf])] at hr
  by_cases ho : hi.2 = true
  · have e : (l.filter (upto hi)).length = less l hi.1 := by
      unfold upto less; simp only [ho, if_true]
    have h : equal l hi.1 ≤ 1 := by
      rcases h with h | h
      · rw [h] at ho; cases ho
      · exact h
    by_cases h0 : equal l hi.1 = 0
    · rw [if_neg (fun hh => hh.2 h0)] at hr; omega
    · rw [if_pos ⟨ho, h0⟩] at hr
      obtain ⟨j, j1, j2, j3⟩ := hr
      omega
  · rw [if_neg (fun hh => ho hh.1)] at hr
    have e : (l.filter (upto hi)).length = atMost l hi.1 := by
      unfold upto atMost; simp only [ho, Bool.false_eq_true, if_false]
    omega

theorem upto_inf {l : List Entry} (hl : Entries l) : l.filter (upto (F64.posInf, false)) = l := by
  rw [List.filter_eq_self]
  intro e he
  unfold upto
  simp only [Bool.false_eq_true, if_false]
  exact F64.le_iff.mpr ⟨hl.num e he, by decide, (key_bounds (hl.num e he)).2⟩

theorem within_all {l : List Entry} (hl : Entries l) : l.filter (fun e => within (F64.negInf, false) (F64.posInf, false) e.1) = l := by
  rw [List.filter_eq_self]
  intro e he
  have := key_bounds (hl.num e he)
  unfold within
  simp only [Bool.false_eq_true, if_false, Bool.and_eq_true]
  exact ⟨F64.le_iff.mpr ⟨by decide, hl.num e he, this.1⟩, F64.le_iff.mpr ⟨hl.num e he, by decide, this.2⟩⟩

theorem window_nat (l : List Entry) (a b : Nat) : window l a b = (l.drop a).take (b + 1 - a) := by
  rw [slice_window]
  unfold ZSL.normRange
  simp only
  rw [if_neg (show ¬ (a : Int) < 0 by omega), if_neg (show ¬ (b : Int) < 0 by omega)]
  by_cases h : (a : Int) > b ∨ (a : Int) ≥ l.length
  · rw [if_pos h]
    rcases h with h | h
    · rw [show b + 1 - a = 0 by omega]; simp
    · rw [List.drop_eq_nil_of_le (by omega)]; simp
  · rw [if_neg h]
    simp only [Int.toNat_natCast]
    by_cases hb : (b : Int) ≥ l.length
    · rw [if_pos hb, List.take_of_length_le (by simp; omega), List.take_of_length_le (by simp; omega)]
    · rw [if_neg hb]; congr 1; omega

/-- the two positions of an easy interval -/
theorem easy_cuts {l : List Entry} (hl : Entries l) {lo hi : F64 × Bool} (hu : Upright lo hi) (he : Easy l lo hi) (hn : ¬ everything lo hi)
    {r1 r2 : Int} (h1 : Cut 1 l lo r1) (h2 : Cut (-1) l hi r2) :
    ((r1 ≤ 0 ∧ (l.filter (under lo)).length = 0 ∧ r2 = (l.filter (upto hi)).length) ∨
      (r1 = (l.filter (under lo)).length + 1 ∧ r2 = (l.filter (upto hi)).length) ∨
      (r1 = (l.filter (under lo)).length + 1 ∧ r2 = -1 ∧ (l.filter (upto hi)).length = l.length)) := by
  rcases he with ⟨rfl, rfl⟩ | ⟨e1, e2, e3⟩ | ⟨e1, e2, rfl⟩
  · exact absurd ⟨rfl, rfl⟩ hn
  · have hh := high_cut hl h2 e2 e3
    rcases low_cut hl h1 e1 with ⟨a, b⟩ | ⟨a, b⟩
    · exact .inl ⟨a, b, hh⟩
    · exact .inr (.inl ⟨a, hh⟩)
  · have h3 : r2 = -1 := by
      unfold Cut at h2
      rw [if_pos (by decide)] at h2
      exact h2
    rw [upto_inf hl]
    have h4 : 1 ≤ (l.filter (fun e => e.1.eq lo.1)).length := by
      unfold equal at e2; omega
    rcases low_cut hl h1 (.inr ⟨e1, .inl e2⟩) with ⟨a, b⟩ | ⟨a, b⟩
    · exfalso
      unfold Cut at h1
      rw [if_neg (by simp [e1])] at h1
      have hle := less_le l hl.num lo.1
      split at h1
      · obtain ⟨j, j1, j2, j3⟩ := h1; omega
      · omega
    · exact .inr (.inr ⟨a, h3, rfl⟩)

theorem easy_count {l : List Entry} (hl : Entries l) {lo hi : F64 × Bool} (hu : Upright lo hi) (he : Easy l lo hi) (hn : ¬ everything lo hi)
    {r1 r2 : Int} (h1 : Cut 1 l lo r1) (h2 : Cut (-1) l hi r2) : countOf l.length r1 r2 = (l.filter (fun e => within lo hi e.1)).length := by
  obtain ⟨_, w2, w3⟩ := within_slice hl hu
  rw [w3]
  unfold countOf
  rcases easy_cuts hl hu he hn h1 h2 with ⟨a, b, c⟩ | ⟨a, c⟩ | ⟨a, b, c⟩
  · rw [if_pos a]; omega
  · rw [if_neg (by omega), if_neg (by omega)]; omega
  · rw [if_neg (by omega), if_pos (by omega)]; omega

theorem easy_window {l : List Entry} (hl : Entries l) {lo hi : F64 × Bool} (hu : Upright lo hi) (he : Easy l lo hi) (hn : ¬ everything lo hi)
    {r1 r2 : Int} (h1 : Cut 1 l lo r1) (h2 : Cut (-1) l hi r2) (hsome : ∃ e ∈ l, upto hi e = true) :
    window l (windowOf l.length r1 r2).1 (windowOf l.length r1 r2).2 = l.filter (fun e => within lo hi e.1) := by
  obtain ⟨w1, w2, w3⟩ := within_slice hl hu
  have hB : 1 ≤ (l.filter (upto hi)).length := by
    obtain ⟨e, e1, e2⟩ := hsome
    exact List.length_pos_of_mem (List.mem_filter.mpr ⟨e1, e2⟩)
  have hBl := List.length_filter_le (upto hi) l
  rw [w1]
  unfold windowOf
  have hc := easy_cuts hl hu he hn h1 h2
  generalize (l.filter (under lo)).length = A at *
  generalize (l.filter (upto hi)).length = B at *
  rcases hc with ⟨a, b, c⟩ | ⟨a, c⟩ | ⟨a, b, c⟩
  · rw [if_pos a]
    rw [show r2 - 1 = ((B - 1 : Nat) : Int) by omega]
    show window l ((0 : Nat) : Int) ((B - 1 : Nat) : Int) = _
    rw [window_nat l 0 (B - 1)]
    subst b
    congr 1; omega
  · rw [if_neg (by omega), if_neg (by omega), show r2 - 1 = ((B - 1 : Nat) : Int) by omega, show r1 - 1 = (A : Int) by omega, window_nat]
    congr 1; omega
  · rw [if_neg (by omega), if_pos (by omega), show r1 - 1 = (A : Int) by omega, window_nat]
    rw [List.take_of_length_le (by simp; omega), List.take_of_length_le (by simp; omega)]

end Godis
