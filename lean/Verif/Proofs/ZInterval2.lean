import Verif.Proofs.ZInterval
import Verif.Proofs.ZSets5
/-! Score intervals: when the positions the server computes are wrong. -/
namespace Godis
open ZSpec
open ListSpec (window)

theorem under_len {l : List Entry} (hl : Entries l) {lo : F64 × Bool} :
    (l.filter (under lo)).length = if lo.2 then less l lo.1 + equal l lo.1 else less l lo.1 := by
  have hle := less_le l hl.num lo.1
  unfold under
  cases h : lo.2
  · simp only [Bool.false_eq_true, if_false]; rfl
  · simp only [if_true]; rw [← hle]; rfl

theorem upto_len {l : List Entry} (hl : Entries l) {hi : F64 × Bool} :
    (l.filter (upto hi)).length = if hi.2 then less l hi.1 else less l hi.1 + equal l hi.1 := by
  have hle := less_le l hl.num hi.1
  unfold upto
  cases h : hi.2
  · simp only [Bool.false_eq_true, if_false]; rw [← hle]; rfl
  · simp only [if_true]; rfl

/-- what the server computes for an ordinary, determined interval that is not everything -/
theorem cuts_cases {l : List Entry} (hl : Entries l) {lo hi : F64 × Bool} (ho : Ordinary lo hi) (hd : Determined l lo hi)
    (hn : ¬ everything lo hi) {r1 r2 : Int} (h1 : Cut 1 l lo r1) (h2 : Cut (-1) l hi r2) :
    ((lo = (F64.negInf, false) ∧ hi.1.isInf = false ∧ r1 = -1 ∧ r2 = (l.filter (upto hi)).length) ∨
      (lo.1.isInf = false ∧ hi.1.isInf = false ∧ r2 = (l.filter (upto hi)).length ∧
        r1 = if lo.2 = true ∧ equal l lo.1 = 1 then less l lo.1 + 2 else atMost l lo.1) ∨
      (lo.1.isInf = false ∧ hi = (F64.posInf, false) ∧ r2 = -1 ∧
        r1 = if lo.2 = true ∧ equal l lo.1 = 1 then less l lo.1 + 2 else atMost l lo.1)) := by
  have low : lo.1.isInf = false → r1 = if lo.2 = true ∧ equal l lo.1 = 1 then less l lo.1 + 2 else atMost l lo.1 := by
    intro hf
    unfold Cut at h1
    rw [if_neg (by simp [hf])] at h1
    by_cases hc : lo.2 = true ∧ equal l lo.1 ≠ 0
    · have := hd.1 hc.1
      rw [if_pos hc] at h1
      obtain ⟨j, j1, j2, j3⟩ := h1
      rw [if_pos ⟨hc.1, by omega⟩]; omega
    · rw [if_neg hc] at h1
      rw [if_neg (fun hh => hc ⟨hh.1, by omega⟩)]
      exact h1
  obtain ⟨o1, o2⟩ := ho
  rcases o1 with o1 | o1 <;> rcases o2 with o2 | o2
  · refine .inr (.inl ⟨o1, o2, high_cut hl h2 o2 ?_, low o1⟩)
    cases hh : hi.2
    · exact .inl rfl
    · exact .inr (hd.2 hh)
  · refine .inr (.inr ⟨o1, o2, ?_, low o1⟩)
    rw [o2] at h2
    unfold Cut at h2
    rwa [if_pos (by decide)] at h2
  · refine .inl ⟨o1, o2, ?_, high_cut hl h2 o2 ?_⟩
    · rw [o1] at h1
      unfold Cut at h1
      rwa [if_pos (by decide)] at h1
    · cases hh : hi.2
      · exact .inl rfl
      · exact .inr (hd.2 hh)
  · exact absurd ⟨by rw [o1], by rw [o2]⟩ hn

theorem ordinary_easy {l : List Entry} {lo hi : F64 × Bool} (hd : Determined l lo hi) (hn : ¬ everything lo hi) :
    Easy l lo hi ↔ (lo = (F64.negInf, false) ∧ hi.1.isInf = false) ∨
      (lo.1.isInf = false ∧ hi.1.isInf = false ∧ (equal l lo.1 = 1 ∨ atMost l lo.1 = 0)) ∨
      (lo.1.isInf = false ∧ equal l lo.1 = 1 ∧ hi = (F64.posInf, false)) := by
  have hh : hi.2 = false ∨ equal l hi.1 ≤ 1 := by
    cases hh : hi.2
    · exact .inl rfl
    · exact .inr (hd.2 hh)
  unfold Easy
  constructor
  · rintro (⟨h1, h2⟩ | ⟨h1 | ⟨h1, h3⟩, h4, _⟩ | h)
    · exact absurd ⟨by rw [h1], by rw [h2]⟩ hn
    · exact .inl ⟨h1, h4⟩
    · exact .inr (.inl ⟨h1, h4, h3⟩)
    · exact .inr (.inr h)
  · rintro (⟨h1, h2⟩ | ⟨h1, h2, h3⟩ | h)
    · exact .inr (.inl ⟨.inl h1, h2, hh⟩)
    · exact .inr (.inl ⟨.inr ⟨h1, h3⟩, h2, hh⟩)
    · exact .inr (.inr h)

theorem count_iff {l : List Entry} (hl : Entries l) {lo hi : F64 × Bool} (hu : Upright lo hi) (ho : Ordinary lo hi) (hd : Determined l lo hi)
    (hne : l ≠ []) (hn : ¬ everything lo hi) {r1 r2 : Int} (h1 : Cut 1 l lo r1) (h2 : Cut (-1) l hi r2) :
    countOf l.length r1 r2 = (l.filter (fun e => within lo hi e.1)).length ↔ Easy l lo hi := by
  refine ⟨fun hc => ?_, fun he => easy_count hl hu he hn h1 h2⟩
  obtain ⟨_, w2, w3⟩ := within_slice hl hu
  rw [w3] at hc
  have hlen : 0 < l.length := List.length_pos_iff.mpr hne
  have hle := less_le l hl.num lo.1
  have hA := under_len hl (lo := lo)
  rw [ordinary_easy hd hn]
  rcases cuts_cases hl ho hd hn h1 h2 with ⟨c1, c2, c3, c4⟩ | ⟨c1, c2, c3, c4⟩ | ⟨c1, c2, c3, c4⟩
  · exact .inl ⟨c1, c2⟩
  · refine .inr (.inl ⟨c1, c2, ?_⟩)
    by_contra hne
    rw [not_or] at hne
    rw [if_neg (fun hh => hne.1 hh.2)] at c4
    unfold countOf at hc
    rw [if_neg (by omega), if_neg (by omega)] at hc
    split at hA
    · next hh => have := hd.1 hh; omega
    · omega
  · refine .inr (.inr ⟨c1, ?_, c2⟩)
    by_contra hne
    rw [if_neg (fun hh => hne hh.2)] at c4
    rw [c2, upto_inf hl] at hc w2
    unfold countOf at hc
    by_cases h0 : atMost l lo.1 = 0
    · rw [if_pos (by omega)] at hc
      omega
    · rw [if_neg (by omega), if_pos (by omega)] at hc
      split at hA
      · next hh => have := hd.1 hh; omega
      · omega

theorem window_length_nat (l : List Entry) (a b : Nat) : (window l a b).length = min (b + 1 - a) (l.length - a) := by
  rw [window_nat, List.length_take, List.length_drop]

theorem window_short {l : List Entry} (hl : l ≠ []) : (window l 0 (-2)).length < l.length := by
  have hlen : 0 < l.length := List.length_pos_iff.mpr hl
  rw [slice_window]
  unfold ZSL.normRange
  simp only
  rw [if_neg (show ¬ (0 : Int) < 0 by omega), if_pos (show (-2 : Int) < 0 by omega)]
  split
  · next h =>
    split at h
    · simpa using hlen
    · cases h
  · next a b h =>
    split at h
    · cases h
    · cases h
      rw [List.length_take]
      split <;> omega

/-- everything up to an included lower bound is up to the upper bound -/
theorem upright_len {l : List Entry} {lo hi : F64 × Bool} (hu : Upright lo hi) :
    atMost l lo.1 ≤ (l.filter (upto hi)).length ∨ (hi.2 = true ∧ equal l hi.1 = equal l lo.1) := by
  have mono : (∀ e ∈ l, e.1.le lo.1 = true → upto hi e = true) → atMost l lo.1 ≤ (l.filter (upto hi)).length := by
    intro h
    unfold atMost
    rw [← List.countP_eq_length_filter, ← List.countP_eq_length_filter]
    exact List.countP_mono_left h
  rcases hu with h | ⟨h, _⟩
  · left
    refine mono (fun e _ he => ?_)
    obtain ⟨a1, a2, a3⟩ := F64.lt_iff.mp h
    obtain ⟨b1, b2, b3⟩ := F64.le_iff.mp he
    unfold upto
    split
    · exact F64.lt_iff.mpr ⟨b1, a2, by omega⟩
    · exact F64.le_iff.mpr ⟨b1, a2, by omega⟩
  · obtain ⟨a1, a2, a3⟩ := F64.le_iff.mp h
    cases hh : hi.2 with
    | false =>
      left
      refine mono (fun e _ he => ?_)
      obtain ⟨b1, b2, b3⟩ := F64.le_iff.mp he
      unfold upto
      rw [hh]
      exact F64.le_iff.mpr ⟨b1, a2, by omega⟩
    | true =>
      rcases Int.lt_or_eq_of_le a3 with a4 | a4
      · left
        refine mono (fun e _ he => ?_)
        obtain ⟨b1, b2, b3⟩ := F64.le_iff.mp he
        unfold upto
        rw [hh]
        exact F64.lt_iff.mpr ⟨b1, a2, by omega⟩
      · right
        refine ⟨rfl, ?_⟩
        unfold equal
        congr 1
        refine List.filter_congr (fun e _ => ?_)
        unfold F64.eq
        rw [a1, a2, a4]

theorem window_iff {l : List Entry} (hl : Entries l) {lo hi : F64 × Bool} (hu : Upright lo hi) (ho : Ordinary lo hi) (hd : Determined l lo hi)
    (hne : l ≠ []) (hn : ¬ everything lo hi) {r1 r2 : Int} (h1 : Cut 1 l lo r1) (h2 : Cut (-1) l hi r2) :
    (window l (windowOf l.length r1 r2).1 (windowOf l.length r1 r2).2).length = (l.filter (fun e => within lo hi e.1)).length ↔
      Easy l lo hi ∧ ∃ e ∈ l, upto hi e = true := by
  refine ⟨fun hlc => ?_, fun he => congrArg List.length (easy_window hl hu he.1 hn h1 h2 he.2)⟩
  obtain ⟨_, w2, w3⟩ := within_slice hl hu
  have hlen : 0 < l.length := List.length_pos_iff.mpr hne
  have hle := less_le l hl.num lo.1
  have hA := under_len hl (lo := lo)
  have hBl := List.length_filter_le (upto hi) l
  have hAl : atMost l lo.1 ≤ l.length := List.length_filter_le _ _
  have hsome : (l.filter (upto hi)).length ≠ 0 → ∃ e ∈ l, upto hi e = true := by
    intro h
    obtain ⟨e, he⟩ := List.exists_mem_of_length_pos (Nat.pos_of_ne_zero h)
    obtain ⟨a, b⟩ := List.mem_filter.mp he
    exact ⟨e, a, b⟩
  rw [w3] at hlc
  rw [ordinary_easy hd hn]
  unfold windowOf at hlc
  rcases cuts_cases hl ho hd hn h1 h2 with ⟨c1, c2, c3, c4⟩ | ⟨c1, c2, c3, c4⟩ | ⟨c1, c2, c3, c4⟩
  · refine ⟨.inl ⟨c1, c2⟩, hsome (fun hB => ?_)⟩
    rw [if_pos (by omega), c4, hB] at hlc
    rw [show ((0 : Nat) : Int) - 1 = -1 from rfl, window_full] at hlc
    omega
  · have hup := upright_len (l := l) hu
    have hB : (l.filter (upto hi)).length ≠ 0 := by
      intro hB
      have hs : r1 = 0 ∨ r1 = 1 := by
        by_cases hx : lo.2 = true
        · rw [if_pos hx] at hA
          rw [if_neg (by omega)] at c4
          omega
        · rw [if_neg hx] at hA
          rw [if_neg (fun hh => hx hh.1)] at c4
          rcases hup with h | ⟨h, h'⟩
          · omega
          · have := hd.2 h; omega
      rw [c3, hB] at hlc
      rw [show (if r1 ≤ 0 then ((0 : Int), ((0 : Nat) : Int) - 1) else if ((0 : Nat) : Int) < 0 then (r1 - 1, (l.length : Int))
        else (r1 - 1, ((0 : Nat) : Int) - 1)) = (0, -1) by rcases hs with rfl | rfl <;> rfl] at hlc
      simp only at hlc
      rw [window_full] at hlc
      omega
    refine ⟨.inr (.inl ⟨c1, c2, ?_⟩), hsome hB⟩
    by_contra hx
    rw [not_or] at hx
    rw [if_neg (fun hh => hx.1 hh.2)] at c4
    rw [if_neg (by omega), if_neg (by omega)] at hlc
    simp only at hlc
    rw [show r1 - 1 = ((atMost l lo.1 - 1 : Nat) : Int) by omega, show r2 - 1 = (((l.filter (upto hi)).length - 1 : Nat) : Int) by omega,
      window_length_nat] at hlc
    split at hA
    · next hh => have := hd.1 hh; omega
    · rcases hup with h | ⟨h, h'⟩
      · omega
      · have := hd.2 h; omega
  · rw [c2, upto_inf hl] at hlc w2
    have hB : ∃ e ∈ l, upto hi e = true := by
      refine hsome ?_
      rw [c2, upto_inf hl]; omega
    refine ⟨.inr (.inr ⟨c1, ?_, c2⟩), hB⟩
    by_contra hx
    rw [if_neg (fun hh => hx hh.2)] at c4
    by_cases h0 : atMost l lo.1 = 0
    · rw [if_pos (by omega), c3] at hlc
      have := window_short hne
      simp at hlc
      split at hA <;> omega
    · rw [if_neg (by omega), if_pos (by omega)] at hlc
      simp only at hlc
      rw [show r1 - 1 = ((atMost l lo.1 - 1 : Nat) : Int) by omega, window_length_nat] at hlc
      split at hA
      · next hh => have := hd.1 hh; omega
      · omega

end Godis
