import Verif.Proofs.Float
import Verif.Props.ZSets2
/-!
# C33: scores are compared as numbers

The specification of sorted sets (`Spec/ZSets`) uses the comparison of bit patterns `F64.lt`, `F64.eq`.  Here it is tied to
the numbers the patterns stand for (`Spec/Float`).
-/
namespace Godis
open ZSpec
open Ieee (number)
open Resp (Reply)

/-- C33: `<`, `==` and `<=` of scores compare the numbers; with a pattern that is not a number they are all false. -/
theorem C33_score_order (a b : F64) :
    (a.lt b = true ↔ ∃ x y, number a = some x ∧ number b = some y ∧ x < y) ∧
    (a.eq b = true ↔ ∃ x, number a = some x ∧ number b = some x) ∧
    (a.le b = true ↔ ∃ x y, number a = some x ∧ number b = some y ∧ x ≤ y) := by
  unfold F64.lt F64.eq F64.le
  cases ha : a.isNaN
  · cases hb : b.isNaN
    · obtain ⟨x, hx⟩ : ∃ x, number a = some x := Option.ne_none_iff_exists'.mp (fun h => by rw [(F64.isNaN_iff a).mpr h] at ha; cases ha)
      obtain ⟨y, hy⟩ : ∃ y, number b = some y := Option.ne_none_iff_exists'.mp (fun h => by rw [(F64.isNaN_iff b).mpr h] at hb; cases hb)
      have tri : (a.key < b.key ∧ x < y) ∨ (a.key = b.key ∧ x = y) ∨ (b.key < a.key ∧ y < x) := by
        rcases lt_trichotomy a.key b.key with h | h | h
        · obtain ⟨x', y', h1, h2, h3⟩ := F64.number_lt ha hb h
          rw [hx] at h1; rw [hy] at h2; cases h1; cases h2
          exact .inl ⟨h, h3⟩
        · have := F64.number_eq h
          rw [hx, hy] at this
          exact .inr (.inl ⟨h, by simpa using this⟩)
        · obtain ⟨x', y', h1, h2, h3⟩ := F64.number_lt hb ha h
          rw [hy] at h1; rw [hx] at h2; cases h1; cases h2
          exact .inr (.inr ⟨h, h3⟩)
      simp only [Bool.not_false, Bool.true_and, decide_eq_true_eq, hx, hy, Option.some.injEq]
      refine ⟨⟨fun h => ⟨x, y, rfl, rfl, ?_⟩, ?_⟩, ⟨fun h => ⟨x, rfl, ?_⟩, ?_⟩, ⟨fun h => ⟨x, y, rfl, rfl, ?_⟩, ?_⟩⟩
      · rcases tri with t | t | t
        · exact t.2
        · omega
        · omega
      · rintro ⟨_, _, rfl, rfl, h⟩
        rcases tri with t | t | t
        · exact t.1
        · exact absurd t.2 h.ne
        · exact absurd t.2 h.not_gt
      · rcases tri with t | t | t
        · omega
        · exact t.2.symm
        · omega
      · rintro ⟨_, rfl, h⟩
        rcases tri with t | t | t
        · exact absurd h.symm t.2.ne
        · exact t.1
        · exact absurd h t.2.ne
      · rcases tri with t | t | t
        · exact t.2.le
        · exact t.2.le
        · omega
      · rintro ⟨_, _, rfl, rfl, h⟩
        rcases tri with t | t | t
        · omega
        · omega
        · exact absurd t.2 h.not_gt
    · have := (F64.isNaN_iff b).mp hb
      simp [this]
  · have := (F64.isNaN_iff a).mp ha
    simp [this]

/-- C33: the entries a key shows (`C33_sorted_partial`, `C33_sorted_calm`) have numbers as scores, and of any two entries the
earlier one has the smaller number, or the same number and the smaller member. -/
theorem C33_numeric {s : Store} {k : Bytes} {l : List Entry} (h : Shown ext s k l) :
    (∀ e ∈ l, ∃ x, number e.1 = some x) ∧
    ∀ (i j : Nat) (e f : Entry), i < j → l[i]? = some e → l[j]? = some f →
      ∃ x y, number e.1 = some x ∧ number f.1 = some y ∧ (x < y ∨ x = y ∧ e.2 < f.2) := by
  have hn : ∀ e ∈ l, ∃ x, number e.1 = some x := by
    intro e he
    have := h.entries.1 e he
    exact Option.ne_none_iff_exists'.mp (fun hh => by rw [(F64.isNaN_iff _).mpr hh] at this; cases this)
  refine ⟨hn, ?_⟩
  intro i j e f hij hi hj
  obtain ⟨hi', rfl⟩ := List.getElem?_eq_some_iff.mp hi
  obtain ⟨hj', rfl⟩ := List.getElem?_eq_some_iff.mp hj
  have hb := List.pairwise_iff_getElem.mp h.entries.ascending i j hi' hj' hij
  obtain ⟨o1, o2, _⟩ := C33_score_order l[i].1 l[j].1
  rcases Bool.or_eq_true_iff.mp hb with hb | hb
  · obtain ⟨x, y, h1, h2, h3⟩ := o1.mp hb
    exact ⟨x, y, h1, h2, .inl h3⟩
  · rw [Bool.and_eq_true] at hb
    obtain ⟨x, h1, h2⟩ := o2.mp hb.1
    exact ⟨x, x, h1, h2, .inr ⟨rfl, by simpa using hb.2⟩⟩

-- the patterns of 1, -2, 0.5, the zeros, the infinities, a subnormal and NaN
example : number 0x3FF0000000000000#64 = some ((1 : ℚ) : WithTop ℚ) := by
  have h1 : Ieee.exponent 0x3FF0000000000000#64 = 1023 := by decide
  have h2 : Ieee.fraction 0x3FF0000000000000#64 = 0 := by decide
  have h3 : Ieee.sign 0x3FF0000000000000#64 = false := by decide
  simp [number, Ieee.absolute, h1, h2, h3]
  rw [show (2 : ℚ) ^ 1075 = 2 ^ 52 * 2 ^ 1023 by rw [← pow_add], mul_div_mul_right _ _ (by positivity)]
  norm_num
example : number 0xC000000000000000#64 = some ((-2 : ℚ) : WithTop ℚ) := by
  have h1 : Ieee.exponent 0xC000000000000000#64 = 1024 := by decide
  have h2 : Ieee.fraction 0xC000000000000000#64 = 0 := by decide
  have h3 : Ieee.sign 0xC000000000000000#64 = true := by decide
  simp [number, Ieee.absolute, h1, h2, h3]
  rw [show (2 : ℚ) ^ 1075 = 2 ^ 51 * 2 ^ 1024 by rw [← pow_add], mul_div_mul_right _ _ (by positivity)]
  norm_num
example : number F64.posInf = some ⊤ ∧ number F64.negInf = some ⊥ ∧ number 0x7FF8000000000001#64 = none := by decide
example : F64.lt 0xC000000000000000#64 0x3FF0000000000000#64 = true := by decide

end Godis
