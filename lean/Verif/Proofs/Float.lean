import Verif.Spec.Float
import Verif.Model.F64
import Mathlib.Tactic.Linarith
import Mathlib.Tactic.NormNum
import Mathlib.Tactic.Ring
/-! # Comparison of floats is comparison of the numbers they stand for -/
namespace Godis.F64
open Ieee

/-- absolute value in units of `2^-1074` -/
def scaled (e m : Nat) : Nat := if e = 0 then m else (2 ^ 52 + m) * 2 ^ (e - 1)

theorem scaled_lt {e m e' m' : Nat} (hm : m < 2 ^ 52) (h : e * 2 ^ 52 + m < e' * 2 ^ 52 + m') (hm' : m' < 2 ^ 52) :
    scaled e m < scaled e' m' := by
  have hub : scaled e m < 2 ^ 52 * 2 ^ e := by
    unfold scaled
    split
    · next h => subst h; simpa using hm
    · next h =>
      obtain ⟨k, rfl⟩ : ∃ k, e = k + 1 := ⟨e - 1, by omega⟩
      rw [Nat.add_sub_cancel]
      calc (2 ^ 52 + m) * 2 ^ k < (2 ^ 52 * 2) * 2 ^ k := Nat.mul_lt_mul_of_pos_right (by omega) (by positivity)
        _ = 2 ^ 52 * 2 ^ (k + 1) := by ring
  by_cases he : e < e'
  · have hlb : 2 ^ 52 * 2 ^ e ≤ scaled e' m' := by
      unfold scaled
      rw [if_neg (by omega)]
      exact Nat.mul_le_mul (by omega) (Nat.pow_le_pow_right (by omega) (by omega))
    omega
  · have : e = e' := by omega
    subst this
    unfold scaled
    split
    · omega
    · exact Nat.mul_lt_mul_of_pos_right (by omega) (by positivity)

theorem mag_eq (x : F64) : x.mag = exponent x * 2 ^ 52 + fraction x := by
  unfold mag exponent fraction
  omega

theorem fraction_lt (x : F64) : fraction x < 2 ^ 52 := Nat.mod_lt _ (by omega)

theorem exponent_lt (x : F64) : exponent x < 2048 := Nat.mod_lt _ (by omega)

theorem neg_eq (x : F64) : x.neg = sign x := by
  unfold neg sign
  have := x.isLt
  congr 1
  apply propext
  omega

theorem absolute_eq (x : F64) : absolute x = (scaled (exponent x) (fraction x) : ℚ) / 2 ^ 1074 := by
  unfold absolute scaled
  split
  · rfl
  · next h =>
    obtain ⟨k, hk⟩ : ∃ k, exponent x = k + 1 := ⟨exponent x - 1, by omega⟩
    rw [hk, Nat.add_sub_cancel, pow_succ (2 : ℚ) 1074, pow_succ (2 : ℚ) k]
    push_cast
    rw [← mul_assoc, mul_div_mul_right _ _ (by norm_num)]
    norm_num

theorem isNaN_iff (x : F64) : x.isNaN = true ↔ number x = none := by
  unfold isNaN number
  rw [decide_eq_true_iff, mag_eq]
  have h1 := exponent_lt x
  have h2 := fraction_lt x
  unfold infMag
  split
  · split
    · simp; omega
    · simp; omega
  · simp; omega

theorem absolute_lt {x y : F64} (h : x.mag < y.mag) : absolute x < absolute y := by
  rw [mag_eq, mag_eq] at h
  have := scaled_lt (fraction_lt x) h (fraction_lt y)
  rw [absolute_eq, absolute_eq]
  exact div_lt_div_of_pos_right (by exact_mod_cast this) (by positivity)

theorem absolute_congr {x y : F64} (h : x.mag = y.mag) : exponent x = exponent y ∧ fraction x = fraction y := by
  rw [mag_eq, mag_eq] at h
  have h1 := fraction_lt x
  have h2 := fraction_lt y
  omega

theorem absolute_nonneg (x : F64) : 0 ≤ absolute x := by
  rw [absolute_eq]
  exact div_nonneg (Nat.cast_nonneg _) (by positivity)

theorem absolute_zero {x : F64} (h : x.mag = 0) : absolute x = 0 := by
  rw [mag_eq] at h
  rw [absolute_eq, show exponent x = 0 by omega, show fraction x = 0 by omega]
  simp [scaled]

theorem absolute_pos {x : F64} (h : 0 < x.mag) : 0 < absolute x := by
  have h0 : mag (0#64 : F64) = 0 := by decide
  have := absolute_lt (x := 0#64) (y := x) (by omega)
  rwa [absolute_zero h0] at this

/-- the cases -/
theorem number_cases (x : F64) (h : x.isNaN = false) :
    (x.mag = infMag ∧ number x = some (if sign x then ⊥ else ⊤)) ∨
    (x.mag < infMag ∧ number x = some (((if sign x then -absolute x else absolute x : ℚ) : WithTop ℚ) : WithBot (WithTop ℚ))) := by
  unfold isNaN at h
  rw [decide_eq_false_iff_not, mag_eq] at h
  rw [mag_eq]
  have h1 := exponent_lt x
  have h2 := fraction_lt x
  unfold infMag at *
  unfold number
  by_cases he : exponent x = 2047
  · have hf : fraction x = 0 := by omega
    left
    refine ⟨by omega, by rw [if_pos he, if_pos hf]⟩
  · right
    refine ⟨by omega, by rw [if_neg he]⟩

theorem number_lt {x y : F64} (hx : x.isNaN = false) (hy : y.isNaN = false) (h : x.key < y.key) :
    ∃ a b, number x = some a ∧ number y = some b ∧ a < b := by
  have h1 := mag_eq x
  unfold key at h
  rw [neg_eq, neg_eq] at h
  rcases number_cases x hx with ⟨mx, ex⟩ | ⟨mx, ex⟩ <;> rcases number_cases y hy with ⟨my, ey⟩ | ⟨my, ey⟩ <;>
    refine ⟨_, _, ex, ey, ?_⟩ <;> cases hsx : sign x <;> cases hsy : sign y <;> simp only [hsx, hsy, if_true, if_false, Bool.false_eq_true] at h ⊢
  all_goals first | (exfalso; omega) | skip
  · exact WithBot.bot_lt_coe _
  · exact WithBot.bot_lt_coe _
  · exact WithBot.bot_lt_coe _
  · exact WithBot.coe_lt_coe.mpr (WithTop.coe_lt_top _)
  · exact WithBot.coe_lt_coe.mpr (WithTop.coe_lt_top _)
  · exact WithBot.coe_lt_coe.mpr (WithTop.coe_lt_coe.mpr (absolute_lt (by omega)))
  · refine WithBot.coe_lt_coe.mpr (WithTop.coe_lt_coe.mpr ?_)
    have hx := absolute_nonneg x
    have hy := absolute_nonneg y
    by_cases hm : 0 < y.mag
    · have := absolute_pos hm; linarith
    · have := absolute_pos (x := x) (by omega); linarith
  · refine WithBot.coe_lt_coe.mpr (WithTop.coe_lt_coe.mpr ?_)
    have := absolute_lt (x := y) (y := x) (by omega)
    linarith

theorem number_eq {x y : F64} (h : x.key = y.key) : number x = number y := by
  have hm : x.mag = y.mag := by
    unfold key at h
    split at h <;> split at h <;> omega
  obtain ⟨he, hf⟩ := absolute_congr hm
  have ha : absolute x = absolute y := by rw [absolute_eq, absolute_eq, he, hf]
  by_cases hz : x.mag = 0
  · have h1 := mag_eq x
    have : exponent x = 0 := by omega
    unfold number
    rw [← he, this, ← ha, absolute_zero hz]
    simp
  · have hs : sign x = sign y := by
      unfold key at h
      rw [neg_eq, neg_eq] at h
      cases hsx : sign x <;> cases hsy : sign y <;> simp only [hsx, hsy, if_true, if_false, Bool.false_eq_true] at h ⊢ <;> omega
    unfold number
    rw [he, hf, hs, ha]

end Godis.F64
