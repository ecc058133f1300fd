import Verif.Model.Strconv
import Verif.Model.F64
/-! Facts about decimal formatting and parsing. -/
namespace Godis

/-- a decimal digit byte -/
def isDigit (c : UInt8) : Prop := 48 ≤ c ∧ c ≤ 57

instance (c : UInt8) : Decidable (isDigit c) := by unfold isDigit; infer_instance

theorem digit_ofNat (n : Nat) (h : n < 10) :
    isDigit (UInt8.ofNat (48 + n)) ∧ (UInt8.ofNat (48 + n)).toNat = 48 + n := by
  have : n = 0 ∨ n = 1 ∨ n = 2 ∨ n = 3 ∨ n = 4 ∨ n = 5 ∨ n = 6 ∨ n = 7 ∨ n = 8 ∨ n = 9 := by omega
  rcases this with h | h | h | h | h | h | h | h | h | h <;> subst h <;> decide

theorem digitsVal_append (a b : Bytes) (acc : Nat) :
    digitsVal (a ++ b) acc = (digitsVal a acc).bind (digitsVal b) := by
  induction a generalizing acc with
  | nil => simp [digitsVal]
  | cons c cs ih =>
    simp only [List.cons_append, digitsVal]
    split
    · exact ih _
    · simp

theorem natDigits_digits (fuel n : Nat) : ∀ c ∈ natDigits fuel n, isDigit c := by
  induction fuel generalizing n with
  | zero => simp [natDigits]
  | succ f ih =>
    unfold natDigits
    split
    · intro c hc; simp only [List.mem_singleton] at hc; subst hc; exact (digit_ofNat n (by omega)).1
    · intro c hc
      simp only [List.mem_append, List.mem_singleton] at hc
      rcases hc with hc | hc
      · exact ih _ c hc
      · subst hc; exact (digit_ofNat (n % 10) (by omega)).1

theorem natDigits_ne_nil (fuel n : Nat) (h : 0 < fuel) : natDigits fuel n ≠ [] := by
  cases fuel with
  | zero => omega
  | succ f => unfold natDigits; split <;> simp

theorem digitsVal_natDigits (fuel n acc : Nat) (h : n < 10 ^ fuel) :
    digitsVal (natDigits fuel n) acc = some (acc * 10 ^ (natDigits fuel n).length + n) := by
  induction fuel generalizing n with
  | zero => simp at h; subst h; simp [natDigits, digitsVal]
  | succ f ih =>
    unfold natDigits
    split
    · next h10 =>
      have := digit_ofNat n (by omega)
      simp only [digitsVal]
      unfold isDigit at this
      rw [if_pos this.1, this.2]
      simp
    · next h10 =>
      have hd := digit_ofNat (n % 10) (by omega)
      have hlt : n / 10 < 10 ^ f := by
        rw [Nat.pow_succ] at h
        omega
      rw [digitsVal_append, ih (n / 10) hlt]
      simp only [Option.bind, digitsVal]
      unfold isDigit at hd
      rw [if_pos hd.1, hd.2]
      simp only [List.length_append, List.length_cons, List.length_nil]
      congr 1
      rw [Nat.pow_succ]
      have : n = 10 * (n / 10) + n % 10 := (Nat.div_add_mod n 10).symm
      have e : acc * (10 ^ (natDigits f (n / 10)).length * 10)
          = acc * 10 ^ (natDigits f (n / 10)).length * 10 := by rw [Nat.mul_assoc]
      simp only [e]
      omega

theorem lt_pow_succ (n : Nat) : n < 10 ^ (n + 1) := by
  calc n < n + 1 := by omega
    _ < 10 ^ (n + 1) := Nat.lt_pow_self (by decide)

theorem formatNat_digits (n : Nat) : ∀ c ∈ formatNat n, isDigit c := natDigits_digits _ _

theorem formatNat_ne_nil (n : Nat) : formatNat n ≠ [] := natDigits_ne_nil _ _ (by omega)

theorem digitsVal_formatNat (n : Nat) : digitsVal (formatNat n) 0 = some n := by
  unfold formatNat
  rw [digitsVal_natDigits _ _ _ (lt_pow_succ n)]
  simp

theorem parseNat_formatNat (n : Nat) : parseNat (formatNat n) = some n := by
  unfold parseNat
  rw [if_neg (formatNat_ne_nil n), digitsVal_formatNat]

theorem isDigit_ne {c d : UInt8} (h : isDigit c) (hd : ¬ isDigit d) : c ≠ d := by
  rintro rfl; exact hd h

/-- reading back a formatted 64-bit integer -/
theorem parseInt_formatInt (i : Int) (h1 : -2 ^ 63 ≤ i) (h2 : i < 2 ^ 63) :
    parseInt (formatInt i) = some i := by
  unfold formatInt
  split
  · next hneg =>
    simp only [parseInt, parseNat_formatNat, if_true]
    rw [if_pos (by omega)]
    congr 1; omega
  · next hneg =>
    have hd := formatNat_digits i.natAbs
    have hp := parseNat_formatNat i.natAbs
    revert hp hd
    cases hf : formatNat i.natAbs with
    | nil => exact absurd hf (formatNat_ne_nil _)
    | cons c cs =>
      intro hd hp
      have hc : isDigit c := hd c (by simp)
      simp only [parseInt]
      rw [if_neg (isDigit_ne hc (by decide)), if_neg (isDigit_ne hc (by decide)), hp]
      simp only
      rw [if_pos (by omega)]
      congr 1; omega

/-- a parsed integer is a 64-bit integer -/
theorem parseInt_range {s : Bytes} {i : Int} (h : parseInt s = some i) : -2 ^ 63 ≤ i ∧ i < 2 ^ 63 := by
  unfold parseInt at h
  split at h
  · simp at h
  · split at h
    · split at h
      · split at h
        · simp at h; omega
        · simp at h
      · simp at h
    · split at h
      · split at h
        · simp at h; omega
        · simp at h
      · simp at h

theorem wrap64_of_range (i : Int) (h1 : -2 ^ 63 ≤ i) (h2 : i < 2 ^ 63) : wrap64 i = i := by
  unfold wrap64; omega

theorem wrap64_range (i : Int) : -2 ^ 63 ≤ wrap64 i ∧ wrap64 i < 2 ^ 63 := by
  unfold wrap64; omega

theorem formatInt_inj {i j : Int} (hi : -2 ^ 63 ≤ i ∧ i < 2 ^ 63) (hj : -2 ^ 63 ≤ j ∧ j < 2 ^ 63)
    (h : formatInt i = formatInt j) : i = j := by
  have a := parseInt_formatInt i hi.1 hi.2
  have b := parseInt_formatInt j hj.1 hj.2
  rw [h] at a; rw [a] at b; exact Option.some.inj b

end Godis
