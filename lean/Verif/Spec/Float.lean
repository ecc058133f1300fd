import Mathlib.Algebra.Order.Ring.Rat
import Mathlib.Order.WithBot
/-!
# The number a 64-bit pattern stands for (specification)

IEEE 754 binary64: one sign bit, eleven exponent bits, fifty-two fraction bits.
-/
namespace Ieee

/-- the sign bit -/
def sign (x : BitVec 64) : Bool := x.toNat / 2 ^ 63 = 1

/-- the exponent field -/
def exponent (x : BitVec 64) : Nat := x.toNat / 2 ^ 52 % 2 ^ 11

/-- the fraction field -/
def fraction (x : BitVec 64) : Nat := x.toNat % 2 ^ 52

/-- the absolute value, if the exponent field is not 2047 -/
def absolute (x : BitVec 64) : ℚ :=
  if exponent x = 0 then (fraction x : ℚ) / 2 ^ 1074 else (2 ^ 52 + (fraction x : ℚ)) * 2 ^ exponent x / 2 ^ 1075

/-- the number, possibly minus infinity (`⊥`) or infinity (`⊤`); `none` for the patterns that are not a number -/
def number (x : BitVec 64) : Option (WithBot (WithTop ℚ)) :=
  if exponent x = 2047 then
    if fraction x = 0 then some (if sign x then ⊥ else ⊤) else none
  else some (((if sign x then -absolute x else absolute x : ℚ) : WithTop ℚ) : WithBot (WithTop ℚ))

end Ieee
