import Verif.Model.Basic
/-!
# float64

A `float64` is its IEEE-754 bit pattern.  Comparison is defined exactly (NaN compares false with
everything, the two zeros are equal).  Addition, parsing and formatting are not modelled: they are
fields of `Ext`.
-/
namespace Godis

/-- A Go `float64`: its 64 bits. -/
abbrev F64 := BitVec 64

namespace F64

/-- magnitude bits (exponent and mantissa) -/
def mag (x : F64) : Nat := x.toNat % 2 ^ 63

/-- sign bit -/
def neg (x : F64) : Bool := 2 ^ 63 ≤ x.toNat

/-- exponent all ones and mantissa 0 -/
def infMag : Nat := 0x7FF0000000000000

/-- `math.IsNaN` -/
def isNaN (x : F64) : Bool := infMag < x.mag

/-- order-preserving key of a non-NaN float64: `a < b` iff `key a < key b`, `a == b` iff `key a = key b`. -/
def key (x : F64) : Int := if x.neg then -(x.mag : Int) else x.mag

/-- Go `a < b` on float64 -/
def lt (a b : F64) : Bool := !a.isNaN && !b.isNaN && decide (a.key < b.key)

/-- Go `a == b` on float64 -/
def eq (a b : F64) : Bool := !a.isNaN && !b.isNaN && decide (a.key = b.key)

/-- Go `a <= b` on float64 -/
def le (a b : F64) : Bool := !a.isNaN && !b.isNaN && decide (a.key ≤ b.key)

/-- `math.Inf(1)` -/
def posInf : F64 := 0x7FF0000000000000#64
/-- `math.Inf(-1)` -/
def negInf : F64 := 0xFFF0000000000000#64

/-- `math.IsInf(x, 1)` : `x > MaxFloat64` -/
def isPosInf (x : F64) : Bool := x == posInf
/-- `math.IsInf(x, -1)` -/
def isNegInf (x : F64) : Bool := x == negInf
/-- `math.IsInf(x, 0)` -/
def isInf (x : F64) : Bool := x.isPosInf || x.isNegInf

end F64

/-- The functions outside the repository that the modelled code calls and that are left abstract.
Every theorem quantifies over them. -/
structure Ext where
  /-- `strconv.ParseFloat(s, 64)`, `none` = error -/
  parseFloat : Bytes → Option F64
  /-- `strconv.FormatFloat(f, 'g', -1, 64)` -/
  formatFloat : F64 → Bytes
  /-- float64 addition -/
  fadd : F64 → F64 → F64
  /-- `glob.MustCompile(p)`: `none` if it panics, otherwise the matcher (github.com/yusank/glob) -/
  glob : Bytes → Option (Bytes → Bool)
  /-- `strings.ToLower` on strings with a non-ASCII byte -/
  lowerUni : Bytes → Bytes

end Godis
