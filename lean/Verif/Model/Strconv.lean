import Verif.Model.Basic
/-!
# The parts of `strconv` and `strings` the server uses

These are Go standard library functions; the model follows their documented behaviour.
-/
namespace Godis

/-- decimal digits of `n`, most significant first; `fuel` must exceed the number of digits. -/
def natDigits : (fuel : Nat) → Nat → Bytes
  | 0, _ => []
  | fuel + 1, n =>
    if n < 10 then [UInt8.ofNat (48 + n)]
    else natDigits fuel (n / 10) ++ [UInt8.ofNat (48 + n % 10)]

/-- `strconv.Itoa` / `strconv.FormatInt(n, 10)` for a non-negative argument. -/
def formatNat (n : Nat) : Bytes := natDigits (n + 1) n

/-- `strconv.FormatInt(i, 10)`. -/
def formatInt (i : Int) : Bytes :=
  if i < 0 then 45 :: formatNat i.natAbs else formatNat i.natAbs

/-- value of one or more decimal digits, `none` on any other byte. -/
def digitsVal : Bytes → Nat → Option Nat
  | [], acc => some acc
  | c :: cs, acc =>
    if 48 ≤ c ∧ c ≤ 57 then digitsVal cs (acc * 10 + (c.toNat - 48)) else none

/-- `strconv.ParseUint(s, 10, _)` without the range check. -/
def parseNat (s : Bytes) : Option Nat :=
  if s = [] then none else digitsVal s 0

/-- `strconv.ParseInt(s, 10, 64)` (`none` = any error, syntax or range: the callers do not distinguish
them).  `strconv.Atoi` accepts and returns the same on a 64-bit platform. -/
def parseInt (s : Bytes) : Option Int :=
  match s with
  | [] => none
  | c :: cs =>
    if c = 45 then
      match parseNat cs with
      | some n => if n ≤ 2 ^ 63 then some (-(n : Int)) else none
      | none => none
    else
      match parseNat (if c = 43 then cs else s) with
      | some n => if n < 2 ^ 63 then some (n : Int) else none
      | none => none

/-- `strconv.Atoi`. -/
def atoi (s : Bytes) : Option Int := parseInt s

/-- ASCII lower case of one byte. -/
def lowerByte (c : UInt8) : UInt8 := if 65 ≤ c ∧ c ≤ 90 then c + 32 else c

/-- `strings.ToLower`: on pure ASCII strings byte-wise; on any other string Unicode case mapping, which is
left abstract (`uni`). -/
def toLower (uni : Bytes → Bytes) (s : Bytes) : Bytes :=
  if s.all (· < 128) then s.map lowerByte else uni s

/-- `strings.TrimPrefix`. -/
def trimPrefix (s p : Bytes) : Bytes :=
  if p.isPrefixOf s then s.drop p.length else s

end Godis
