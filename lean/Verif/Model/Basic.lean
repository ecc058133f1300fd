/-!
# Go values used by the model

Simplifications (all of them are listed in DESIGN.md as well):
* a Go `string` / `[]byte` is a list of bytes (no aliasing of byte slices: the code never mutates a byte
  slice after sharing it);
* `int`/`int64` are `Int`; where the code can overflow the 64-bit wrap is explicit (`wrap64`);
* `uint` is `Nat` with explicit arithmetic modulo 2^64 (`uadd`, `usub`);
* a run-time panic is a value of type `Panic`.
-/

namespace Godis

/-- A Go `string` or `[]byte`: its bytes. -/
abbrev Bytes := List UInt8

open Lean in
/-- `b! "..."` is the byte list of an ASCII string literal, written out at elaboration time. -/
macro "b!" s:str : term => do
  let nums := s.getString.toList.map (fun c => Syntax.mkNumLit (toString c.toNat))
  `(([$(nums.toArray),*] : List UInt8))

/-- The run-time panics the modelled code can raise. -/
inductive Panic where
  /-- nil pointer dereference -/
  | nilDeref
  /-- index or slice bound out of range -/
  | indexOutOfRange
  /-- failed type assertion `x.(T)` -/
  | typeAssertion
  /-- `make([]byte, n)` with an impossible `n` -/
  | makeSlice
  /-- `glob.MustCompile` on a malformed pattern -/
  | globCompile
  /-- send on a closed channel -/
  | sendOnClosed
  /-- not a Go panic: the loop being modelled would not terminate (fuel of the model exhausted) -/
  | diverge
deriving DecidableEq, Repr

/-- A computation that may panic. -/
abbrev Go := Except Panic

/-- Two's complement wrap of a 64-bit signed result (Go spec, "Integer overflow"). -/
def wrap64 (i : Int) : Int := (i + 2 ^ 63) % 2 ^ 64 - 2 ^ 63

/-- `a + b` on `uint` (64 bit). -/
def uadd (a b : Nat) : Nat := (a + b) % 2 ^ 64

/-- `a - b` on `uint` (64 bit). -/
def usub (a b : Nat) : Nat := (a + (2 ^ 64 - b % 2 ^ 64)) % 2 ^ 64

/-- `uint(i)` for an `int` i. -/
def toUint (i : Int) : Nat := (i % 2 ^ 64).toNat

/-- `int(u)` for a `uint` u. -/
def ofUint (u : Nat) : Int := wrap64 (u : Int)

/-- Lexicographic byte comparison: Go's `<` on strings. -/
def bytesLt : Bytes → Bytes → Bool
  | [], [] => false
  | [], _ :: _ => true
  | _ :: _, [] => false
  | a :: as, b :: bs => a < b || (a == b && bytesLt as bs)

end Godis
