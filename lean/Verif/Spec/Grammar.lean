import Verif.Spec.Resp
/-!
# What godis takes a byte string for (specification)

This file does not use the model.  It is the grammar of the texts the request decoder accepts, with the
arguments it reads from them, and of the texts it refuses or crashes on.  The grammar is wider than the protocol
(`Resp.IsRequest`): header numbers may contain any bytes, missing data is taken for zero bytes, and arrays may
be nested.
-/
namespace Grammar
open Resp (Str)

/-- What one byte of a header number counts: `'0'` counts 0, `'9'` counts 9, any other byte counts its distance
from `'0'`, modulo 256. -/
def weight (c : UInt8) : Nat := (c.toNat + 208) % 256

/-- The number written by the bytes of a header, as a 64-bit signed number. -/
def number (d : Str) : Int := Int.bmod ((d.foldl (fun n c => 10 * n + weight c) 0 : Nat) : Int) (2 ^ 64)

/-- `l` is one line: it ends with the only line feed in it. -/
def Line (l : Str) : Prop := ∃ b, l = b ++ [10] ∧ 10 ∉ b

/-- `l` is a header line of type `t` that announces the number `n`: the number stands between the type byte and
the first carriage return; what follows the carriage return does not count. -/
def Header (t : UInt8) (n : Int) (l : Str) : Prop :=
  ∃ d j, l = t :: d ++ 13 :: j ++ [10] ∧ 13 ∉ d ∧ 10 ∉ d ∧ 10 ∉ j ∧ n = number d

/-- Between the header of a bulk string of `n` bytes and the rest `s` of the input stand the bytes `w`; they are
taken for the argument `a` and the two bytes `z` after it.  If the input ends too early, the missing bytes are
taken for zero bytes; there must be at least one byte. -/
structure Data (n : Int) (w s a z : Str) : Prop where
  some_byte : w ≠ []
  size : (a.length : Int) = n
  two : z.length = 2
  filled : ∃ k, a ++ z = w ++ List.replicate k 0 ∧ (k = 0 ∨ s = [])
  fits : n + 2 ≤ 2 ^ 48

/-- The inline command: the line `PING`. -/
def pingLine : Str := [80, 73, 78, 71, 13, 10]

/-- `Elems n s as t rest`: the first `n` elements of an array are read from the front of `s`; they contribute the
arguments `as`, the text `t` is recorded for them, and `rest` is what follows. -/
inductive Elems : Int → Str → List Str → Str → Str → Prop
  | done {n : Int} (s : Str) : n ≤ 0 → Elems n s [] [] s
  /-- a line `+...`, `-...` or `:...`: its last two bytes are dropped -/
  | word {n : Int} {c x : UInt8} {b s rest t : Str} {as : List Str} : 0 < n → c ∈ [43, 45, 58] → 10 ∉ b → x ≠ 10 →
      Elems (n - 1) s as t rest →
      Elems n (c :: b ++ [x, 10] ++ s) (b :: as) (c :: b ++ [x, 10] ++ t) rest
  /-- the inline command; its text is recorded twice -/
  | ping {n : Int} {s rest t : Str} {as : List Str} : 0 < n → Elems (n - 1) s as t rest →
      Elems n (pingLine ++ s) ([80, 73, 78, 71] :: as) (pingLine ++ pingLine ++ t) rest
  /-- a bulk string -/
  | bulk {n m : Int} {l w s a z rest t : Str} {as : List Str} : 0 < n → Header 36 m l → Data m w s a z →
      Elems (n - 1) s as t rest →
      Elems n (l ++ w ++ s) (a :: as) (l ++ a ++ z ++ t) rest
  /-- an array inside the array: its elements count as arguments like the others, and its header is recorded
  after them -/
  | nested {n m : Int} {l s s' rest t t' : Str} {as as' : List Str} : 0 < n → Header 42 m l →
      Elems m s as t s' → Elems (n - 1) s' as' t' rest →
      Elems n (l ++ s) (as ++ as') (t ++ l ++ t') rest

/-- Why a text is not read. -/
inductive Fault where
  /-- refused: the input ends too early -/
  | short
  /-- refused: the line is of no known kind -/
  | unknown
  /-- refused: a negative length -/
  | negative
  /-- crash: a header line without a carriage return -/
  | index
  /-- crash: a length no memory can hold -/
  | alloc
deriving DecidableEq, Repr

/-- The element at the front of `s` is not read, for the reason given (arrays apart). -/
inductive Bad : Str → Fault → Prop
  /-- no line feed follows -/
  | noLine {s : Str} : 10 ∉ s → Bad s .short
  /-- a line of less than three bytes -/
  | tiny {l s : Str} : Line l → l.length < 3 → l.head? ≠ some 42 → Bad (l ++ s) .unknown
  /-- a line that starts with another byte, and is not the inline command -/
  | unknown {c : UInt8} {b s : Str} : Line (c :: b) → c ∉ [36, 42, 43, 45, 58] → c :: b ≠ pingLine →
      Bad (c :: b ++ s) .unknown
  | negative {m : Int} {l s : Str} : Header 36 m l → m < 0 → Bad (l ++ s) .negative
  /-- a bulk string of which not one byte follows -/
  | nothing {m : Int} {l : Str} : Header 36 m l → 0 ≤ m → m + 2 ≤ 2 ^ 48 → Bad l .short
  /-- a bulk string header without carriage return -/
  | noCR {b s : Str} : Line (36 :: b) → 2 ≤ b.length → 13 ∉ b → Bad (36 :: b ++ s) .index
  | huge {m : Int} {l s : Str} : Header 36 m l → 2 ^ 48 < m + 2 → Bad (l ++ s) .alloc

/-- Reading `n` elements from the front of `s` fails. -/
inductive Fails : Int → Str → Fault → Prop
  | here {n : Int} {s : Str} {f : Fault} : 0 < n → Bad s f → Fails n s f
  /-- an array header without carriage return -/
  | noCR {n : Int} {b s : Str} : 0 < n → Line (42 :: b) → 13 ∉ b → Fails n (42 :: b ++ s) .index
  | inside {n m : Int} {l s : Str} {f : Fault} : 0 < n → Header 42 m l → Fails m s f → Fails n (l ++ s) f
  /-- the first element is read, a later one is not -/
  | later {n : Int} {s s' t : Str} {as : List Str} {f : Fault} : 0 < n → Elems 1 s as t s' →
      Fails (n - 1) s' f → Fails n s f

/-- The front of `s` is the request with the arguments `as`; the text `t` is recorded for it and `rest` follows. -/
inductive Understood : Str → List Str → Str → Str → Prop
  | array {m : Int} {l s rest t : Str} {as : List Str} : Header 42 m l → Elems m s as t rest →
      Understood (l ++ s) as (l ++ t) rest
  | single {s rest t : Str} {as : List Str} : s.head? ≠ some 42 → Elems 1 s as t rest → Understood s as t rest

/-- No request is read from `s`. -/
inductive Faults : Str → Fault → Prop
  | array {m : Int} {l s : Str} {f : Fault} : Header 42 m l → Fails m s f → Faults (l ++ s) f
  | noCR {b s : Str} : Line (42 :: b) → 2 ≤ b.length → 13 ∉ b → Faults (42 :: b ++ s) .index
  | tiny {s : Str} : Faults (42 :: 10 :: s) .unknown
  | single {s : Str} {f : Fault} : (10 ∈ s → s.head? ≠ some 42) → Bad s f → Faults s f

end Grammar
