import Verif.Spec.Linear
import Verif.Spec.Strings
/-!
# Readers (specification)

This file does not use the model.
-/
namespace ReadSpec
open Linear (Ev Str)
open StrSpec (lower Ascii)

/-- The request only reads. -/
def Reading (req : List Str) : Prop := ∃ name args, req = name :: args ∧ lower name ∈ KeySpec.readOnly

/-- The request has a name that is not one of a command, or has fewer arguments than its command needs (MSET excepted). -/
def Malformed (req : List Str) : Prop := ∃ name args, req = name :: args ∧
  (Ascii name ∧ lower name ∉ KeySpec.minArgs.map (·.1) ∨
    ∃ n, (lower name, n) ∈ KeySpec.minArgs ∧ lower name ≠ s!! "mset" ∧ args.length < n)

/-- The request leaves everything as it is, by its form. -/
def Idle (req : List Str) : Prop := Reading req ∨ Malformed req

/-- `h'` is what happens in `h` to the requests whose numbers are in `P`. -/
inductive Only (P : Nat → Prop) : List Ev → List Ev → Prop where
  | nil : Only P [] []
  | call {i c b h h'} : P i → Only P h h' → Only P (.call i c b :: h) (.call i c b :: h')
  | ret {i c b h h'} : P i → Only P h h' → Only P (.ret i c b :: h) (.ret i c b :: h')
  | noCall {i c b h h'} : ¬ P i → Only P h h' → Only P (.call i c b :: h) h'
  | noRet {i c b h h'} : ¬ P i → Only P h h' → Only P (.ret i c b :: h) h'

/-- The requests whose numbers are not in `P` only read, or are malformed, or cannot be read as a request at all. -/
def OthersRead (carries : Str → List Str → Prop) (P : Nat → Prop) (h : List Ev) : Prop :=
  ∀ i c b req, .call i c b ∈ h → ¬ P i → carries b req → Idle req

/-- Reading commands that can crash the server: those that look at the elements of lists and sorted sets, and KEYS. -/
def mayCrash : List Str :=
  [s!! "keys", s!! "lrange", s!! "lindex", s!! "zscore", s!! "zrank", s!! "zcount", s!! "zrange", s!! "zrangebyscore", s!! "zrevrange"]

/-- The request leaves everything as it is and is not one of a command that can crash the server. -/
def Calm (req : List Str) : Prop :=
  Malformed req ∨ ∃ name args, req = name :: args ∧ lower name ∈ KeySpec.readOnly ∧ lower name ∉ mayCrash

/-- The requests whose numbers are not in `P` are calm, or cannot be read as a request at all. -/
def OthersCalm (carries : Str → List Str → Prop) (P : Nat → Prop) (h : List Ev) : Prop :=
  ∀ i c b req, .call i c b ∈ h → ¬ P i → carries b req → Calm req

end ReadSpec
