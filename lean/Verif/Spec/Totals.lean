import Verif.Spec.Coord
import Verif.Spec.Strings
/-!
# What a counter shows, exactly (specification)

This file does not use the model.  All clients use the key `k` only with INCR, INCRBY, DECR, DECRBY and reads.
-/
namespace CoordSpec
open Resp (Reply)
open Linear (Ev Str Before)
open StrSpec (CountsAs Wraps)

/-- `ps` lists every request that adds to the counter `k` that was sent (its number and what it adds), each once. -/
def AllAdds (carries : Str → List Str → Prop) (h : List Ev) (k : Str) (ps : List (Nat × Int)) : Prop :=
  (ps.map (·.1)).Nodup ∧ ∀ i d, (i, d) ∈ ps ↔ ∃ req, Sent carries h i req ∧ Adds k req d

/-- `l` is an order of additions (their numbers and what they add) that explains everything the clients heard of the counter. -/
structure InLine (carries : Str → List Str → Prop) (h : List Ev) (k : Str) (l : List (Nat × Int)) : Prop where
  /-- no request counts twice -/
  once : (l.map (·.1)).Nodup
  /-- only requests that were sent count -/
  sent : ∀ i d, (i, d) ∈ l → ∃ req, Sent carries h i req ∧ Adds k req d
  /-- every request that was answered counts -/
  got : ∀ i req d m, Sent carries h i req → Adds k req d → Got h i m → (i, d) ∈ l
  /-- every answer is the sum so far (as a 64-bit integer) -/
  told : ∀ before i d after m, l = before ++ (i, d) :: after → Got h i m → ∃ n, m = .int n ∧ Wraps n ((before.map (·.2)).sum + d)
  /-- a request that was sent after another one was answered counts after it -/
  order : ∀ p ∈ l, ∀ q ∈ l, Answered h p.1 q.1 → Before l p q
  /-- GET shows the sum up to some point; that point is after all requests answered before the GET was sent, and before all requests
  sent after the GET was answered -/
  read : ∀ i req m, Sent carries h i req → On (s!! "get") k req → Got h i m →
    ∃ before after n, l = before ++ after ∧ CountsAs m n ∧ Wraps n (before.map (·.2)).sum ∧
      (∀ p ∈ l, Answered h p.1 i → p ∈ before) ∧ ∀ p ∈ before, ¬ Answered h i p.1

/-- The clients sell `n` items: `INCRBY k n` (request `i0`) was answered before anybody else touched the counter; all others send
DECR, which takes an item if the answer is not negative. -/
structure Sale (carries : Str → List Str → Prop) (h : List Ev) (k : Str) (i0 n : Nat) : Prop where
  stock : ∃ req, Sent carries h i0 req ∧ Adds k req n
  first : ∀ i req d, Sent carries h i req → Adds k req d → i ≠ i0 → Answered h i0 i
  decr : ∀ i req d, Sent carries h i req → Adds k req d → i ≠ i0 → d = -1

/-- Request `i` is a DECR (not the first request) and was answered with a number that is not negative: its sender has bought. -/
def Buys (carries : Str → List Str → Prop) (h : List Ev) (k : Str) (i0 i : Nat) : Prop :=
  i ≠ i0 ∧ (∃ req d, Sent carries h i req ∧ Adds k req d) ∧ ∃ v : Int, Got h i (.int v) ∧ 0 ≤ v

end CoordSpec
