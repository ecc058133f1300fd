import Verif.Spec.Coord
import Verif.Spec.Sets
/-!
# Sets and logs that many clients share (specification)

This file does not use the model.  As in Spec/Coord.lean, it is about what all clients together see at their sockets.
-/
namespace CoordSpec
open Resp (Reply bulks)
open StrSpec (lower int64)
open Linear (Str)

/-- The request makes `x` a member of `k` (`b = true`: SADD naming it) or makes it no member (`b = false`: SREM naming it, or
DEL `k`). -/
def Flips (k x : Str) (req : List Str) (b : Bool) : Prop :=
  (∃ name xs, req = name :: k :: xs ∧ lower name = s!! "sadd" ∧ x ∈ xs ∧ b = true) ∨
  (∃ name xs, req = name :: k :: xs ∧ lower name = s!! "srem" ∧ x ∈ xs ∧ b = false) ∨
  (∃ name rest, req = name :: k :: rest ∧ lower name = s!! "del" ∧ b = false)

/-- What a client that asks for the members of `k`, or whether `x` is one, hears if the members are `X`. -/
def HearsSet (k : Str) (X : Finset Str) (req : List Str) (m : Reply) : Prop :=
  (On (s!! "smembers") k req → (X = ∅ ∧ m = ListSpec.errNil) ∨ (X ≠ ∅ ∧ ∃ l, m = bulks l ∧ l.Nodup ∧ ∀ x, x ∈ l ↔ x ∈ X)) ∧
  (∀ name x rest, req = name :: k :: x :: rest → lower name = s!! "sismember" → m = .int (if x ∈ X then 1 else 0))

/-- What a client that asks for a part of the list `k`, or for its length, hears if the list is `l`. -/
def HearsList (k : Str) (l : List Str) (req : List Str) (m : Reply) : Prop :=
  (∀ name a b rest i j, req = name :: k :: a :: b :: rest → lower name = s!! "lrange" → int64 a = some i → int64 b = some j →
    m = bulks (ListSpec.window l i j)) ∧
  (On (s!! "llen") k req → m = .int l.length)

end CoordSpec
