import Verif.Spec.Coord
/-!
# Keys that clients write together (specification)

This file does not use the model.  As in Spec/Coord.lean, it is about what all clients together see at their sockets.
-/
namespace CoordSpec
open Resp (Reply)
open StrSpec (lower)
open KeySpec (keyArgs readOnly)
open ListSpec (Plain)
open Linear (Ev Str)

/-- The request is `MSET k₁ v₁ … kₙ vₙ` with the keys `ks` and the texts `vs`. -/
def Together (ks : List Str) (req : List Str) (vs : List Str) : Prop :=
  ∃ name, req = name :: (ks.zip vs).flatMap (fun p => [p.1, p.2]) ∧ lower name = s!! "mset" ∧ vs.length = ks.length

/-- All clients agree to write the keys `ks` only all together with one MSET (in this order); they may read them with any command
that only inspects data, and do anything with other keys. -/
def OnlyTogether (carries : Str → List Str → Prop) (h : List Ev) (ks : List Str) : Prop :=
  ∀ i req, Sent carries h i req → Plain req ∧
    ((∃ k ∈ ks, k ∈ keyArgs (lower (req.headD [])) req.tail) → (∃ vs, Together ks req vs) ∨ lower (req.headD []) ∈ readOnly)

/-- The text of `k` if the last MSET put the texts `row`. -/
def textIn (ks : List Str) (row : Option (List Str)) (k : Str) : Option Str := row.bind fun vs => (ks.zip vs).lookup k

/-- What a client that asks for some of the keys hears if the last MSET put the texts `row`. -/
def HearsRow (ks : List Str) (row : Option (List Str)) (req : List Str) (m : Reply) : Prop :=
  (∀ name ks', req = name :: ks' → lower name = s!! "mget" → ks' ≠ [] → (∀ k ∈ ks', k ∈ ks) →
    m = .array (ks'.map fun k => .bulk (textIn ks row k))) ∧
  (∀ name k rest, req = name :: k :: rest → lower name = s!! "get" → k ∈ ks → m = .bulk (textIn ks row k))

end CoordSpec
