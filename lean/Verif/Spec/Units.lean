import Verif.Spec.Resp
/-!
# The units a request is made of (specification)

This file does not use the model.  A client's request consists of header lines and of data, each ended by CR LF.
-/
namespace Resp

/-- the units of the bulk strings `as`: for each a header line and its data -/
inductive BulkUnits : List Str → List Str → Prop
  | nil : BulkUnits [] []
  | cons {d a us as} : dec d = some a.length → BulkUnits us as →
      BulkUnits ((36 :: d ++ [13, 10]) :: (a ++ [13, 10]) :: us) (a :: as)

/-- the units of a request with the arguments `as` -/
def RequestUnits (us : List Str) (as : List Str) : Prop :=
  ∃ d us', dec d = some as.length ∧ BulkUnits us' as ∧ us = (42 :: d ++ [13, 10]) :: us'

/-! ## header lines and data told apart -/

/-- a header line, or data; with its CR LF -/
inductive Part where
  | line (l : Str)
  | data (a : Str)

def Part.bytes : Part → Str
  | .line l => l
  | .data a => a

/-- the parts of the bulk strings `as` -/
inductive BulkParts : List Part → List Str → Prop
  | nil : BulkParts [] []
  | cons {d a us as} : dec d = some a.length → BulkParts us as →
      BulkParts (.line (36 :: d ++ [13, 10]) :: .data (a ++ [13, 10]) :: us) (a :: as)

/-- the parts of a request with the arguments `as` -/
def RequestParts (us : List Part) (as : List Str) : Prop :=
  ∃ d us', dec d = some as.length ∧ BulkParts us' as ∧ us = .line (42 :: d ++ [13, 10]) :: us'

/-- The bytes of several parts or pieces. -/
def Part.all (us : List Part) : Str := (us.map Part.bytes).flatten

/-- What arrives is a list of pieces; `true`: a network segment ends with the piece.  The segments: -/
def segments : List (Str × Bool) → List Str
  | [] => []
  | (p, true) :: ps => p :: segments ps
  | (p, false) :: ps =>
    match segments ps with
    | [] => [p]
    | s :: ss => (p ++ s) :: ss

/-- The stream of the parts `us` arrives in the pieces `ps`, and no data is cut: every piece begins between two parts or
inside a header line; with what arrived before of this header line it has at most `size` bytes, and exactly that many if
the segment goes on after it. -/
structure Uncut (size : Nat) (us : List Part) (ps : List (Str × Bool)) : Prop where
  nonempty : ∀ p ∈ ps, p.1 ≠ []
  stream : (ps.map Prod.fst).flatten = Part.all us
  cuts : ∀ before p after, ps = before ++ p :: after → ∃ done part rest, us = done ++ rest ∧
    (before.map Prod.fst).flatten = Part.all done ++ part ∧
    (part = [] ∨ ∃ l more, rest = .line l :: more ∧ part <+: l ∧ part ≠ l) ∧
    part.length + p.1.length ≤ size ∧ (p.2 = false → part.length + p.1.length = size)

end Resp
