import Verif.Spec.Coord
/-!
# A work queue, accounted for (specification)

This file does not use the model.
-/
namespace CoordSpec
open Linear (Ev Str)
open Resp (Reply)
open ListSpec (items)

/-- `rs` lists every LPOP of `k` that was answered (its number and the reply), each once. -/
def AllPops (carries : Str → List Str → Prop) (h : List Ev) (k : Str) (rs : List (Nat × Reply)) : Prop :=
  (rs.map (·.1)).Nodup ∧
  ∀ i m, (i, m) ∈ rs ↔ Got h i m ∧ ∃ req, Sent carries h i req ∧ On (s!! "lpop") k req

/-- The request is one of those that change the queue `k`. -/
def QueueOp (k : Str) (req : List Str) : Prop := On (s!! "rpush") k req ∨ On (s!! "lpop") k req

/-- Every request that changes the queue has its answer. -/
def AllAnswered (carries : Str → List Str → Prop) (h : List Ev) (k : Str) : Prop :=
  ∀ i req, Sent carries h i req → QueueOp k req → ∃ m, Got h i m

/-- What was delivered and what is left are, together and with multiplicity, what was sent. -/
def Accounted (ps : List (Nat × List Str)) (rs : List (Nat × Reply)) (left : List Str) : Prop :=
  ((rs.flatMap fun r => items r.2) ++ left).Perm (ps.flatMap (·.2))

end CoordSpec
