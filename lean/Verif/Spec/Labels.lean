import Verif.Model.Event
/-!
# Words about steps of the concurrent server (specification)
-/
namespace Godis.Event

/-- the frame a label is about -/
def Label.about : Label → Option Nat
  | .recv i _ _ | .log i _ | .quiet i | .died i _ | .enqueue i | .take _ i | .start _ i | .exec _ i _
  | .crash _ i _ | .publish _ i | .timeout i | .result i | .write i _ _ => some i
  | .stop | .signal _ | .exit _ | .stopped => none

/-- the label is an action of a worker -/
def Label.byWorker : Label → Bool
  | .take .. | .start .. | .exec .. | .crash .. | .publish .. => true
  | _ => false

/-- a label that ends a handler -/
def Label.ends : Label → Bool
  | .quiet _ | .died _ _ | .write .. => true
  | _ => false

end Godis.Event
