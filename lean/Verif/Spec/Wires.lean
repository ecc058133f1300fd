import Verif.Spec.Linear
/-!
# Connections (specification)

This file does not use the model.
-/
namespace WireSpec
open Linear (Ev Str)

/-- the number of the request of an event -/
def number : Ev → Nat
  | .call i _ _ | .ret i _ _ => i

/-- the connection -/
def wire : Ev → Nat
  | .call _ c _ | .ret _ c _ => c

/-- the same event, on any connection -/
inductive Same : Ev → Ev → Prop where
  | call (i c c' b) : Same (.call i c b) (.call i c' b)
  | ret (i c c' b) : Same (.ret i c b) (.ret i c' b)

/-- The histories differ only in the connections used. -/
inductive SameBut : List Ev → List Ev → Prop where
  | nil : SameBut [] []
  | cons {e e' h h'} : Same e e' → SameBut h h' → SameBut (e :: h) (e' :: h')

/-- Every request is answered on the connection on which it arrived (and no two arrive on different connections under one number). -/
def Wired (h : List Ev) : Prop := ∀ e ∈ h, ∀ e' ∈ h, number e = number e' → wire e = wire e'

end WireSpec
