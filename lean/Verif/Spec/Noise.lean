import Verif.Spec.Grammar
import Verif.Spec.Linear
/-!
# Noise at the sockets (specification)

This file does not use the model.  Noise is what cannot be read as a request at all.
-/
namespace NoiseSpec
open Linear (Ev Str)

/-- The bytes cannot be read as a request: they are refused, or reading them fails. -/
def Noise (b : Str) : Prop := ∃ f, Grammar.Faults b f

/-- the number of the request of an event -/
def number : Ev → Nat
  | .call i _ _ | .ret i _ _ => i

/-- `h'` is what is left of `h` without the noise. -/
inductive Without : List Ev → List Ev → Prop where
  | nil : Without [] []
  | noise {i c b h h'} : Noise b → Without h h' → Without (.call i c b :: h) h'
  | call {i c b h h'} : ¬ Noise b → Without h h' → Without (.call i c b :: h) (.call i c b :: h')
  | ret {i c b h h'} : Without h h' → Without (.ret i c b :: h) (.ret i c b :: h')

/-- Nothing else happens to the number of a noise: it gets no answer (and the number is not used again). -/
def Mute (h : List Ev) : Prop :=
  ∀ h1 h2 i c b, h = h1 ++ .call i c b :: h2 → Noise b → ∀ e ∈ h1 ++ h2, number e ≠ i

end NoiseSpec
