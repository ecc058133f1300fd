import Verif.Model.Event
/-!
# Promptness and load (specification)

`L` is a run with the time of each action.
-/
namespace Godis.Event

/-- the labels without the times -/
def untimed (L : List (Nat × Label)) : List Label := L.map (·.2)

/-- The action is one of the server's own: not the arrival of a frame, a timer or the call of `Stop`. -/
def Label.own : Label → Bool
  | .recv .. | .timeout _ | .stop => false
  | _ => true

/-- a frame arrives -/
def Label.isRecv : Label → Bool
  | .recv .. => true
  | _ => false

/-- After these actions the server has something to do. -/
def CanMove (ext : Ext) (n : Nat) (rng : Rng) (L : List Label) : Prop :=
  ∃ σ, Run ext n rng L σ ∧ σ.crashed = false ∧ ∃ l σ', Step ext n σ l σ' ∧ l.own = true

/-- the time of the last action -/
def clock (L : List (Nat × Label)) : Nat := (L.getLast?.map (·.1)).getD 0

/-- The machine is not slower than this: whenever the server has something to do, then within `δ` it does one action (which
may be executing one command).  `T` is when the observation ends. -/
def Prompt (ext : Ext) (n : Nat) (rng : Rng) (δ T : Nat) (L : List (Nat × Label)) : Prop :=
  ∀ A B, L = A ++ B → CanMove ext n rng (untimed A) →
    T ≤ clock A + δ ∨ ∃ p ∈ B, p.2.own = true ∧ p.1 ≤ clock A + δ

/-- The load is not higher than this: at most `M` frames arrive in any `W` nanoseconds. -/
def Load (M W : Nat) (L : List (Nat × Label)) : Prop :=
  ∀ t, (L.countP fun p => p.2.isRecv && decide (t ≤ p.1) && decide (p.1 ≤ t + W)) ≤ M

end Godis.Event
