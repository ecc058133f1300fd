import Mathlib.Logic.Function.Basic
/-!
# A configuration that is replaced as a whole (specification)

This file does not use the model.  `Ask` is what a goroutine can call and `Ans` what it is told; the object below is the
configuration as its users think of it: every call takes effect at once, at one moment between its beginning and its end.
-/
namespace ConfigSpec

/-- A goroutine hands in a document, or asks for the default timeout. -/
inductive Ask where
  | load (doc : List UInt8)
  | timeout
deriving DecidableEq

/-- It is told whether the document was accepted (`none`) or why it was not, or the timeout in nanoseconds. -/
inductive Ans where
  | verdict (err : Option (List UInt8))
  | nanoseconds (t : Int)
deriving DecidableEq

/-- What can be seen of goroutine `i`: it asks, or is told. -/
inductive Seen where
  | asks (i : Nat) (a : Ask)
  | told (i : Nat) (a : Ans)
deriving DecidableEq

/-- What documents mean: why the document is refused, or its `default_timeout` in nanoseconds, 0 if it does not mention it. -/
abbrev Reading := List UInt8 → Except (List UInt8) Int

/-- The default timeout is the one in the document that was accepted last; five seconds if that one sets none, or if there is
none. -/
def inForce (last : Option Int) : Int :=
  match last with
  | some t => if t = 0 then 5 * 10 ^ 9 else t
  | none => 5 * 10 ^ 9

/-- Where a goroutine is: `none` outside; has asked, the call has not taken effect; or it has, and the answer is known. -/
abbrev Where := Option (Ask ⊕ Ans)

/-- One moment in the life of the object. `none` is the moment a call takes effect. -/
inductive Moves (rd : Reading) : (Option Int × (Nat → Where)) → Option Seen → (Option Int × (Nat → Where)) → Prop where
  | ask {v w i a} : w i = none → Moves rd (v, w) (some (.asks i a)) (v, Function.update w i (some (.inl a)))
  | refused {v w i doc e} : w i = some (.inl (.load doc)) → rd doc = .error e →
      Moves rd (v, w) none (v, Function.update w i (some (.inr (.verdict (some e)))))
  | accepted {v w i doc t} : w i = some (.inl (.load doc)) → rd doc = .ok t →
      Moves rd (v, w) none (some t, Function.update w i (some (.inr (.verdict none))))
  | looked {v w i} : w i = some (.inl .timeout) →
      Moves rd (v, w) none (v, Function.update w i (some (.inr (.nanoseconds (inForce v)))))
  | told {v w i a} : w i = some (.inr a) → Moves rd (v, w) (some (.told i a)) (v, Function.update w i none)

/-- `H` is a history of the object, ending in the state `x`. -/
inductive Lives (rd : Reading) : List Seen → (Option Int × (Nat → Where)) → Prop where
  | start : Lives rd [] (none, fun _ => none)
  | hidden {H x y} : Lives rd H x → Moves rd x none y → Lives rd H y
  | seen {H x s y} : Lives rd H x → Moves rd x (some s) y → Lives rd (H ++ [s]) y

/-- `H` is a history of the object. -/
def Atomic (rd : Reading) (H : List Seen) : Prop := ∃ x, Lives rd H x

/-- At the end of `H`, goroutine `i` has asked `a` and has not been told. -/
def Waiting (H : List Seen) (i : Nat) (a : Ask) : Prop :=
  ∃ A B, H = A ++ .asks i a :: B ∧ ∀ b, Seen.told i b ∉ B

/-- At some moment a goroutine is handing in a document while another one is asking for the timeout. -/
def Overlap (H : List Seen) : Prop :=
  ∃ A, A <+: H ∧ ∃ i j doc, Waiting A i (.load doc) ∧ Waiting A j .timeout

end ConfigSpec
