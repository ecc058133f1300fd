import Verif.Spec.Linear
/-!
# What clients see at their own ends (specification)

This file does not use the model.  Between a client and the server lies a network: a request is sent some time before it arrives, a
reply is received some time after it was sent.
-/
namespace DelaySpec
open Linear (Ev Str)

/-- the number of the request of an event -/
def number : Ev → Nat
  | .call i _ _ | .ret i _ _ => i

/-- `h` is what happens at the server's sockets; `h'` is what the clients may see at their ends: any request may have been sent
earlier, any reply may be received later, as long as no request is sent after its own reply. -/
inductive Delayed (h : List Ev) : List Ev → Prop where
  | none : Delayed h h
  | call {h1 h2 e i c b} : Delayed h (h1 ++ e :: .call i c b :: h2) → number e ≠ i → Delayed h (h1 ++ .call i c b :: e :: h2)
  | ret {h1 h2 e i c b} : Delayed h (h1 ++ .ret i c b :: e :: h2) → number e ≠ i → Delayed h (h1 ++ e :: .ret i c b :: h2)

end DelaySpec
