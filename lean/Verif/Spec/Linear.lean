import Verif.Spec.Keys
import Verif.Spec.Resp
/-!
# Linearizability (specification)

This file does not use the model.  Source: M. Herlihy, J. Wing, Linearizability: a correctness condition for concurrent
objects (1990).
-/
namespace Linear

/-- A byte string. -/
abbrev Str := List UInt8

open Resp (Reply Denotes)

/-- What can be seen at the server's sockets: the bytes of request `i` arrive on a connection; the reply to request `i`
is sent on a connection. -/
inductive Ev where
  | call (i conn : Nat) (bytes : Str)
  | ret (i conn : Nat) (bytes : Str)

/-- `a` occurs in `l` before `b`. -/
def Before {α : Type} (l : List α) (a b : α) : Prop := ∃ l1 l2 l3, l = l1 ++ a :: (l2 ++ b :: l3)

/-- An executed request: its number, its words, its reply. -/
structure Op where
  id : Nat
  req : List Str
  reply : Reply

/-- The reply the server gives when it gave up waiting for the result. -/
def gaveUp : Reply := .error (s!! "context deadline exceeded")

/-- The history `h` is explained by executing requests one at a time.
* `serial` says which sequences of requests and replies a sequential server produces;
* `carries bytes req` says that the bytes stand for the request `req`. -/
def Linearizable (serial : List (List Str × Reply) → Prop) (carries : Str → List Str → Prop) (h : List Ev) : Prop :=
  ∃ ops : List Op,
    -- one at a time
    serial (ops.map fun o => (o.req, o.reply)) ∧
    -- no request more than once
    (ops.map (·.id)).Nodup ∧
    -- every executed request is one that was sent
    (∀ o ∈ ops, ∃ conn b, .call o.id conn b ∈ h ∧ carries b o.req) ∧
    -- every reply is the one of its request (or says that the server gave up)
    (∀ i conn b, .ret i conn b ∈ h → (∃ b', .call i conn b' ∈ h) ∧ (Denotes b gaveUp ∨ ∃ o ∈ ops, o.id = i ∧ Denotes b o.reply)) ∧
    -- a request answered before another was sent comes first
    (∀ o ∈ ops, ∀ o' ∈ ops, ∀ conn b conn' b', ¬ Denotes b gaveUp →
      Before h (.ret o.id conn b) (.call o'.id conn' b') → Before ops o o')

end Linear
