import Verif.Spec.Linear
import Verif.Spec.Lists
/-!
# Clients that coordinate through the server (specification)

This file does not use the model.  It is about what all clients together see at their sockets: a history of `Linear.Ev`
(requests arriving, replies sent), from any number of connections, in any interleaving.
-/
namespace CoordSpec
open Resp (Reply Denotes)
open Linear (Ev Before Str)
open KeySpec (keyArgs readOnly)
open StrSpec (lower isError)
open ListSpec (items Plain)

/-- Request number `i` was sent, and it is `req`. -/
def Sent (carries : Str → List Str → Prop) (h : List Ev) (i : Nat) (req : List Str) : Prop :=
  ∃ conn b, .call i conn b ∈ h ∧ carries b req

/-- The reply `m` to request number `i` was received, and it is not the notice that the server gave up waiting. -/
def Got (h : List Ev) (i : Nat) (m : Reply) : Prop :=
  ∃ conn b, .ret i conn b ∈ h ∧ Denotes b m ∧ m ≠ Linear.gaveUp

/-- Request `i` was answered (not with the notice that the server gave up) before request `j` was sent. -/
def Answered (h : List Ev) (i j : Nat) : Prop :=
  ∃ conn b conn' b', Before h (.ret i conn b) (.call j conn' b') ∧ ¬ Denotes b Linear.gaveUp

/-- The request is one of the commands `cmds` with first argument `k`. -/
def On (cmd k : Str) (req : List Str) : Prop := ∃ name args, req = name :: k :: args ∧ lower name = cmd

/-- All clients agree to use the key `k` only with the commands `cmds` and with commands that only inspect data; they
may do anything with other keys. -/
def Reserved (carries : Str → List Str → Prop) (h : List Ev) (k : Str) (cmds : List Str) : Prop :=
  ∀ i req, Sent carries h i req → Plain req ∧
    (k ∈ keyArgs (lower (req.headD [])) req.tail → lower (req.headD []) ∈ cmds ∨ lower (req.headD []) ∈ readOnly)

/-- `ps` lists every RPUSH to `k` that was sent (its number and its items), each once. -/
def AllPushes (carries : Str → List Str → Prop) (h : List Ev) (k : Str) (ps : List (Nat × List Str)) : Prop :=
  (ps.map (·.1)).Nodup ∧
  ∀ i vs, (i, vs) ∈ ps ↔ ∃ name, Sent carries h i (name :: k :: vs) ∧ lower name = s!! "rpush"

/-- The request puts a text into `k` (`SET k v`) or empties it (`DEL k`, written `none`).  (DEL with several keys removes only the
first, see C70.) -/
def Puts (k : Str) (req : List Str) (w : Option Str) : Prop :=
  (∃ name v rest, req = name :: k :: v :: rest ∧ lower name = s!! "set" ∧ w = some v) ∨
  (∃ name rest, req = name :: k :: rest ∧ lower name = s!! "del" ∧ w = none)

/-- The request is a counter command that adds `d` to `k`. -/
def Adds (k : Str) (req : List Str) (d : Int) : Prop :=
  ∃ name args, req = name :: k :: args ∧ StrSpec.delta (lower name) (k :: args) = some d

end CoordSpec
