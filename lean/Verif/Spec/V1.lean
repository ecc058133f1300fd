import Mathlib.Data.List.Forall2
import Verif.Model.ServerV1
import Verif.Spec.Resp
import Verif.Spec.Wire
import Verif.Spec.Units
/-!
# Words about runs of the v1 server (specification)
-/
namespace Godis.V1
open Godis.Event (Label)

/-- what a step of the v1 server is in the terms of `Model/Event`: taking a request is receiving a frame and logging it -/
def VLabel.steps : VLabel → List Label
  | .sys l => [l]
  | .handle i c b r => [.recv i c b, .log i r.orgStr]
  | _ => []

/-- the steps of the event pool and of the handlers in a run -/
def sysLabels (L : List VLabel) : List Label := L.flatMap VLabel.steps

/-- the connections that were accepted, oldest first -/
def accepted (L : List VLabel) : List Nat :=
  L.filterMap fun l => match l with
    | .accept c _ => some c
    | _ => none

/-- the requests taken on connection `c`, oldest first -/
def taken (L : List VLabel) (c : Nat) : List Receive :=
  L.filterMap fun l => match l with
    | .handle _ c' _ r => if c' = c then some r else none
    | _ => none

/-- Reading requests one after another from a connection: `Finds rd rs rest` if the calls of the decoder find the requests
`rs`, in this order (calls that return an error find none), and leave `rest`. -/
inductive Finds : Rd → List Receive → Rd → Prop
  | nil (rd : Rd) : Finds rd [] rd
  | ok {rd rs rd' r rest} : Finds rd rs rd' → rdDecode rd' = .ok r rest → Finds rd (rs ++ [r]) rest
  | err {rd rs rd' e rest} : Finds rd rs rd' → rdDecode rd' = .err e rest → Finds rd rs rest

/-- The same without errors: every call of the decoder so far has found a request. -/
inductive FindsAll : Rd → List Receive → Rd → Prop
  | nil (rd : Rd) : FindsAll rd [] rd
  | ok {rd rs rd' r rest} : FindsAll rd rs rd' → rdDecode rd' = .ok r rest → FindsAll rd (rs ++ [r]) rest

/-- a connection from which nothing was read yet -/
def fresh (segs : List Bytes) : Rd := ⟨[], segs⟩

/-- the numbers of those requests that have words (a request without words is not answered) -/
def withWords (ids : List Nat) (found : List Receive) : List Nat :=
  ((ids.zip found).filter fun p => p.2.elements ≠ []).map Prod.fst

/-- within the limits of the platform: lengths are 64-bit integers and one allocation is below 2^48 bytes -/
def Fits (req : List Bytes) : Prop := req.length < 2 ^ 63 ∧ ∀ a ∈ req, a.length + 2 ≤ 2 ^ 48

/-- A peer sends these requests, none of them empty, one after the other; the bytes arrive in these segments, and no data is
cut: neither by the end of a segment nor by the end of the 4096 bytes that the server reads at a time (`Resp.Uncut`). -/
def Sends (segs : List Bytes) (reqs : List (List Bytes)) : Prop :=
  ∃ parts ps, List.Forall₂ (fun us req => Resp.RequestParts us req ∧ req ≠ [] ∧ Fits req) parts reqs ∧
    Resp.Uncut 4096 parts.flatten ps ∧ segs = Resp.segments ps

end Godis.V1

namespace Godis.V1

/-- `Stop` is called before `Start` has set the listener -/
def EarlyStop (L : List VLabel) : Prop := ∃ A B, L = A ++ .stopCalled :: B ∧ .serving ∉ A

/-- nothing can happen any more, except that readers read, that connections are accepted or `Accept` fails, or that `Stop`
is called -/
def AtRest (ext : Ext) (v : Srv) : Prop := ∀ l v', VStep ext v l v' →
  (∃ c, l = .reader c) ∨ (∃ p, l = .panic (.decoding p)) ∨ (∃ c b, l = .accept c b) ∨ l = .acceptFailed ∨ l = .stopCalled

/-- what the peers do: every connection, every byte sent on it, every failure of `Accept` counts -/
def load (L : List VLabel) : Nat :=
  (L.map fun l => match l with
    | .accept _ segs => 4 * segs.flatten.length + 13
    | .acceptFailed => 1
    | _ => 0).sum

/-- what must have happened if the process ends by a panic -/
def Cause (L : List VLabel) : Why → Prop
  /- `Stop` was called and returned before `Start` had set the context -/
  | .nilCancel => .stopCalled ∈ L ∧ .begun ∉ L
  /- a peer ended its stream: after some requests, none of them malformed, its bytes are used up before a further request is
  complete -/
  | .nilRequest => ∃ c segs rs rd rest, .accept c segs ∈ L ∧ FindsAll (fresh segs) rs rd ∧ rdDecode rd = .err .eof rest
  | .negativeCounter => False
  /- a peer sent a header line that can crash the decoder, and the decoder, after some requests, crashed on it -/
  | .decoding p => ∃ c segs rs rd, .accept c segs ∈ L ∧ BadHeader segs.flatten ∧ Finds (fresh segs) rs rd ∧
      rdDecode rd = .panic p
  /- the event pool was stopped while a request was in flight, or the reply to a request cannot be encoded -/
  | .handling i p => (p = .sendOnClosed ∧ .sys .stop ∈ L ∧ .sys (.enqueue i) ∉ L) ∨
      ∃ w rsp, .sys (.exec w i rsp) ∈ L ∧ rsp.encode = .error p

end Godis.V1
