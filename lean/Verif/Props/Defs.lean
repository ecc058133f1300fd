import Verif.Model.Server
import Verif.Proofs.Encode
/-!
# Vocabulary of the property statements

A request is the list of its words (command name first).  `Answers ext it s req m s'` says: on store `s` the
server executes `req`, does not crash, sends the RESP reply `m`, and is then in store `s'`.
`Trace ext s tr s'` is a history of answered requests.
-/
namespace Godis
open Resp (Reply)

/-- The request is executed without a crash, answered with `m`, and leaves the store `s'`.
(`C01_reply_framing` connects `Response.reply` with the bytes sent.) -/
def Answers (ext : Ext) (it : Iter) (s : Store) (req : List Bytes) (m : Reply) (s' : Store) : Prop :=
  ∃ rsp, runRequest ext it s req = .ok (s', some rsp) ∧ rsp.reply = some m

/-- The request is answered with `m`, whatever order Go iterates over maps, and changes nothing. -/
def Reads (ext : Ext) (s : Store) (req : List Bytes) (m : Reply) : Prop := ∀ it, Answers ext it s req m s

/-- A history of requests and their replies, oldest first. -/
inductive Trace (ext : Ext) (s0 : Store) : List (List Bytes × Reply) → Store → Prop
  | nil : Trace ext s0 [] s0
  | snoc {tr s it req m s'} : Trace ext s0 tr s → Answers ext it s req m s' → Trace ext s0 (tr ++ [(req, m)]) s'

/-- The stores a server can be in after serving requests that all satisfy `ok`, from an empty start. -/
def ReachableBy (ext : Ext) (ok : List Bytes → Prop) (s : Store) : Prop :=
  ∃ rng tr, Trace ext (Store.init rng) tr s ∧ ∀ p ∈ tr, ok p.1

/-- The stores a server can be in. -/
def Reachable (ext : Ext) (s : Store) : Prop := ∃ rng tr, Trace ext (Store.init rng) tr s

/-- A stored value: a text or a collection object. -/
inductive Value where
  | text (v : Bytes)
  | coll (o : Obj)

/-- The value seen through a key, with the pointer followed. -/
def Store.valueAt (s : Store) (k : Bytes) : Option Value :=
  match s.keys.get k with
  | none => none
  | some info =>
    match info.value with
    | .str v => some (.text v)
    | .ref r => (s.heap[r]?).map .coll

end Godis
