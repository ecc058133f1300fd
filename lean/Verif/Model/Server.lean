import Verif.Model.Commands
/-!
# server/v2/server.go and event/handler.go, sequential view

`React` (server/v2/server.go:44-64) handles one frame (the bytes of one read).  This file models what one
frame does when nothing else runs; the concurrent machinery (goroutine pool, event channel, worker) is in
`Model/Event.lean`.
-/
namespace Godis

/-- What a frame leads to. -/
inductive FrameOut where
  /-- nothing is written to the connection (decode error, or a request without elements) -/
  | silent
  /-- these bytes are written -/
  | reply (b : Bytes)
deriving DecidableEq, Repr

/-- event/handler.go:15-52 `HandleRequest` for a decoded request, when the result arrives before the
timeout: the reply bytes (empty = none). -/
def handleRequest (ext : Ext) (it : Iter) (s : Store) (rec : Receive) : Go (Store × Bytes) := do
  let (s, r) ← runRequest ext it s rec.elements
  match r with
  | none => .ok (s, [])
  | some rsp => do
    let b ← rsp.encode
    .ok (s, b)

/-- server/v2/server.go:44-64 `React`: `DecodeFromReader` is called once per frame; whatever follows the first
request in the frame is discarded. -/
def reactFrame (ext : Ext) (it : Iter) (s : Store) (frame : Bytes) : Go (Store × FrameOut) :=
  match decodeFromReader frame with
  | .panic p => .error p
  | .err _ _ => .ok (s, .silent)
  | .ok rec _ => do
    let (s, b) ← handleRequest ext it s rec
    if b = [] then .ok (s, .silent) else .ok (s, .reply b)

end Godis
