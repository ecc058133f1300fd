import Verif.Model.Event
import Verif.Model.Reader
/-!
# The v1 server: server/v1/server.go, protocol/decode.go:57-85 `ReceiveDataAsync`

The goroutine that calls `Start` and accepts connections, the goroutine that calls `Stop`, and for each connection the
goroutine `handleConn` and its reader, together with the event pool and the handling of requests of `Model/Event` (one
worker, event/event_pool.go:19).  One step is one action of one goroutine that another goroutine can notice.  Any
goroutine that can act may act next.

A request that a connection loop takes from `ReceiveChan` gets a number `i`; `event.HandleRequest` then runs as the
handler `i` of `Model/Event`, from the point where the request is decoded.  It runs in the goroutine of the connection,
without `recover`: a panic in it ends the process.

Simplifications:
* The segments in which a peer's bytes arrive are given when its connection is accepted.  A reader that waits for more bytes
  is one that does not act; after the last byte `net.Conn.Read` returns `io.EOF` or any other error (as of a reset connection),
  any number of times, or `net.ErrClosed` if the server has closed the connection.  A call of `DecodeFromReader` is one step
  (nobody else reads from the connection).
* `Start` and `Stop` are called at most once.
* A field of the server that one goroutine writes and another reads (`ctx`, `cancel`, `listener`) is read and written in
  one step (in Go this is a data race).
* The first components of the pairs in `receive` and `hasRequest` are not in the code: some byte string from which the v2
  server would decode the same request, so that the steps of `Model/Event` apply.  There is always one (`rdDecode_fair`, `reader_moves`).
* cmd/server/main.go:85-87 refuses to run this server; this is the code as a library, build tag `v1`.
-/
namespace Godis.V1
open Godis.Event (Sys Label Step Stopper upd)

/-- Where the reader of a connection is (protocol/decode.go:62-82). -/
inductive Reader where
  /-- decode.go:69: about to decode -/
  | loop
  /-- decode.go:80: about to send a request; it is the one that these bytes stand for -/
  | hasRequest (bytes : Bytes) (r : Receive)
  /-- decode.go:71: about to send an error; `last` if it is `io.EOF` or `net.ErrClosed` -/
  | hasError (last : Bool)
  /-- decode.go:73-75: `io.EOF` or `net.ErrClosed` was sent, the function returns -/
  | returning
  /-- decode.go:64 done -/
  | closedReceive
  /-- decode.go:65 done -/
  | gone

/-- Where the goroutine `handleConn` is (server.go:92-120). -/
inductive Loop where
  /-- no such connection yet -/
  | absent
  /-- server.go:98: in the select -/
  | selecting
  /-- server.go:105-110: in `HandleRequest` or `conn.Write`, for request `i` -/
  | handling (i : Nat)
  /-- server.go:100, 103, 113: left the loop -/
  | leaving
  /-- server.go:118 done -/
  | closed
  /-- server.go:119 done -/
  | gone
deriving DecidableEq

/-- A connection. -/
structure Conn where
  /-- the `bufio.Reader`: what it holds, and what the peer has sent or will send and was not yet read -/
  input : Rd
  /-- the buffer of `ReceiveChan` (capacity 1) -/
  receive : List (Bytes × Receive)
  receiveClosed : Bool
  /-- the number of errors in the buffer of `ErrorChan` (capacity 1) -/
  errors : Nat
  errorClosed : Bool
  reader : Reader
  loop : Loop

/-- no connection yet -/
def Conn.none : Conn := ⟨⟨[], []⟩, [], false, 0, false, .loop, .absent⟩

/-- server.go:93-94: a new connection, on which these segments will arrive -/
def Conn.new (segs : List Bytes) : Conn := ⟨⟨[], segs⟩, [], false, 0, false, .loop, .selecting⟩

/-- Where the goroutine that calls `Start` is (server.go:37-56, 70-89). -/
inductive Starter where
  /-- `Start` not called, or before server.go:42 -/
  | no
  /-- server.go:42 done: `s.ctx`, `s.cancel` set -/
  | begun
  /-- server.go:45 done: `net.Listen` has succeeded, `s.listener` not yet set -/
  | listening
  /-- server.go:71-86: in the accept loop -/
  | accepting
  /-- server.go:88: in `s.wg.Wait()` -/
  | waiting
  /-- `Start` has returned nil -/
  | returned
  /-- `Start` has returned an error -/
  | failed
deriving DecidableEq

/-- Where the goroutine that calls `Stop` is (server.go:59-68). -/
inductive Closer where
  /-- `Stop` not called -/
  | no
  /-- server.go:61-63 done -/
  | closedListener
  /-- server.go:65: in `event.Stop()` -/
  | stopping
  /-- `Stop` has returned -/
  | returned
deriving DecidableEq

/-- The process. -/
structure Srv where
  /-- the store, the requests being handled, the event pool -/
  sys : Sys
  conn : Nat → Conn
  starter : Starter
  closer : Closer
  /-- `s.ctx` and `s.cancel` are set -/
  ctx : Bool
  /-- `s.cancel()` was called -/
  cancelled : Bool
  /-- `s.listener`: nil, or open (`some true`), or closed (`some false`) -/
  listener : Option Bool
  /-- the counter of `s.wg` -/
  wg : Nat
  /-- the process was terminated by a panic, other than one of a command -/
  crashed : Bool

/-- server.go:29-34 `NewServer` -/
def Srv.init (rng : Rng) : Srv where
  sys := Sys.init rng
  conn := fun _ => Conn.none
  starter := .no
  closer := .no
  ctx := false
  cancelled := false
  listener := none
  wg := 0
  crashed := false

/-- Why the process ended by a panic. -/
inductive Why where
  /-- server.go:67: `s.cancel` is nil -/
  | nilCancel
  /-- server.go:105: a nil request -/
  | nilRequest
  /-- server.go:119: `Done` without `Add` -/
  | negativeCounter
  /-- decode.go:69 -/
  | decoding (p : Panic)
  /-- server.go:105: `HandleRequest` panics -/
  | handling (i : Nat) (p : Panic)
deriving DecidableEq

/-- What happens in a step. -/
inductive VLabel where
  /-- a step of the event pool or of the handling of a request -/
  | sys (l : Label)
  /-- `Start` has set the context -/
  | begun
  /-- the address cannot be listened on; `Start` returns the error -/
  | startFailed
  /-- `net.Listen` has succeeded -/
  | listening
  /-- `Start` has set `s.listener` and begins to accept -/
  | serving
  /-- connection `c` is accepted; what the peer sends arrives in these segments -/
  | accept (c : Nat) (segs : List Bytes)
  /-- `Accept` fails, but not because the listener is closed -/
  | acceptFailed
  /-- the accept loop ends -/
  | acceptEnd
  /-- `Start` returns nil -/
  | started
  /-- `Stop` is called: it closes the listener, if there is one -/
  | stopCalled
  /-- `Stop` cancels the context and returns -/
  | stopReturned
  /-- the reader of connection `c` does something -/
  | reader (c : Nat)
  /-- the loop of connection `c` takes a request, which these bytes stand for, and logs its text -/
  | handle (i c : Nat) (bytes : Bytes) (r : Receive)
  /-- the loop of connection `c` is done with a request -/
  | next (c : Nat)
  /-- the reply to a request cannot be written to connection `c` -/
  | writeFailed (c : Nat)
  /-- the loop of connection `c` ends -/
  | leave (c : Nat)
  /-- connection `c` is closed -/
  | closeConn (c : Nat)
  /-- the goroutine of connection `c` ends -/
  | gone (c : Nat)
  /-- the process ends by a panic -/
  | panic (why : Why)

/-- the request that a step of `Model/Event` is made by the handler of -/
def actor : Label → Option Nat
  | .enqueue i | .quiet i | .died i _ | .timeout i | .result i | .write i _ _ => some i
  | _ => none

/-- The actions. -/
inductive VStep (ext : Ext) : Srv → VLabel → Srv → Prop
  /-- server.go:39-42 -/
  | begun (v : Srv) : v.starter = .no → VStep ext v .begun { v with starter := .begun, ctx := true }
  /-- server.go:45-49 -/
  | startFailed (v : Srv) : v.starter = .begun → VStep ext v .startFailed { v with starter := .failed }
  /-- server.go:45 -/
  | listening (v : Srv) : v.starter = .begun → VStep ext v .listening { v with starter := .listening }
  /-- server.go:51 -/
  | serving (v : Srv) : v.starter = .listening → VStep ext v .serving { v with starter := .accepting, listener := some true }
  /-- server.go:72, 84-85, 93-94 -/
  | accept (v : Srv) (c : Nat) (b : List Bytes) : v.starter = .accepting → v.listener = some true → (v.conn c).loop = .absent →
      VStep ext v (.accept c b) { v with conn := upd v.conn c (.new b), wg := v.wg + 1 }
  /-- server.go:79-80 -/
  | acceptFailed (v : Srv) : v.starter = .accepting → v.listener = some true → VStep ext v .acceptFailed v
  /-- server.go:74-76 -/
  | acceptEnd (v : Srv) : v.starter = .accepting → v.listener = some false →
      VStep ext v .acceptEnd { v with starter := .waiting }
  /-- server.go:88, 55 -/
  | started (v : Srv) : v.starter = .waiting → v.wg = 0 → VStep ext v .started { v with starter := .returned }
  /-- server.go:61-63 -/
  | stopCalled (v : Srv) : v.closer = .no →
      VStep ext v .stopCalled { v with closer := .closedListener, listener := v.listener.map fun _ => false }
  /-- server.go:65, event_pool.go:28 -/
  | stopPool (v : Srv) (σ' : Sys) : v.closer = .closedListener → Step ext 1 v.sys .stop σ' →
      VStep ext v (.sys .stop) { v with closer := .stopping, sys := σ' }
  /-- server.go:67 -/
  | cancel (v : Srv) : v.closer = .stopping → v.sys.stopper = .returned → v.ctx = true →
      VStep ext v .stopReturned { v with closer := .returned, cancelled := true }
  /-- server.go:67: call of a nil function -/
  | cancelNil (v : Srv) : v.closer = .stopping → v.sys.stopper = .returned → v.ctx = false →
      VStep ext v (.panic .nilCancel) { v with crashed := true }
  /-- decode.go:69: a request -/
  | decode (v : Srv) (c : Nat) (b : Bytes) (r : Receive) (rest : Rd) : (v.conn c).loop ≠ .absent → (v.conn c).reader = .loop →
      rdDecode (v.conn c).input = .ok r rest → decodeFromReader b = .ok r [] →
      VStep ext v (.reader c)
        { v with conn := upd v.conn c { v.conn c with input := rest, reader := .hasRequest b r } }
  /-- decode.go:69: an error; `io.EOF` is the last one.  Where nothing is left to read, the error may also be another one, such
  as that of a reset connection: then `last` is false. -/
  | malformed (v : Srv) (c : Nat) (e : DecErr) (rest : Rd) (last : Bool) : (v.conn c).loop ≠ .absent → (v.conn c).reader = .loop →
      rdDecode (v.conn c).input = .err e rest → (last = true → e = .eof) →
      VStep ext v (.reader c)
        { v with conn := upd v.conn c { v.conn c with input := rest, reader := .hasError last } }
  /-- decode.go:69: a panic -/
  | decodePanic (v : Srv) (c : Nat) (p : Panic) : (v.conn c).loop ≠ .absent → (v.conn c).reader = .loop →
      rdDecode (v.conn c).input = .panic p →
      VStep ext v (.panic (.decoding p)) { v with crashed := true }
  /-- decode.go:69: the connection was closed (server.go:118) -/
  | readClosed (v : Srv) (c : Nat) : (v.conn c).loop = .closed ∨ (v.conn c).loop = .gone → (v.conn c).reader = .loop →
      VStep ext v (.reader c) { v with conn := upd v.conn c { v.conn c with reader := .hasError true } }
  /-- decode.go:80: there is room in `ReceiveChan` -/
  | request (v : Srv) (c : Nat) (b : Bytes) (r : Receive) : (v.conn c).reader = .hasRequest b r →
      (v.conn c).receive.length < 1 →
      VStep ext v (.reader c)
        { v with conn := upd v.conn c { v.conn c with reader := .loop, receive := (v.conn c).receive ++ [(b, r)] } }
  /-- decode.go:71, 73-77: there is room in `ErrorChan` -/
  | error (v : Srv) (c : Nat) (last : Bool) : (v.conn c).reader = .hasError last → (v.conn c).errors < 1 →
      VStep ext v (.reader c)
        { v with conn := upd v.conn c { v.conn c with
            reader := if last then .returning else .loop, errors := (v.conn c).errors + 1 } }
  /-- decode.go:64 -/
  | closeReceive (v : Srv) (c : Nat) : (v.conn c).reader = .returning →
      VStep ext v (.reader c)
        { v with conn := upd v.conn c { v.conn c with reader := .closedReceive, receiveClosed := true } }
  /-- decode.go:65 -/
  | closeError (v : Srv) (c : Nat) : (v.conn c).reader = .closedReceive →
      VStep ext v (.reader c) { v with conn := upd v.conn c { v.conn c with reader := .gone, errorClosed := true } }
  /-- server.go:99-100 -/
  | quit (v : Srv) (c : Nat) : (v.conn c).loop = .selecting → v.cancelled = true →
      VStep ext v (.leave c) { v with conn := upd v.conn c { v.conn c with loop := .leaving } }
  /-- server.go:101-103 -/
  | gotError (v : Srv) (c : Nat) : (v.conn c).loop = .selecting →
      (0 < (v.conn c).errors ∨ (v.conn c).errorClosed = true) →
      VStep ext v (.leave c)
        { v with conn := upd v.conn c { v.conn c with loop := .leaving, errors := (v.conn c).errors - 1 } }
  /-- server.go:104-105, handler.go:26: a request; its text is written to the log -/
  | handle (v : Srv) (c i : Nat) (b : Bytes) (r : Receive) (rest : List (Bytes × Receive)) : (v.conn c).loop = .selecting →
      (v.conn c).receive = (b, r) :: rest → v.sys.handler i = .absent →
      VStep ext v (.handle i c b r)
        { v with
          conn := upd v.conn c { v.conn c with loop := .handling i, receive := rest },
          sys := { v.sys with handler := upd v.sys.handler i (.logged c r), log := v.sys.log ++ [r.orgStr] } }
  /-- server.go:104-105, persistence.go:14: the channel is closed and empty, `rec` is nil -/
  | handleNil (v : Srv) (c : Nat) : (v.conn c).loop = .selecting → (v.conn c).receive = [] →
      (v.conn c).receiveClosed = true → VStep ext v (.panic .nilRequest) { v with crashed := true }
  /-- handler.go:29-51, worker.go, event_pool.go:29-33, server.go:110: the handling of a request, the worker, `event.Stop` -/
  | sys (v : Srv) (l : Label) (σ' : Sys) : Step ext 1 v.sys l σ' → l ≠ .stop → (∀ i c f, l ≠ .recv i c f) →
      (∀ i t, l ≠ .log i t) → (∀ i p, l ≠ .died i p) → (∀ i, actor l = some i → ∃ c, (v.conn c).loop = .handling i) →
      VStep ext v (.sys l) { v with sys := σ' }
  /-- handler.go: a panic in the goroutine of the connection -/
  | died (v : Srv) (c i : Nat) (p : Panic) (σ' : Sys) : (v.conn c).loop = .handling i → Step ext 1 v.sys (.died i p) σ' →
      VStep ext v (.panic (.handling i p)) { v with crashed := true }
  /-- server.go:106-108, 110: nothing to write, or written -/
  | next (v : Srv) (c i : Nat) : (v.conn c).loop = .handling i → v.sys.handler i = .ended →
      VStep ext v (.next c) { v with conn := upd v.conn c { v.conn c with loop := .selecting } }
  /-- server.go:110-113: `conn.Write` fails -/
  | writeFailed (v : Srv) (c i : Nat) (c' : Nat) (rsp : Response) (b : Bytes) : (v.conn c).loop = .handling i →
      v.sys.handler i = .replying c' rsp → rsp.encode = .ok b → b ≠ [] →
      VStep ext v (.writeFailed c) { v with conn := upd v.conn c { v.conn c with loop := .leaving } }
  /-- server.go:118 -/
  | closeConn (v : Srv) (c : Nat) : (v.conn c).loop = .leaving →
      VStep ext v (.closeConn c) { v with conn := upd v.conn c { v.conn c with loop := .closed } }
  /-- server.go:119 -/
  | gone (v : Srv) (c : Nat) : (v.conn c).loop = .closed → 0 < v.wg →
      VStep ext v (.gone c) { v with conn := upd v.conn c { v.conn c with loop := .gone }, wg := v.wg - 1 }
  /-- server.go:119: the counter would become negative -/
  | goneNegative (v : Srv) (c : Nat) : (v.conn c).loop = .closed → v.wg = 0 →
      VStep ext v (.panic .negativeCounter) { v with crashed := true }

/-- Steps from `v` to `v'`: what happened, oldest first.  Nothing happens after a crash. -/
inductive VSteps (ext : Ext) (v : Srv) : List VLabel → Srv → Prop
  | nil : VSteps ext v [] v
  | snoc {L w l w'} : VSteps ext v L w → w.sys.crashed = false → w.crashed = false → VStep ext w l w' →
      VSteps ext v (L ++ [l]) w'

/-- A run of the process. -/
abbrev VRun (ext : Ext) (rng : Rng) (L : List VLabel) (v : Srv) : Prop := VSteps ext (Srv.init rng) L v

end Godis.V1
