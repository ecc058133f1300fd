import Verif.Model.Protocol
/-!
# The connection handler of the v1 server: server/v1/server.go:92-120 `handleConn`, protocol/decode.go:57-85
`ReceiveDataAsync`

Two goroutines per connection: the reader decodes requests and sends them on `ReceiveChan` (capacity 1), errors on
`ErrorChan` (capacity 1); the handler selects.  One step is one channel operation.

Simplifications: what the successive calls of `DecodeFromReader` return is given by a list (`none` = an error other than
end of file); at the end of the list the peer has closed the connection and the call returns `io.EOF`.  Handling one
request (event/handler.go) is one step here; `Model/Event.lean` has its inside.  The nil request makes
`HandleRequest` panic (event/handler.go:26, persistence/persistence.go:14 `r.OrgStr`), which ends the process: no
`recover` in server/v1/server.go.
-/
namespace Godis.ConnV1

/-- Where the reader is (protocol/decode.go:62-82). -/
inductive Reader where
  /-- decode.go:69: about to decode -/
  | loop
  /-- decode.go:80: about to send a request -/
  | hasRequest (r : Receive)
  /-- decode.go:71: about to send an error; `last` if it is `io.EOF` or `net.ErrClosed` -/
  | hasError (last : Bool)
  /-- decode.go:73-75: `io.EOF` or `net.ErrClosed` was sent, the function returns -/
  | returning
  /-- decode.go:64 done -/
  | closedReceive
  /-- decode.go:65 done -/
  | gone
deriving DecidableEq

/-- Where the handler is (server/v1/server.go:95-119). -/
inductive Handler where
  /-- in the select -/
  | loop
  /-- the connection is closed and the handler has returned -/
  | gone
deriving DecidableEq

structure State where
  /-- what the next calls of `DecodeFromReader` return -/
  input : List (Option Receive)
  /-- the buffer of `ReceiveChan` -/
  receive : List Receive
  receiveClosed : Bool
  /-- the number of errors in the buffer of `ErrorChan` -/
  errors : Nat
  errorClosed : Bool
  reader : Reader
  handler : Handler
  /-- the requests given to `HandleRequest`, oldest first -/
  handled : List Receive
  /-- server.go:67 `s.cancel()` was called -/
  cancelled : Bool
  /-- the process was terminated by a panic -/
  crashed : Bool

/-- a new connection -/
def State.init (input : List (Option Receive)) : State :=
  ⟨input, [], false, 0, false, .loop, .loop, [], false, false⟩

/-- The actions. -/
inductive Step : State → State → Prop
  /-- decode.go:69: a request -/
  | decode (s : State) (r : Receive) (rest : List (Option Receive)) : s.reader = .loop → s.input = some r :: rest →
      Step s { s with input := rest, reader := .hasRequest r }
  /-- decode.go:69: a malformed request -/
  | malformed (s : State) (rest : List (Option Receive)) : s.reader = .loop → s.input = none :: rest →
      Step s { s with input := rest, reader := .hasError false }
  /-- decode.go:69: end of file -/
  | eof (s : State) : s.reader = .loop → s.input = [] → Step s { s with reader := .hasError true }
  /-- decode.go:69: the handler has closed the connection -/
  | closedConn (s : State) : s.reader = .loop → s.handler = .gone → Step s { s with reader := .hasError true }
  /-- decode.go:80: there is room in `ReceiveChan` -/
  | request (s : State) (r : Receive) : s.reader = .hasRequest r → s.receive.length < 1 →
      Step s { s with reader := .loop, receive := s.receive ++ [r] }
  /-- decode.go:71, 73-77: there is room in `ErrorChan` -/
  | error (s : State) (last : Bool) : s.reader = .hasError last → s.errors < 1 →
      Step s { s with reader := if last then .returning else .loop, errors := s.errors + 1 }
  /-- decode.go:64 -/
  | closeReceive (s : State) : s.reader = .returning → Step s { s with reader := .closedReceive, receiveClosed := true }
  /-- decode.go:65 -/
  | closeError (s : State) : s.reader = .closedReceive → Step s { s with reader := .gone, errorClosed := true }
  /-- server.go:58-68 `Stop` -/
  | cancel (s : State) : Step s { s with cancelled := true }
  /-- server.go:99-100 -/
  | quit (s : State) : s.handler = .loop → s.cancelled = true → Step s { s with handler := .gone }
  /-- server.go:101-103 -/
  | gotError (s : State) : s.handler = .loop → (0 < s.errors ∨ s.errorClosed = true) →
      Step s { s with handler := .gone, errors := s.errors - 1 }
  /-- server.go:104-109: handled, and answered (or nothing to answer) -/
  | handle (s : State) (r : Receive) (rest : List Receive) : s.handler = .loop → s.receive = r :: rest →
      Step s { s with receive := rest, handled := s.handled ++ [r] }
  /-- server.go:104-114: handled, but the write fails -/
  | handleBroken (s : State) (r : Receive) (rest : List Receive) : s.handler = .loop → s.receive = r :: rest →
      Step s { s with receive := rest, handled := s.handled ++ [r], handler := .gone }
  /-- server.go:104-105: the channel is closed and empty, `rec` is nil -/
  | handleNil (s : State) : s.handler = .loop → s.receive = [] → s.receiveClosed = true →
      Step s { s with crashed := true }

/-- a run of one connection; nothing happens after a crash -/
inductive Run (input : List (Option Receive)) : State → Prop
  | nil : Run input (State.init input)
  | snoc {s s'} : Run input s → s.crashed = false → Step s s' → Run input s'

end Godis.ConnV1
