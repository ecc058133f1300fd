import Verif.Model.Server
/-!
# The concurrent server: event/event_pool.go, event/worker.go, event/handler.go, server/v2/server.go

A transition system.  One step is one action of one goroutine that another goroutine can notice (a channel operation, a
write to the log, a write to a connection, an access to the store); local computation between two such actions is part
of the second one.  Any goroutine that can act may act next: a run is an arbitrary schedule.

Frames are numbered by `i` (an arbitrary number, used for at most one frame).  There are `n` workers (event_pool.go:19
starts one); the number is a parameter so that theorems can say what depends on it.

A command does not run in one step.  `start` is its first access to the store, `exec` its last: all it reads it reads at
`start`, all it writes it writes at `exec`.  So if two commands overlap, the updates of one are lost.

Simplifications:
* The number of frames, connections and handler goroutines is not bounded (the pool's limit of 2^18 goroutines appears
  only as the possibility that `Submit` refuses: `drop`).
* The ten seconds of `context.WithTimeout` are not counted here (`Model/Timed` does): a waiting handler may see the timeout at any time.
* A panic in a handler goroutine ends only that goroutine (panjf2000/ants recovers in its workers); a panic in the
  goroutine started by `ExecuteAsync` ends the process (redis/command.go:46-53 has no recover).
* `AsyncWrite` always succeeds; what it queues for one connection is sent in the order of the calls (gnet).
* `Stop` is called at most once (gnet calls `OnShutdown` once).
* cmd/server/main.go:105-117 `insertPreData` (debug builds only) is modelled in `Model/Debug`.
-/
namespace Godis.Event

/-- event/event.go:8-12 `Event`: `id` stands for the pointer (and the frame it was made for), `name`/`args` for `Cmd`
(redis/command.go:10-14). `Rsp` and `done` are in `Sys.done`. -/
structure Ev where
  id : Nat
  name : Bytes
  args : List Bytes
deriving DecidableEq

/-- Where the goroutine of one frame is (server/v2/server.go:48-61, event/handler.go:15-52). -/
inductive Handler where
  /-- no such frame yet -/
  | absent
  /-- v2/server.go:48: submitted to the pool, not yet running -/
  | submitted (conn : Nat) (frame : Bytes)
  /-- handler.go:26 done: the request is decoded and its text is in the log -/
  | logged (conn : Nat) (rec : Receive)
  /-- handler.go:40: the event is in the channel (or beyond), the handler waits for the result or the timeout -/
  | waiting (conn : Nat)
  /-- handler.go:51: the handler has a response to encode and write -/
  | replying (conn : Nat) (rsp : Response)
  /-- returned or panicked -/
  | ended

/-- Where a worker goroutine is (event/worker.go:20-37). -/
inductive Worker where
  /-- in the select -/
  | idle
  /-- worker.go:28: received the event -/
  | took (e : Ev)
  /-- redis/command.go:46-61: the command runs; it has read the store -/
  | running (e : Ev) (snapshot : Store)
  /-- worker.go:33: the result arrived on the result channel, `e.Rsp` is set, `e.done` not yet closed -/
  | got (e : Ev) (rsp : Response)
  /-- returned -/
  | exited

/-- Where the goroutine that calls `Stop` is (event/event_pool.go:27-34). -/
inductive Stopper where
  /-- not called -/
  | no
  /-- event_pool.go:29: the next worker to signal -/
  | signalling (next : Nat)
  /-- `wg.Wait()` returned -/
  | returned

/-- The process. -/
structure Sys where
  /-- the keyspace -/
  store : Store
  /-- event_pool.go:8 `eventChan`, oldest first (capacity 1, event_pool.go:15) -/
  chan : List Ev
  /-- `eventChan` is closed -/
  closed : Bool
  /-- the handler of each frame -/
  handler : Nat → Handler
  /-- the events whose `done` channel is closed, with their `Rsp` -/
  done : Nat → Option Response
  /-- the workers -/
  worker : Nat → Worker
  /-- worker.go:10 `done` of each worker has a value or is closed -/
  told : Nat → Bool
  /-- the caller of `Stop` -/
  stopper : Stopper
  /-- persistence.go: what was written to the log, oldest first -/
  log : List Bytes
  /-- v2/server.go:61: what was written to the connections, oldest first -/
  out : List (Nat × Bytes)
  /-- the process was terminated by a panic -/
  crashed : Bool

/-- A process that has just started. -/
def Sys.init (rng : Rng) : Sys where
  store := Store.init rng
  chan := []
  closed := false
  handler := fun _ => .absent
  done := fun _ => none
  worker := fun _ => .idle
  told := fun _ => false
  stopper := .no
  log := []
  out := []
  crashed := false

/-- a function changed at one point -/
def upd {α : Type} (f : Nat → α) (i : Nat) (a : α) : Nat → α := fun j => if j = i then a else f j

/-- What happens in a step. -/
inductive Label where
  /-- gnet calls `React` with a frame that arrived on a connection -/
  | recv (i conn : Nat) (frame : Bytes)
  /-- the request's text is written to the log -/
  | log (i : Nat) (text : Bytes)
  /-- the handler ends without a reply -/
  | quiet (i : Nat)
  /-- the handler panics -/
  | died (i : Nat) (p : Panic)
  /-- the event enters the channel -/
  | enqueue (i : Nat)
  /-- a worker receives the event -/
  | take (w i : Nat)
  /-- the command begins -/
  | start (w i : Nat)
  /-- the command takes effect, with this response -/
  | exec (w i : Nat) (rsp : Response)
  /-- the command panics -/
  | crash (w i : Nat) (p : Panic)
  /-- the worker closes the event's `done` channel -/
  | publish (w i : Nat)
  /-- the handler sees the timeout -/
  | timeout (i : Nat)
  /-- the handler sees the result -/
  | result (i : Nat)
  /-- the handler writes the reply -/
  | write (i conn : Nat) (bytes : Bytes)
  /-- `Stop` is called and closes the event channel -/
  | stop
  /-- `Stop` signals a worker -/
  | signal (w : Nat)
  /-- a worker returns -/
  | exit (w : Nat)
  /-- `Stop` returns -/
  | stopped

/-- context deadline error text: `ctx.Err()` of an expired context (Go, context.DeadlineExceeded) -/
def deadlineExceeded : Bytes := b! "context deadline exceeded"

/-- The actions. -/
inductive Step (ext : Ext) (n : Nat) : Sys → Label → Sys → Prop
  /-- v2/server.go:44-48: `React` copies the frame and submits a task -/
  | recv (σ : Sys) (i conn : Nat) (frame : Bytes) : σ.handler i = .absent →
      Step ext n σ (.recv i conn frame) { σ with handler := upd σ.handler i (.submitted conn frame) }
  /-- v2/server.go:48: `Submit` refuses (pool overloaded); the error is ignored -/
  | drop (σ : Sys) (i conn : Nat) (frame : Bytes) : σ.handler i = .submitted conn frame →
      Step ext n σ (.quiet i) { σ with handler := upd σ.handler i .ended }
  /-- v2/server.go:49-54: decoding fails -/
  | badFrame (σ : Sys) (i conn : Nat) (frame : Bytes) (e : DecErr) (rest : Bytes) : σ.handler i = .submitted conn frame →
      decodeFromReader frame = .err e rest →
      Step ext n σ (.quiet i) { σ with handler := upd σ.handler i .ended }
  /-- v2/server.go:50: decoding panics -/
  | decodePanic (σ : Sys) (i conn : Nat) (frame : Bytes) (p : Panic) : σ.handler i = .submitted conn frame →
      decodeFromReader frame = .panic p →
      Step ext n σ (.died i p) { σ with handler := upd σ.handler i .ended }
  /-- v2/server.go:50, handler.go:26, persistence.go: decoded; `AOF.WriteCommand` -/
  | log (σ : Sys) (i conn : Nat) (frame : Bytes) (rec : Receive) (rest : Bytes) : σ.handler i = .submitted conn frame →
      decodeFromReader frame = .ok rec rest →
      Step ext n σ (.log i rec.orgStr)
        { σ with handler := upd σ.handler i (.logged conn rec), log := σ.log ++ [rec.orgStr] }
  /-- handler.go:29-32: no elements -/
  | noCommand (σ : Sys) (i conn : Nat) (rec : Receive) : σ.handler i = .logged conn rec →
      newCommand ext rec.elements = none →
      Step ext n σ (.quiet i) { σ with handler := upd σ.handler i .ended }
  /-- handler.go:35-36, event_pool.go:23-25: there is room in the channel -/
  | enqueue (σ : Sys) (i conn : Nat) (rec : Receive) (name : Bytes) (args : List Bytes) :
      σ.handler i = .logged conn rec → newCommand ext rec.elements = some (name, args) →
      σ.closed = false → σ.chan.length < 1 →
      Step ext n σ (.enqueue i)
        { σ with handler := upd σ.handler i (.waiting conn), chan := σ.chan ++ [⟨i, name, args⟩] }
  /-- event_pool.go:24: send on the closed channel -/
  | sendClosed (σ : Sys) (i conn : Nat) (rec : Receive) (name : Bytes) (args : List Bytes) :
      σ.handler i = .logged conn rec → newCommand ext rec.elements = some (name, args) → σ.closed = true →
      Step ext n σ (.died i .sendOnClosed) { σ with handler := upd σ.handler i .ended }
  /-- worker.go:28 -/
  | take (σ : Sys) (w : Nat) (e : Ev) (rest : List Ev) : w < n → σ.worker w = .idle → σ.chan = e :: rest →
      Step ext n σ (.take w e.id) { σ with worker := upd σ.worker w (.took e), chan := rest }
  /-- redis/command.go:46: the command's goroutine starts -/
  | start (σ : Sys) (w : Nat) (e : Ev) : w < n → σ.worker w = .took e →
      Step ext n σ (.start w e.id) { σ with worker := upd σ.worker w (.running e σ.store) }
  /-- redis/command.go:53-60, worker.go:33: the command is done, its result received -/
  | exec (σ : Sys) (w : Nat) (e : Ev) (snap s' : Store) (it : Iter) (rsp : Response) : w < n →
      σ.worker w = .running e snap → execute ext it snap e.name e.args = .ok (s', rsp) →
      Step ext n σ (.exec w e.id rsp) { σ with worker := upd σ.worker w (.got e rsp), store := s' }
  /-- redis/command.go:59: the command panics, the process ends (`diverge` is not a panic: that command never ends, and
  neither does its worker) -/
  | crash (σ : Sys) (w : Nat) (e : Ev) (snap : Store) (it : Iter) (p : Panic) : w < n →
      σ.worker w = .running e snap → execute ext it snap e.name e.args = .error p → p ≠ .diverge →
      Step ext n σ (.crash w e.id p) { σ with crashed := true }
  /-- worker.go:34 -/
  | publish (σ : Sys) (w : Nat) (e : Ev) (rsp : Response) : w < n → σ.worker w = .got e rsp →
      Step ext n σ (.publish w e.id) { σ with worker := upd σ.worker w .idle, done := upd σ.done e.id (some rsp) }
  /-- handler.go:41-42 -/
  | timeout (σ : Sys) (i conn : Nat) : σ.handler i = .waiting conn →
      Step ext n σ (.timeout i)
        { σ with handler := upd σ.handler i (.replying conn (newResponseWithError deadlineExceeded)) }
  /-- handler.go:43-44 -/
  | result (σ : Sys) (i conn : Nat) (rsp : Response) : σ.handler i = .waiting conn → σ.done i = some rsp →
      Step ext n σ (.result i) { σ with handler := upd σ.handler i (.replying conn rsp) }
  /-- handler.go:51, v2/server.go:61 -/
  | write (σ : Sys) (i conn : Nat) (rsp : Response) (b : Bytes) : σ.handler i = .replying conn rsp →
      rsp.encode = .ok b → b ≠ [] →
      Step ext n σ (.write i conn b) { σ with handler := upd σ.handler i .ended, out := σ.out ++ [(conn, b)] }
  /-- v2/server.go:57-59: nothing to write -/
  | writeNothing (σ : Sys) (i conn : Nat) (rsp : Response) : σ.handler i = .replying conn rsp → rsp.encode = .ok [] →
      Step ext n σ (.quiet i) { σ with handler := upd σ.handler i .ended }
  /-- handler.go:51: `Encode` panics -/
  | encodePanic (σ : Sys) (i conn : Nat) (rsp : Response) (p : Panic) : σ.handler i = .replying conn rsp →
      rsp.encode = .error p →
      Step ext n σ (.died i p) { σ with handler := upd σ.handler i .ended }
  /-- event_pool.go:28 -/
  | stop (σ : Sys) : σ.stopper = .no → Step ext n σ .stop { σ with closed := true, stopper := .signalling 0 }
  /-- event_pool.go:29-31, worker.go:39-42: `w.done` has room for one value, so the send does not block -/
  | signal (σ : Sys) (w : Nat) : σ.stopper = .signalling w → w < n →
      Step ext n σ (.signal w) { σ with told := upd σ.told w true, stopper := .signalling (w + 1) }
  /-- worker.go:25-27 -/
  | exitTold (σ : Sys) (w : Nat) : w < n → σ.worker w = .idle → σ.told w = true →
      Step ext n σ (.exit w) { σ with worker := upd σ.worker w .exited }
  /-- worker.go:28-31: the channel is closed and empty -/
  | exitClosed (σ : Sys) (w : Nat) : w < n → σ.worker w = .idle → σ.closed = true → σ.chan = [] →
      Step ext n σ (.exit w) { σ with worker := upd σ.worker w .exited }
  /-- event_pool.go:33: `wg.Wait()` -/
  | stopped (σ : Sys) : σ.stopper = .signalling n → (∀ w, w < n → σ.worker w = .exited) →
      Step ext n σ .stopped { σ with stopper := .returned }

/-- A run of a fresh process with `n` workers: what happened, oldest first, and the state it led to. Nothing happens
after a crash. -/
inductive Run (ext : Ext) (n : Nat) (rng : Rng) : List Label → Sys → Prop
  | nil : Run ext n rng [] (Sys.init rng)
  | snoc {L σ l σ'} : Run ext n rng L σ → σ.crashed = false → Step ext n σ l σ' → Run ext n rng (L ++ [l]) σ'

end Godis.Event
