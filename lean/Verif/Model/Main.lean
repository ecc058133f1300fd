import Verif.Model.Event
/-!
# The process: cmd/server/main.go, server/v2/server.go `Start`, `Stop`, `OnShutdown`

The concurrent server of `Model/Event` together with the three goroutines of `main`: the one that serves, the one that
waits for a signal and stops the server, and `main` itself, which waits for both and then ends the process.

Assumptions about gnet v1 (not in /repo):
* `gnet.Serve` either fails, before any frame is handled, or starts the event loops, enters the server in a global table
  under its address and waits for shutdown.  When told to shut down it calls `OnShutdown`, lets the event loops end and
  returns nil.  Frames are handled until then.
* `gnet.Stop(ctx, addr)` tells the server entered under `addr` to shut down, then waits until that is done or `ctx`
  expires.  If no server is entered under `addr` it returns an error at once.

Simplifications: the model begins after main.go:53 (before that line a signal kills the process, as for every
process); main.go:36-38 (debug builds only) is in `Model/Debug`; the five seconds of `Stop`'s context are not counted.
-/
namespace Godis.Main
open Godis.Event (Sys Label Step Stopper)

/-- Where the goroutine of main.go:56-62 is. -/
inductive Runner where
  /-- in `gnet.Serve`, the server not yet entered in gnet's table -/
  | starting
  /-- in `gnet.Serve`, serving -/
  | serving
  /-- in `gnet.Serve`, told to shut down, `OnShutdown` not yet called -/
  | closing
  /-- in `OnShutdown` (v2/server.go:67-69), that is, in `event.Stop` -/
  | stopping
  /-- `wg.Done()` called -/
  | done
deriving DecidableEq

/-- Where the goroutine of main.go:65-73 is. -/
inductive Waiter where
  /-- in the select -/
  | selecting
  /-- v2/server.go:35-38: in `srv.Stop`, before `gnet.Stop` looks up the server -/
  | calling
  /-- v2/server.go:39: in `gnet.Stop`, the server is told, waiting -/
  | waiting
  /-- `wg.Done()` called -/
  | done
deriving DecidableEq

/-- The process. -/
structure Proc where
  /-- the store, the handlers, the event pool -/
  sys : Sys
  /-- main.go:56-62 -/
  runner : Runner
  /-- main.go:65-73 -/
  waiter : Waiter
  /-- main.go:48 `sigChan` holds a signal (capacity 1) -/
  sig : Bool
  /-- main.go:49 `errChan` holds an error (capacity 1) -/
  err : Bool
  /-- `main` has returned -/
  exited : Bool

/-- main.go:53 done, the goroutines started -/
def Proc.init (rng : Rng) : Proc := ⟨Sys.init rng, .starting, .selecting, false, false, false⟩

/-- What happens in a step. -/
inductive PLabel where
  /-- a step of the server -/
  | sys (l : Label)
  /-- the server begins to serve -/
  | listening
  /-- the server cannot be started (say, the address is in use) -/
  | startFailed
  /-- the operating system delivers SIGTERM, SIGINT or SIGQUIT -/
  | signal
  /-- the waiting goroutine notices the signal or the failure -/
  | noticed
  /-- `gnet.Stop` finds the server and tells it to shut down -/
  | told
  /-- `gnet.Stop` does not find the server -/
  | notFound
  /-- `gnet.Stop` returns -/
  | waited
  /-- `gnet.Serve` returns without an error -/
  | served
  /-- the process ends -/
  | exit

/-- The actions. -/
inductive PStep (ext : Ext) : Proc → PLabel → Proc → Prop
  /-- a frame arrives, while the event loops run -/
  | recv (p : Proc) (i c : Nat) (f : Bytes) (σ' : Sys) : p.runner = .serving ∨ p.runner = .closing ∨ p.runner = .stopping →
      Step ext 1 p.sys (.recv i c f) σ' → PStep ext p (.sys (.recv i c f)) { p with sys := σ' }
  /-- any other step of handlers, workers and `event.Stop`; event_pool.go:19: one worker -/
  | sys (p : Proc) (l : Label) (σ' : Sys) : (∀ i c f, l ≠ .recv i c f) → l ≠ .stop → Step ext 1 p.sys l σ' →
      PStep ext p (.sys l) { p with sys := σ' }
  /-- v2/server.go:32: `gnet.Serve` has started the server -/
  | listening (p : Proc) : p.runner = .starting → PStep ext p .listening { p with runner := .serving }
  /-- v2/server.go:32, main.go:58-61: `gnet.Serve` returned an error -/
  | startFailed (p : Proc) : p.runner = .starting → PStep ext p .startFailed { p with runner := .done, err := true }
  /-- os/signal: the signal is sent to the channel; if the channel is full it is dropped -/
  | signal (p : Proc) : PStep ext p .signal { p with sig := true }
  /-- main.go:68 -/
  | noticedSig (p : Proc) : p.waiter = .selecting → p.sig = true →
      PStep ext p .noticed { p with waiter := .calling, sig := false }
  /-- main.go:70 -/
  | noticedErr (p : Proc) : p.waiter = .selecting → p.err = true →
      PStep ext p .noticed { p with waiter := .calling, err := false }
  /-- v2/server.go:39: `gnet.Stop`, the server is in the table -/
  | told (p : Proc) : p.waiter = .calling → p.runner = .serving →
      PStep ext p .told { p with waiter := .waiting, runner := .closing }
  /-- v2/server.go:39-41: `gnet.Stop`, the server is not in the table -/
  | notFound (p : Proc) : p.waiter = .calling → p.runner = .starting ∨ p.runner = .done →
      PStep ext p .notFound { p with waiter := .done }
  /-- v2/server.go:39-42: the server is shut down or the context has expired -/
  | waited (p : Proc) : p.waiter = .waiting → PStep ext p .waited { p with waiter := .done }
  /-- v2/server.go:67-68: gnet calls `OnShutdown`, which calls `event.Stop` -/
  | onShutdown (p : Proc) (σ' : Sys) : p.runner = .closing → Step ext 1 p.sys .stop σ' →
      PStep ext p (.sys .stop) { p with runner := .stopping, sys := σ' }
  /-- v2/server.go:69,32, main.go:57: `event.Stop` has returned, `gnet.Serve` returns -/
  | served (p : Proc) : p.runner = .stopping → p.sys.stopper = .returned →
      PStep ext p .served { p with runner := .done }
  /-- main.go:76-77: `wg.Wait()` returns, `main` returns -/
  | exit (p : Proc) : p.runner = .done → p.waiter = .done → PStep ext p .exit { p with exited := true }

/-- Steps from `p` to `p'`: what happened, oldest first.  Nothing happens after the process has ended. -/
inductive PSteps (ext : Ext) (p : Proc) : List PLabel → Proc → Prop
  | nil : PSteps ext p [] p
  | snoc {L q l q'} : PSteps ext p L q → q.sys.crashed = false → q.exited = false → PStep ext q l q' →
      PSteps ext p (L ++ [l]) q'

/-- A run of the process. -/
abbrev PRun (ext : Ext) (rng : Rng) (L : List PLabel) (p : Proc) : Prop := PSteps ext (Proc.init rng) L p

end Godis.Main
