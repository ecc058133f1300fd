import Verif.Model.Event
/-!
# The debug build: cmd/server/main.go:36-38, 98-117 `insertPreData`

With the build tag `debug` (debug/debug.go), `main` starts four commands with `ExecuteAsync` before it starts the server.
Each runs in a goroutine of its own, outside the event pool; nobody waits for it, and nobody receives its result (so the
goroutine stays blocked in `setRsp`, redis/command.go:66-83, for the rest of the process's life).

As in `Model/Event` a command reads all it reads when it begins and writes all it writes when it ends.

Simplifications: Go's runtime may abort the process when it notices two goroutines using a map at the same time; that is
not modelled.  `gnet.Serve` failing and `main` waiting for signals are in `Model/Main`, not here.
-/
namespace Godis.Debug
open Godis.Event (Sys Label Step upd)

/-- main.go:98-103 `prepareData` -/
def prepareData : List (Bytes × List Bytes) :=
  [(b! "rpush", [b! "list1", b! "1", b! "2", b! "3", b! "4", b! "5", b! "6"]),
   (b! "set", [b! "key1", b! "hello"]),
   (b! "set", [b! "key2", b! "10"]),
   (b! "zadd", [b! "zset", b! "1", b! "a", b! "2", b! "b", b! "3", b! "c", b! "4", b! "d", b! "5", b! "e"])]

/-- Where the goroutine of one of these commands is (redis/command.go:46-61). -/
inductive Pre where
  /-- not yet started -/
  | absent
  /-- `go func()`: started, nothing done yet -/
  | launched (name : Bytes) (args : List Bytes)
  /-- the command runs; it has read the store -/
  | running (name : Bytes) (args : List Bytes) (snapshot : Store)
  /-- the command is done; blocked in `ch <- result` -/
  | blocked

/-- The process. -/
structure DProc where
  /-- the server: store, handlers, event pool -/
  sys : Sys
  /-- main.go:107: how many turns of the loop are done -/
  next : Nat
  /-- the goroutines of the four commands -/
  pre : Nat → Pre
  /-- main.go:116: "data prepared" is printed; the server is started after that -/
  prepared : Bool

/-- `main` begins -/
def DProc.init (rng : Rng) : DProc := ⟨Sys.init rng, 0, fun _ => .absent, false⟩

/-- What happens in a step. -/
inductive DLabel where
  /-- a step of the server -/
  | sys (l : Label)
  /-- the goroutine of the `k`-th command is started -/
  | launch (k : Nat)
  /-- the `k`-th command begins -/
  | begin (k : Nat)
  /-- the `k`-th command takes effect -/
  | finish (k : Nat) (rsp : Response)
  /-- the `k`-th command panics -/
  | crash (k : Nat) (p : Panic)
  /-- "data prepared" is printed -/
  | prepared

/-- The actions. -/
inductive DStep (ext : Ext) : DProc → DLabel → DProc → Prop
  /-- main.go:107-113, redis/command.go:46 -/
  | launch (d : DProc) (name : Bytes) (args : List Bytes) : prepareData[d.next]? = some (name, args) →
      DStep ext d (.launch d.next) { d with next := d.next + 1, pre := upd d.pre d.next (.launched name args) }
  /-- main.go:116 -/
  | prepared (d : DProc) : d.next = prepareData.length → d.prepared = false → DStep ext d .prepared { d with prepared := true }
  /-- redis/command.go:53: the goroutine runs -/
  | begin (d : DProc) (k : Nat) (name : Bytes) (args : List Bytes) : d.pre k = .launched name args →
      DStep ext d (.begin k) { d with pre := upd d.pre k (.running name args d.sys.store) }
  /-- redis/command.go:59-60: the command is done -/
  | finish (d : DProc) (k : Nat) (name : Bytes) (args : List Bytes) (snap s' : Store) (it : Iter) (rsp : Response) :
      d.pre k = .running name args snap → execute ext it snap name args = .ok (s', rsp) →
      DStep ext d (.finish k rsp) { d with pre := upd d.pre k .blocked, sys := { d.sys with store := s' } }
  /-- redis/command.go:59: the command panics, the process ends -/
  | crash (d : DProc) (k : Nat) (name : Bytes) (args : List Bytes) (snap : Store) (it : Iter) (p : Panic) :
      d.pre k = .running name args snap → execute ext it snap name args = .error p → p ≠ .diverge →
      DStep ext d (.crash k p) { d with sys := { d.sys with crashed := true } }
  /-- main.go:41-59: the server is started after the loop; one worker -/
  | sys (d : DProc) (l : Label) (σ' : Sys) : d.prepared = true → Step ext 1 d.sys l σ' →
      DStep ext d (.sys l) { d with sys := σ' }

/-- A run of a debug build: what happened, oldest first, and the state it led to. -/
inductive DRun (ext : Ext) (rng : Rng) : List DLabel → DProc → Prop
  | nil : DRun ext rng [] (DProc.init rng)
  | snoc {L d l d'} : DRun ext rng L d → d.sys.crashed = false → DStep ext d l d' → DRun ext rng (L ++ [l]) d'

end Godis.Debug
