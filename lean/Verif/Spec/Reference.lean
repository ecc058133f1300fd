import Verif.Spec.Strings
import Verif.Spec.Lists
import Verif.Spec.Rows
import Verif.Spec.Sets
import Verif.Spec.Shared
import Verif.Spec.Hashes
import Verif.Spec.ZSets
/-!
# A reference server (specification)

One description of the whole data server: what the keys hold (`World`), what each request may answer (`Fits`) and what the
keys hold afterwards (`step`).  It is put together from the specifications of the families of commands: `RowSpec` (lists),
`SharedSpec` (sets), `ZSpec` (sorted sets), `HashSpec` (hashes); the string and key commands are specified here.

It describes the server as it is, with its defects.  This file does not use the model (but for the type of floating point
numbers, see `ZSpec`).
-/
namespace RefSpec
open Resp
open KeySpec hiding Str
open StrSpec (int64 lower isError decimal counters delta Wraps)
open ListSpec (errType errArgs)
open RowSpec (Row)
open SetSpec (SVal)
open ZSpec (Num ZVal)

/-- a byte string -/
abbrev Str := List UInt8

/-- the library functions that the server uses: on decimal fractions and on text, and the compilation of glob patterns
(`none`: malformed) -/
structure Lib where
  num : Num
  glob : Str → Option (Str → Bool)

/-- What a key holds. -/
inductive Holding where
  | absent
  | text (v : Str)
  | list (c : Row)
  /-- the set with this number: several keys may name one set -/
  | set (i : Nat)
  /-- `none`: damaged -/
  | sorted (z : Option ZVal)

/-- What exists: what every key holds, and the sets by number. -/
structure World where
  holds : Str → Holding
  sets : Nat → SVal
  next : Nat

/-- nothing exists -/
def World.empty : World := ⟨fun _ => .absent, fun _ => (∅, 0), 0⟩

/-! ## as the families of commands see it -/

def Holding.string : Holding → StrSpec.View
  | .absent => .absent
  | .text v => .str v
  | _ => .coll

def Holding.row : Holding → RowSpec.View
  | .absent => .absent
  | .list c => .row c
  | _ => .other

def Holding.setName : Holding → KView Nat
  | .absent => .absent
  | .set i => .here i
  | _ => .other

def Holding.zset : Holding → ZSpec.ZView
  | .absent => .absent
  | .sorted z => .here z
  | _ => .other

/-- the sets, and which keys name them -/
def World.shared (W : World) : SharedSpec.World := ⟨fun k => (W.holds k).setName, W.sets, W.next⟩

/-- the key holds something -/
def World.present (W : World) (k : Str) : Bool :=
  match W.holds k with
  | .absent => false
  | _ => true

/-! ## what the keys hold afterwards -/

def World.put (W : World) (k : Str) (v : Holding) : World := { W with holds := fun k' => if k' = k then v else W.holds k' }

/-- MSET: pairs of keys and texts, later ones win, a last key without a text is ignored -/
def World.putAll (W : World) : List Str → World
  | k :: v :: rest => (W.put k (.text v)).putAll rest
  | _ => W

/-- a string or nothing, as a text -/
def Holding.asText : Holding → Str
  | .text v => v
  | _ => []

/-- DEL and the string commands other than MSET, on key `k` -/
def World.write (W : World) (name k : Str) (rest : List Str) (m : Reply) : World :=
  if name = s!! "del" then W.put k .absent
  else if name = s!! "set" then W.put k (.text (rest.headD []))
  else if name = s!! "append" then W.put k (.text ((W.holds k).asText ++ rest.headD []))
  else if name ∈ counters then
    match m with
    | .int i => W.put k (.text (decimal i))
    | _ => W
  else W

/-- What exists after the request `name args` was answered with `m`, if it was `W` before.  `name` is in lower case.  A
command changes only values of its own kind, and what was absent; what is of another kind stays. -/
def step (L : Lib) (W : World) (name : Str) (args : List Str) (m : Reply) : World :=
  if name ∈ RowSpec.commands then
    { W with holds := fun k =>
        match RowSpec.step k (W.holds k).row name args m with
        | .absent => .absent
        | .other => W.holds k
        | .row c => .list c }
  else if name ∈ SetSpec.commands then
    let U := SharedSpec.step W.shared name args m
    ⟨fun k =>
      match U.names k with
      | .absent => .absent
      | .other => W.holds k
      | .here i => .set i, U.sets, U.next⟩
  else if name ∈ ZSpec.commands then
    { W with holds := fun k =>
        match ZSpec.step L.num (fun k => (W.holds k).zset) name args m k with
        | .absent => .absent
        | .other => W.holds k
        | .here z => .sorted z }
  else if isError m then W
  else if name = s!! "mset" then W.putAll args
  else
    match args with
    | [] => W
    | k :: rest => W.write name k rest m

/-- What exists after the history `tr` of a server that started empty. -/
def after (L : Lib) (tr : List (List Str × Reply)) : World :=
  tr.foldl (fun W p => step L W (lower (p.1.headD [])) p.1.tail p.2) World.empty

/-! ## answers -/

/-- the outcome of a request -/
inductive Outcome where
  | reply (m : Reply)
  /-- there is no reply, and nothing else happens -/
  | nothing
  /-- there is a reply that cannot be put into bytes: the goroutine that has to send it panics -/
  | unwritable
  /-- executing the request panics -/
  | crash

/-- the reply of TYPE -/
def Holding.typeName : Holding → Str
  | .absent => s!! "none"
  | .text _ => s!! "string"
  | .list _ => s!! "list"
  | .set _ => s!! "setIfNotExists"
  | .sorted _ => s!! "sortedSet"

def errInt : Reply := .error (s!! "value is not an integer or out of range")

/-- the integer that a key counts as: 0 if absent, `none` if it holds a text that is no 64-bit integer -/
def StrCount : StrSpec.View → Option Int
  | .str t => int64 t
  | _ => some 0

/-- INCR, INCRBY, DECR, DECRBY -/
def Counter (v : StrSpec.View) (name : Str) (args : List Str) (m : Reply) : Prop :=
  match delta name args with
  | none => m = errInt
  | some d =>
    if v = .coll then m = errType
    else
      match StrCount v with
      | none => m = errInt
      | some n => ∃ i, m = .int i ∧ Wraps i (n + d)

/-- The outcomes of the string and key commands, if `W` is what exists. -/
def Basic (L : Lib) (W : World) (name : Str) (args : List Str) (o : Outcome) : Prop :=
  if name = s!! "ping" then o = .reply (.simple (s!! "PONG"))
  else if name = s!! "command" then o = .reply (.simple (s!! "COMMAND"))
  else if name = s!! "mset" then o = .reply (if args.length = 1 then errArgs else .simple (s!! "OK"))
  else
    match args with
    | [] => o = .reply errArgs
    | k :: rest =>
      let v := (W.holds k).string
      if name = s!! "set" then o = .reply (if rest = [] then errArgs else .simple (s!! "OK"))
      else if name = s!! "get" then o = .reply (StrSpec.getReply v)
      else if name = s!! "mget" then
        if ∃ k' ∈ k :: rest, (W.holds k').string = .coll then o = .unwritable
        else o = .reply (.array ((k :: rest).map (fun k' => StrSpec.getReply (W.holds k').string)))
      else if name = s!! "append" then
        o = .reply (if rest = [] then errArgs else if v = .coll then errType
          else .int ((W.holds k).asText ++ rest.headD []).length)
      else if name = s!! "incr" ∨ name = s!! "decr" then ∃ m, o = .reply m ∧ Counter v name args m
      else if name = s!! "incrby" ∨ name = s!! "decrby" then
        if rest = [] then o = .reply errArgs else ∃ m, o = .reply m ∧ Counter v name args m
      else if name = s!! "exists" ∨ name = s!! "del" then o = .reply (.int (if W.present k then 1 else 0))
      else if name = s!! "type" then o = .reply (.simple (W.holds k).typeName)
      else if name = s!! "keys" then
        match L.glob k with
        | none => o = .crash
        | some g => ∃ l, o = .reply (bulks l) ∧ l.Nodup ∧ ∀ k', k' ∈ l ↔ W.present k' = true ∧ g k' = true
      else False

/-- the string and key commands -/
def basicCommands : List Str :=
  [s!! "set", s!! "mset", s!! "get", s!! "mget", s!! "incr", s!! "incrby", s!! "decr", s!! "decrby", s!! "append",
   s!! "keys", s!! "exists", s!! "del", s!! "type", s!! "ping", s!! "command"]

/-- what a list request does, as an outcome of this server -/
def ofList : RowSpec.Outcome → Outcome
  | .reply m => .reply m
  | .crash => .crash

/-- the commands that list the entries of a sorted set -/
def rangeReaders : List Str := [s!! "zrange", s!! "zrangebyscore", s!! "zrevrange"]

/-- Sorted-set commands: a reply that fits.  A crash is possible if a range is read from a damaged sorted set, or if some member ever got the
greatest height (`tall`). -/
def Sorted (L : Lib) (tall : Prop) (W : World) (name : Str) (args : List Str) (o : Outcome) : Prop :=
  match o with
  | .reply m => ZSpec.Fits L.num (fun k => (W.holds k).zset) name args m
  | .crash => tall ∨ (name ∈ rangeReaders ∧ ∃ k ∈ args.head?, (W.holds k).zset = .here none)
  | _ => False

/-- `o` is a correct outcome of the request, if `W` is what exists. -/
def Fits (L : Lib) (tall : Prop) (W : World) (req : List Str) (o : Outcome) : Prop :=
  match req with
  | [] => o = .nothing
  | name :: args =>
    let name := lower name
    if name ∈ RowSpec.commands then o = ofList (RowSpec.answer (fun k => (W.holds k).row) name args)
    else if name ∈ SetSpec.commands then ∃ m, o = .reply m ∧ SharedSpec.Fits W.shared name args m
    else if name ∈ ZSpec.commands then Sorted L tall W name args o
    else if name ∈ HashSpec.commands then
      o = .reply (HashSpec.reply (fun t => (L.num.parse t).map L.num.fmt) (args.head?.any W.present) name args)
    else if name ∈ basicCommands then Basic L W name args o
    else o = .reply (.error (s!! "unknown command key"))

/-- A history of a server that started empty is correct: every reply is, after those before it. -/
inductive Correct (L : Lib) : List (List Str × Reply) → Prop
  | nil : Correct L []
  | snoc {tr req m} : Correct L tr → Fits L False (after L tr) req (.reply m) → Correct L (tr ++ [(req, m)])

/-! ## requests as the server takes them -/

/-- the commands of the server -/
def allCommands : List Str :=
  RowSpec.commands ++ SetSpec.commands ++ ZSpec.commands ++ HashSpec.commands ++ basicCommands

/-- LINSERT's word, in lower case; any other word is as good as none -/
def place (L : Lib) (w : Str) : Str := if L.num.lower w = s!! "before" ∨ L.num.lower w = s!! "after" then L.num.lower w else []

/-- The request as the server takes it: the command name and LINSERT's word in lower case; a name that is, in lower case,
not the name of a command is as good as none. -/
def heard (L : Lib) : List Str → List Str
  | [] => []
  | name :: args =>
    let name := L.num.lower name
    if name ∉ allCommands then [[]]
    else if name = s!! "linsert" then
      match args with
      | k :: w :: rest => name :: k :: place L w :: rest
      | _ => name :: args
    else name :: args

/-- A history as the server takes it. -/
def heardAll (L : Lib) (tr : List (List Str × Reply)) : List (List Str × Reply) := tr.map fun p => (heard L p.1, p.2)

end RefSpec
