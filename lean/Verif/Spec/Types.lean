import Verif.Spec.Coord
/-!
# What type of value a key holds (specification)

This file does not use the model.
-/
namespace TypeSpec
open Resp (Reply)
open Linear (Str)
open StrSpec (lower isError)

/-- The types of values (no request ever makes a key hold a hash table, C31). -/
inductive Ty where
  | text | list | set | sorted
deriving DecidableEq, Repr

/-- What TYPE answers (sets are called `setIfNotExists`, C12). -/
def Ty.name : Ty → Str
  | .text => s!! "string"
  | .list => s!! "list"
  | .set => s!! "setIfNotExists"
  | .sorted => s!! "sortedSet"

/-- The commands that make their key hold a value of the type if it holds nothing. -/
def creators : Ty → List Str
  | .text => [s!! "append", s!! "incr", s!! "incrby", s!! "decr", s!! "decrby"]
  | .list => [s!! "lpush", s!! "rpush"]
  | .set => [s!! "sadd"]
  | .sorted => [s!! "zadd", s!! "zincr"]

/-- the commands that compute a set and store it under their first argument -/
def storers : List Str := [s!! "sdiffstore", s!! "sinterstore", s!! "sunionstore"]

/-- The keys of `k v k v …`; a word left over is none. -/
def pairKeys : List Str → List Str
  | k :: _ :: rest => k :: pairKeys rest
  | _ => []

/-- The request may replace what `k` holds, or delete it. -/
def Replaces (k : Str) (req : List Str) : Prop :=
  ∃ name args, req = name :: args ∧
    ((lower name = s!! "set" ∨ lower name = s!! "del" ∨ lower name ∈ storers) ∧ args.head? = some k ∨
     lower name = s!! "mset" ∧ k ∈ pairKeys args)

/-- If the request is carried out, `k` holds a value of type `t`. -/
def Makes (k : Str) (t : Ty) (req : List Str) : Prop :=
  ∃ name args, req = name :: args ∧
    (lower name ∈ creators t ∧ args.head? = some k ∨
     lower name = s!! "set" ∧ args.head? = some k ∧ t = .text ∨
     lower name = s!! "mset" ∧ k ∈ pairKeys args ∧ t = .text ∨
     lower name ∈ storers ∧ args.head? = some k ∧ t = .set ∨
     lower name = s!! "smove" ∧ args[1]? = some k ∧ t = .set)

/-- Who sent the request and got the reply `m` knows that `k` holds a value of type `t`: the request has not been refused. -/
def Vouches (k : Str) (t : Ty) (req : List Str) (m : Reply) : Prop := Makes k t req ∧ isError m = false

/-- The request is TYPE `k`, and the answer is `t`. -/
def Says (k : Str) (t : Ty) (req : List Str) (m : Reply) : Prop :=
  ∃ name rest, req = name :: k :: rest ∧ lower name = s!! "type" ∧ m = .simple t.name

/-- The type of the values a command of the table in Spec/Keys.lean works on; nothing makes hash tables. -/
def Ty.kind : Ty → KeySpec.Kind
  | .text => .string
  | .list => .list
  | .set => .set
  | .sorted => .zset

/-- The reply shows that `k` holds a value of type `t`. -/
def Shows (k : Str) (t : Ty) (req : List Str) (m : Reply) : Prop := Vouches k t req m ∨ Says k t req m

/-- Commands that do not refuse a key of another type (C14); and `SDIFF`, `SINTER`, `SUNION` of a single key do not either. -/
def lenient : List Str := [s!! "hgetall", s!! "zpopmin", s!! "zpopmax", s!! "lindex"]

/-- What the reply `m` to a request about `k` must be if `k` holds a value of type `t`. -/
def Hears (k : Str) (t : Ty) (req : List Str) (m : Reply) : Prop :=
  ∀ name rest, req = name :: k :: rest →
    (lower name = s!! "type" → m = .simple t.name) ∧
    (lower name = s!! "exists" → m = .int 1) ∧
    ∀ kd, (lower name, kd) ∈ KeySpec.typed → kd ≠ t.kind → lower name ∉ lenient →
      (lower name ∈ [s!! "sdiff", s!! "sinter", s!! "sunion"] → rest ≠ []) → isError m = true

/-- Every request that was sent has a command name of ASCII characters. -/
def AsciiNames (carries : Str → List Str → Prop) (h : List Linear.Ev) : Prop :=
  ∀ i req, CoordSpec.Sent carries h i req → ∀ w ∈ req.head?, StrSpec.Ascii w

/-- The request was answered, with an error. -/
def TurnedDown (h : List Linear.Ev) (i : Nat) : Prop := ∃ m, CoordSpec.Got h i m ∧ isError m = true

end TypeSpec
