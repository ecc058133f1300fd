import Verif.Spec.Strings
/-!
# What a list key holds, judged from the history of requests and replies (specification)

This file does not use the model.  `after k tr` replays the history `tr` and says what key `k` holds, as far as list
commands can tell; `reply v name args` is the reply a list command must give on a key that holds `v`.

Two cases exist only because of a defect of the server: an LREM that removes every element leaves the list `hollow`
(it still behaves as an empty list, but only one of its two ends is usable), and a push at the unusable end leaves it
`lost`, about which nothing is said.
-/
namespace ListSpec
open Resp
open KeySpec hiding Str
open StrSpec (int64 lower isError creators setStores counters)

/-- What a key holds, as far as list commands can tell. -/
inductive LView where
  | absent
  /-- a value that is not a list -/
  | other
  /-- a list with these elements, head first -/
  | list (l : List Str)
  /-- emptied by LREM; `true`: LPUSH still works, `false`: RPUSH still works -/
  | hollow (left : Bool)
  /-- pushed to at the wrong end after being emptied by LREM -/
  | lost
deriving DecidableEq, Repr

/-- The position meant by an index: negative indexes count from the end. -/
def position {α : Type} (l : List α) (i : Int) : Int := if i < 0 then i + l.length else i

/-- The elements of `l` at the positions from `start` to `stop`, inclusive. -/
def window {α : Type} (l : List α) (start stop : Int) : List α :=
  (l.zipIdx.filter (fun p => decide (position l start ≤ p.2 ∧ (p.2 : Int) ≤ position l stop))).map (·.1)

/-- `l` without its first `n` occurrences of `v` -/
def removeFirst (v : Str) : Nat → List Str → List Str
  | 0, l => l
  | _ + 1, [] => []
  | n + 1, x :: l => if x = v then removeFirst v n l else x :: removeFirst v (n + 1) l

/-- `l` without its last `n` occurrences of `v` -/
def removeLast (v : Str) (n : Nat) (l : List Str) : List Str := (removeFirst v n l.reverse).reverse

/-- LREM: positive counts from the head, negative counts from the tail, zero removes every occurrence.  The one
exception is the smallest 64-bit integer, for which the server removes nothing. -/
def remove (v : Str) (count : Int) (l : List Str) : List Str :=
  if count = 0 then l.filter (· ≠ v)
  else if 0 < count then removeFirst v count.toNat l
  else if count = -2 ^ 63 then l
  else removeLast v (-count).toNat l

/-- LSET: the element at a position is replaced; `none` if there is no such position -/
def assign (i : Int) (v : Str) (l : List Str) : Option (List Str) :=
  if 0 ≤ position l i ∧ position l i < l.length then some (l.set (position l i).toNat v) else none

/-- LINSERT: `v` directly before (or after) the first occurrence of `p`; `none` if there is none -/
def insertAt (before : Bool) (p v : Str) : List Str → Option (List Str)
  | [] => none
  | x :: l =>
    if x = p then some (if before then v :: x :: l else x :: v :: l)
    else (insertAt before p v l).map (x :: ·)

/-- the count argument of LPOP and RPOP: 1 if absent, otherwise a positive integer -/
def popCount : List Str → Option Nat
  | [] => some 1
  | c :: _ => match int64 c with
    | some n => if 0 < n then some n.toNat else none
    | none => none

/-- the elements, for a view that is a usable or hollow list -/
def elems : LView → List Str
  | .list l => l
  | _ => []

def errType : Reply := .error (s!! "key type and command not match")
def errArgs : Reply := .error (s!! "command args not enough")
def errRange : Reply := .error (s!! " ERR value is out of range, must be positive")
def errNil : Reply := .error (s!! "redis: not found")

/-- The reply to the list command `name` with arguments `args` (after the key) on a key that holds `v`.
`none`: not specified (`LINDEX`, and everything on a lost list). -/
def reply (v : LView) (name : Str) (args : List Str) : Option Reply :=
  if v = .lost then none
  else if name = s!! "lpush" ∨ name = s!! "rpush" then
    some (if args = [] then errArgs else if v = .other then errType else .int ((elems v).length + args.length))
  else if name = s!! "lpop" then
    some (match popCount args with
      | none => errRange
      | some n =>
        if v = .other then errType else if elems v = [] then .bulk none else bulks ((elems v).take n))
  else if name = s!! "rpop" then
    some (match popCount args with
      | none => errRange
      | some n =>
        if v = .other then errType else if v = .absent then .bulk none else bulks ((elems v).reverse.take n))
  else if name = s!! "llen" then
    some (if v = .other then errType else .int (elems v).length)
  else if name = s!! "lrange" then
    some (match args with
      | a :: b :: _ =>
        match int64 a, int64 b with
        | some start, some stop => if v = .other then errType else bulks (window (elems v) start stop)
        | _, _ => errRange
      | _ => errArgs)
  else if name = s!! "lrem" then
    some (match args with
      | c :: x :: _ =>
        match int64 c with
        | some count =>
          if v = .other then errType else .int ((elems v).length - (remove x count (elems v)).length)
        | none => errRange
      | _ => errArgs)
  else if name = s!! "lset" then
    some (match args with
      | i :: x :: _ =>
        match int64 i with
        | some index =>
          if v = .other then errType
          else if (assign index x (elems v)).isSome then .simple (s!! "OK") else errNil
        | none => errRange
      | _ => errArgs)
  else if name = s!! "linsert" then
    some (match args with
      | w :: p :: x :: _ =>
        if lower w = s!! "before" ∨ lower w = s!! "after" then
          if v = .other then errType
          else match insertAt (lower w = s!! "before") p x (elems v) with
            | some l => .int l.length
            | none => errNil
        else errArgs
      | _ => errArgs)
  else none

/-- What the key holds after the list command `name` with arguments `args` (after the key) was answered without an
error, if it held `v` before. -/
def next (v : LView) (name : Str) (args : List Str) : LView :=
  if name = s!! "lpush" then
    match v with
    | .absent => .list args.reverse
    | .list l => .list (args.reverse ++ l)
    | .hollow true => .list args.reverse
    | .hollow false => .lost
    | v => v
  else if name = s!! "rpush" then
    match v with
    | .absent => .list args
    | .list l => .list (l ++ args)
    | .hollow false => .list args
    | .hollow true => .lost
    | v => v
  else
    match v with
    | .list l =>
      if name = s!! "lpop" then .list (l.drop ((popCount args).getD 0))
      else if name = s!! "rpop" then .list (l.take (l.length - (popCount args).getD 0))
      else if name = s!! "lrem" then
        match args with
        | c :: x :: _ =>
          match int64 c with
          | some count =>
            if l ≠ [] ∧ remove x count l = [] then .hollow (decide (0 ≤ count)) else .list (remove x count l)
          | none => .list l
        | _ => .list l
      else if name = s!! "lset" then
        match args with
        | i :: x :: _ => .list (((int64 i).bind (fun i => assign i x l)).getD l)
        | _ => .list l
      else if name = s!! "linsert" then
        match args with
        | w :: p :: x :: _ => .list ((insertAt (lower w = s!! "before") p x l).getD l)
        | _ => .list l
      else .list l
    | v => v

/-- commands that create a set or sorted set under a key that was absent -/
def otherCreators : List Str := [s!! "sadd", s!! "zadd", s!! "zincr"]
/-- commands that store a string under their key -/
def stringWriters : List Str := s!! "set" :: s!! "append" :: counters
/-- the list commands that may change a list -/
def listWriters : List Str :=
  [s!! "lpush", s!! "rpush", s!! "lpop", s!! "rpop", s!! "lrem", s!! "lset", s!! "linsert"]

/-- something that is not a list was created, unless there was a value already -/
def createOther : LView → LView
  | .absent => .other
  | v => v

/-- every second element of a list of pairs, the odd one out dropped: the keys assigned by MSET -/
def msetKeys : List Str → List Str
  | k :: _ :: rest => k :: msetKeys rest
  | _ => []

/-- What key `k` holds after the request `name args` was answered with `m`, if it held `v` before.  `name` is in lower
case.  Requests answered with an error change nothing. -/
def step (k : Str) (v : LView) (name : Str) (args : List Str) (m : Reply) : LView :=
  if isError m then v
  else if name = s!! "mset" then (if k ∈ msetKeys args then .other else v)
  else if name = s!! "smove" then (if args[1]? = some k then createOther v else v)
  else if args.head? ≠ some k then v
  else if name ∈ stringWriters then .other
  else if name = s!! "del" then .absent
  else if name ∈ otherCreators then createOther v
  else if name ∈ setStores then .other
  else if name ∈ listWriters then next v name args.tail
  else v

/-- What key `k` holds after the history `tr` (oldest first), starting from `v`. -/
def afterFrom (k : Str) (v : LView) (tr : List (List Str × Reply)) : LView :=
  tr.foldl (fun v p => step k v (lower (p.1.headD [])) p.1.tail p.2) v

/-- What key `k` holds after the history `tr` of a server that started empty. -/
def after (k : Str) (tr : List (List Str × Reply)) : LView := afterFrom k .absent tr

end ListSpec

namespace ListSpec
open Resp StrSpec
open KeySpec hiding Str

/-- The words the server compares after lower-casing them are ASCII: the command name and, for LINSERT, the word
BEFORE/AFTER.  (Lower-casing other text depends on Unicode tables that are not modelled.) -/
def Plain (req : List Str) : Prop :=
  (∀ name ∈ req.head?, Ascii name) ∧ (lower (req.headD []) = s!! "linsert" → ∀ w ∈ req[2]?, Ascii w)

/-- every request of the history that names `k` is one of `cmds` or only inspects data -/
def OnlyUses (k : Str) (cmds : List Str) (tr : List (List Str × Reply)) : Prop :=
  ∀ p ∈ tr, k ∈ keyArgs (lower (p.1.headD [])) p.1.tail →
    lower (p.1.headD []) ∈ cmds ∨ lower (p.1.headD []) ∈ readOnly

/-- the elements of an array of bulk strings -/
def items : Reply → List Str
  | .array ms => ms.filterMap (fun m => match m with | .bulk (some v) => some v | _ => none)
  | _ => []

/-- the elements the request/reply pair pushed onto `k` with one of the commands `cmds` -/
def pushedBy (cmds : List Str) (k : Str) : List Str × Reply → List Str
  | (name :: key :: vs, m) => if lower name ∈ cmds ∧ key = k ∧ isError m = false then vs else []
  | _ => []

/-- the elements the request/reply pair popped from `k` with one of the commands `cmds` -/
def poppedBy (cmds : List Str) (k : Str) : List Str × Reply → List Str
  | (name :: key :: _, m) => if lower name ∈ cmds ∧ key = k then items m else []
  | _ => []

/-- everything pushed onto `k`, in the order of the requests and their arguments -/
def pushed (cmds : List Str) (k : Str) (tr : List (List Str × Reply)) : List Str := tr.flatMap (pushedBy cmds k)
/-- everything popped from `k`, in the order of the replies -/
def popped (cmds : List Str) (k : Str) (tr : List (List Str × Reply)) : List Str := tr.flatMap (poppedBy cmds k)

end ListSpec
