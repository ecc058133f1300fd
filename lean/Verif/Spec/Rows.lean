import Verif.Spec.Lists
/-!
# What the server really does with lists (specification)

This file does not use the model.  `ListSpec` describes lists as sequences and stops where an LREM has emptied a list.
Here every case is described.

The server keeps a list as a row of items, together with a counter of items and the two ends of the row.  As long as no
LREM removes the last item, both ends are known and the counter is the number of items.  An LREM that removes every item
leaves a row with one empty item, of which only one end is known and which is not counted.  From then on

* LPUSH, LPOP, LRANGE, LSET, LINSERT and LREM with a count that is not negative start at the left end; RPUSH, RPOP and
  LREM with a negative count start at the right end;
* a push at an unknown end starts a new row and forgets the old items, but not the counter;
* an LREM that has to start at an unknown end, and a walk that runs more than one step beyond the row, crash the server;
* an LREM that reaches the other end makes it known again.

`after k tr` is what key `k` holds after the history `tr`; `answer look name args` is the outcome of the list request
`name args` if `look k` is what key `k` holds.
-/
namespace RowSpec
open Resp
open KeySpec hiding Str
open StrSpec (int64 lower isError setStores)
open ListSpec (insertAt popCount stringWriters otherCreators listWriters msetKeys removeFirst
  errType errArgs errRange errNil)

/-- a list as the server keeps it -/
structure Row where
  items : List Str
  /-- the left end is known -/
  left : Bool
  /-- the right end is known -/
  right : Bool
  /-- the counter -/
  count : Int
deriving DecidableEq, Repr

/-- the list with these items, in good order -/
def Row.good (l : List Str) : Row := ⟨l, true, true, l.length⟩

/-- what a key holds, as far as list commands can tell -/
inductive View where
  | absent
  /-- a value that is not a list -/
  | other
  | row (c : Row)
deriving DecidableEq, Repr

/-- an absent key reads as an empty list -/
def View.list : View → Row
  | .row c => c
  | _ => .good []

namespace Row

/-- seen from the other end -/
def mirror (c : Row) : Row := ⟨c.items.reverse, c.right, c.left, c.count⟩

def pushLeft (c : Row) (x : Str) : Row :=
  if c.left then { c with items := x :: c.items, count := c.count + 1 } else ⟨[x], true, true, c.count + 1⟩
def pushRight (c : Row) (x : Str) : Row := (c.mirror.pushLeft x).mirror

/-- at most `n` items, and no more than are counted, from the left end -/
def popped (c : Row) (n : Nat) : List Str := if c.left then c.items.take (min n c.count.toNat) else []
/-- the row after that; an empty row has two known ends -/
def popLeft (c : Row) (n : Nat) : Row :=
  if c.left then
    let rest := c.items.drop (min n c.count.toNat)
    ⟨rest, true, c.right || rest.isEmpty, c.count - (c.popped n).length⟩
  else c
def popRight (c : Row) (n : Nat) : Row := (c.mirror.popLeft n).mirror

/-- negative positions count from the end, by the counter -/
def position (c : Row) (i : Int) : Int := if i < 0 then i + c.count else i

/-- the items at the counted positions from `start` to `stop` -/
def window (c : Row) (start stop : Int) : List Str :=
  if c.left then
    (c.items.zipIdx.filter (fun p => decide (c.position start ≤ p.2 ∧ (p.2 : Int) ≤ c.position stop ∧ (p.2 : Int) < c.count))).map (·.1)
  else []

/-- the items behind the `n`-th occurrence of `v` (none if there are fewer occurrences) -/
def beyond (v : Str) : Nat → List Str → List Str
  | 0, l => l
  | _ + 1, [] => []
  | n + 1, x :: l => if x = v then beyond v n l else beyond v (n + 1) l

/-- LREM of `n` occurrences of `v` from the left; `none`: crash -/
def removeLeft (c : Row) (v : Str) (n : Nat) : Option Row :=
  if c.left = false ∨ c.items = [] then none
  else
    let kept := removeFirst v n c.items
    let count := c.count - (c.items.length - kept.length)
    if kept = [] then some ⟨[[]], false, true, count⟩
    else some ⟨kept, true, c.right || (beyond v n c.items).isEmpty, count⟩
def removeRight (c : Row) (v : Str) (n : Nat) : Option Row := (c.mirror.removeLeft v n).map mirror

/-- LREM with a count argument.  Zero means as many as are counted; the smallest 64-bit integer has no counterpart and
removes nothing. -/
def remove (c : Row) (v : Str) (n : Int) : Option Row :=
  if 0 < n then c.removeLeft v n.toNat
  else if n = 0 then c.removeLeft v c.count.toNat
  else c.removeRight v (if n = -2 ^ 63 then 0 else (-n).toNat)

/-- the outcome of a walk to a position -/
inductive Seek where
  | found (p : Nat)
  | missing
  | crash
deriving DecidableEq, Repr

/-- `n` steps along a row of `len` items: one step beyond it is noticed, more are not -/
def walk (len n : Nat) : Seek := if n < len then .found n else if n = len then .missing else .crash

/-- The position of the item that an index means.  Positions in the right half are reached from the right end. -/
def seek (c : Row) (i : Int) : Seek :=
  if c.left = false ∨ c.items = [] ∨ c.position i < 0 ∨ c.count ≤ c.position i then .missing
  else if c.position i > c.count / 2 + 1 then
    match walk (if c.right then c.items.length else 0) (c.count - 1 - c.position i).toNat with
    | .found n => .found (c.items.length - 1 - n)
    | r => r
  else walk c.items.length (c.position i).toNat

/-- LINSERT; if the new item becomes the last one the right end is known -/
def insert (c : Row) (before : Bool) (p x : Str) : Option Row :=
  if c.left then
    (insertAt before p x c.items).map (fun l =>
      ⟨l, true, c.right || (!before && decide (c.items.idxOf p + 1 = c.items.length)), c.count + 1⟩)
  else none

end Row

/-- the outcome of a request -/
inductive Outcome where
  | reply (m : Reply)
  | crash

/-- the reply to a command that found a value of another type, or `o` -/
def typed (v : View) (o : Outcome) : Outcome := if v = .other then .reply errType else o

/-- the list commands -/
def commands : List Str :=
  [s!! "lpush", s!! "rpush", s!! "lpop", s!! "rpop", s!! "llen", s!! "lrange", s!! "lrem", s!! "lindex", s!! "lset", s!! "linsert"]

/-- The outcome of the list request `name args`, if `look k` is what key `k` holds.  LINDEX looks at the key that is named
like its index. -/
def answer (look : Str → View) (name : Str) (args : List Str) : Outcome :=
  match args with
  | [] => .reply errArgs
  | k :: args =>
    let v := look k
    let c := v.list
    if name = s!! "lpush" ∨ name = s!! "rpush" then
      if args = [] then .reply errArgs else typed v (.reply (.int (c.count + args.length)))
    else if name = s!! "lpop" then
      match popCount args with
      | none => .reply errRange
      | some n => typed v (.reply (if c.count = 0 then .bulk none else bulks (c.popped n)))
    else if name = s!! "rpop" then
      match popCount args with
      | none => .reply errRange
      | some n => typed v (.reply (if v = .absent then .bulk none else bulks (c.mirror.popped n)))
    else if name = s!! "llen" then typed v (.reply (.int c.count))
    else if name = s!! "lrange" then
      match args with
      | a :: b :: _ =>
        match int64 a, int64 b with
        | some start, some stop => typed v (.reply (bulks (c.window start stop)))
        | _, _ => .reply errRange
      | _ => .reply errArgs
    else if name = s!! "lrem" then
      match args with
      | n :: x :: _ =>
        match int64 n with
        | some n =>
          typed v (if c.count = 0 then .reply (.int 0) else
            match c.remove x n with
            | some c' => .reply (.int (c.count - c'.count))
            | none => .crash)
        | none => .reply errRange
      | _ => .reply errArgs
    else if name = s!! "lindex" then
      match args with
      | i :: _ =>
        match int64 i with
        | some n =>
          typed (look i) (match (look i).list.seek n with
            | .found p => .reply (.bulk ((look i).list.items[p]?))
            | .missing => .reply (.bulk none)
            | .crash => .crash)
        | none => .reply errRange
      | _ => .reply errArgs
    else if name = s!! "lset" then
      match args with
      | i :: _ :: _ =>
        match int64 i with
        | some i => typed v (match c.seek i with
            | .found _ => .reply (.simple (s!! "OK"))
            | .missing => .reply errNil
            | .crash => .crash)
        | none => .reply errRange
      | _ => .reply errArgs
    else if name = s!! "linsert" then
      match args with
      | w :: p :: x :: _ =>
        if lower w = s!! "before" ∨ lower w = s!! "after" then
          typed v (if c.count = 0 then .reply errNil else
            match c.insert (decide (lower w = s!! "before")) p x with
            | some c' => .reply (.int c'.count)
            | none => .reply errNil)
        else .reply errArgs
      | _ => .reply errArgs
    else .reply errArgs

/-- What the key holds after the list command `name` with arguments `args` (after the key) was answered without an error,
if it held `v` before. -/
def next (v : View) (name : Str) (args : List Str) : View :=
  if name = s!! "lpush" then .row (args.foldl Row.pushLeft v.list)
  else if name = s!! "rpush" then .row (args.foldl Row.pushRight v.list)
  else
    match v with
    | .row c =>
      if name = s!! "lpop" then .row (c.popLeft ((popCount args).getD 0))
      else if name = s!! "rpop" then .row (c.popRight ((popCount args).getD 0))
      else if name = s!! "lrem" then
        match args with
        | n :: x :: _ => if c.count = 0 then .row c else .row ((c.remove x ((int64 n).getD 0)).getD c)
        | _ => .row c
      else if name = s!! "lset" then
        match args with
        | i :: x :: _ =>
          match c.seek ((int64 i).getD 0) with
          | .found p => .row { c with items := c.items.set p x }
          | _ => .row c
        | _ => .row c
      else if name = s!! "linsert" then
        match args with
        | w :: p :: x :: _ => .row ((c.insert (decide (lower w = s!! "before")) p x).getD c)
        | _ => .row c
      else .row c
    | v => v

/-- something that is not a list was created, unless there was a value already -/
def createOther : View → View
  | .absent => .other
  | v => v

/-- What key `k` holds after the request `name args` was answered with `m`, if it held `v` before.  `name` is in lower
case.  Requests answered with an error change nothing. -/
def step (k : Str) (v : View) (name : Str) (args : List Str) (m : Reply) : View :=
  if isError m then v
  else if name = s!! "mset" then (if k ∈ msetKeys args then .other else v)
  else if name = s!! "smove" then (if args[1]? = some k then createOther v else v)
  else if args.head? ≠ some k then v
  else if name ∈ stringWriters then .other
  else if name = s!! "del" then .absent
  else if name ∈ otherCreators then createOther v
  else if name ∈ setStores then .other
  else if name ∈ listWriters then next v name args.tail
  else v

/-- What key `k` holds after the history `tr` (oldest first) of a server that started empty. -/
def after (k : Str) (tr : List (List Str × Reply)) : View :=
  tr.foldl (fun v p => step k v (lower (p.1.headD [])) p.1.tail p.2) .absent

end RowSpec
