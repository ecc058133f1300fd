import Verif.Spec.Frame
import Verif.Model.F64
/-!
# What sorted-set keys hold, judged from the history of requests and replies (specification)

This file uses of the model only the type of 64-bit floating point numbers and their comparison.  `after N tr` replays
the history `tr` and says for every key which sorted set it holds; `Fits N w name args m` says that `m` is a correct reply
to a sorted-set command if the keys hold `w`.

A sorted set is the list of its entries in ascending order and a dictionary from members to scores.  The two would be
the same information, but for a defect of the server: popped members stay in the dictionary (`Sound` says that there are
none).  After some commands the server's sorted set is damaged (a score that is not a number; a removal further than the
second position): then it is `none`, and nothing is said about replies.
-/
namespace ZSpec
open Resp (Reply bulks)
open KeySpec
open StrSpec (int64 lower isError)
open ListSpec (errType errArgs errRange window)
open Godis (F64)

/-- the library functions on decimal fractions and text that the server uses: reading, writing, adding, and conversion
to lower case -/
structure Num where
  parse : Str → Option F64
  fmt : F64 → Str
  add : F64 → F64 → F64
  lower : Str → Str

/-- an entry: score and member -/
abbrev Entry := F64 × Str

/-- a sorted set -/
structure ZVal where
  /-- the entries in ascending order -/
  order : List Entry
  /-- the score of each known member -/
  dict : Str → Option F64

/-- what a key holds, as far as sorted-set commands can tell; `here none` is a damaged sorted set -/
abbrev ZView := KView (Option ZVal)

/-- the order of entries: by score, then by member -/
def before (a b : Entry) : Bool := a.1.lt b.1 || (a.1.eq b.1 && decide (a.2 < b.2))

/-- put an entry in its place -/
def place (e : Entry) (l : List Entry) : List Entry := l.takeWhile (before · e) ++ e :: l.dropWhile (before · e)

/-- no entry for the member -/
def without (x : Str) (l : List Entry) : List Entry := l.filter (fun e => decide (e.2 ≠ x))

/-- the members -/
def members (l : List Entry) : List Str := l.map (·.2)

/-- the empty sorted set -/
def empty : ZVal := ⟨[], fun _ => none⟩

/-- order and dictionary agree: ascending, every member once, no score that is not a number, and the dictionary knows
exactly the entries -/
structure Sound (z : ZVal) : Prop where
  num : ∀ e ∈ z.order, e.1.isNaN = false
  ascending : z.order.Pairwise (fun a b => before a b = true)
  once : (members z.order).Nodup
  dict : ∀ x sc, z.dict x = some sc ↔ (sc, x) ∈ z.order

/-! ## ZADD, ZINCR -/

structure Flags where
  nx : Bool := false
  xx : Bool := false
  incr : Bool := false

/-- the words after the key: flags (they may stand before any score), then scores and members in pairs; a single last
word is ignored; `none`: a score that is no number -/
def addArgs (N : Num) : List Str → Flags → Option (List Entry × Flags)
  | a :: b :: rest, f =>
    if N.lower a = s!! "xx" then addArgs N (b :: rest) { f with xx := true }
    else if N.lower a = s!! "nx" then addArgs N (b :: rest) { f with nx := true }
    else if N.lower a = s!! "incr" then addArgs N (b :: rest) { f with incr := true }
    else (N.parse a).bind (fun sc => (addArgs N rest f).map (fun r => ((sc, b) :: r.1, r.2)))
  | _, f => some ([], f)
termination_by l => l.length

/-- the member `x` gets the score `sc` -/
def assign (z : ZVal) (sc : F64) (x : Str) : ZVal :=
  ⟨place (sc, x) (without x z.order), fun y => if y = x then some sc else z.dict y⟩

/-- add or update one member; the number is 1 if something changed -/
def addOne (N : Num) (f : Flags) (z : ZVal) (sc : F64) (x : Str) : Option (ZVal × Nat) :=
  match z.dict x with
  | none => if f.xx then some (z, 0) else if sc.isNaN then none else some (assign z sc x, 1)
  | some old =>
    if f.nx then some (z, 0)
    else if (if f.incr then N.add sc old else sc).eq old then some (z, 0)
    else if x ∉ members z.order then some (z, 0)
    else if (if f.incr then N.add sc old else sc).isNaN then none
    else some (assign z (if f.incr then N.add sc old else sc) x, 1)

/-- add or update members from left to right; the number of those that changed something -/
def addAll (N : Num) (f : Flags) : List Entry → ZVal → Option (ZVal × Nat)
  | [], z => some (z, 0)
  | (sc, x) :: es, z => (addOne N f z sc x).bind (fun r => (addAll N f es r.1).map (fun r' => (r'.1, r.2 + r'.2)))

/-! ## ZREM, ZPOPMIN, ZPOPMAX -/

/-- remove one member; the server damages the set if it is not at the first or second position -/
def removeOne (z : ZVal) (x : Str) : Option (ZVal × Nat) :=
  if (z.dict x).isNone then some (z, 0)
  else if x ∈ members (z.order.drop 2) then none
  else some (⟨without x z.order, fun y => if y = x then none else z.dict y⟩, 1)

def removeAll : List Str → ZVal → Option (ZVal × Nat)
  | [], z => some (z, 0)
  | x :: xs, z => (removeOne z x).bind (fun r => (removeAll xs r.1).map (fun r' => (r'.1, r.2 + r'.2)))

/-- the count of ZPOPMIN and ZPOPMAX -/
def popCount : List Str → Option Int
  | [] => some 1
  | c :: _ => int64 c

/-! ## score intervals -/

/-- a bound of an interval: the score, and whether it is excluded -/
def bound (N : Num) (text : Str) : Option (F64 × Bool) :=
  if N.lower text = s!! "-inf" then some (F64.negInf, false)
  else if N.lower text = s!! "+inf" then some (F64.posInf, false)
  else if (N.lower text).head? = some 40 then (N.parse (N.lower text).tail).map (fun f => (f, true))
  else (N.parse (N.lower text)).map (fun f => (f, false))

/-- the number of entries with a score less than, equal to, at most `sc` -/
def less (l : List Entry) (sc : F64) : Nat := (l.filter (fun e => e.1.lt sc)).length
def equal (l : List Entry) (sc : F64) : Nat := (l.filter (fun e => e.1.eq sc)).length
def atMost (l : List Entry) (sc : F64) : Nat := (l.filter (fun e => e.1.le sc)).length

/-- Where the server thinks the interval starts (`d` = 1) or ends (`d` = -1), as a position counted from 1.  It is -1 for
an infinite bound, and not determined if the bound is excluded and several entries have that score. -/
def Cut (d : Int) (l : List Entry) (b : F64 × Bool) (r : Int) : Prop :=
  if b.1.isInf then r = -1
  else if b.2 = true ∧ equal l b.1 ≠ 0 then ∃ j : Nat, 1 ≤ j ∧ j ≤ equal l b.1 ∧ r = less l b.1 + j + d
  else r = atMost l b.1

/-- the interval is everything -/
def everything (lo hi : F64 × Bool) : Prop := lo.1 = F64.negInf ∧ hi.1 = F64.posInf

instance (lo hi) : Decidable (everything lo hi) := by unfold everything; infer_instance

/-- what ZCOUNT computes from the two positions -/
def countOf (len r1 r2 : Int) : Int := if r1 ≤ 0 then r2 else if r2 < 0 then len - r1 + 1 else r2 - r1 + 1

/-- the window that ZRANGEBYSCORE computes from the two positions -/
def windowOf (len r1 r2 : Int) : Int × Int :=
  if r1 ≤ 0 then (0, r2 - 1) else if r2 < 0 then (r1 - 1, len) else (r1 - 1, r2 - 1)

/-! ## what users expect of score intervals -/

/-- the score is in the interval; an excluded bound is not in it -/
def within (lo hi : F64 × Bool) (sc : F64) : Bool :=
  (if lo.2 then lo.1.lt sc else lo.1.le sc) && (if hi.2 then sc.lt hi.1 else sc.le hi.1)

/-- the interval is not upside down -/
def Upright (lo hi : F64 × Bool) : Prop := lo.1.lt hi.1 = true ∨ lo.1.le hi.1 = true ∧ (lo.2 = false ∨ hi.2 = false)

/-- The intervals for which the server computes the right positions: everything; or the lower bound is -inf, or is met by
exactly one entry, or has no entry at or below it, and the upper bound is finite, and if it is excluded at most one entry
has that score; or the lower bound is met by exactly one entry and the upper bound is +inf. -/
def Easy (l : List Entry) (lo hi : F64 × Bool) : Prop :=
  (lo = (F64.negInf, false) ∧ hi = (F64.posInf, false)) ∨
  ((lo = (F64.negInf, false) ∨ lo.1.isInf = false ∧ (equal l lo.1 = 1 ∨ atMost l lo.1 = 0)) ∧
    hi.1.isInf = false ∧ (hi.2 = false ∨ equal l hi.1 ≤ 1)) ∨
  (lo.1.isInf = false ∧ equal l lo.1 = 1 ∧ hi = (F64.posInf, false))

/-- Ordinary bounds: a lower bound that is finite or `-inf`, and an upper bound that is finite or `+inf`. -/
def Ordinary (lo hi : F64 × Bool) : Prop :=
  (lo.1.isInf = false ∨ lo = (F64.negInf, false)) ∧ (hi.1.isInf = false ∨ hi = (F64.posInf, false))

/-- No excluded bound is met by several entries. -/
def Determined (l : List Entry) (lo hi : F64 × Bool) : Prop :=
  (lo.2 = true → equal l lo.1 ≤ 1) ∧ (hi.2 = true → equal l hi.1 ≤ 1)

/-! ## replies -/

/-- entries as they are listed in a reply -/
def listing (N : Num) (scores : Bool) (l : List Entry) : Reply :=
  bulks (l.flatMap (fun e => e.2 :: if scores then [N.fmt e.1] else []))

def errInt : Reply := .error (s!! "value is not an integer or out of range")
def errFloat : Reply := .error (s!! "ERR value is not a valid float")

/-- a word among the words, in any case -/
def hasWord (N : Num) (word : Str) (l : List Str) : Bool := l.any (fun a => decide (N.lower a = word))

/-- a command on key holding `v`: error if the value has another type, otherwise a condition on the sorted set (an absent
one is empty) -/
def onKey (v : ZView) (m : Reply) (P : ZVal → Prop) : Prop :=
  match v with
  | .absent => P empty
  | .other => m = errType
  | .here none => True
  | .here (some z) => P z

/-- the number of changes is replied; some number if the set gets damaged -/
def Counted (r : Option (ZVal × Nat)) (m : Reply) : Prop := isError m = false ∧ ∀ z n, r = some (z, n) → m = .int n

/-- the reply to a range by score -/
def RangeByScore (N : Num) (l : List Entry) (a b : Str) (scores : Bool) (m : Reply) : Prop :=
  match bound N a, bound N b with
  | some lo, some hi =>
    if everything lo hi then m = listing N scores l
    else ∃ r1 r2, Cut 1 l lo r1 ∧ Cut (-1) l hi r2 ∧ m = listing N scores (window l (windowOf l.length r1 r2).1 (windowOf l.length r1 r2).2)
  | _, _ => m = errFloat

/-- the reply to ZCOUNT -/
def CountByScore (N : Num) (l : List Entry) (a b : Str) (m : Reply) : Prop :=
  match bound N a, bound N b with
  | some lo, some hi =>
    if everything lo hi then m = .int l.length
    else ∃ r1 r2, Cut 1 l lo r1 ∧ Cut (-1) l hi r2 ∧ m = .int (countOf l.length r1 r2)
  | _, _ => m = errFloat

/-- ZINCR: the new score, or 0 if nothing changed -/
def IncrFits (N : Num) (sc : F64) (x : Str) (m : Reply) (z : ZVal) : Prop :=
  isError m = false ∧ ∀ z' n, addOne N { incr := true } z sc x = some (z', n) → m = if n = 0 then .int 0 else .bulk ((z'.dict x).map N.fmt)

/-- ZSCORE -/
def scoreOf (N : Num) (x : Str) (z : ZVal) : Reply := .bulk (if z.order = [] then none else (z.dict x).map N.fmt)

/-- ZRANK: the number of entries up to the one with this score and member -/
def rankOf (x : Str) (z : ZVal) : Reply :=
  match z.dict x with
  | none => .bulk none
  | some sc =>
    if z.order = [] then .bulk none
    else .int (z.order.filter (fun e => e.1.lt sc || (e.1.eq sc && !decide (x < e.2)))).length

/-- ZRANGE and (`rev`) ZREVRANGE by position -/
def RangeByPosition (N : Num) (rev : Bool) (l : List Entry) (a b : Str) (scores : Bool) (m : Reply) : Prop :=
  match int64 a, int64 b with
  | some start, some stop => m = listing N scores (if rev then (window l start stop).reverse else window l start stop)
  | _, _ => m = errInt

/-- ZRANGE; the flags are looked up in `rest` -/
def RangeFits (N : Num) (a b : Str) (rest : List Str) (m : Reply) (z : ZVal) : Prop :=
  if z.order = [] then m = .bulk none
  else if hasWord N (s!! "byscore") rest = true then RangeByScore N z.order a b (hasWord N (s!! "withscores") rest) m
  else RangeByPosition N false z.order a b (hasWord N (s!! "withscores") rest) m

/-- ZPOPMAX -/
def PopMaxFits (N : Num) (n : Int) (l : List Entry) (m : Reply) : Prop :=
  if l = [] ∨ n ≤ 0 then m = bulks []
  else if l.length ≤ 2 then m = listing N true (l.reverse.take n.toNat ++ List.replicate (n.toNat - l.length) (0, []))
  else ∃ more : List Str, m = bulks (((l.reverse.take 1).flatMap (fun e => [e.2, N.fmt e.1])) ++ more) ∧ (n = 1 → more = [])

/-- a pop command on a key holding `v`: the empty array if there is no sorted set -/
def onPop (v : ZView) (m : Reply) (P : List Entry → Prop) : Prop :=
  match v with
  | .here none => True
  | .here (some z) => P z.order
  | _ => m = bulks []

/-- `m` is a correct reply to the sorted-set command `name args` if the keys hold `w`. -/
def Fits (N : Num) (w : Str → ZView) (name : Str) (args : List Str) (m : Reply) : Prop :=
  if name = s!! "zadd" then
    match args with
    | k :: a :: b :: rest =>
      match addArgs N (a :: b :: rest) {} with
      | none => m = errRange
      | some (es, f) => onKey (w k) m (fun z => Counted (addAll N f es z) m)
    | _ => m = errArgs
  else if name = s!! "zincr" then
    match args with
    | k :: d :: x :: _ =>
      match N.parse d with
      | none => m = errRange
      | some sc => onKey (w k) m (IncrFits N sc x m)
    | _ => m = errArgs
  else if name = s!! "zscore" then
    match args with
    | k :: x :: _ => onKey (w k) m (fun z => m = scoreOf N x z)
    | _ => m = errArgs
  else if name = s!! "zrank" then
    match args with
    | k :: x :: _ => onKey (w k) m (fun z => m = rankOf x z)
    | _ => m = errArgs
  else if name = s!! "zrem" then
    match args with
    | k :: x :: xs => onKey (w k) m (fun z => if z.order = [] then m = .int 0 else Counted (removeAll (x :: xs) z) m)
    | _ => m = errArgs
  else if name = s!! "zcard" then
    match args with
    | k :: _ => onKey (w k) m (fun z => m = .int z.order.length)
    | _ => m = errArgs
  else if name = s!! "zcount" then
    match args with
    | k :: a :: b :: _ => onKey (w k) m (fun z => if z.order = [] then m = .int 0 else CountByScore N z.order (N.lower a) (N.lower b) m)
    | _ => m = errArgs
  else if name = s!! "zrange" then
    match args with
    | k :: a :: b :: rest => onKey (w k) m (RangeFits N a b (b :: rest) m)
    | _ => m = errArgs
  else if name = s!! "zrangebyscore" then
    match args with
    | k :: a :: b :: _ => onKey (w k) m (fun z => if z.order = [] then m = .bulk none else RangeByScore N z.order a b false m)
    | _ => m = errArgs
  else if name = s!! "zrevrange" then
    match args with
    | k :: a :: b :: rest => onKey (w k) m (fun z =>
        if z.order = [] then m = .bulk none else RangeByPosition N true z.order a b (hasWord N (s!! "withscores") (b :: rest)) m)
    | _ => m = errArgs
  else if name = s!! "zpopmin" then
    match args with
    | k :: rest =>
      match popCount rest with
      | none => m = errInt
      | some n => onPop (w k) m (fun l => m = listing N true (l.take n.toNat))
    | _ => m = errArgs
  else
    match args with
    | k :: rest =>
      match popCount rest with
      | none => m = errInt
      | some n => onPop (w k) m (fun l => PopMaxFits N n l m)
    | _ => m = errArgs

/-! ## the last score -/

/-- the score of `x` after ZADD gave `sc` to `y`; a score that is numerically equal to the old one changes nothing -/
def rescore (N : Num) (f : Flags) (x : Str) (o : Option F64) (e : Entry) : Option F64 :=
  if e.2 ≠ x then o
  else match o with
    | none => if f.xx then none else some e.1
    | some old =>
      if f.nx then some old
      else if (if f.incr then N.add e.1 old else e.1).eq old then some old
      else some (if f.incr then N.add e.1 old else e.1)

/-- the score last given to member `x` of `k` by ZADD or ZINCR, and not removed by ZREM since -/
def lastScore (N : Num) (k x : Str) (tr : List (List Str × Reply)) : Option F64 :=
  tr.foldl (fun o p =>
    match p.1 with
    | name :: k' :: rest =>
      if k' ≠ k then o
      else if lower name = s!! "zadd" ∧ 2 ≤ rest.length then
        match addArgs N rest {} with
        | some (es, f) => es.foldl (rescore N f x) o
        | none => o
      else if lower name = s!! "zincr" then
        match rest with
        | d :: y :: _ =>
          match N.parse d with
          | some sc => rescore N { incr := true } x o (sc, y)
          | none => o
        | _ => o
      else if lower name = s!! "zrem" ∧ x ∈ rest then none
      else o
    | _ => o) none

/-! ## what the keys hold afterwards -/

/-- Replace what one key holds. -/
def put (w : Str → ZView) (k : Str) (v : ZView) : Str → ZView := fun k' => if k' = k then v else w k'

/-- members are added or updated -/
def added (N : Num) (f : Flags) (es : List Entry) : ZView → ZView
  | .absent => .here ((addAll N f es empty).map (·.1))
  | .other => .other
  | .here z => .here (z.bind (fun z => (addAll N f es z).map (·.1)))

/-- the sorted set changes, if there is one that is not empty -/
def change (g : ZVal → Option ZVal) : ZView → ZView
  | .here (some z) => .here (if z.order = [] then some z else g z)
  | v => v

/-- What the keys hold after the request `name args` was answered with `m`, if they held `w` before.  `name` is in lower
case. -/
def step (N : Num) (w : Str → ZView) (name : Str) (args : List Str) (m : Reply) : Str → ZView :=
  if name = s!! "zadd" then
    match args with
    | k :: a :: b :: rest =>
      match addArgs N (a :: b :: rest) {} with
      | none => w
      | some (es, f) => put w k (added N f es (w k))
    | _ => w
  else if name = s!! "zincr" then
    match args with
    | k :: d :: x :: _ =>
      match N.parse d with
      | none => w
      | some sc => put w k (added N { incr := true } [(sc, x)] (w k))
    | _ => w
  else if name = s!! "zrem" then
    match args with
    | k :: x :: xs => put w k (change (fun z => (removeAll (x :: xs) z).map (·.1)) (w k))
    | _ => w
  else if name = s!! "zpopmin" then
    match args with
    | k :: rest =>
      match popCount rest with
      | none => w
      | some n => put w k (change (fun z => some ⟨z.order.drop n.toNat, z.dict⟩) (w k))
    | _ => w
  else if name = s!! "zpopmax" then
    match args with
    | k :: rest =>
      match popCount rest with
      | none => w
      | some n => put w k (change (fun z =>
          if n ≤ 0 then some z
          else if z.order.length ≤ 2 then some ⟨(z.order.reverse.drop n.toNat).reverse, z.dict⟩
          else none) (w k))
    | _ => w
  else fun k => foreign k (w k) name args m

/-- What the keys hold after the history `tr` of a server that started empty. -/
def after (N : Num) (tr : List (List Str × Reply)) : Str → ZView :=
  tr.foldl (fun w p => step N w (lower (p.1.headD [])) p.1.tail p.2) (fun _ => .absent)

/-- the sorted set at a key; an absent one is empty -/
def seen : ZView → ZVal
  | .here (some z) => z
  | _ => empty

/-- the entries of the sorted set at `k` after the history -/
def contents (N : Num) (tr : List (List Str × Reply)) (k : Str) : List Entry := (seen (after N tr k)).order

/-- after the history, `k` holds a sorted set or nothing, and the sorted set is not damaged -/
def Sane (N : Num) (tr : List (List Str × Reply)) (k : Str) : Prop := after N tr k ≠ .other ∧ after N tr k ≠ .here none

/-- the history uses `k` only with ZADD (no INCR, scores that are numbers), ZPOPMIN and commands that read -/
def Calm (N : Num) (k : Str) (tr : List (List Str × Reply)) : Prop :=
  ∀ p ∈ tr, k ∈ keyArgs (lower (p.1.headD [])) p.1.tail →
    lower (p.1.headD []) ∈ [s!! "zpopmin"] ∨ lower (p.1.headD []) ∈ readOnly ∨
    lower (p.1.headD []) = s!! "zadd" ∧
      ∀ es f, addArgs N (p.1.drop 2) {} = some (es, f) → f.incr = false ∧ ∀ e ∈ es, e.1.isNaN = false

/-! ## ZADD on a list of entries -/

/-- the score of a member -/
def scoreIn (l : List Entry) (x : Str) : Option F64 := (l.find? (fun e => decide (e.2 = x))).map (·.1)

/-- What ZADD should do for one score and member, given the entries so far and the number of changes so far: NX leaves an
existing member alone, XX adds none, INCR adds to the existing score. -/
def addEntry (N : Num) (f : Flags) (st : List Entry × Nat) (e : Entry) : List Entry × Nat :=
  match scoreIn st.1 e.2 with
  | none => if f.xx then st else (place e st.1, st.2 + 1)
  | some old =>
    if f.nx then st
    else if (if f.incr then N.add e.1 old else e.1).eq old then st
    else (place (if f.incr then N.add e.1 old else e.1, e.2) (without e.2 st.1), st.2 + 1)

/-- the number of words in all requests -/
def words (tr : List (List Str × Reply)) : Nat := (tr.map (fun p => p.1.length)).sum

/-- the sorted-set commands -/
def commands : List Str :=
  [s!! "zadd", s!! "zincr", s!! "zscore", s!! "zrank", s!! "zrem", s!! "zcard", s!! "zcount", s!! "zrange", s!! "zrangebyscore",
   s!! "zrevrange", s!! "zpopmin", s!! "zpopmax"]

end ZSpec
