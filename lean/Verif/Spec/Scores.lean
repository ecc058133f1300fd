import Verif.Spec.ZSets
import Mathlib.Data.List.Dedup
/-!
# The score table of sorted sets, in every history (specification)

`ZSpec` says nothing about sorted sets that the server has damaged.  Here is what remains true of them: every sorted set
has a table of scores and a number of entries.  ZADD, ZINCR and ZREM maintain the table exactly as their replies say, and
the server answers ZSCORE, ZCARD and the sizes of ranges from it, damaged or not.  (The order of the entries is not
described here.)

`Serves N name args m w w'` says that a server whose sorted sets are `w` may answer the request with `m`, and then they
are `w'`.
-/
namespace ScoreSpec
open Resp (Reply bulks)
open KeySpec
open StrSpec (int64 lower)
open ListSpec (errType errArgs errRange window)
open ZSpec (Num Entry Flags addArgs popCount bound everything listing errInt errFloat hasWord commands)
open Godis (F64)

/-- a sorted set, without the order of its entries -/
structure Table where
  /-- the score of each known member -/
  score : Str → Option F64
  /-- the number of entries -/
  card : Int

/-- what a key holds, as far as sorted-set commands can tell -/
abbrev View := KView Table

def empty : Table := ⟨fun _ => none, 0⟩

/-- replace one score -/
def put (g : Str → Option F64) (x : Str) (o : Option F64) : Str → Option F64 := fun y => if y = x then o else g y

/-- One pair of score and member is offered; `n` is 1 if that changed something.  A member without score gets it (unless
XX), and there is one more entry.  A member with a score gets the new score, or the server refuses: always with NX and if
the two are numerically equal. -/
def Offer (N : Num) (f : Flags) (t : Table) (e : Entry) (t' : Table) (n : Nat) : Prop :=
  match t.score e.2 with
  | none =>
    if f.xx then t' = t ∧ n = 0
    else t' = ⟨put t.score e.2 (some e.1), t.card + 1⟩ ∧ n = 1
  | some old =>
    (t' = t ∧ n = 0) ∨
    (f.nx = false ∧ (if f.incr then N.add e.1 old else e.1).eq old = false ∧
      t' = ⟨put t.score e.2 (some (if f.incr then N.add e.1 old else e.1)), t.card⟩ ∧ n = 1)

/-- several pairs, from left to right -/
def Offers (N : Num) (f : Flags) : List Entry → Table → Table → Nat → Prop
  | [], t, t', n => t' = t ∧ n = 0
  | e :: es, t, t', n => ∃ t1 n1 n2, Offer N f t e t1 n1 ∧ Offers N f es t1 t' n2 ∧ n = n1 + n2

/-- the number of different members in the list that have a score -/
def known (t : Table) (xs : List Str) : Nat := (xs.dedup.filter (fun x => (t.score x).isSome)).length

/-- ZREM of `xs`: the reply is the number of members that had a score, they have none afterwards, and the number of
entries is smaller by at most that number -/
def Removed (xs : List Str) (m : Reply) (t t' : Table) : Prop :=
  if t.card = 0 then t' = t ∧ m = .int 0
  else m = .int (known t xs) ∧ (∀ y, t'.score y = if y ∈ xs then none else t.score y) ∧
    t.card - known t xs ≤ t'.card ∧ t'.card ≤ t.card

/-- ZPOPMIN, ZPOPMAX: at most `n` entries are listed; the scores stay known; the number of entries is smaller by at most
the number of listed ones -/
def Popped (N : Num) (n : Int) (m : Reply) (t t' : Table) : Prop :=
  if t.card = 0 then t' = t ∧ m = bulks []
  else ∃ l : List Entry, m = listing N true l ∧ l.length ≤ n.toNat ∧ t'.score = t.score ∧
    t.card - l.length ≤ t'.card ∧ t'.card ≤ t.card

/-- how many of `card` positions are in the window from `start` to `stop` -/
def span (card start stop : Int) : Nat := (window (List.replicate card.toNat ()) start stop).length

/-- ZRANGE, ZREVRANGE by position: as many entries as the window has positions -/
def ByPosition (N : Num) (a b : Str) (scores : Bool) (m : Reply) (t : Table) : Prop :=
  match int64 a, int64 b with
  | some start, some stop => ∃ l : List Entry, m = listing N scores l ∧ l.length = span t.card start stop
  | _, _ => m = errInt

/-- ZRANGE, ZRANGEBYSCORE by score: all entries if the interval is everything, otherwise not more -/
def ByScore (N : Num) (a b : Str) (scores : Bool) (m : Reply) (t : Table) : Prop :=
  match bound N a, bound N b with
  | some lo, some hi => ∃ l : List Entry, m = listing N scores l ∧ l.length ≤ t.card.toNat ∧
      (everything lo hi → l.length = t.card.toNat)
  | _, _ => m = errFloat

/-- ZCOUNT -/
def Count (N : Num) (a b : Str) (m : Reply) (t : Table) : Prop :=
  match bound N a, bound N b with
  | some lo, some hi => ∃ n, m = .int n ∧ (everything lo hi → n = t.card)
  | _, _ => m = errFloat

/-- ZINCR -/
def Incremented (N : Num) (sc : F64) (x : Str) (m : Reply) (t t' : Table) : Prop :=
  ∃ n, Offer N { incr := true } t (sc, x) t' n ∧ m = if n = 0 then .int 0 else .bulk ((t'.score x).map N.fmt)

/-- a command that creates the sorted set if the key holds nothing -/
def creating (v v' : View) (m : Reply) (P : Table → Table → Prop) : Prop :=
  match v with
  | .absent => ∃ t', v' = .here t' ∧ P empty t'
  | .other => v' = v ∧ m = errType
  | .here t => ∃ t', v' = .here t' ∧ P t t'

/-- a command that changes a sorted set, if there is one; `e` is the reply if the key holds something else -/
def changing (e : Reply) (v v' : View) (m : Reply) (P : Table → Table → Prop) : Prop :=
  match v with
  | .absent => v' = v ∧ P empty empty
  | .other => v' = v ∧ m = e
  | .here t => ∃ t', v' = .here t' ∧ P t t'

/-- a command that reads a sorted set -/
def reading (v v' : View) (m : Reply) (P : Table → Prop) : Prop := changing errType v v' m (fun t t' => t' = t ∧ P t)

/-- what a sorted-set command on the key `k` may reply, if `k` holds `v` before and `v'` after -/
def OnKey (N : Num) (name : Str) (rest : List Str) (m : Reply) (v v' : View) : Prop :=
  if name = s!! "zadd" then
    match rest with
    | a :: b :: rest =>
      match addArgs N (a :: b :: rest) {} with
      | none => v' = v ∧ m = errRange
      | some (es, f) => creating v v' m (fun t t' => ∃ n, Offers N f es t t' n ∧ m = .int n)
    | _ => v' = v ∧ m = errArgs
  else if name = s!! "zincr" then
    match rest with
    | d :: x :: _ =>
      match N.parse d with
      | none => v' = v ∧ m = errRange
      | some sc => creating v v' m (Incremented N sc x m)
    | _ => v' = v ∧ m = errArgs
  else if name = s!! "zrem" then
    match rest with
    | x :: xs => changing errType v v' m (Removed (x :: xs) m)
    | _ => v' = v ∧ m = errArgs
  else if name = s!! "zpopmin" ∨ name = s!! "zpopmax" then
    match popCount rest with
    | none => v' = v ∧ m = errInt
    | some n => changing (bulks []) v v' m (Popped N n m)
  else if name = s!! "zscore" then
    match rest with
    | x :: _ => reading v v' m (fun t => m = .bulk (if t.card = 0 then none else (t.score x).map N.fmt))
    | _ => v' = v ∧ m = errArgs
  else if name = s!! "zrank" then
    match rest with
    | x :: _ => reading v v' m (fun t => if t.card = 0 ∨ t.score x = none then m = .bulk none else ∃ n, m = .int n)
    | _ => v' = v ∧ m = errArgs
  else if name = s!! "zcard" then reading v v' m (fun t => m = .int t.card)
  else if name = s!! "zcount" then
    match rest with
    | a :: b :: _ => reading v v' m (fun t => if t.card = 0 then m = .int 0 else Count N (N.lower a) (N.lower b) m t)
    | _ => v' = v ∧ m = errArgs
  else if name = s!! "zrange" then
    match rest with
    | a :: b :: rest => reading v v' m (fun t =>
        if t.card = 0 then m = .bulk none
        else if hasWord N (s!! "byscore") (b :: rest) = true then ByScore N a b (hasWord N (s!! "withscores") (b :: rest)) m t
        else ByPosition N a b (hasWord N (s!! "withscores") (b :: rest)) m t)
    | _ => v' = v ∧ m = errArgs
  else if name = s!! "zrangebyscore" then
    match rest with
    | a :: b :: _ => reading v v' m (fun t => if t.card = 0 then m = .bulk none else ByScore N a b false m t)
    | _ => v' = v ∧ m = errArgs
  else
    match rest with
    | a :: b :: rest => reading v v' m (fun t =>
        if t.card = 0 then m = .bulk none else ByPosition N a b (hasWord N (s!! "withscores") (b :: rest)) m t)
    | _ => v' = v ∧ m = errArgs

/-- A server whose sorted sets are `w` may answer the request `name args` (`name` in lower case) with `m`, and then they
are `w'`: a sorted-set command is about its first argument, all others do what `foreign` says. -/
def Serves (N : Num) (name : Str) (args : List Str) (m : Reply) (w w' : Str → View) : Prop :=
  if name ∈ commands then
    match args with
    | [] => w' = w ∧ m = errArgs
    | k :: rest => OnKey N name rest m (w k) (w' k) ∧ ∀ k', k' ≠ k → w' k' = w k'
  else ∀ k, w' k = foreign k (w k) name args m

/-- The sorted sets of a server that started empty and served the requests `tr` may be `w`. -/
inductive Explains (N : Num) : List (List Str × Reply) → (Str → View) → Prop
  | start : Explains N [] (fun _ => .absent)
  | next {tr w req m w'} (h : Explains N tr w) (hs : Serves N (lower (req.headD [])) req.tail m w w') :
      Explains N (tr ++ [(req, m)]) w'

/-! ## what the client can tell without replaying everything -/

/-- commands that replace or delete what a key holds -/
def overwriting : List Str := s!! "mset" :: s!! "del" :: ListSpec.stringWriters ++ StrSpec.setStores

/-- The request cannot change the score of member `x` in the sorted set at `k`: it is not a ZADD, ZINCR or ZREM on `k` with
the word `x`, and does not replace the value at `k`.  (Any other request is allowed, in particular ZPOPMIN and ZPOPMAX on
`k`.) -/
def Spares (k x : Str) (req : List Str) : Prop :=
  (lower (req.headD []) ∈ [s!! "zadd", s!! "zincr", s!! "zrem"] → req.tail.head? = some k → x ∉ req.tail.tail) ∧
  (lower (req.headD []) ∈ overwriting → k ∉ req.tail)

instance (k x : Str) (req : List Str) : Decidable (Spares k x req) := by unfold Spares; infer_instance

end ScoreSpec
