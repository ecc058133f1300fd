import Verif.Spec.Resp
import Verif.Spec.Keys
/-!
# What a key holds, judged from the history of requests and replies (specification)

This file does not use the model.  `view k tr` replays the history `tr` of (request, reply) pairs, as a client who
sees all traffic would, and says what key `k` should hold.
-/
namespace StrSpec
open Resp
open KeySpec hiding Str

/-- What a key holds, as far as string commands can tell. -/
inductive View where
  | absent
  | str (v : Str)
  /-- a list, set or sorted set -/
  | coll
deriving DecidableEq, Repr

/-- Decimal digits with an optional sign. -/
def signed : Str → Option Int
  | 45 :: cs => (dec cs).map (fun (n : Nat) => -(n : Int))
  | 43 :: cs => (dec cs).map (fun (n : Nat) => (n : Int))
  | cs => (dec cs).map (fun (n : Nat) => (n : Int))

/-- A 64-bit signed decimal integer, with an optional sign (what INCR accepts). -/
def int64 (s : Str) : Option Int :=
  match signed s with
  | some i => if -2 ^ 63 ≤ i ∧ i < 2 ^ 63 then some i else none
  | none => none

/-- the text kept for a number: decimal digits without leading zeros, a minus sign in front if negative
(Lean's own `toString`, as bytes) -/
def decimal (i : Int) : Str := (toString i).toList.map (fun c => UInt8.ofNat c.toNat)

/-- MSET: the value assigned to `k`, later pairs winning; `old` if there is none -/
def msetView (k : Str) : List Str → View → View
  | k' :: v :: rest, old => msetView k rest (if k' = k then .str v else old)
  | _, old => old

/-- commands that create a collection under a key that was absent -/
def creators : List Str := [s!! "lpush", s!! "rpush", s!! "sadd", s!! "zadd", s!! "zincr"]
/-- commands whose first argument receives a computed set -/
def setStores : List Str := [s!! "sdiffstore", s!! "sinterstore", s!! "sunionstore"]
/-- the counter commands -/
def counters : List Str := [s!! "incr", s!! "incrby", s!! "decr", s!! "decrby"]

/-- a collection command was accepted -/
def create : View → View
  | .absent => .coll
  | v => v

/-- APPEND -/
def appendView (a : Str) : View → View
  | .absent => .str a
  | .str v => .str (v ++ a)
  | .coll => .coll

/-- Whether `v'` may be what key `k` holds after the request `name args` was answered with `m`, if it held `v`
before.  `name` is in lower case.  Requests answered with an error change nothing. -/
def Next (k : Str) (v : View) (name : Str) (args : List Str) (m : Reply) (v' : View) : Prop :=
  match m with
  | .error _ => v' = v
  | m =>
    if name = s!! "mset" then v' = msetView k args v
    else if name = s!! "smove" then v' = if args.drop 1 |>.head? |>.any (· = k) then create v else v
    else if args.head? ≠ some k then v' = v
    else if name = s!! "set" then ∃ a ∈ args[1]?, v' = .str a
    else if name = s!! "append" then ∃ a ∈ args[1]?, v' = appendView a v
    else if name ∈ counters then ∃ i, m = .int i ∧ v' = .str (decimal i)
    else if name = s!! "del" then v' = .absent
    else if name ∈ creators then v' = create v
    else if name ∈ setStores then v' = .coll
    else v' = v

/-- The amount a counter command adds to its key; `none` if its argument is not a 64-bit integer (or the command is not
a counter command). -/
def delta (name : Str) (args : List Str) : Option Int :=
  if name = s!! "incr" then some 1
  else if name = s!! "decr" then some (-1)
  else if name = s!! "incrby" then args[1]?.bind int64
  else if name = s!! "decrby" then (args[1]?.bind int64).map (fun d => -d)
  else none

/-- `i` is the 64-bit integer congruent to `j`: `j` itself if it fits, otherwise wrapped around. -/
def Wraps (i j : Int) : Prop := (-2 ^ 63 ≤ i ∧ i < 2 ^ 63) ∧ (i - j) % 2 ^ 64 = 0

/-- ASCII lower case -/
def lower (s : Str) : Str := s.map (fun c => if 65 ≤ c.toNat ∧ c.toNat ≤ 90 then c + 32 else c)

/-- What a GET reply counts as, for counters: nil as 0, the text of a 64-bit integer as that integer. -/
def CountsAs (m : Reply) (n : Int) : Prop :=
  m = .bulk none ∧ n = 0 ∨ ∃ t, m = .bulk (some t) ∧ int64 t = some n

/-- the reply is an error -/
def isError : Reply → Bool
  | .error _ => true
  | _ => false

/-- How much an answered request adds to the counter `k`: its increment if it is a counter command on `k` that was not
refused, otherwise nothing. -/
def contrib (k : Str) : List Str × Reply → Int
  | (name :: key :: rest, m) => if key = k ∧ ¬ isError m then (delta (lower name) (key :: rest)).getD 0 else 0
  | _ => 0

/-- every byte is an ASCII character -/
def Ascii (s : Str) : Prop := ∀ c ∈ s, c.toNat < 128

/-- `v` is what key `k` holds after the history `tr` (oldest first). -/
inductive Holds (k : Str) : List (List Str × Reply) → View → Prop
  | nil : Holds k [] .absent
  | snoc {tr v name args m v'} : Holds k tr v → Next k v (lower name) args m v' → Holds k (tr ++ [(name :: args, m)]) v'

/-- What GET replies for a key that holds `v`. -/
def getReply : View → Reply
  | .absent => .bulk none
  | .str v => .bulk (some v)
  | .coll => .error (s!! "key type and command not match")

end StrSpec
