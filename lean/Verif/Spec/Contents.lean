import Verif.Spec.Reference
/-!
# Same contents, same answers (specification)

What a client can find out about the reference server (`RefSpec`): for every key what it holds, and which keys name the same set.
This file does not use the model (but for the type of floating point numbers, see `ZSpec`).
-/
namespace RefSpec
open Resp
open StrSpec (int64 lower)
open RowSpec (Row)
open SetSpec (SVal mems)
open ZSpec (Num ZVal)

/-- What a key holds. -/
inductive Content where
  | absent
  | text (v : Str)
  | list (c : Row)
  | set (x : SVal)
  /-- `none`: damaged -/
  | sorted (z : Option ZVal)

/-- what key `k` holds -/
def World.content (W : World) (k : Str) : Content :=
  match W.holds k with
  | .absent => .absent
  | .text v => .text v
  | .list c => .list c
  | .set i => .set (W.sets i)
  | .sorted z => .sorted z

/-- Every key holds the same in both, and the same keys name one set. -/
structure SameContents (W W' : World) : Prop where
  content : ∀ k, W.content k = W'.content k
  shared : ∀ k j, W.shared.Same k j ↔ W'.shared.Same k j

/-- Replies that say the same: they are equal, or list the same things in another order. -/
def Alike (m m' : Reply) : Prop := m = m' ∨ ∃ l l', m = bulks l ∧ m' = bulks l' ∧ l.Perm l'

/-- Outcomes that are the same, but for the order of what a reply lists. -/
def Outcome.Alike : Outcome → Outcome → Prop
  | .reply m, .reply m' => RefSpec.Alike m m'
  | o, o' => o = o'

/-- the commands that take a score interval -/
def byScore : List Str := [s!! "zcount", s!! "zrange", s!! "zrangebyscore"]

/-- SPOP takes nothing or everything -/
def AllOrNothing (W : World) : List Str → Prop
  | k :: c :: _ => ∀ n, int64 c = some n → n ≤ 0 ∨ ((mems (W.shared.view k)).card : Int) ≤ n
  | _ => True

/-- The contents decide the reply to the request, up to the order of what is listed.  They do not: if SPOP has a choice; if the sorted set is damaged or gets damaged by the
request (but for ZPOPMAX of one entry); if a bound of a score interval is excluded and several entries have that score. -/
def Decided (L : Lib) (W : World) : List Str → Prop
  | [] => True
  | name :: args =>
    (lower name = s!! "spop" → AllOrNothing W args) ∧
    (lower name ∈ ZSpec.commands → ∀ k ∈ args.head?,
      (W.holds k).zset ≠ .here none ∧
      (ZSpec.step L.num (fun k => (W.holds k).zset) (lower name) args (.int 0) k ≠ .here none ∨
        lower name = s!! "zpopmax" ∧ ZSpec.popCount args.tail = some 1) ∧
      (lower name ∈ byScore → ∀ t ∈ args, ∀ b, ZSpec.bound L.num t = some (b, true) ∨ ZSpec.bound L.num (L.num.lower t) = some (b, true) →
        ZSpec.equal (ZSpec.seen (W.holds k).zset).order b ≤ 1))

/-- The keys that a request (name in lower case) may change: those it names, unless it only reads; of SDIFFSTORE, SINTERSTORE and SUNIONSTORE the destination, but also the
source if there is only one, because the destination then names the same set (a defect of the server). -/
def changes (name : Str) (args : List Str) : List Str :=
  if name ∈ KeySpec.readOnly then []
  else if name ∈ StrSpec.setStores then
    match args with
    | [dst, src] => [dst, src]
    | _ => args.take 1
  else KeySpec.keyArgs name args

/-- the keys that a request, as the server takes it, may change -/
def changedBy (req : List Str) : List Str := changes (lower (req.headD [])) req.tail

/-- no key in `K` names a set that a key outside `K` names -/
def Unshared (W : World) (K : Str → Prop) : Prop := ∀ k j, K k → ¬ K j → ¬ W.shared.Same k j

/-- `DEL k` or `SET k v` -/
def reset : Str × Option Str → List Str
  | (k, none) => [s!! "DEL", k]
  | (k, some v) => [s!! "SET", k, v]

end RefSpec
