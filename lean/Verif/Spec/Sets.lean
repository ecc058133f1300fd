import Mathlib.Data.Finset.Card
import Mathlib.Data.Finset.Dedup
import Mathlib.Data.Finset.Basic
import Mathlib.Data.Finset.Lattice.Lemmas
import Verif.Spec.Frame
/-!
# What set keys hold, judged from the history of requests and replies (specification)

This file does not use the model.  `after tr` replays the history `tr` and says for every key which set it holds, as far
as set commands can tell; `Fits w name args m` says that `m` is a correct reply to a set command if the keys hold `w`.

A set is its members and a number of `ghosts`, which exists only because of a defect of the server: SPOP and SMOVE do
not reduce the recorded size, so that SCARD counts the members that left that way.
-/
namespace SetSpec
open Resp
open KeySpec hiding Str
open StrSpec (int64 lower isError setStores)
open ListSpec (items errType errArgs errNil)

/-- the members and the number of members that left through SPOP or SMOVE -/
abbrev SVal := Finset Str × Nat
/-- what a key holds, as far as set commands can tell -/
abbrev SView := KView SVal

/-- the members -/
def mems : SView → Finset Str
  | .here (X, _) => X
  | _ => ∅

/-- the recorded size -/
def size : SView → Nat
  | .here (X, g) => X.card + g
  | _ => 0

/-- members are added -/
def add (xs : List Str) : SView → SView
  | .absent => .here (xs.toFinset, 0)
  | .here (X, g) => .here (X ∪ xs.toFinset, g)
  | .other => .other

/-- members are removed by SREM -/
def remove (xs : List Str) : SView → SView
  | .here (X, g) => .here (X \ xs.toFinset, g)
  | v => v

/-- members leave through SPOP or SMOVE: the recorded size stays -/
def leave (xs : List Str) : SView → SView
  | .here (X, g) => .here (X \ xs.toFinset, g + (X ∩ xs.toFinset).card)
  | v => v

inductive Op where
  | diff | inter | union
deriving DecidableEq

/-- the operation of a command name -/
def opOf (name : Str) : Op :=
  if name = s!! "sdiff" ∨ name = s!! "sdiffstore" then .diff
  else if name = s!! "sinter" ∨ name = s!! "sinterstore" then .inter
  else .union

/-- the mathematical operation on two sets -/
def Op.on : Op → Finset Str → Finset Str → Finset Str
  | .diff, X, Y => X \ Y
  | .inter, X, Y => X ∩ Y
  | .union, X, Y => X ∪ Y

/-- first minus all others / common to all / in some of them -/
def combine (op : Op) : List (Finset Str) → Finset Str
  | [] => ∅
  | X :: Xs => Xs.foldl op.on X

/-- Replace what one key holds. -/
def put (w : Str → SView) (k : Str) (v : SView) : Str → SView := fun k' => if k' = k then v else w k'

/-- What the keys hold after the request `name args` was answered with `m`, if they held `w` before.  `name` is in lower
case. -/
def step (w : Str → SView) (name : Str) (args : List Str) (m : Reply) : Str → SView :=
  if name = s!! "sadd" then
    match args with
    | k :: xs => if isError m then w else put w k (add xs (w k))
    | _ => w
  else if name = s!! "srem" then
    match args with
    | k :: xs => if isError m then w else put w k (remove xs (w k))
    | _ => w
  else if name = s!! "spop" then
    match args with
    | k :: _ => put w k (leave (items m) (w k))
    | _ => w
  else if name = s!! "smove" then
    match args with
    | src :: dst :: x :: _ =>
      if x ∈ mems (w src) then
        put (put w src (leave [x] (w src))) dst (add [x] (put w src (leave [x] (w src)) dst))
      else w
    | _ => w
  else if name ∈ setStores then
    match args with
    | dst :: ks => if isError m then w else put w dst (.here (combine (opOf name) (ks.map (fun k => mems (w k))), 0))
    | _ => w
  else fun k => foreign k (w k) name args m

/-- What the keys hold after the history `tr` of a server that started empty. -/
def after (tr : List (List Str × Reply)) : Str → SView :=
  tr.foldl (fun w p => step w (lower (p.1.headD [])) p.1.tail p.2) (fun _ => .absent)

/-- a reply that lists the members of `X`, each once, in some order -/
def Lists (X : Finset Str) (m : Reply) : Prop := ∃ l : List Str, m = bulks l ∧ l.Nodup ∧ l.toFinset = X

/-- the first key that is not a set, or recorded as empty, decides the outcome of a set operation -/
def trouble (w : Str → SView) : List Str → Option SView
  | [] => none
  | k :: ks => if w k = .other then some .other else if size (w k) = 0 then some .absent else trouble w ks

/-- `m` is a correct reply to the set command `name args` if the keys hold `w`. -/
def Fits (w : Str → SView) (name : Str) (args : List Str) (m : Reply) : Prop :=
  if name = s!! "sadd" then
    match args with
    | k :: x :: xs => m = if w k = .other then errType else .int ((x :: xs).toFinset \ mems (w k)).card
    | _ => m = errArgs
  else if name = s!! "srem" then
    match args with
    | k :: x :: xs => m = if w k = .other then errType else .int (mems (w k) ∩ (x :: xs).toFinset).card
    | _ => m = errArgs
  else if name = s!! "scard" then
    match args with
    | k :: _ => m = if w k = .other then errType else .int (size (w k))
    | _ => m = errArgs
  else if name = s!! "sismember" then
    match args with
    | k :: x :: _ => m = if w k = .other then errType else .int (if x ∈ mems (w k) then 1 else 0)
    | _ => m = errArgs
  else if name = s!! "smembers" then
    match args with
    | k :: _ => if w k = .other then m = errType else if size (w k) = 0 then m = errNil else Lists (mems (w k)) m
    | _ => m = errArgs
  else if name = s!! "spop" then
    match args with
    | k :: rest =>
      match (match rest with | [] => some 0 | c :: _ => int64 c) with
      | none => m = .error (s!! "value is not an integer or out of range")
      | some n =>
        if w k = .other then m = errType
        else ∃ X : Finset Str, X ⊆ mems (w k) ∧ X.card = min n.toNat (mems (w k)).card ∧ Lists X m
    | _ => m = errArgs
  else if name = s!! "smove" then
    match args with
    | src :: dst :: x :: _ =>
      m = if w src = .other then errType
        else if x ∉ mems (w src) then errNil
        else if w dst = .other then errType
        else .int (if x ∈ mems (w dst) ∧ dst ≠ src then 0 else 1)
    | _ => m = errArgs
  else if name ∈ setStores then
    match args with
    | _ :: k :: ks =>
      match trouble w (k :: ks) with
      | some .other => m = errType
      | some _ => m = errNil
      | none => m = .int (combine (opOf name) ((k :: ks).map (fun k => mems (w k)))).card
    | _ => m = errArgs
  else
    match args with
    | [] => m = errArgs
    | [_] => m = bulks []
    | ks =>
      match trouble w ks with
      | some .other => m = errType
      | some _ => m = bulks []
      | none => Lists (combine (opOf name) (ks.map (fun k => mems (w k)))) m

/-- the set commands -/
def commands : List Str :=
  [s!! "sadd", s!! "srem", s!! "scard", s!! "sismember", s!! "smembers", s!! "spop", s!! "smove", s!! "sdiff", s!! "sinter",
   s!! "sunion", s!! "sdiffstore", s!! "sinterstore", s!! "sunionstore"]

end SetSpec
