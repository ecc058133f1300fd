import Verif.Spec.Sets
/-!
# Which keys name which set (specification)

`SetSpec.after` is right as long as no two keys name the same set.  SDIFFSTORE, SINTERSTORE and SUNIONSTORE with exactly
one source key make the destination name the *same* set as the source (a defect of the server: it should be a copy).
Here the world is therefore a table of sets and, for every key, which of them it names.  This file does not use the model.
-/
namespace SharedSpec
open Resp
open KeySpec hiding Str
open StrSpec (lower isError setStores)
open ListSpec (items errType errArgs errNil)
open SetSpec (SVal SView mems size add remove leave combine opOf trouble commands)

/-- which set a key names, and what the sets are; sets are numbered in the order of their creation -/
structure World where
  names : Str → KView Nat
  sets : Nat → SVal
  next : Nat

/-- nothing exists -/
def World.empty : World := ⟨fun _ => .absent, fun _ => (∅, 0), 0⟩

/-- what a key holds -/
def World.view (W : World) (k : Str) : SView :=
  match W.names k with
  | .absent => .absent
  | .other => .other
  | .here i => .here (W.sets i)

/-- two keys name one and the same set -/
def World.Same (W : World) (k k' : Str) : Prop := ∃ i, W.names k = .here i ∧ W.names k' = .here i

/-- `k` names what `v` says -/
def World.name (W : World) (k : Str) (v : KView Nat) : World := { W with names := fun k' => if k' = k then v else W.names k' }

/-- a new set, named by `k` only -/
def World.create (W : World) (k : Str) (x : SVal) : World :=
  ⟨fun k' => if k' = k then .here W.next else W.names k', fun i => if i = W.next then x else W.sets i, W.next + 1⟩

/-- The set that `k` names becomes `v`, for all keys that name it.  If `k` is absent it is created. -/
def World.change (W : World) (k : Str) (v : SView) : World :=
  match v, W.names k with
  | .here x, .here i => { W with sets := fun j => if j = i then x else W.sets j }
  | .here x, .absent => W.create k x
  | _, _ => W

/-- What exists after the request `name args` was answered with `m`, if it was `W` before.  `name` is in lower case. -/
def step (W : World) (name : Str) (args : List Str) (m : Reply) : World :=
  if name = s!! "sadd" then
    match args with
    | k :: xs => if isError m then W else W.change k (add xs (W.view k))
    | _ => W
  else if name = s!! "srem" then
    match args with
    | k :: xs => if isError m then W else W.change k (remove xs (W.view k))
    | _ => W
  else if name = s!! "spop" then
    match args with
    | k :: _ => W.change k (leave (items m) (W.view k))
    | _ => W
  else if name = s!! "smove" then
    match args with
    | src :: dst :: x :: _ =>
      if x ∈ mems (W.view src) then
        let W1 := W.change src (leave [x] (W.view src))
        W1.change dst (add [x] (W1.view dst))
      else W
    | _ => W
  else if name ∈ setStores then
    match args with
    | [dst, src] => if isError m then W else W.name dst (W.names src)
    | dst :: ks => if isError m then W else W.create dst (combine (opOf name) (ks.map (fun k => mems (W.view k))), 0)
    | _ => W
  else { W with names := fun k => foreign k (W.names k) name args m }

/-- What exists after the history `tr` of a server that started empty. -/
def after (tr : List (List Str × Reply)) : World :=
  tr.foldl (fun W p => step W (lower (p.1.headD [])) p.1.tail p.2) World.empty

/-- `m` is a correct reply to the set command `name args` if `W` is what exists.  Only two replies depend on which keys
name the same set: SMOVE between two names of one set, and the reply of S*STORE with one source, which is the recorded size. -/
def Fits (W : World) (name : Str) (args : List Str) (m : Reply) : Prop :=
  if name = s!! "smove" then
    match args with
    | src :: dst :: x :: _ =>
      (W.view src = .other ∧ m = errType) ∨
      (W.view src ≠ .other ∧ x ∉ mems (W.view src) ∧ m = errNil) ∨
      (x ∈ mems (W.view src) ∧ W.view dst = .other ∧ m = errType) ∨
      (x ∈ mems (W.view src) ∧ W.view dst ≠ .other ∧ (W.Same src dst ∨ x ∉ mems (W.view dst)) ∧ m = .int 1) ∨
      (x ∈ mems (W.view src) ∧ x ∈ mems (W.view dst) ∧ ¬ W.Same src dst ∧ m = .int 0)
    | _ => m = errArgs
  else if name ∈ setStores then
    match args with
    | [_, k] =>
      match trouble W.view [k] with
      | some .other => m = errType
      | some _ => m = errNil
      | none => m = .int (size (W.view k))
    | _ => SetSpec.Fits W.view name args m
  else SetSpec.Fits W.view name args m

end SharedSpec
