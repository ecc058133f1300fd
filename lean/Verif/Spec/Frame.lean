import Verif.Spec.Lists
/-!
# What commands of other families do to a key (specification)

`KView α` is what a key holds as far as one family of commands (sets, sorted sets) can tell: nothing, something else,
or an `α`.  `foreign` says how the commands of all other families change that.  This file does not use the model.
-/
namespace KeySpec
open Resp (Reply)
open StrSpec (isError setStores lower)
open ListSpec (stringWriters msetKeys)

/-- What a key holds, as far as one family of commands can tell. -/
inductive KView (α : Type) where
  | absent
  | other
  | here (x : α)
deriving DecidableEq

/-- commands that create a collection under a key that was absent (SMOVE is treated separately) -/
def collCreators : List Str := [s!! "lpush", s!! "rpush", s!! "sadd", s!! "zadd", s!! "zincr"]

/-- something of another family was created, unless there was a value already -/
def KView.createOther {α : Type} : KView α → KView α
  | .absent => .other
  | v => v

/-- What key `k` holds after a command of another family was answered with `m`, if it held `v` before.  `name` is in
lower case.  Requests answered with an error change nothing. -/
def foreign {α : Type} (k : Str) (v : KView α) (name : Str) (args : List Str) (m : Reply) : KView α :=
  if isError m then v
  else if name = s!! "mset" then (if k ∈ msetKeys args then .other else v)
  else if name = s!! "smove" then (if args[1]? = some k then v.createOther else v)
  else if args.head? ≠ some k then v
  else if name ∈ stringWriters then .other
  else if name = s!! "del" then .absent
  else if name ∈ collCreators then v.createOther
  else if name ∈ setStores then .other
  else v

end KeySpec
