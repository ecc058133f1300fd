import Verif.Spec.Keys
import Verif.Spec.Strings
/-!
# Other names for the keys of a request (specification)

The same positions as in `KeySpec.keyArgs`.
-/
namespace KeySpec

/-- every second element is renamed, beginning with the first -/
def renameEvens (f : Str → Str) : List Str → List Str
  | [] => []
  | [k] => [f k]
  | k :: v :: rest => f k :: v :: renameEvens f rest

/-- the arguments of a command, its keys renamed; the name in lower case -/
def renameArgs (f : Str → Str) (name : Str) (args : List Str) : List Str :=
  if name ∈ noKeys then args
  else if name ∈ allKeys then args.map f
  else if name = s!! "mset" then renameEvens f args
  else if name = s!! "smove" then (args.take 2).map f ++ args.drop 2
  else (args.take 1).map f ++ args.drop 1

/-- The request, with other names for its keys. -/
def rename (f : Str → Str) : List Str → List Str
  | [] => []
  | name :: args => name :: renameArgs f (StrSpec.lower name) args

end KeySpec
