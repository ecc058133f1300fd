import Verif.Spec.Lists
/-!
# The hash commands, as this server executes them (specification)

The server loses every hash it creates, so no key ever holds one.  A hash command therefore sees only whether the key
holds a value (then it is of another type) or not.  This file does not use the model.
-/
namespace HashSpec
open Resp (Reply)
open KeySpec (Str)
open StrSpec (int64)
open ListSpec (errType errArgs)

/-- the commands on hashes -/
def commands : List Str :=
  [s!! "hdel", s!! "hexists", s!! "hget", s!! "hgetall", s!! "hincrby", s!! "hincrbyfloat", s!! "hkeys", s!! "hlen",
   s!! "hmget", s!! "hmset", s!! "hset", s!! "hsetnx", s!! "hvals"]

/-- the number of arguments (key included) each of them needs -/
def needs (name : Str) : Nat :=
  if name ∈ [s!! "hgetall", s!! "hkeys", s!! "hlen", s!! "hvals"] then 1
  else if name ∈ [s!! "hdel", s!! "hexists", s!! "hget", s!! "hmget"] then 2
  else 3

def errInt : Reply := .error (s!! "value is not an integer or out of range")

/-- The reply to a hash command.  `present`: the key holds a value.  `float` reads a decimal fraction and writes it back
in shortest form (`none` if the text is none). -/
def reply (float : Str → Option Str) (present : Bool) (name : Str) (args : List Str) : Reply :=
  if args.length < needs name then errArgs
  else if name = s!! "hincrby" ∧ int64 (args.getD 2 []) = none then errInt
  else if name = s!! "hincrbyfloat" ∧ float (args.getD 2 []) = none then errInt
  else if name = s!! "hgetall" then .bulk none
  else if present then errType
  else if name = s!! "hget" then .bulk none
  else if name = s!! "hmget" then .array (args.tail.map (fun _ => .bulk none))
  else if name = s!! "hkeys" ∨ name = s!! "hvals" then .array []
  else if name = s!! "hset" then .int ((args.length - 1) / 2 : Nat)
  else if name = s!! "hmset" then .simple (s!! "OK")
  else if name = s!! "hsetnx" then .int 1
  else if name = s!! "hincrby" then .int ((int64 (args.getD 2 [])).getD 0)
  else if name = s!! "hincrbyfloat" then .bulk (float (args.getD 2 []))
  else .int 0

end HashSpec
