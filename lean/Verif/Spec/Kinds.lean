import Verif.Spec.Strings
/-!
# The kind of the reply to each command (specification)

This file does not use the model.
-/
namespace KindSpec
open Resp

/-- the status line OK -/
def isOK (m : Reply) : Prop := m = .simple (s!! "OK")
/-- a number -/
def isInt (m : Reply) : Prop := ∃ n, m = .int n
/-- 0 or 1 -/
def isBit (m : Reply) : Prop := m = .int 0 ∨ m = .int 1
/-- a text -/
def isText (m : Reply) : Prop := ∃ t, m = .bulk (some t)
/-- nothing ("nil") -/
def isNil (m : Reply) : Prop := m = .bulk none
/-- a list of texts -/
def isTexts (m : Reply) : Prop := ∃ ts : List Str, m = .array (ts.map fun t => .bulk (some t))
/-- a list of texts and nils, of this length -/
def isSlots (n : Nat) (m : Reply) : Prop := ∃ ts : List (Option Str), m = .array (ts.map .bulk) ∧ ts.length = n

/-- What a successful reply to the command with these arguments is. -/
def Kind (name : Str) (args : List Str) (m : Reply) : Prop :=
  if name ∈ [s!! "set", s!! "mset", s!! "lset", s!! "hmset"] then isOK m
  else if name = s!! "ping" then m = .simple (s!! "PONG")
  else if name = s!! "command" then m = .simple (s!! "COMMAND")
  else if name = s!! "type" then ∃ t ∈ [s!! "none", s!! "string", s!! "list", s!! "setIfNotExists", s!! "sortedSet"], m = .simple t
  else if name ∈ [s!! "exists", s!! "del", s!! "sismember", s!! "smove"] then isBit m
  else if name ∈ [s!! "incr", s!! "incrby", s!! "decr", s!! "decrby", s!! "append", s!! "lpush", s!! "rpush", s!! "llen", s!! "lrem", s!! "linsert",
      s!! "sadd", s!! "srem", s!! "scard", s!! "sdiffstore", s!! "sinterstore", s!! "sunionstore", s!! "hdel", s!! "hexists", s!! "hincrby", s!! "hlen",
      s!! "hset", s!! "hsetnx", s!! "zadd", s!! "zrem", s!! "zcard", s!! "zcount"] then isInt m
  else if name = s!! "zrank" then isInt m ∨ isNil m
  else if name = s!! "zincr" then isText m ∨ m = .int 0
  else if name ∈ [s!! "get", s!! "hget", s!! "lindex", s!! "zscore"] then isText m ∨ isNil m
  else if name = s!! "hincrbyfloat" then isText m
  else if name ∈ [s!! "keys", s!! "lrange", s!! "smembers", s!! "sdiff", s!! "sinter", s!! "sunion", s!! "spop", s!! "hkeys", s!! "hvals", s!! "zpopmin", s!! "zpopmax"] then
    isTexts m
  else if name ∈ [s!! "lpop", s!! "rpop", s!! "zrange", s!! "zrangebyscore", s!! "zrevrange"] then isTexts m ∨ isNil m
  else if name = s!! "hgetall" then isNil m
  else if name = s!! "mget" then isSlots args.length m
  else if name = s!! "hmget" then isSlots args.tail.length m
  else False

end KindSpec
