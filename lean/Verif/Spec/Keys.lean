/-!
# Which arguments of a command are keys (specification)

Source: the Redis command reference.  Names are lower case.
-/
namespace KeySpec

/-- A byte string. -/
abbrev Str := List UInt8

open Lean in
/-- the bytes of an ASCII literal -/
macro "s!!" s:str : term => do
  let nums := s.getString.toList.map (fun c => Syntax.mkNumLit (toString c.toNat))
  `(([$(nums.toArray),*] : List UInt8))

/-- every second element, beginning with the first -/
def evens : List Str → List Str
  | [] => []
  | [k] => [k]
  | k :: _ :: rest => k :: evens rest

/-- commands without key arguments -/
def noKeys : List Str := [s!! "ping", s!! "command", s!! "keys"]
/-- commands whose arguments are all keys -/
def allKeys : List Str :=
  [s!! "mget", s!! "sdiff", s!! "sinter", s!! "sunion", s!! "sdiffstore", s!! "sinterstore", s!! "sunionstore"]

/-- The keys a request names. -/
def keyArgs (name : Str) (args : List Str) : List Str :=
  if name ∈ noKeys then []
  else if name ∈ allKeys then args
  else if name = s!! "mset" then evens args
  else if name = s!! "smove" then args.take 2
  else args.take 1

/-- The keys a request (all its words, the name in lower case first) names. -/
def named : List Str → List Str
  | [] => []
  | name :: args => keyArgs name args

/-- The keys this server looks at when it executes a request: those the request names, but LINDEX also takes the text of
its index argument for a key. -/
def looksAt : List Str → List Str
  | [] => []
  | name :: args => if name = s!! "lindex" then args.take 2 else keyArgs name args

/-- Commands that only inspect data. -/
def readOnly : List Str :=
  [s!! "get", s!! "mget", s!! "exists", s!! "type", s!! "keys", s!! "ping", s!! "command",
   s!! "llen", s!! "lrange", s!! "lindex",
   s!! "scard", s!! "sismember", s!! "smembers", s!! "sdiff", s!! "sinter", s!! "sunion",
   s!! "hexists", s!! "hget", s!! "hgetall", s!! "hkeys", s!! "hlen", s!! "hmget", s!! "hvals",
   s!! "zscore", s!! "zrank", s!! "zcard", s!! "zcount", s!! "zrange", s!! "zrangebyscore",
   s!! "zrevrange"]

/-- Commands that put or remove given data: doing so twice is the same as doing it once (ZADD, which is also among them if
there is no `INCR`, is stated separately). -/
def putters : List Str :=
  [s!! "set", s!! "mset", s!! "del", s!! "lset", s!! "sadd", s!! "srem", s!! "zrem",
   s!! "hset", s!! "hmset", s!! "hsetnx", s!! "hdel"]

/-- The least number of arguments (after the name) of each command of the server.
`mset` is listed with 2, as in the reference. -/
def minArgs : List (Str × Nat) :=
  [(s!! "set", 2), (s!! "mset", 2), (s!! "get", 1), (s!! "mget", 1), (s!! "incr", 1), (s!! "incrby", 2),
   (s!! "decr", 1), (s!! "decrby", 2), (s!! "append", 2),
   (s!! "keys", 1), (s!! "exists", 1), (s!! "del", 1), (s!! "type", 1), (s!! "ping", 0), (s!! "command", 0),
   (s!! "lpush", 2), (s!! "lpop", 1), (s!! "rpush", 2), (s!! "rpop", 1), (s!! "llen", 1), (s!! "lrange", 3),
   (s!! "lrem", 3), (s!! "lindex", 2), (s!! "lset", 3), (s!! "linsert", 4),
   (s!! "sadd", 2), (s!! "scard", 1), (s!! "sdiff", 1), (s!! "sdiffstore", 2), (s!! "sinter", 1),
   (s!! "sinterstore", 2), (s!! "sunion", 1), (s!! "sunionstore", 2), (s!! "sismember", 2),
   (s!! "smembers", 1), (s!! "smove", 3), (s!! "srem", 2), (s!! "spop", 1),
   (s!! "hdel", 2), (s!! "hexists", 2), (s!! "hget", 2), (s!! "hgetall", 1), (s!! "hincrby", 3),
   (s!! "hincrbyfloat", 3), (s!! "hkeys", 1), (s!! "hlen", 1), (s!! "hmget", 2), (s!! "hmset", 3),
   (s!! "hset", 3), (s!! "hsetnx", 3), (s!! "hvals", 1),
   (s!! "zadd", 3), (s!! "zscore", 2), (s!! "zrank", 2), (s!! "zrem", 2), (s!! "zcard", 1), (s!! "zcount", 3),
   (s!! "zincr", 3), (s!! "zrange", 3), (s!! "zrangebyscore", 3), (s!! "zrevrange", 3), (s!! "zpopmin", 1),
   (s!! "zpopmax", 1)]

/-- The type of value a command works on: the first letter convention of the reference, spelled out. -/
inductive Kind where
  | string | list | set | hash | zset
deriving DecidableEq, Repr

/-- Commands that refuse a key holding a value of another type. -/
def typed : List (Str × Kind) :=
  [(s!! "get", .string), (s!! "incr", .string), (s!! "incrby", .string), (s!! "decr", .string),
   (s!! "decrby", .string), (s!! "append", .string),
   (s!! "lpush", .list), (s!! "lpop", .list), (s!! "rpush", .list), (s!! "rpop", .list), (s!! "llen", .list),
   (s!! "lrange", .list), (s!! "lrem", .list), (s!! "lindex", .list), (s!! "lset", .list),
   (s!! "linsert", .list),
   (s!! "sadd", .set), (s!! "scard", .set), (s!! "sismember", .set), (s!! "smembers", .set),
   (s!! "smove", .set), (s!! "srem", .set), (s!! "spop", .set),
   (s!! "sdiff", .set), (s!! "sinter", .set), (s!! "sunion", .set),
   (s!! "hdel", .hash), (s!! "hexists", .hash), (s!! "hget", .hash), (s!! "hgetall", .hash),
   (s!! "hincrby", .hash), (s!! "hincrbyfloat", .hash), (s!! "hkeys", .hash), (s!! "hlen", .hash),
   (s!! "hmget", .hash), (s!! "hmset", .hash), (s!! "hset", .hash), (s!! "hsetnx", .hash),
   (s!! "hvals", .hash),
   (s!! "zadd", .zset), (s!! "zscore", .zset), (s!! "zrank", .zset), (s!! "zrem", .zset),
   (s!! "zcard", .zset), (s!! "zcount", .zset), (s!! "zincr", .zset), (s!! "zrange", .zset),
   (s!! "zrangebyscore", .zset), (s!! "zrevrange", .zset), (s!! "zpopmin", .zset), (s!! "zpopmax", .zset)]

end KeySpec
