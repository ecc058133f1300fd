import Verif.Spec.Keys
/-!
# How many arguments a command looks at (specification)

Only commands with a fixed number of parameters (optional ones counted); names in lower case.  Commands that take any number of
items, fields or options (`mset`, `mget`, `lpush`, `rpush`, `sadd`, `srem`, set operations, `hmget`, `hmset`, `hset`, `zadd`, `zrem`,
`zrange`, `zrevrange`) are not listed.
-/
namespace KeySpec

/-- the number of parameters -/
def params : List (Str × Nat) :=
  [(s!! "set", 2), (s!! "get", 1), (s!! "incr", 1), (s!! "incrby", 2), (s!! "decr", 1), (s!! "decrby", 2), (s!! "append", 2),
   (s!! "keys", 1), (s!! "exists", 1), (s!! "del", 1), (s!! "type", 1), (s!! "ping", 0), (s!! "command", 0),
   (s!! "lpop", 2), (s!! "rpop", 2), (s!! "llen", 1), (s!! "lrange", 3), (s!! "lrem", 3), (s!! "lindex", 2), (s!! "lset", 3),
   (s!! "linsert", 4),
   (s!! "scard", 1), (s!! "sismember", 2), (s!! "smembers", 1), (s!! "smove", 3), (s!! "spop", 2),
   (s!! "hdel", 2), (s!! "hexists", 2), (s!! "hget", 2), (s!! "hgetall", 1), (s!! "hincrby", 3), (s!! "hincrbyfloat", 3),
   (s!! "hkeys", 1), (s!! "hlen", 1), (s!! "hsetnx", 3), (s!! "hvals", 1),
   (s!! "zscore", 2), (s!! "zrank", 2), (s!! "zcard", 1), (s!! "zcount", 3), (s!! "zincr", 3), (s!! "zrangebyscore", 3),
   (s!! "zpopmin", 2), (s!! "zpopmax", 2)]

end KeySpec
