{"id": "C01", "title": "Reply framing is unambiguous", "statement": "For every reply the server can build (simple string, error, integer, bulk string of arbitrary bytes, nil bulk, array of bulk strings/nils, empty array), the bytes put on the wire are one complete RESP value: an independent RESP parser reads back exactly that reply and leaves exactly the bytes that follow it.", "quantifier": "every reply value whose status/error line contains no CR/LF, every bulk payload (any bytes, any length), every following byte string", "why_tests_cant": "payloads range over all byte strings, including ones containing CRLF or RESP markers", "anchors": ["protocol/encode.go: Response.Encode, ResponseItem.encode, NewResponse*", "util/strings.go: StringConcat"]}
{"id": "C02", "title": "Binary-safe request decoding", "statement": "A request sent as a RESP array of bulk strings is decoded to exactly the argument list the client sent, whatever bytes the arguments contain, and the decoder consumes exactly that request's bytes.", "quantifier": "every argument list (any number, any bytes, lengths below 2^40), every byte string following it in the buffer", "why_tests_cant": "arguments range over all byte strings and counts", "anchors": ["protocol/decode.go: DecodeFromReader, readArray, readBulkStrings, readBulkOrArrayLength, decodeSingleLine"]}
{"id": "C03", "title": "The recorded original text of a request is the text that was received", "statement": "The text kept for a decoded request (the one handed to the append-only log) is byte for byte the part of the input the decoder consumed.", "quantifier": "every input the decoder accepts", "why_tests_cant": "inputs are all byte strings", "anchors": ["protocol/decode.go: Receive.addOrg, Receive.append, decodeSingleLine, readArray", "persistence/persistence.go: WriteCommand"]}
{"id": "C04", "title": "No input bytes crash the decoder", "statement": "Decoding any byte string ends in a decoded request or an error, never in a run-time panic.", "quantifier": "every byte string a peer can send in one frame", "why_tests_cant": "all byte strings; the crash needs a specific malformed shape", "anchors": ["protocol/decode.go: readBulkOrArrayLength, readBulkStrings, readArray"]}
{"id": "C05", "title": "The decoder never invents data", "statement": "Every decoded argument is a contiguous piece of the received bytes; a request whose announced lengths are negative or exceed the bytes received is refused.", "quantifier": "every byte string a peer can send in one frame", "why_tests_cant": "all byte strings, all truncation points", "anchors": ["protocol/decode.go: readBulkStrings, readBulkOrArrayLength"]}
{"id": "C06", "title": "Every complete command in a received frame is executed and answered", "statement": "If the bytes delivered in one read contain several complete requests, each of them is executed, in order, and answered; nothing is dropped.", "quantifier": "every sequence of requests delivered in one frame", "why_tests_cant": "all pipelines", "anchors": ["server/v2/server.go: React", "protocol/decode.go: DecodeFromReader"]}
{"id": "C07", "title": "The sharded map is a map", "statement": "Looking up, inserting, insert-if-absent, deleting, load-and-delete, upserting, listing keys, visiting entries and deleting while visiting in the sharded map behave as on one flat map: an operation on one key never changes what any other key returns, and listing yields every present key exactly once.", "quantifier": "every history of map operations, every key pair (colliding shards or not), every iteration order", "why_tests_cant": "histories and keys are unbounded; iteration order is random", "anchors": ["lib/shard_map/shard_map.go: Map, fnv32, GetShard"]}
{"id": "C08", "title": "GET returns the last value written", "statement": "After any history of commands, GET of a key returns the value given by the last SET/MSET/APPEND/INCR-family command that succeeded on that key (nil if the key was never written or was deleted since), and the wrong-type error if the key holds a collection.", "quantifier": "every history of string and key commands on any keys, from any store the server can reach", "why_tests_cant": "all histories", "anchors": ["datastruct/string.go", "redis/string.go", "datastruct/keys.go: Del, Exists, Type"]}
{"id": "C09", "title": "INCR/INCRBY/DECR/DECRBY arithmetic", "statement": "Incrementing a key that holds the decimal text of n by d stores the decimal text of n+d and replies n+d; an absent key counts as 0; text that is not a 64-bit integer is refused without effect; an increment that would overflow is refused.", "quantifier": "every stored value, every increment text", "why_tests_cant": "all 2^64 x 2^64 values", "anchors": ["datastruct/string.go: IncrBy", "redis/string.go: incr, incrBy, decr, decrBy"]}
{"id": "C10", "title": "Counters lose no update and do not depend on order", "statement": "The value of a counter after any interleaving of INCR-family commands on it is its initial value plus the sum of all increments (modulo 2^64), whatever their order.", "quantifier": "every sequence of increments and every permutation of it", "why_tests_cant": "all orders of any length", "anchors": ["datastruct/string.go: IncrBy"]}
{"id": "C11", "title": "APPEND concatenates", "statement": "APPEND makes the stored value the old value followed by the argument (absent counts as empty) and replies the new length in bytes.", "quantifier": "every key, stored value and argument", "why_tests_cant": "all byte strings", "anchors": ["datastruct/string.go: Append"]}
{"id": "C12", "title": "EXISTS, TYPE and DEL agree", "statement": "EXISTS replies 1 exactly for keys that hold a value; TYPE names the type of that value and none otherwise; DEL removes exactly that key, replies 1 if it existed and 0 otherwise, and afterwards the key does not exist.", "quantifier": "every reachable store, every key", "why_tests_cant": "all stores", "anchors": ["datastruct/keys.go: Exists, Type, Del", "redis/keys.go"]}
{"id": "C13", "title": "KEYS lists exactly the matching keys", "statement": "KEYS pattern replies every existing key that matches the pattern exactly once and nothing else.", "quantifier": "every reachable store, every pattern the glob library accepts, every map iteration order", "why_tests_cant": "all stores and iteration orders", "anchors": ["datastruct/keys.go: Keys", "lib/shard_map/shard_map.go: Range"]}
{"id": "C14", "title": "Wrong-type commands are refused without effect", "statement": "A command for one type applied to a key that holds another type replies the type error and changes nothing in the store.", "quantifier": "every reachable store, every typed command and its arguments", "why_tests_cant": "all stores and commands", "anchors": ["datastruct/keys.go: loadKeyInfo", "datastruct/*.go: loadAndCheck*"]}
{"id": "C15", "title": "Unknown commands and missing arguments are refused without effect", "statement": "A request whose command name is not implemented replies the unknown-command error; a request with fewer arguments than the command needs replies the argument error; neither changes the store.", "quantifier": "every reachable store, every request", "why_tests_cant": "all byte strings as names", "anchors": ["redis/command.go: ExecuteAsync", "redis/*.go arity checks"]}
{"id": "C16", "title": "Command names are case-insensitive", "statement": "Changing the case of letters in a command name changes neither the effect nor the reply.", "quantifier": "every ASCII spelling of a command name, every store, all arguments", "why_tests_cant": "2^n spellings times all stores", "anchors": ["redis/command.go: NewCommandFromReceive"]}
{"id": "C17", "title": "Reads change nothing", "statement": "Commands that only inspect data (GET, MGET, EXISTS, TYPE, KEYS, LLEN, LRANGE, LINDEX, SCARD, SISMEMBER, SMEMBERS, SDIFF, SINTER, SUNION, HGET ..., ZSCORE, ZRANK, ZCARD, ZCOUNT, ZRANGE, ZRANGEBYSCORE, ZREVRANGE, PING, COMMAND) leave the whole store as it was.", "quantifier": "every store, every argument list", "why_tests_cant": "all stores", "anchors": ["redis/*.go", "datastruct/*.go"]}
{"id": "C18", "title": "A command only affects the keys it names", "statement": "Executing a command never changes the value seen through a key the command does not name, now or after any further history.", "quantifier": "every reachable store, every command, every other key", "why_tests_cant": "all stores; the failure needs aliasing set up by an earlier command", "anchors": ["datastruct/set.go: SDiffStore, SInterStore, SUnionStore", "datastruct/*.go"]}
{"id": "C19", "title": "No command crashes the server", "statement": "Executing any command on any reachable store yields a reply; it never panics (a panic in the executing goroutine terminates the process and loses all data).", "quantifier": "every reachable store, every command and arguments, every random skip-list height", "why_tests_cant": "all histories", "anchors": ["redis/command.go: ExecuteAsync", "datastruct/list.go: LRemCountFromHead", "datastruct/keys.go: Keys", "datastruct/sorted_set.go: insert"]}
{"id": "C20", "title": "Lists behave as sequences", "statement": "Through any history of list commands a list key behaves as a sequence: LPUSH/RPUSH add at the head/tail in argument order and reply the new length, LPOP/RPOP remove from the head/tail, LLEN is the number of elements, and every read reflects exactly the sequence.", "quantifier": "every history of list commands", "why_tests_cant": "all histories", "anchors": ["datastruct/list.go", "redis/list.go"]}
{"id": "C21", "title": "Queue and stack order", "statement": "Elements pushed with RPUSH come out of LPOP in the order pushed (FIFO), and out of RPOP in reverse order (LIFO), none lost or duplicated, whatever pushes and pops are interleaved.", "quantifier": "every interleaving of RPUSH with LPOP (RPOP)", "why_tests_cant": "all interleavings", "anchors": ["datastruct/list.go: RPush, LPop, RPop"]}
{"id": "C22", "title": "LRANGE returns the requested window", "statement": "LRANGE key start stop returns exactly the elements at positions start..stop of the sequence, negative indexes counting from the end, out-of-range indexes clipped.", "quantifier": "every list, every start and stop", "why_tests_cant": "all lists and integers", "anchors": ["datastruct/list.go: List.LRange"]}
{"id": "C23", "title": "LREM removes the right occurrences", "statement": "LREM key count v removes the first count occurrences of v (last -count for negative count, all for 0), keeps all other elements in order, and replies the number removed; the list remains fully usable.", "quantifier": "every list, count and value, every later history", "why_tests_cant": "all lists; the failure appears only after the list becomes empty", "anchors": ["datastruct/list.go: LRemCountFromHead, LRemCountFromTail, LRem"]}
{"id": "C24", "title": "LINDEX, LSET and LINSERT address the sequence", "statement": "LINDEX returns the element at a (possibly negative) index and nil outside; LSET replaces exactly that element; LINSERT puts the new element directly before/after the first occurrence of the pivot and replies the new length.", "quantifier": "every list, index, pivot", "why_tests_cant": "all lists and integers; traversal starts from either end", "anchors": ["datastruct/list.go: lIndexNode, LSet, LInsert", "redis/list.go: lIndex"]}
{"id": "C25", "title": "Sets behave as mathematical sets", "statement": "After any history, SISMEMBER replies 1 exactly for members added and not removed since, SMEMBERS lists each of them exactly once, SADD/SREM reply the number of members actually added/removed.", "quantifier": "every history of set commands, every map iteration order", "why_tests_cant": "all histories", "anchors": ["datastruct/set.go", "redis/set.go"]}
{"id": "C26", "title": "SCARD is the number of members", "statement": "SCARD replies the number of members of the set after any history.", "quantifier": "every history of set commands", "why_tests_cant": "all histories", "anchors": ["datastruct/set.go: sPop, SMove, SCard"]}
{"id": "C27", "title": "SDIFF, SINTER and SUNION compute the set operations", "statement": "They reply exactly the members of the difference (first minus all others), intersection, union of the named sets, each once, absent keys counting as empty.", "quantifier": "every reachable store, every list of keys", "why_tests_cant": "all stores and key lists", "anchors": ["datastruct/set.go: sDiff, sInter, sUnion, SDiff, SInter, SUnion", "redis/set.go"]}
{"id": "C28", "title": "S*STORE stores an independent copy of the result", "statement": "SDIFFSTORE/SINTERSTORE/SUNIONSTORE make the destination hold exactly the computed set, reply its size, and later changes to the sources do not change the destination or vice versa.", "quantifier": "every reachable store, key list and later history", "why_tests_cant": "all histories", "anchors": ["datastruct/set.go: SDiffStore, SInterStore, SUnionStore"]}
{"id": "C29", "title": "SPOP removes what it returns", "statement": "SPOP key n returns min(n, size) distinct members and removes exactly those.", "quantifier": "every set, n, map iteration order", "why_tests_cant": "iteration order is random", "anchors": ["datastruct/set.go: sPop", "lib/shard_map/shard_map.go: RangeAndDelete"]}
{"id": "C30", "title": "SMOVE is atomic", "statement": "SMOVE moves a member from source to destination: either it is in the destination afterwards and no longer in the source, or nothing changed.", "quantifier": "every reachable store, keys and member", "why_tests_cant": "all stores", "anchors": ["datastruct/set.go: SMove"]}
{"id": "C31", "title": "Hash writes are visible to hash reads", "statement": "After HSET/HMSET/HSETNX/HINCRBY/HINCRBYFLOAT on a key, HGET/HMGET/HGETALL/HLEN/HKEYS/HVALS/HEXISTS reflect the write.", "quantifier": "every history of hash commands", "why_tests_cant": "all histories", "anchors": ["datastruct/hash_table.go", "redis/hash_table.go"]}
{"id": "C32", "title": "The in-memory hash table object behaves as a field map", "statement": "On a hash table object: set then get returns the value, set-if-absent never overwrites, increment adds to a present integer and refuses other values unchanged, delete removes the field and reports whether it existed, and the field count equals the number of fields.", "quantifier": "every history of operations on the object", "why_tests_cant": "all histories", "anchors": ["datastruct/hash_table.go: set, del, incrBy, incrByFloat, mGet, values"]}
{"id": "C33", "title": "Sorted sets are sorted", "statement": "After any history, ZRANGE key 0 -1 lists each member exactly once in ascending (score, member) order, independent of insertion order.", "quantifier": "every history of sorted-set commands, every sequence of random skip-list heights", "why_tests_cant": "all histories and random outcomes", "anchors": ["datastruct/sorted_set.go: insert, updateScore, zRange"]}
{"id": "C34", "title": "ZSCORE returns the last score given", "statement": "ZSCORE replies the score last set by ZADD/ZINCR for a present member and nil for absent ones.", "quantifier": "every history of sorted-set commands", "why_tests_cant": "all histories", "anchors": ["datastruct/sorted_set.go: zAdd, ZScore, ZPopMin"]}
{"id": "C35", "title": "ZRANK is the member's position", "statement": "ZRANK replies the member's position in the ZRANGE order (this server counts from 1).", "quantifier": "every history, every random height sequence", "why_tests_cant": "span bookkeeping must be right for every skip-list shape", "anchors": ["datastruct/sorted_set.go: rank, insert, deleteNode"]}
{"id": "C36", "title": "ZRANGE / ZREVRANGE return the requested window", "statement": "ZRANGE start stop returns the members at positions start..stop in ascending order (negative from the end, clipped); ZREVRANGE the same window of the descending order.", "quantifier": "every sorted set, start and stop", "why_tests_cant": "all shapes", "anchors": ["datastruct/sorted_set.go: zRange, zRevRange, findElementByRank"]}
{"id": "C37", "title": "ZCOUNT counts the members in the score interval", "statement": "ZCOUNT min max replies the number of members whose score lies in the interval, open bounds excluded, infinities included.", "quantifier": "every sorted set, every interval", "why_tests_cant": "all shapes, all bounds", "anchors": ["datastruct/sorted_set.go: count, minScoreRank, maxScoreRank"]}
{"id": "C38", "title": "ZRANGEBYSCORE returns the members in the score interval", "statement": "It returns exactly the members whose score lies in the interval, ascending.", "quantifier": "every sorted set, every interval", "why_tests_cant": "all shapes, all bounds", "anchors": ["datastruct/sorted_set.go: zRangeByScore"]}
{"id": "C39", "title": "ZREM removes the members it reports", "statement": "After ZREM the named members are gone from every view (ZRANGE, ZCARD, ZSCORE, ZRANK), all others unaffected, and the reply is the number removed.", "quantifier": "every sorted set and member, every skip-list shape", "why_tests_cant": "depends on the random heights", "anchors": ["datastruct/sorted_set.go: ZRem, delete, deleteNode"]}
{"id": "C40", "title": "ZPOPMIN / ZPOPMAX remove and return the extremes", "statement": "ZPOPMIN/ZPOPMAX key n return the min(n,size) members with lowest/highest scores, in order, and remove exactly those from every view.", "quantifier": "every sorted set, n, skip-list shape", "why_tests_cant": "all shapes", "anchors": ["datastruct/sorted_set.go: ZPopMin, ZPopMax, findElementByRank, delete"]}
{"id": "C41", "title": "ZADD flags", "statement": "NX never changes an existing member, XX never adds one, INCR adds to the existing score; the reply counts members added or changed.", "quantifier": "every sorted set, member list and flags", "why_tests_cant": "all states", "anchors": ["datastruct/sorted_set.go: zAdd, ZAdd, ZIncr", "redis/sorted_set.go: zAdd"]}
{"id": "C42", "title": "Random heights are unobservable", "statement": "Two servers that execute the same commands with different random skip-list heights give the same replies.", "quantifier": "every pair of random sequences, every history", "why_tests_cant": "all random outcomes", "anchors": ["datastruct/sorted_set.go: zslRandomLevel, insert"]}
{"id": "C43", "title": "Commands execute one at a time (linearizability)", "statement": "With any number of concurrent connections, the replies are those of executing the commands one at a time in some order that respects real time (a command answered before another was sent comes first).", "quantifier": "every number of clients and every schedule of the goroutines", "why_tests_cant": "all interleavings", "anchors": ["event/event_pool.go", "event/worker.go", "event/handler.go", "redis/command.go: ExecuteAsync"]}
{"id": "C44", "title": "Each request is executed at most once and gets its own reply", "statement": "No request is executed twice, a reply never goes to another request, and a request answered with a result was executed exactly once; a request answered with a timeout may still take effect later.", "quantifier": "every schedule, including timeouts", "why_tests_cant": "all interleavings", "anchors": ["event/handler.go: HandleRequest", "event/worker.go: run"]}
{"id": "C45", "title": "Graceful shutdown loses no accepted request", "statement": "When the server stops, requests already accepted are completed and no request handler crashes.", "quantifier": "every schedule of Stop against concurrent requests", "why_tests_cant": "all interleavings", "anchors": ["event/event_pool.go: Stop", "event/worker.go: run, stop"]}
{"id": "C46", "title": "Replies on a connection come in request order", "statement": "On one connection, replies are written in the order the requests were sent.", "quantifier": "every schedule, every number of outstanding requests", "why_tests_cant": "all interleavings", "anchors": ["server/v2/server.go: React"]}
{"id": "C47", "title": "A closed connection is handled without a crash (v1 server)", "statement": "When a peer closes its connection the connection handler ends cleanly and every request received before is handled.", "quantifier": "every schedule of the reader goroutine and the handler", "why_tests_cant": "all interleavings", "anchors": ["server/v1/server.go: handleConn", "protocol/decode.go: ReceiveDataAsync"]}
{"id": "C48", "title": "Every implemented command is reachable under its own name", "statement": "The generator registers each command function under the lower-cased name in its comment (or its own name), names are unique, and dispatch of that name calls that function.", "quantifier": "every source file of command functions; every command in the table", "why_tests_cant": "all source texts", "anchors": ["cmd/gen_redis_cmd/main.go", "redis/*.cmd.go"]}
{"id": "C49", "title": "The command log contains every executed command, in execution order", "statement": "Every request that takes effect was first written to the log, and replaying the log in order reproduces the store.", "quantifier": "every schedule", "why_tests_cant": "all interleavings", "anchors": ["event/handler.go: HandleRequest", "persistence/persistence.go"]}
{"id": "C50", "title": "End-to-end: bytes in, bytes out", "statement": "A client that sends one well-formed request per frame receives exactly the RESP encoding of the reply the command specifies, and a RESP parser on its side recovers it.", "quantifier": "every store, every request of an implemented command", "why_tests_cant": "all requests", "anchors": ["server/v2/server.go: React", "event/handler.go: HandleRequest"]}
{"id": "C51", "title": "The generator touches only the generated file", "statement": "Running the command generator on a source file writes its .cmd.go companion and leaves the source file and every other file unchanged.", "quantifier": "every path, every file contents", "why_tests_cant": "all paths", "anchors": ["cmd/gen_redis_cmd/main.go: main, readAndParseFile, writeFile"]}
{"id": "C52", "title": "The server never gets stuck", "statement": "Whatever the order of events, a bounded amount of work is done per received frame; when nothing can move any more, every accepted request was executed, the handling of every frame has ended and Stop, if called, has returned - unless a command panicked and ended the process.", "quantifier": "every number of connections and workers, every schedule of handlers, workers, timeouts and Stop", "why_tests_cant": "all interleavings; deadlock and livelock are absences", "anchors": ["event/event_pool.go", "event/worker.go", "event/handler.go", "redis/command.go: ExecuteAsync", "server/v2/server.go: React"]}
{"id": "C53", "title": "Every command finishes", "statement": "No request makes a command run for ever: on every store that any history of requests can produce, including lists and sorted sets damaged by earlier commands, reading the request, executing it and encoding its reply all end.", "quantifier": "every history of requests, every random height, every request or frame", "why_tests_cant": "all histories; non-termination cannot be observed by a test", "anchors": ["datastruct/list.go: LRemCountFromHead, LRemCountFromTail, LInsert", "datastruct/sorted_set.go: insert, updateScore, rank, findElementByRank, minScoreRank, maxScoreRank", "protocol/decode.go: DecodeFromReader"]}
{"id": "C54", "title": "The log can be read back after a crash at any point", "statement": "The bytes written to the log determine the logged requests; if the log is cut off after any byte, the complete entries are the first of the logged requests, nothing else can be read from it, and replaying them gives a store the server had.", "quantifier": "every schedule of well-formed requests, every crash point (every byte of the log)", "why_tests_cant": "all schedules and all cut points", "anchors": ["persistence/persistence.go: WriteCommand", "event/handler.go: HandleRequest"]}
{"id": "C55", "title": "The process ends on a signal, and only then", "statement": "The process ends only after SIGTERM, SIGINT or SIGQUIT or if the server cannot be started; it then always ends; it never ends in the middle of a command, and the event pool is shut down first.", "quantifier": "every moment at which the signal arrives, every schedule of main's goroutines, handlers, worker and Stop", "why_tests_cant": "all interleavings of startup, traffic, signals and shutdown", "anchors": ["cmd/server/main.go: main", "server/v2/server.go: Start, Stop, OnShutdown", "event/event_pool.go: Stop"]}
{"id": "C56", "title": "Commands have the store to themselves", "statement": "No two commands ever run at the same time, so the maps behind the store, which have no locks, are never used by two goroutines at once: when a command begins, every command that began before has ended; while it runs nothing else changes the store; nothing but a command ever changes it.", "quantifier": "every schedule of frames, handlers, worker and Stop; in debug builds also of the preloaded commands", "why_tests_cant": "all interleavings; a data race shows up only under particular schedules", "anchors": ["event/event_pool.go: NewEventPool, startWorker", "event/worker.go: run", "redis/command.go: ExecuteAsync", "cmd/server/main.go: insertPreData", "lib/shard_map/shard_map.go"]}
{"id": "C57", "title": "Which keys name the same set, and what every set command replies", "statement": "After any history, every set command is answered, and its reply is the one for the sets the history left. A set has one name when it is created; SDIFFSTORE, SINTERSTORE or SUNIONSTORE with exactly one non-empty source gives it a further name, and both keys stay names of one set until one of them is deleted, overwritten or made the destination of another store; with two or more sources the destination is a copy that no request changes unless it names the destination. SMOVE between different sets moves the member and changes nothing else; between two names of one set it changes nothing. SCARD is never below the number of members.", "quantifier": "every history of requests with ASCII command names, every request, every map iteration order", "why_tests_cant": "all histories of aliasing; a test can only try some chains of S*STORE", "anchors": ["redis/set.go", "datastruct/set.go: SDiffStore, SInterStore, SUnionStore, SMove, SPop, loadAndCheckSet"]}
{"id": "C58", "title": "A request touches only what it names, and other names of the same set", "statement": "A request changes the value of a key only if it names that key or another key that names the same set; two keys can name the same set only if they are connected through one-source S*STORE requests of the history. So a key keeps its value through every history of requests that name neither it nor a key connected to it.", "quantifier": "every history of requests with ASCII command names, every later history, every key", "why_tests_cant": "all histories and all keys", "anchors": ["datastruct/keys.go", "datastruct/set.go: SDiffStore, SInterStore, SUnionStore", "redis/command.go: ExecuteAsync"]}
{"id": "C59", "title": "What every list command does, in every state", "statement": "After any history, including those in which LREM has emptied a list, each list request is answered with one determined reply, or crashes the server in exactly the stated cases (LREM from an end that an earlier LREM made unknown, LINDEX or LSET beyond the linked items); LPUSH, RPUSH, LPOP, RPOP, LLEN, LRANGE and LINSERT never crash it. As long as no LREM empties the list, it is an ordinary sequence whose length is LLEN.", "quantifier": "every history of requests with ASCII command names, every list request, every map iteration order", "why_tests_cant": "all histories; the state after an emptying LREM depends on every later push, pop, insertion and removal", "anchors": ["redis/list.go", "datastruct/list.go: LPush, RPush, LPop, RPop, LRange, LRemCountFromHead, LRemCountFromTail, lIndexNode, LSet, LInsert, loadAndCheckList"]}
{"id": "C60", "title": "v1 server: pipelined requests are executed and answered in order", "statement": "On the v1 server a client may send requests on one connection without waiting for replies: the requests that the server finds in what arrives are taken in this order, none skipped or duplicated, executed in this order, and the k-th reply on the connection is the reply to the k-th of them (or the statement that the server gave up on it). They are the requests that the client has sent, if they arrive such that no data is cut (C64). Over all connections the server behaves like one that executes the requests one at a time.", "quantifier": "every byte stream of every peer, every division of it into segments, every number of connections, every schedule of readers, connection loops, worker, Start and Stop", "why_tests_cant": "all interleavings and all streams", "anchors": ["server/v1/server.go: Start, handleListener, handleConn", "protocol/decode.go: ReceiveDataAsync", "event/handler.go: HandleRequest"]}
{"id": "C61", "title": "v1 server: Start and Stop", "statement": "After Stop is called the listener and every connection are closed, every connection goroutine ends, the event pool stops, and both Start and Stop return; Start returns only after Stop was called and all connections are gone; afterwards nothing is accepted, executed or answered; the server makes a bounded number of steps per connection and byte.", "quantifier": "every moment at which Stop is called, every number of connections, every schedule", "why_tests_cant": "all interleavings of Start, Stop, connections and requests", "anchors": ["server/v1/server.go: Start, Stop, handleListener, handleConn", "event/event_pool.go: Stop"]}
{"id": "C62", "title": "v1 server: one client cannot end the server", "statement": "Whatever a client sends, and whenever it disconnects, the server keeps serving the others; the process ends by a panic only for the causes listed.", "quantifier": "every byte stream of every peer, every schedule", "why_tests_cant": "all streams and all interleavings", "anchors": ["server/v1/server.go: handleConn", "protocol/decode.go: ReceiveDataAsync, DecodeFromReader", "event/handler.go: HandleRequest"]}
{"id": "C63", "title": "Which byte strings are requests, exactly", "statement": "Every byte string a client can send is either read as one request, in one way only, refused for one of three reasons, or crashes the decoder; which of these, which arguments are read, which text is recorded for the log and what is left over is exactly what the grammar says (header numbers modulo 2^64 with any bytes as digits, missing data read as zero bytes, nested arrays flattened, inline PING).", "quantifier": "every byte string", "why_tests_cant": "all byte strings, of any length and nesting depth", "anchors": ["protocol/decode.go: DecodeFromReader, decodeSingleLine, readBulkOrArrayLength, readBulkStrings, readArray"]}
{"id": "C64", "title": "A request is understood however the network cuts it", "statement": "A request has the effect and the reply of that request however its bytes are split into network segments, whether or not more bytes follow it, and however long it is; no part of a value is ever executed as a request.", "quantifier": "every request, every way to cut it into segments, on both servers", "why_tests_cant": "all requests and all cuts, including those at the limits of the read buffer", "anchors": ["server/v2/server.go: React", "server/v1/server.go: handleConn", "protocol/decode.go: DecodeFromReader, readBulkStrings, readArray, ReceiveDataAsync"]}
{"id": "C65", "title": "The data server is the reference server", "statement": "There is one short description of the whole server (what every key holds, what each command answers, what the keys hold afterwards) such that after every history of requests of all commands in any order every request has exactly one outcome - a reply, no reply, a reply that cannot be sent, or a panic - and this outcome is one the description allows.", "quantifier": "every history of requests of all commands on any keys and every next request, of fewer than 2^60 words together", "why_tests_cant": "all histories; the reply depends on every earlier request", "anchors": ["redis/command.go, redis/*.go: all commands", "datastruct/*.go", "protocol/encode.go"]}
{"id": "C66", "title": "Concurrent clients see the reference server", "statement": "Whatever the clients send and however the goroutines of the server are scheduled, what the clients see is what the reference server answers when it serves the requests one at a time, in an order that respects real time.", "quantifier": "every number of connections, all bytes received (fewer than 2^60), every schedule; both servers", "why_tests_cant": "all interleavings and all histories", "anchors": ["server/v2/server.go: React", "server/v1/server.go: handleConn", "event/handler.go: HandleRequest", "event/event_pool.go", "redis/*.go", "datastruct/*.go"]}
{"id": "C67", "title": "Scores of a sorted set, whatever happened to it", "statement": "After any history of requests, ZSCORE of a member replies the score that ZADD or ZINCR last reported to have set (nil after ZREM removed it), ZREM replies the number of given members that have a score, and ZCARD, ZPOPMIN, ZPOPMAX and the range commands agree about the number of entries: even if earlier removals or pops have damaged the order.", "quantifier": "every history of requests of all commands on any keys; every key and member", "why_tests_cant": "all histories; the reply depends on every earlier request", "anchors": ["datastruct/sorted_set.go: zAdd, ZAdd, ZRem, ZPopMin, ZPopMax, ZScore, ZCard, ZRange, ZCount, insert, delete, deleteNode, updateScore, zRange", "redis/sorted_set.go"]}
{"id": "C68", "title": "Clients that use different keys do not notice each other", "statement": "If the keys named by the requests of some clients are named by no request of the other clients, then these clients get the replies, and their keys hold the values, that they would have on a server of their own; the histories of the server are exactly the interleavings of a history of the one group and a history of the other group; and this holds for everything seen on their connections under every schedule (KEYS, which asks about all keys, is excepted).", "quantifier": "every history of requests of any number of clients, every division of the clients in two groups; every schedule of both servers", "why_tests_cant": "all interleavings of all histories of two groups of clients, compared with all histories of one group", "anchors": ["datastruct/keys.go", "datastruct/*.go", "redis/*.go", "redis/list.go: lIndex", "server/v2/server.go: React", "server/v1/server.go: handleConn"]}
{"id": "C69", "title": "The names of keys do not matter", "statement": "If the keys in a history of requests are renamed, with different names for different keys, the same history happens: the same replies, the same crashes, and afterwards the same values under the new names and no other keys; KEYS lists the new names of the keys it listed.", "quantifier": "every history of requests of all commands on any keys, every injective renaming of keys", "why_tests_cant": "all histories and all renamings; in particular it must not matter in which shard of a map a key is", "anchors": ["datastruct/keys.go", "lib/shard_map/shard_map.go", "datastruct/*.go", "redis/*.go", "redis/list.go: lIndex"]}
{"id": "C70", "title": "A command with several items equals the commands with one item each", "statement": "LPUSH, RPUSH, SADD, SREM, ZADD, ZREM, MSET, MGET, DEL, EXISTS with several items, and LPOP and RPOP with a count, leave the server in the state in which the requests with one item each, one after the other, leave it, and the reply is the last reply (LPUSH, RPUSH, MSET), the sum of the replies (SADD, SREM, ZADD, ZREM, DEL, EXISTS) or all of them (MGET, LPOP, RPOP).", "quantifier": "every state, every key and list of items of any length; both directions", "why_tests_cant": "all states and all lists of items", "anchors": ["datastruct/list.go: LPush, RPush, LPop, RPop", "datastruct/set.go: SAdd, SRem", "datastruct/sorted_set.go: ZAdd, ZRem", "datastruct/string.go: MSet, MGet", "redis/keys.go: del, exists", "redis/*.go"]}
{"id": "C71", "title": "Surplus arguments change nothing", "statement": "A command with a fixed number of parameters looks at these and at nothing else: the request with any further arguments (options the server does not know, more keys) has the same reply and leaves the server in the same state as the request without them.", "quantifier": "every such command in every spelling, every state, every list of arguments", "why_tests_cant": "all states and all argument lists", "anchors": ["redis/command.go: ExecuteAsync", "redis/string.go: set, get", "redis/keys.go: del, exists", "redis/*.go"]}
{"id": "C72", "title": "A request may be sent again", "statement": "A client that does not know whether a request was executed may send it again if the request reads or if it puts or removes given data (SET, MSET, DEL, LSET, SADD, SREM, SMOVE, ZADD without INCR, ZREM, HSET, HMSET, HSETNX, HDEL): if it had been executed, then the repetition is answered and changes nothing, however often it is sent.", "quantifier": "every reachable state, every such request with any arguments, any number of repetitions", "why_tests_cant": "all states that all histories lead to, and all requests", "anchors": ["redis/*.go", "datastruct/string.go: Set, MSet", "datastruct/keys.go: Del", "datastruct/list.go: LSet, lIndexNode", "datastruct/set.go: SAdd, SRem, SMove", "datastruct/sorted_set.go: zAdd, ZAdd, ZRem, updateScore"]}
{"id": "C73", "title": "Clients can coordinate through the server", "statement": "Programs use the server to coordinate. If all clients use a key only with INCR and reads, no two INCRs are answered with the same number, and later ones with larger numbers. If they use it only with SADD and reads, at most one of all requests SADD k x is answered 1, and the others lost to a request that was sent before their answer. If they use it only with RPUSH, LPOP and reads it is a work queue: no item is delivered more often than it was sent, items are delivered in the order sent, and an item whose RPUSH was answered is in the list or was delivered. SET with NX succeeds for one client only, so that it can serve as a lock.", "quantifier": "all schedules of the server's goroutines, any number of clients and connections, pipelined or not, and any use of other keys", "why_tests_cant": "all interleavings of all requests; a test runs a few schedules", "anchors": ["event/event.go", "redis/command.go: ExecuteAsync", "datastruct/string.go: IncrBy, Set", "datastruct/set.go: SAdd", "datastruct/list.go: RPush, LPop", "server/v2/server.go: React", "server/v1/server.go: handleConn"]}
{"id": "C74", "title": "A key is an atomic register; a counter loses no increment", "statement": "If all clients use a key only with SET, DEL and reads: a GET returns a text that was put by a SET not sent after the GET was answered and not overwritten by an operation that lies entirely between that SET and the GET; a client that got the answer to its SET reads its own text unless somebody else's SET or DEL may be later; readers never step back to an older text. If all clients use it only with INCR, INCRBY, DECR, DECRBY and reads: a GET shows the sum (modulo 2^64) of increments each counted once, among them all that were answered before the GET was sent.", "quantifier": "all schedules of the server's goroutines, any number of clients and connections, pipelined or not, and any use of other keys", "why_tests_cant": "all interleavings of all requests; a test runs a few schedules", "anchors": ["event/event.go", "redis/command.go: ExecuteAsync", "datastruct/string.go: Set, Get, IncrBy", "datastruct/keys.go: Del", "server/v2/server.go: React", "server/v1/server.go: handleConn"]}
{"id": "C75", "title": "Same contents, same answers", "statement": "What a server answers depends only on what its keys hold (and on which keys name one set): if every key holds the same on two servers, then, whatever their histories were, a request has the same outcome on both but for the order of what a reply lists, and so have all further requests.", "quantifier": "every two histories of requests of all commands on any keys that end in the same contents; every further sequence of requests", "why_tests_cant": "all pairs of histories; the internal states (order of a hash map, levels of a skip list, length counters) differ", "anchors": ["redis/*.go", "datastruct/*.go"]}
{"id": "C76", "title": "What has been deleted or overwritten leaves no trace", "statement": "If requests change only some keys and these keys are then deleted or overwritten with texts, the contents are the same as if those requests had never been sent, and nobody can tell the difference later.", "quantifier": "every history, every sequence of requests of all commands that changes only the keys in question, every later request", "why_tests_cant": "all histories and all sequences of requests on the scratch keys", "anchors": ["datastruct/keys.go: Del", "datastruct/string.go: Set", "datastruct/set.go: SDiffStore, SInterStore, SUnionStore", "redis/*.go"]}
{"id": "C77", "title": "Requests that undo each other, and requests whose order does not matter", "statement": "LPUSH and then LPOP, RPUSH and then RPOP, INCRBY and then DECRBY of the same amount, SADD of a new member and then SREM leave everything as it was. The order of two counter requests on a key, or of two SADDs, does not matter for what is held afterwards.", "quantifier": "every history of requests before, every key and item; for counters also across the wrap-around at 2^63", "why_tests_cant": "all histories and all values", "anchors": ["datastruct/list.go: LPush, LPop, RPush, RPop", "datastruct/string.go: IncrBy", "datastruct/set.go: SAdd, SRem"]}
{"id": "C78", "title": "No reply shows a text that nobody sent", "statement": "A bulk text in a reply is an argument of this request or of one that was not sent only after this reply was received; for GET and MGET it may also be such a text with others appended to it, or a decimal number; for sorted sets it may be a score. No reply shows invented data or the memory of the server. All status lines and errors come from a fixed list.", "quantifier": "every history of requests of all commands, every schedule, any number of clients and connections", "why_tests_cant": "all histories and all texts; a test looks at a few replies", "anchors": ["redis/*.go", "datastruct/*.go", "protocol/encode.go: Encode", "event/event.go"]}
{"id": "C79", "title": "The ten-second deadline", "statement": "No client is told 'context deadline exceeded' before ten seconds have passed since the server got its request. If the server does one action within every delta in which it has something to do, and at most M frames arrive in any W, with (10 M + 2) delta <= W < 10 s, then no request times out and every request is dealt with within W. A client is answered within ten seconds in any case, and a request that is refused with 'context deadline exceeded' is not executed.", "quantifier": "every schedule, any number of clients and connections, every speed and load within the bound", "why_tests_cant": "all interleavings and all timings; a test runs with the timing of one machine", "anchors": ["event/handler.go: HandleRequest", "event/event_pool.go: AddEvent", "event/worker.go: run", "server/v2/server.go: React", "config/config.go: GetDefaultTimeout"]}
{"id": "C80", "title": "The kind of the reply is fixed by the command", "statement": "Whatever is stored and whatever was requested before, the reply to a request is an error or of the one kind that belongs to the command's name: OK for SET, MSET, LSET, HMSET; PONG; one of five type names for TYPE; 0 or 1 for EXISTS, DEL, SISMEMBER, SMOVE; a number for the counting commands; a text or nothing for GET, HGET, LINDEX, ZSCORE; a list of texts for KEYS, LRANGE, SMEMBERS and so on; for MGET and HMGET a list with exactly one text or nil per key or field asked for. A name outside the table is answered with an error. A client library can therefore parse the reply by the name of the command alone.", "quantifier": "every history of requests, every schedule of concurrent clients, every request with any arguments", "why_tests_cant": "a test sees the kinds of the replies in the states it builds; the claim is about every state any history can reach and every argument list", "anchors": ["redis/command.go: ExecuteAsync, setRsp", "redis/string.go", "redis/keys.go", "redis/list.go", "redis/set.go", "redis/hash_table.go", "redis/sorted_set.go", "protocol/encode.go: Response"]}
{"id": "C81", "title": "A set that clients share is read in snapshots; a list that clients append to is a log", "statement": "If all clients use a key only with SADD, SREM, DEL and reads, then what SMEMBERS and SISMEMBER tell is one set, and whether an element is in it was decided by a latest SADD or SREM naming it or DEL, latest as far as the clients can tell from which replies they had before they sent what. If only SADD is used, the sets that different readers see are snapshots of one growing set: of any two, one contains the other, a later reader sees at least what an earlier one saw, everything acknowledged before the question and nothing sent after the answer. If only RPUSH is used, the list is one log: each acknowledged RPUSH has its items in it once, in order and together, at the place its reply tells; an LRANGE over these places lists exactly these items, whatever the others append; of any two full reads one is the beginning of the other, and the later one is not shorter.", "quantifier": "every schedule, any number of clients on any connections, every history of requests on other keys, both servers", "why_tests_cant": "which of two overlapping requests comes first is decided by the scheduler; a test sees a few interleavings and cannot exclude that two readers see incompatible sets or that an item moves", "anchors": ["redis/set.go: sAdd, sRem, sMembers, sIsMember", "redis/list.go: rPush, lRange, lLen", "redis/command.go: worker", "event/handler.go: HandleRequest", "protocol/decode.go"]}
{"id": "C82", "title": "Keys that are written together are read together", "statement": "If all clients write a group of keys only together, with one MSET of all of them, then nobody ever reads a mixture: every MGET of the group is answered with the texts of one MSET (or nil for each, before the first), and every MGET of some of the keys and GET of one tells of one such row. The rows have one order for all readers: what is sent after a reply tells of a row at least as late, so a reader never goes back, not even from one key of the group to another; an acknowledged MSET is seen by everything sent after its reply; nobody is told of an MSET sent after the reply.", "quantifier": "every schedule, any number of clients on any connections, every group of keys, every history of requests on other keys, both servers", "why_tests_cant": "a torn read needs a scheduling between the two halves of an MSET; a test cannot exclude it for all schedules", "anchors": ["redis/string.go: mSet, mget, get", "datastruct/string.go: MSet, MGet", "event/worker.go", "event/event_pool.go", "event/handler.go: HandleRequest"]}
{"id": "C83", "title": "The configuration is replaced as a whole", "statement": "Any number of goroutines may hand configuration documents to InitConfig and ask GetDefaultTimeout at the same time. The package never panics. InitConfig says of every document what the YAML decoder says of it. GetDefaultTimeout behaves as if every accepted document replaced the configuration in one moment between the beginning and the end of its call, a refused document changed nothing, and the timeout were read in one moment: it is the default_timeout of the document accepted last, or five seconds if that one sets none or there is none; never 0.", "quantifier": "all documents, all decoders, all numbers of goroutines and all interleavings of their calls", "why_tests_cant": "the code reads the shared variable up to three times in one call, so the answer depends on the interleaving; a test exercises a few interleavings", "anchors": ["config/config.go: InitConfig, GetDefaultTimeout"]}
{"id": "C84", "title": "A leaderboard that clients share", "statement": "If all clients use a key only with ZADD (scores that are numbers, no flags) and with commands that read, then every client that asks for the score or rank of a member, the number of members or a part of the ranking is told of one board, which is ascending by score (by member where scores are equal) and has every member once. The score of a member is numerically one that a ZADD gave it, not overwritten by a ZADD answered before the question was sent; whoever is the only one to set a member's score reads back the score it set last. Members never disappear: of any two boards one has all the members of the other, and a question sent after a reply sees at least the members of that reply.", "quantifier": "all numbers of clients and workers' schedules, all histories of requests on all keys (fewer than 2^61 words), both servers", "why_tests_cant": "depends on the interleaving of concurrent clients; a test sees a few interleavings", "anchors": ["datastruct/sorted_set.go: ZAdd, ZScore, ZRank, ZCard, ZRange", "redis/sorted_set.go", "event/event.go", "server/v2/server.go: React", "server/v1/server.go: handleConn"]}
{"id": "C85", "title": "What type of value a key holds", "statement": "After every history and for every next request, TYPE k then answers t exactly if the request created or stored a value of type t under k and was not refused, or TYPE k answered t before and the request does not replace k (SET, MSET, S*STORE) or delete it (DEL), or was refused. So a key keeps its type, and cannot vanish, while nobody replaces or deletes it, even when its last element is removed. A client that got a reply to RPUSH k, SADD k, ... or TYPE k and whose key nobody else replaces in between can rely on it: whoever sends a request after that reply hears the same type from TYPE, 1 from EXISTS, and an error from a command for another type. If nobody ever replaces or deletes k, all replies that show its type, to whomever and in whatever order, show the same one.", "quantifier": "every history of requests, every next request, every schedule, any number of clients on any connections, both servers", "why_tests_cant": "a test tries some commands on some keys; that no command on any path changes the type of another value, in every state and interleaving, is a claim about all of them", "anchors": ["datastruct/list.go: loadAndCheckList", "datastruct/set.go: loadAndCheckSet", "datastruct/sorted_set.go: loadAndCheckZSet", "datastruct/keys.go: Type, Exists, Del", "datastruct/string.go", "redis/command.go", "event/handler.go: HandleRequest"]}
{"id": "C86", "title": "A lock kept in a counter", "statement": "Clients that agree to take a lock with INCR k (whoever is answered 1 has it) and to give it back with DEL k (only the holder, once) exclude each other: of any two requests that were answered 1, the DEL of one arrived before the reply to the other was sent. So requests that two clients send while they hold the lock never overlap, a GET of a key that is changed and read only under the lock returns exactly the last SET or DEL answered before it, and if every change is a read-modify-write with a function f, none is lost: a GET after n changes returns f applied n times to nothing.", "quantifier": "every schedule and interleaving, any number of clients on any connections, every lock key, guarded key and function f, both servers; fewer than 2^63 socket events", "why_tests_cant": "mutual exclusion must hold for every interleaving of any number of clients; a test sees a few", "anchors": ["datastruct/string.go: IncrBy", "datastruct/keys.go: Del", "event/handler.go: HandleRequest", "event/event.go", "server/v2/server.go: React", "server/v1/server.go: handleConn"]}
{"id": "C87", "title": "Nothing is lost while the load is bounded", "statement": "If the server does one action within every delta in which it has something to do and at most M frames arrive in any W with (10 M + 2) delta <= W < 10 s, then every request but MGET that arrived W ago has been answered with its own result (not with a timeout), unless a command crashed the process or the goroutine pool turned the request away. So a key that all clients use only with RPUSH, LPOP and reads is a queue with exactly-once delivery: whenever all its RPUSHes and LPOPs have been answered, the items delivered and the items in the list are together, with multiplicity, exactly the items sent, and any client can check it with LRANGE or LLEN.", "quantifier": "every schedule and timing that keeps the bounds, any number of clients on any connections, every queue key and items", "why_tests_cant": "the bound must hold for every timing and interleaving; a test sees a few, on one machine", "anchors": ["event/handler.go: HandleRequest", "event/worker.go", "event/event_pool.go", "server/v2/server.go: React", "datastruct/list.go: RPush, LPop, LRange, LLen", "server/v1/server.go: handleConn"]}
{"id": "C88", "title": "What a counter shows, exactly", "statement": "If all clients use a key only with INCR, INCRBY, DECR, DECRBY and reads, there is one order of these requests in which every answer is the exact sum up to and including the request (as a 64-bit integer), every GET shows the sum up to some point, and a request sent after another was answered comes later. When every addition that was sent has its answer (which the load bound of C87 guarantees) the counter counts as the sum of all of them, and a GET sent then shows it. So n items can be sold with INCRBY k n followed by DECRs, where an answer that is not negative is a purchase: buyers are told different numbers below n, at most n clients buy, and once every DECR is answered the number of buyers is the smaller of n and the number of DECRs.", "quantifier": "every schedule and interleaving, any number of clients on any connections, every counter key, amounts and stock n < 2^63, both servers; for sales fewer than 2^63 socket events", "why_tests_cant": "no increment may be lost, doubled or answered with a stale number in any interleaving; a test sees a few", "anchors": ["datastruct/string.go: IncrBy", "event/handler.go: HandleRequest", "event/worker.go", "server/v2/server.go: React", "server/v1/server.go: handleConn"]}
{"id": "C89", "title": "What the package encodes, it decodes", "statement": "A client that builds its requests with the package's own reply functions is understood: an array of bulk strings is encoded as a request with exactly these words, whatever bytes they consist of and however many they are; it is decoded to exactly these words, recorded byte for byte, and nothing that follows it is touched; what the server executes for it is exactly these words. More generally every reply that contains no nil, sent back as a request, is read as the words of the reply (texts as they are, numbers in decimal), so a list that was read can be sent as a request.", "quantifier": "every list of words and every reply (simple strings and errors without line feed) below the platform limits (2^63 words, 2^48 bytes each), every text that follows, every schedule", "why_tests_cant": "the round trip must hold for all texts, among them those that look like protocol; a test tries a few", "anchors": ["protocol/encode.go: Encode, AppendBulkStrings", "protocol/decode.go: DecodeFromReader", "server/v2/server.go: React", "e2e/client.go: connAndSendMsg"]}
{"id": "C90", "title": "Whoever hears of a request sees its effect", "statement": "Clients learn of each other's requests through answers, through registers (a GET returned the text only one SET put there) through queues and logs (an LPOP or LRANGE returned the item only one RPUSH put there), through sets (a SADD was told that the member only one other SADD named is in already) and through barriers (a GET of a counter shows as much as all its INCRs come to), in any number of steps. There is one order of requests that explains every answer any client received, in which every request of which word reached another comes before that other; word never comes back to its origin. So if word of a SET reached a GET of the same key, the GET does not return anything older: it returns a text that no other SET or DEL of the key is known, on the way to the GET, to have overwritten; if word of all other SETs and DELs of the key reached the SET, it returns exactly the text of that SET, even if the SET itself has not been answered yet.", "quantifier": "every schedule and interleaving, any number of clients on any connections, every chain of messages, keys used otherwise in any way, both servers", "why_tests_cant": "the chain may have any number of steps through any number of clients and keys in any interleaving; a test sees a few", "anchors": ["event/handler.go: HandleRequest", "event/event.go", "event/worker.go", "datastruct/string.go: Set, Get", "datastruct/keys.go: Del", "datastruct/list.go: RPush, LPop", "server/v2/server.go: React", "server/v1/server.go: handleConn"]}
{"id": "C91", "title": "Noise leaves no trace", "statement": "Bytes that arrive and cannot be read as a request (another protocol, bytes without a line end, a header on which the decoder fails or panics) get no answer and change nothing for anybody: what the other clients see, the log, the store and whether the process ends are with the noise exactly what they can be without it. A history of the sockets is possible if and only if noise has no answer in it and the history without the noise is possible, with the same log, store and end; so it cannot even be noticed.", "quantifier": "every schedule and interleaving, any number of workers, any amount of noise at any moments on any connections, before, during and after Stop; the v2 server (the v1 server ends on a bad header: C62)", "why_tests_cant": "must hold for all byte strings that are not requests, at every moment of every schedule; a test sends a few", "anchors": ["protocol/decode.go: DecodeFromReader", "server/v2/server.go: React", "event/handler.go: HandleRequest", "event/event_pool.go"]}
{"id": "C92", "title": "Connections carry no state", "statement": "On the v2 server it makes no difference over which connections clients send their requests, except that each reply comes back on the connection of its request: of two histories of the sockets that differ only in the connections used, and in both of which every request is answered where it was sent, either both are possible or neither is, with the same log, the same store and the same end of the process. So a proxy or a connection pool that mixes the requests of any number of clients on one connection, or opens a new connection for each request, adds nothing and hides nothing.", "quantifier": "every schedule and interleaving, any number of workers and requests, every assignment of requests to connections (the v2 server, frames as gnet delivers them)", "why_tests_cant": "all assignments of requests to connections in all interleavings; a test tries a few", "anchors": ["server/v2/server.go: React", "event/handler.go: HandleRequest"]}
{"id": "C93", "title": "Delays on the way add nothing", "statement": "Whatever clients can see at their own ends, where a request is sent any time before it arrives and a reply is received any time after it was written, in any order, could also have happened at the sockets of the server itself, with the same log, store and end. So every promise about what happens at the sockets is a promise about what clients see behind a network, among them that all requests appear to be executed one at a time in an order that respects which was answered before which was sent.", "quantifier": "every schedule, any delays of any messages, also out of order, any number of workers (linearizability: one worker), both servers", "why_tests_cant": "all schedules with all delays; a test sees a few", "anchors": ["server/v2/server.go: React", "event/handler.go: HandleRequest", "event/event.go", "event/worker.go", "server/v1/server.go: handleConn"]}
{"id": "C94", "title": "Readers cannot be noticed", "statement": "Take away from what happens at the sockets any requests whose commands only inspect data, that name no command or give too few arguments (MSET excepted), or that are no requests at all, with their answers: what is left can happen without them, with the same answers and the same data at the end; the append-only log then holds no line it did not hold, and the server does not crash if it did not crash with them (and crashes if it did, unless KEYS or a command that looks at the elements of lists or sorted sets was taken away). So a client that only reads changes nothing for the others, whatever it reads and whenever.", "quantifier": "every schedule, any number of clients, any set of removed requests that read or are malformed, answered or not, both servers", "why_tests_cant": "all schedules and all sets of readers; a test sees a few", "anchors": ["event/handler.go: HandleRequest", "event/event.go", "event/worker.go", "redis/command.go", "server/v2/server.go: React", "server/v1/server.go: handleConn"]}
