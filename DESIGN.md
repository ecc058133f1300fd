# Design of the godis verification

## Method
Lean 4.33 model of the Go code in `/repo`, function by function, in `lean/Verif/Model/`.
Specifications that do not mention the model's helpers live in `lean/Verif/Spec/`.
Helper lemmas live in `lean/Verif/Proofs/`.  The property theorems live in `lean/Verif/Props/`, one
file per area, each theorem named `Cnn_...` after the property in `properties.jsonl`.

Naming: `Cnn_x` is a (part of a) property at full strength; `Cnn_x_partial` holds under a restriction
stated as a hypothesis because the unchanged code violates the full statement (or because only part
could be proved); `Cnn_x_violated` proves the negation of the full statement with a concrete witness.

## Model architecture
* **Go values.** `string`/`[]byte` = `List UInt8`; `int`/`int64` = `Int` with explicit 64-bit wrap where the
  code can overflow (INCR family, decoder length, `-count`); `uint` spans = `Nat` modulo 2^64;
  `float64` = its 64-bit pattern with IEEE comparison, `+`, `ParseFloat`, `FormatFloat` are parameters.
* **Panics** are values: every function that can panic returns `Except Panic _`.
* **Pointers**: list nodes and skip-list nodes live in an explicit heap (index = address) with `next`/`prev`/
  `forward`/`backward`/`span` fields, so dangling sentinels and broken links are representable.
  Collection objects live in an object heap and keys hold references, so that aliasing between keys
  (S*STORE with one source) is representable.
* **Nondeterminism**: Go map iteration order is an arbitrary permutation supplied per command;
  `rand` outcomes are an arbitrary stream in the store; goroutine schedules are arbitrary step sequences.
* **External functions** (glob, ParseFloat, FormatFloat, float addition, non-ASCII lower-casing) are fields of a
  parameter structure `Ext`; theorems quantify over it.

## Per property plan
| Prop | Modelled | Proof |
|---|---|---|
| C01 | Response.Encode | independent RESP parser, round trip by induction on items |
| C02,C03,C05,C06 | DecodeFromReader over bytes.Buffer, React | induction on arguments; witnesses for violated parts |
| C04 | same, with panics explicit | exact crash condition on header lines; witness |
| C07 | shard_map.go with fnv32 and 32 shards | refinement to `key -> option value` |
| C08-C13 | string/keys commands | refinement to a map spec over histories |
| C14-C17 | all commands | case analysis over the dispatch table |
| C18 | object heap | no-alias invariant + frame lemma; witness for the alias |
| C19 | all commands with panics | partial: crash-free under invariants; witnesses |
| C20-C24 | pointer-level list | doubly linked segment predicate, refinement to `List` |
| C25-C30 | set object over the shard map | refinement to membership predicates, drift invariant for length |
| C31,C32 | hash object and commands | invariant "no key holds a hash"; object-level laws |
| C33-C42 | pointer-level skip list with spans | invariant relating all levels to one sorted sequence |
| C43-C46,C49 | event pool, HandleRequest, React as step machines | trace invariants / refinement to serial execution |
| C47 | v1 handleConn + ReceiveDataAsync | step machine; whole v1 server (CloseV1); witnesses |
| C48 | gen_redis_cmd over lines (regexp hand-modelled), dispatch table | induction over lines; finite table |
| C51 | gen_redis_cmd on a file system (path ↦ text) | case analysis on the path; counterexample paths |
| C52 | the step machines of C43 | potential function decreasing at every step; case analysis of quiescent states |
| C53 | list and skip-list pointer structures | rank function increasing along every link, kept by every command, also on damaged structures |
| C54 | WriteCommand, log text as a byte sequence | RESP requests are uniquely decodable and no proper prefix of one is one; cut at any byte; replay via C49 |
| C55 | main.go goroutines, v2 Start/Stop/OnShutdown on top of the event model | invariant over runs; projection to the event model and C52; witness |
| C56 | event model; `Model/Debug` for the preloading of debug builds | state of the worker between two labels of a run; two schedules of the debug build that lose updates |
| C57 | object heap, set commands | world of sets with names (`Spec/Shared`); simulation `Linked`: two keys refer to one object iff they name one set; induction over histories |
| C58 | object heap | two keys share an object only if they name one set, and only if one-source stores connect them; changes only reach objects of named keys |
| C59 | list objects, list commands | a row of items with two ends and a counter (`Spec/Rows`); the linked list refines the row in every state (`LObj.Holds`), commands and histories refine `RowSpec` |
| C60-C62 | server/v1 Start, Stop, accept loop, handleConn, readers, on top of the event model (`Model/ServerV1`) | projection of runs to runs of the event model with one worker; invariants over runs; potential function; witnesses, some of them from every state in which the server serves |
| C63 | DecodeFromReader over bytes.Buffer | inductive grammar (`Spec/Grammar`), soundness by induction over derivations, totality by induction on the length |
| C64 | React on frames; DecodeFromReader over bufio.Reader on a segmented connection (`Model/Reader`) | grammar of C63 on prefixes; alignment invariant between buffer, segments and units |
| C65 | all commands | one reference state machine (`Spec/Reference`) composed of the specifications of the families; simulation `Tells` between store and reference world; induction over histories |
| C66 | event model, v1 server model, all commands | C43/C60 composed with C65; words are bounded by bytes received |
| C67 | all commands; sorted sets as a table of scores and a number of entries (`Spec/Scores.lean`) | induction over histories with an invariant (every dictionary entry refers to a node of its own member; nodes keep their member) that survives the damage of ZREM and ZPOP* |
| C68 | all commands, the store with its heap and random numbers; event model and v1 server | relation `IsoB` between two stores that agree, up to renaming of heap addresses, on a set of keys; a request on keys outside the set preserves it, a request on keys inside steps both sides; the random numbers of the lone server are the subsequence its requests draw; composition with C43 |
| C69 | all commands, the store with its heap and shards | relation `Ren f` between two stores with the same heap whose keys correspond under `f`, preserved by every command (`fn_ren`); induction over histories in both directions |
| C70 | LPUSH, RPUSH, SADD, SREM, ZADD, ZREM, MSET, MGET, DEL, EXISTS, LPOP, RPOP on the store | the loops over items as functions of appended lists; a second load of the key sees the object just written; induction over the items |
| C71 | all commands with a fixed number of parameters, on the store | case analysis on the command and the first five arguments |
| C72 | SET, MSET, DEL, LSET, SADD, SREM, SMOVE, ZADD, ZREM, hash commands on the store | each object operation repeated on its own result is the identity (extensionality of the shard maps, links of list nodes, score table of sorted sets); invariants `SetsOk`, `KeyedStore` of reachable stores |
| C73 | both servers' goroutines with the store; histories of socket events (Spec/Coord.lean) | C43 gives one serial execution; on it INCR counts (induction), SADD's reply is decided by what was offered before (the key's set is never shared), the queue equation of C21; transferred to the events by request numbers |
| C74 | both servers' goroutines with the store; histories of socket events (Spec/Coord.lean) | C43 gives one serial execution; on it GET returns what was put last (induction over the history) and the counter is the sum of C10; transferred to the events by request numbers and real-time order |
| C75 | the reference server (C65) and what a client can find out about it (Spec/Contents.lean) | worlds with the same contents are related by a renaming of the set names; the relation is kept by every step and decides every reply; C65 transfers it to the model |
| C76 | the same | invariant over the scratch history: the other keys keep their holdings, and no set is named both inside and outside; DEL/SET then make the worlds equal |
| C77 | the same | the two steps of the reference server composed; for counters arithmetic modulo 2^64 |
| C78 | the whole data layer | invariant over histories: every text in the store (keys, values, members, list nodes) was sent or made from sent ones; one lemma per command says which of them its reply may show; with linearizability for clients |
| C79 | Model/Timed: the runs of the concurrent server with a clock; `context.WithTimeout` | busy-period argument: at rest all work is done (C52), every own action uses up some of the work left, a frame adds at most 10; so a busy period lasts at most (10 M + 2) delta |
| C80 | every command function; Spec/Kinds is a table name → kind | case analysis over the commands with weakest preconditions; hash replies need that no hash is ever stored (invariant of C78); clients by `explained` |
| C81 | both servers' goroutines with the store; histories of socket events (Spec/Coord.lean, Spec/Snapshots.lean) | C43 gives one serial execution; on it the key holds the set computed from the requests (induction over the history with the set views of C25) or the concatenation of the pushes (C21's log); prefixes of the one execution are the snapshots, ordered by real time |
| C82 | both servers' goroutines with the store; histories of socket events (Spec/Coord.lean, Spec/Together.lean) | C43 gives one serial execution; on it every key of the group has the text of the last MSET (induction over the history); MGET is each GET (C70); the rows and their order by the executed writes before a request |
| C83 | config/config.go, each read and write of the shared variable one step; YAML decoder arbitrary | invariants over all runs; trace refinement (simulation) of the atomic object of Spec/Config.lean |
| C84 | both servers' goroutines with the store; histories of socket events (Spec/Coord.lean, Spec/Board.lean) | C43 gives one serial execution; on it the board is the content of C33 with the last scores of C34; prefixes of the one execution are the boards |
| C85 | every command on the store, both servers; Spec/Types.lean | the type of a key after one command as a function of command, arguments and success (fn_ty); a command that is carried out finds its key absent or of its type (fn_fit); C43 for the clients |
| C86 | INCR, DEL, GET, SET on the store, both servers; Spec/Locks.lean | counting invariant over the linearized history (lock_trace: taken ≤ freed, +1 iff the key is present); real-time order of C43 turns it into exclusion; induction on the number of changes for lost updates |
| C87 | the v2 server with clocks, list commands; Spec/Account.lean | C79_in_time ends every handler in time without a timeout; the label that ends it must be the reply (invariants of Proofs/Event, C44, C50); C21_fifo and a permutation argument between executed and sent requests give the accounts |
| C88 | both servers, string commands; Spec/Totals.lean | the order is that of execution (C43); C10_no_lost_update for the sum before a request, C09 for its answer; C87_answered for the bounded load; a sale is the case where the amounts are n, -1, -1, ... |
| C89 | encoder, decoder, v2 server; Spec/Client.lean | induction over the items of the reply into the grammar of C63, which the decoder follows exactly; C44_own_request for the execution |
| C90 | v1/v2 server, store; Spec/Causal.lean | each way of learning orders the two executions (register: last put, C74; queue: what a prefix of the serial execution popped it pushed, C21; answer: C43); induction over the chain |
| C91 | v2 server; Spec/Noise.lean | steps about other requests do not depend on the handlers of noise (masking); noise never gets past the decoder (C63); induction over the run, both ways |
| C92 | v2 server; Spec/Wires.lean | runs are mapped to runs with other connections, step by step |
| C93 | v2 server (v1 by projection); Spec/Delays.lean | a `recv` commutes to the left, a `write` to the right of steps about other requests and of worker steps; induction over the swaps |
| C94 | v2 server (v1 by projection); Spec/Readers.lean | the state with the handlers, events and results of the removed requests hidden: a step of theirs changes nothing in it (a read and a malformed request leave the store as it is), any other step is simulated |
| C50 | composition | corollary |

## Trusted base
* Lean's kernel.  Axioms: every theorem depends on a subset of `propext`, `Classical.choice`, `Quot.sound`
  (per theorem: `AXIOMS.md`, generated by `tools/gen_axioms.py`).  No own axioms, no compiled evaluation;
  concrete runs are evaluated by the kernel (`decide +kernel`).
* The reading of the Go source: every definition in `lean/Verif/Model/` cites the lines it models.  There is no mechanical
  link between the Go text and the model, except for C48/C51, whose source texts are copied from /repo byte for byte
  (`Model/GenData.lean`, by `tools/gen_data.py`).
* The small specifications in `lean/Verif/Spec/` and the vocabulary in `Props/Defs.lean`, `Props/ZDefs.lean`, `Props/Play.lean`.

### What is modelled
| /repo | model |
|---|---|
| lib/shard_map/shard_map.go (all methods, fnv32, 32 shards) | `Model/ShardMap` |
| datastruct/string.go, keys.go, consts.go | `Model/Store` |
| datastruct/list.go (node level) | `Model/ListObj`, `Model/Store` |
| datastruct/set.go 7-365 | `Model/SetObj`, `Model/Store` |
| datastruct/hash_table.go, util/strconv.go | `Model/HashObj`, `Model/Store` |
| datastruct/sorted_set.go (node level, spans, heights) | `Model/SkipList`, `Model/Store` |
| redis/*.go, redis/*.cmd.go | `Model/Commands` |
| protocol/encode.go, decode.go | `Model/Protocol`, `Model/ConnV1` |
| event/*.go, server/v2/server.go | `Model/Event` (concurrent), `Model/Server` (one frame) |
| server/v1/server.go `handleConn` (one connection) | `Model/ConnV1` |
| server/v1/server.go (whole), with event/*.go and protocol/decode.go 57-85 | `Model/ServerV1` |
| persistence/persistence.go `WriteCommand` | `Model/Persistence` |
| what commands print to standard output (sorted_set.go 318, 484) | `Model/Stdout` |
| cmd/server/main.go 44-74 | `Model/Main` |
| cmd/server/main.go 36-38, 98-117 (debug builds) | `Model/Debug` |
| cmd/gen_redis_cmd/main.go | `Model/Gen` |

### What is not modelled
* Go itself: memory limits, stack overflow, garbage collection, data races as undefined behaviour (the model interleaves
  atomic actions; a command reads at its first and writes at its last step, see `Model/Event`), the runtime's fatal error
  "concurrent map writes" (the sharded map has no locks; that commands never overlap is C56).
* Library code is assumed, not verified: `strconv`, `strings`, `regexp` are modelled where noted (`Model/Strconv`,
  `Model/Gen`); `ParseFloat`, `FormatFloat`, float addition, `filepath.Match`, non-ASCII `ToLower` are arbitrary
  functions (`Ext`, `GenExt`).  The theorems hold for all of them; theorems about command *names* therefore ask for ASCII names, except C65 and C66, where names are compared after `ToLower`.
  `bufio.Reader`: `Model/Reader` (buffer of 4096 bytes, short reads), also used by `Model/ServerV1`; `Model/ConnV1` abstracts from
  bytes (any sequence of outcomes of the decoder).  gnet and ants: the assumptions at the top of
  `Model/Event` and `Model/Main` (for v1: `Model/ServerV1`; AsyncWrite keeps the order of calls per connection, one frame = one read, a panic in an
  ants worker is recovered, Serve/Stop as described there).
* Time: in `Model/Timed` (C79) actions have times, and a timeout comes no earlier than ten seconds after the frame; how long an action takes is an assumption of C79. Everywhere else timeouts may fire at any moment.
* Fairness: C52/C55 bound the length of all runs and describe the states in which nothing can happen any more; they do not
  assume or need a fair scheduler.  `drop` (a full goroutine pool) shares the label of a frame that is not answered.
* Go map iteration: one arbitrary order (permutation) per command; two iterations over the *same* map within one command use
  the same order (HGETALL).
* The random level of a new skip-list node is drawn from an arbitrary stream; `rand` itself does not fail.
* The YAML decoder (an arbitrary function in `Model/Config`), log output other than the command log, e2e/, benchmark/,
  tests, the commented-out code datastruct/set.go 366-461, `persistence.Init` (never called).

## Defects of the code found (each has a `_violated` theorem or is part of a restriction)
* Protocol: header lines without carriage return and announced lengths beyond the address space crash the handler (C04); a frame must be one whole
  request, further ones in it are dropped (C03, C05, C06); a request cut by the network is dropped or executed with zero bytes, and a value
  in it may be executed as a request; v1 corrupts every request that does not fit its 4096-byte buffer (C64); the reply of MGET on a non-string key panics while encoding (C19).
* Strings/keys: SET ignores options; MSET accepts an odd number of arguments; INCR/DECRBY wrap; EXISTS/DEL look at the first key
  only; TYPE of a set replies another text; KEYS with a bad pattern crashes (C09, C12, C14, C19).
* Lists: LREM that empties a list leaves dangling ends (lost pushes, later crash); LINDEX uses the index as key; an emptied list
  keeps its key (C20-C24).
* Sets: S*STORE with one source aliases two keys; lengths drift (C18, C25-C30).
* Hashes: never stored; HDEL inverted; HEXISTS always 1 (C31, C32).
* Sorted sets: level 32 panics; NaN breaks the order; ZREM is wrong beyond the second position; ZPOPMIN leaves scores behind;
  ZPOPMAX pads its reply without bound; ZCOUNT/ZRANGEBYSCORE boundaries; WITHSCORES ignored by ZRANGEBYSCORE (C33-C42).
* Concurrency: Stop can make a handler send on a closed channel and drop an accepted request; pipelined requests and their
  replies are reordered; log order is not execution order; ZCOUNT and ZRANGEBYSCORE print into the log; a timed-out request still executes (C43-C46, C49, C54).
* Process: a signal before gnet has entered the server in its table is lost, and no later signal is read; exit does not wait for replies (C55);
  debug builds preload commands concurrently, outside the event pool, and lose updates (C56).
* v1: end of input sends a nil request that crashes the process; a request can be lost; the reader goroutine leaks (C47); any peer can
  end the process by disconnecting, by a bad header or by an unencodable reply (C62); Stop before Start has set its context crashes, Stop
  before it has set the listener is ineffective, Stop with a request in flight crashes (C61).
* Generator: a function under another comment line is registered under that line; lines of 64 KiB truncate the table; input paths
  without `.go` are overwritten (C48, C51).

## Wrong programs
`seeded/LOG.jsonl` lists the edits of the model tried in a scratch copy, and which theorems failed.
