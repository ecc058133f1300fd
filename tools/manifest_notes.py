S.update({k: "proved" for k in "C01 C02 C07 C08 C10 C11 C13 C16 C17 C21 C22".split()})
N["C06"] = "The full claim is false: only the first request of a frame is executed (violation theorem). Proved: the first request is."
N["C09"] = "Arithmetic proved modulo 2^64; overflow is not refused (violation theorem)."
N["C12"] = "EXISTS/DEL proved; TYPE agrees with the accepted command family but its name for sets is wrong (violation theorem)."
N["C14"] = "Proved for all typed commands except HGETALL, ZPOPMIN, ZPOPMAX, LINDEX, one-key S*; false in full (violation theorem)."
N["C15"] = "Unknown names and missing arguments proved; MSET accepts missing arguments (violation theorem)."
N["C18"] = "Proved for servers that never ran S*STORE with exactly one source; false in full (violation theorem)."
N["C03"] = "Proved for every input without nested arrays and inline pings; false for those (violation theorems)."
N["C04"] = "Termination proved; no-crash proved for well-terminated input with sane lengths; a missing CR or a huge length crashes (violation theorems). The exact crash condition for every input is C63_crash."
N["C05"] = "Every argument is a piece of the input followed by zero bytes, and without them if input is left over; false for truncated or negative lengths (violation theorems). Exactly what is read from every input: C63."
N["C20"] = "All list commands (except LINDEX) answer exactly as the sequence specification, for every history; the specification needs the extra states hollow/lost because of the LREM defect."
N["C23"] = "Reply and remaining sequence proved; 'remains usable' is false once LREM empties the list (violation theorem)."
N["C24"] = "LSET and LINSERT proved; LINDEX reads the list stored under the index text (violation theorem and exact behaviour)."
N["C25"] = "All set commands answer exactly as the set specification, for every history of regular requests (all but S*STORE with one source); SADD/SREM proved for every reachable store; SMEMBERS of an empty set replies an error (violation theorem)."
N["C26"] = "SCARD proved for keys never popped or moved from, and never too small otherwise; false in full (violation theorem)."
N["C27"] = "Proved for two or more keys that all hold non-empty sets, on every reachable store; false for one key or an absent key (violation theorem)."
N["C28"] = "Proved for two or more non-empty sources; with one source the destination aliases the source (violation theorem)."
N["C29"] = "Proved with a count, on every reachable store; without a count nothing is popped (violation theorem)."
N["C30"] = "Proved if the destination holds a set or nothing; if it holds another type the member is lost (violation theorem)."
N["C31"] = "False for every key (violation theorem: HSET never stores). Proved: exact replies of all hash commands on every reachable store."
N["C32"] = "get/set/NX/increment/listing proved for all buildable tables; the count only for tables built by set; HDEL's report and the count after delete/increment are wrong (violation theorem)."
N["C33"] = "Every sorted-set reply fits the list specification; all views show the same ascending duplicate-free entries, for every history and random heights, unless the sorted set is damaged (NaN score, ZREM beyond position 2, ZPOPMAX of more than 2). No condition for ZADD/ZPOPMIN histories. Independence of insertion order proved."
N["C34"] = "Proved for keys used with ZADD, ZINCR, ZREM (undamaged); popped members keep their score (C40_zpopmin_violated)."
N["C35"] = "Proved for every undamaged sorted set; nil for non-members if nothing was popped."
N["C36"] = "ZRANGE proved for all start/stop; ZREVRANGE lists the reversed ascending window, right for 0 -1, wrong otherwise (violation theorem)."
N["C37"] = "Proved for the intervals described by Easy; wrong otherwise (violation theorem)."
N["C38"] = "Proved for the intervals described by Easy with a member not above the interval; wrong otherwise (violation theorem)."
N["C39"] = "Proved for members at the first two positions; wrong beyond (violation theorem)."
N["C40"] = "ZPOPMIN reply and remaining entries proved; popped members keep their score (violation). ZPOPMAX proved for at most 2 members; wrong beyond (violation)."
N["C41"] = "Proved for never-popped keys, every flag combination and argument list; ZINCR of existing members proved."
N["C42"] = "C42_other_replies, C42_other_crashes: commands that are not sorted-set commands never depend on the heights, after any history. Sorted-set replies: proved for histories (of all commands mixed) whose sorted-set requests keep away from damaged sets and ambiguous excluded bounds (Settled); false in full (violation theorem)."
N["C19"] = "No crash proved, on every reachable store: for every command outside KEYS, the list commands and the sorted-set commands; for the list commands in histories without LREM (exact crash condition in every history: C59_crash, C59_safe); for all sorted-set commands except the range readers, also on damaged sorted sets, as long as no member is drawn the greatest height; for the range readers on sorted sets that are not damaged. Crashes exist for the remaining cases (violation theorems)."
N["C50"] = "Every executed request is answered by the wire form of its answer; only MGET of a wrong-type key is not answered (violation theorem)."
S["C43"] = "proved"
S["C44"] = "proved"
N["C43"] = "Every schedule of the goroutines, one worker (as in the code): linearizable history, ending in the server's store."
N["C44"] = "At most once, own request, own reply, for every schedule; a timed-out request may take effect (witness)."
N["C45"] = "At most one accepted request is lost, and none if Stop finds the channel empty; false in full: handler panic and lost request (violation theorems)."
N["C46"] = "Proved for clients with one outstanding request; false for pipelining (violation theorem)."
N["C47"] = "Handled requests are a prefix in order; at most one lost; false in full: crash, loss and goroutine leak (violation theorems). The C47_v1_ theorems say the same of a connection of the whole v1 server, with its buffer, its other connections and every schedule."
N["C49"] = "Logged before execution proved for every schedule; replay proved for non-overlapping requests; false when requests overlap (violation theorem)."
N["C48"] = "Generator proved for every source text whose command functions have a blank line or a naming comment above them; committed tables and dispatch proved for the sources of godis; false for other sources (violation theorems)."
N["C51"] = "Proved for every ordinary source path; false for other paths: input overwritten, wrong directory (violation theorems)."
S["C52"] = "proved"
S["C53"] = "proved"
N["C52"] = "Step bound, absence of deadlock without timeouts, return of Stop, and reachability of rest, for every schedule and any positive number of workers. Goroutine scheduling is fair only in that an enabled step is eventually taken."
N["C53"] = "Links of every reachable list and of every level of every reachable skip list are acyclic (also when damaged), so the fuel of the model's loops is never exhausted. Loops over an explicit count (pops) are bounded by that count."
N["C54"] = "C54_unambiguous, C54_log_reads_back, C54_crash_point hold for every schedule of well-formed requests. Replaying gives a store the server had only for requests that do not overlap (C54_recovery_partial; for overlapping ones see C49_order_violated). The server's own decoder invents a request when it reads a log cut off inside a bulk (C54_own_decoder_violated)."
N["C55"] = "Cause, cleanness, bound and coming to rest hold for every run; that a signal ends the process is proved if no signal arrives before the server has begun to serve (C55_signal_exits_partial); an earlier one is lost and the process cannot be stopped by signals any more (C55_early_signal_violated). gnet.Serve/Stop are assumptions stated in Model/Main.lean."
N["C20"] += " See C20_lrem_violated."
N["C33"] += " See C33_twice_violated."
N["C34"] += " See C34_popped_violated."
N["C35"] += " See C35_violated."
N["C41"] += " See C41_popped_violated."
N["C56"] = "Proved for every schedule of the normal build (C56_exclusive, C56_undisturbed, C56_only_commands_write); false in debug builds, where insertPreData runs commands outside the event pool without waiting for them (C56_debug_overlap_violated, C56_debug_client_violated)."
N["C54"] += " The log is standard output, where ZCOUNT and ZRANGE BYSCORE also print: read back and crash points are proved for that, too, skipping such lines (C54_stdout_reads_back, C54_stdout_crash_point); as a plain log it cannot be read (C54_noise_violated)."

S["C57"] = "proved"
N["C57"] = "For every history of requests with ASCII command names, no restriction to regular requests: replies against SharedSpec (C57_sets), membership and SCARD, one-source S*STORE makes two names of one set, two or more sources make a copy, SMOVE."
S["C58"] = "proved"
N["C58"] = "Per request in terms of SharedSpec.Same; along histories in terms of the requests only (Connected)."
S["C59"] = "proved"
N["C59"] = "Against RowSpec: reply or crash of every list request after every history with ASCII command names (C59_lists, C59_crash as iff), only LREM, LINDEX and LSET can crash (C59_safe), agreement with the sequence specification of C20 (C59_agrees)."
S["C60"] = "proved"
N["C60"] = "For arbitrary bytes in arbitrary segments: what is taken is what the decoder finds on the connection, in order (C60_stream), executed and answered in this order (C60_in_order); for requests of which no data is cut these are the requests sent (C60_pipelined); if data is cut they need not be (C60_cut_violated, the subject of C64); linearizability over all connections (C60_linearizable)."
N["C61"] = "Proved if Stop is called after Start has set the listener, up to panics of the process (C61_rest_partial, C61_rest_exact_partial, C61_comes_to_rest, C61_bounded); false otherwise: nil cancel function, ineffective early Stop, request in flight at Stop (violation theorems)."
N["C62"] = "The causes of every panic that ends the process (C62_causes_partial); the claim itself is false: from every state in which the server serves, a peer can end it by disconnecting or by a bad header; also by an unencodable reply (violation theorems)."
N["C18"] += " The exact frame for every history, including shared sets, is C58."
N["C25"] += " All histories, including shared sets: C57."
N["C26"] += " All histories, including shared sets: C57."
N["C28"] += " All histories, and exactly what one source does: C57."
N["C30"] += " All histories, including shared sets: C57."

S["C63"] = "proved"
N["C63"] = "Exact for every byte string: read, refused or crash (Spec/Grammar). Stack overflow by nesting of millions of levels is not modelled."
N["C64"] = "v2: a whole frame proved (C64_whole_partial); a request of which the end is missing: exactly when it is dropped (C64_early_cut) and what is executed otherwise (C64_late_cut). v1: proved as long as no data is cut by the end of a segment or of the 4096-byte buffer (C64_v1_whole_units_partial, C64_v1_uncut_partial). False otherwise: zero bytes in place of what arrives later, values executed as requests, v1 values beyond the 4096-byte buffer (violation theorems)."

S["C65"] = "proved"
N["C65"] = "Against Spec/Reference (all 63 commands in one state machine), for every history and every next request of together fewer than 2^60 words (C65_history, C65_outcome), and when no panic is possible (C65_no_crash). The description is loose where the server is erratic: it allows any reply about a sorted set that is damaged (C33, C39), any of several positions for an excluded bound, and any further entries in ZPOPMAX of more than one of more than two."
S["C67"] = "proved"
N["C67"] = "C67_history: every history is explained by the score tables of Spec/Scores.lean (for all commands, damaged sets included). C67_last_report and C67_removed: what a client can conclude from one earlier reply. Deviations that are part of the specification: ZPOPMIN/ZPOPMAX keep the score of a popped member, and the number of entries may be larger than the replies of ZREM suggest (a removal beyond the second position is lost)."
S["C66"] = "proved"
N["C66"] = "For every run of either server that received fewer than 2^60 bytes (C66_linearizable, C66_v1_linearizable), with the description of C65."

N["C68"] = "C68_alone_partial and C68_same_values_partial: replies and values are those of a server of their own. C68_interleavings_partial: the histories are exactly the interleavings (both directions). C68_swap_partial: neighbouring requests of the two groups commute. C68_schedules_partial / C68_v1_schedules_partial: under every schedule of the whole server. What is missing: LINDEX also looks at the key whose name is its index argument, so for LINDEX that text counts as a key (C68_lindex_violated shows that the full statement is false of the code). The server of their own starts with its own random numbers (the levels of sorted set nodes are drawn from one shared generator)."

N["C14"] += " What the exceptions do, in every state: C14_hgetall_exactly, C14_zpop_exactly, C14_lindex_exactly, C27_one_key_exactly."
N["C15"] += " Exactly what MSET does with any number of arguments: C15_mset_exactly."
N["C27"] += " What happens then: C27_one_key_exactly, C27_empty_key_exactly."
N["C29"] += " What happens without a count, in every state: C29_no_count_exactly."
N["C30"] += " What happens then, in every state: C30_lost_exactly."
N["C37"] += " C37_zcount_exactly: on ordinary intervals the reply is right if and only if the interval is Easy."
N["C38"] += " C38_zrangebyscore_exactly: the listing is right if and only if that is so."

N["C69"] = "C69_key_names_partial: a history can happen exactly when the renamed history can (both directions), with the same replies and the same values; C69_crash_partial: crashes; C69_keys_partial: KEYS. What is missing: LINDEX, which takes its index argument for a key (C69_lindex_violated shows that the full statement is false of the code)."
N["C70"] = "Both directions, the very same final state and the reply, in every state: C70_lpush, C70_rpush, C70_sadd, C70_zadd (numeric scores, with flags), C70_mset, C70_mget, C70_lpop, C70_rpop; in every reachable state: C70_srem. C70_zrem_partial: unless the first part of the request empties the sorted set. What is missing: the code looks only at the first key of DEL and EXISTS (C70_first_key_only says exactly that), and ZREM counts popped members; C70_violated shows that the full statement is false of the code."

S["C71"] = "proved"
N["C71"] = "C71_surplus: for the 44 commands with a fixed number of parameters; equality of the complete outcome (state, reply, panic). The commands that take any number of items or options are the subject of C70."

N["C72"] = "C72_retry: SET, MSET, DEL, LSET, SADD, SREM, ZREM and the hash commands, with any arguments, in every reachable state, the very same state; C72_retries: any number of times, reads included. C72_zadd: different members, one pair or all pairs counted. What is missing: SMOVE between two keys that share one set (C72_smove states when it is harmless, C72_violated shows that the full statement is false of the code), and ZADD with several pairs of which some were refused."

N["C73"] = "About what all clients see at their sockets, for every schedule, both servers (v1 by the same run). C73_unique_numbers, C73_one_winner, C73_queue_once (as multisets), C73_queue_fifo, C73_queue_kept. Missing: an item may be taken by an LPOP that is answered 'context deadline exceeded' (C73_timeout_violated), and SET ignores NX (C73_lock_violated): the full statement is false of the code. The numbers are unique for fewer than 2^63 events."

S["C74"] = "proved"
N["C74"] = "About what all clients see at their sockets, for every schedule, both servers. C74_register, C74_read_your_writes, C74_no_step_back, C74_counter. DEL with several keys removes the first one only (C70), which is what the specification says too."

N["C75"] = "C75_same_contents and C75_same_future, for every request that the contents decide (Decided in Spec/Contents.lean). What is missing is where the code makes replies depend on more than the contents: a sorted set that is or gets damaged by a removal (C42_heights_violated: the same requests, other random heights, other replies), and score intervals with an excluded bound that several entries have. SPOP has a choice by design."
N["C76"] = "C76_no_trace, C76_scratch, C76_nobody_can_tell; for every request of every command. What is missing: SDIFFSTORE, SINTERSTORE, SUNIONSTORE with one source make the key another name of the source, so the source counts as changed (C76_alias_violated shows that the full statement is false of the code)."
N["C77"] = "C77_lpush_lpop, C77_rpush_rpop (lists in good order), C77_incrby_decrby, C77_sadd_srem, C77_counters_commute, C77_sadd_commute: after every history. What is missing: keys that are absent at first, because an emptied list or set stays (C77_absent_violated), and lists that LREM has emptied (C77_lrem_violated): the full statement is false of the code."

N["C78"] = "C78_texts after every history; C78_clients and C78_v1_clients for what clients see at their sockets under every schedule. What is missing: the empty text in replies of list and sorted-set commands (Source allows it), because the code does answer with texts nobody sent there: C78_empty_violated. 'context deadline exceeded' is not counted as a reply (Got)."

N["C79"] = "C79_not_early, C79_in_time (for any number of workers), C79_no_deadline_before. The last sentence of the property is false of the code: the deadline is not looked at while a request waits for a place in the channel (C79_late_violated: a request is answered after 23 seconds although the server is never idle for more than a second), and every refused request is executed (C79_refused_executed). How long after ten seconds the timer fires is left to the scheduler; v1 server: not timed."

S["C80"] = "proved"
N["C80"] = "C80_kind after every history, C80_clients and C80_v1_clients at the sockets under every schedule; the table is Kind in Spec/Kinds.lean and kind_no_error says that no kind is an error. The table is that of this server; C80_redis_violated shows where it differs from the Redis documentation (LPOP without a count, ZRANGE of an absent key, ZINCR by 0, HGETALL of a string)."
S["C81"] = "proved"
N["C81"] = "About what all clients see at their sockets, for every schedule, both servers: C81_member (SADD, SREM, DEL), C81_snapshots (SADD only), C81_log (RPUSH only) and from it C81_place and C81_agree. Spec/Snapshots.lean says what is heard. SMEMBERS of an absent or emptied set is the error 'redis: not found' (C25), which HearsSet counts as the answer for the empty set. SPOP and SMOVE are left out of the agreement: they leave the recorded size wrong (C25, C29)."
S["C82"] = "proved"
N["C82"] = "About what all clients see at their sockets, for every schedule, both servers: C82_rows and from it C82_whole. The group is a list of different keys, written in the agreed order (Together in Spec/Together.lean)."
N["C83"] = "C83_no_crash, C83_verdict, C83_origin for every interleaving. C83_atomic_partial (linearizability with the atomic object of Spec/Config.lean) and C83_never_zero_partial hold if no document handed in leaves the timeout open, or no InitConfig overlaps a GetDefaultTimeout. What is missing is false of the code: a document without a timeout, handed in while GetDefaultTimeout runs, can make it answer 0 (C83_zero_violated). The server does not call the package yet."
S["C84"] = "proved"
N["C84"] = "About what all clients see at their sockets, for every schedule, both servers: C84_board and from it C84_own_score. Spec/Board.lean says what is heard. The reply to ZRANGE of an absent key is nil (C36), a ZADD of a numerically equal score keeps the old one (+0 and -0)."
S["C85"] = "proved"
N["C85"] = "C85_exactly and C85_stays after every history; C85_clients and C85_one_type (and _v1_) for what clients see at their sockets under every schedule. Which commands create, store, replace is the table of Spec/Types.lean. Commands that do not refuse a value of another type (C14_violated) are excepted from the last sentence (lenient)."
S["C86"] = "proved"
N["C86"] = "About what all clients see at their sockets, for every schedule, both servers: C86_exclusion, C86_sections, C86_read, C86_no_lost_update (and _v1_). A request that timed out counts as not answered (no holder, and a holder whose guarded request timed out must not give the lock back: Within in Spec/Locks.lean). Fewer than 2^63 socket events: after that many INCRs the counter wraps."
S["C87"] = "proved"
N["C87"] = "C87_answered and C87_in_time under the load bound of C79 (v2 server, one worker as in the code); C87_accounted and C87_seen (and _v1_) whenever the requests have been answered, without clocks. A crash of the process and a refusal by the goroutine pool are hypotheses, stated as such. Spec/Account.lean says what accounted for means."
S["C88"] = "proved"
N["C88"] = "About what all clients see at their sockets, for every schedule, both servers: C88_in_line (one order that explains every answer: Spec/Totals.lean, InLine), C88_total and C88_total_seen, C88_in_time (load bound of C79/C87, v2), C88_item, C88_sale, C88_sale_exact (and _v1_). Sums are 64-bit integers that wrap around (C09)."
S["C89"] = "proved"
N["C89"] = "C89_words (all replies without nil), C89_request, C89_list_as_request, C89_served (every schedule of the v2 server). Nil is excepted in the statement; C89_nil_violated shows why (the decoder takes it for the announcement of 2531 bytes). C89_flag_violated: a request built without the array flag, as in e2e/e2e_test.go, carries only its first word."
S["C90"] = "proved"
N["C90"] = "About what all clients see at their sockets, for every schedule, both servers: C90_one_order, C90_no_circle, C90_register, C90_fresh. The ways in which clients learn are Spec/Causal.lean; a register is a key used only with SET, DEL and reads, a queue one used only with RPUSH, LPOP and reads, a log one used only with RPUSH and reads. A GET that was answered that the server gave up returned nothing."

S["C91"]="proved"
N["C91"]="v2 server, any number of workers. C91_noise: a visible history is possible exactly if its noise (Grammar.Faults, the exact grammar of C63) is unanswered and the rest is possible, with the same log, store and crash. noise_no_line, noise_other, noise_panic: what is noise, in terms of bytes. In v1 a bad header ends the process (C62_bad_header_violated)."

S["C92"]="proved"
N["C92"]="v2 server, any number of workers: C92_wires, C92_possible (equivalence), C92_wired (what is possible is answered where it was sent), C92_one_wire. In v1 the requests of one connection are decoded by one reader one after another, so the connection matters there."
S["C93"]="proved"
N["C93"]="C93_delays for any number of workers; C93_linearizable for the one worker the server starts; v1 by projection to runs of the event model with one worker (C93_v1_delays, C93_v1_linearizable)."
S["C94"]="proved"
N["C94"]="One worker, as the server starts. The log without the readers is a sublist of the log with them. C94_calm: the same end, too, if no removed request is one of nine reading commands that can crash the server (KEYS, LRANGE, LINDEX, ZSCORE, ZRANK, ZCOUNT, ZRANGE, ZRANGEBYSCORE, ZREVRANGE). C94_linearizable: the other requests are linearizable by themselves. v1 by projection (C94_v1_readers)."
N["C91"]+=" v1 by projection: C91_v1_mute, C91_v1_removed."
N["C92"]+=" C92_v1_wired: there, too, the answer goes where the request came from."
