{
 "claims": [
  {
   "property": "C01",
   "status": "proved",
   "theorems": [
    "Godis.C01_reply_framing",
    "Godis.C01_constructors",
    "Godis.C01_two_replies"
   ],
   "note": ""
  },
  {
   "property": "C02",
   "status": "proved",
   "theorems": [
    "Godis.C02_binary_safe",
    "Godis.C02_unambiguous"
   ],
   "note": ""
  },
  {
   "property": "C03",
   "status": "partial",
   "theorems": [
    "Godis.C03_original_text_partial",
    "Godis.C03_any_input_partial",
    "Godis.C03_inline_ping_violated",
    "Godis.C03_nested_violated"
   ],
   "note": "Proved for every input without nested arrays and inline pings; false for those (violation theorems)."
  },
  {
   "property": "C04",
   "status": "partial",
   "theorems": [
    "Godis.C04_no_crash_partial",
    "Godis.C04_terminates",
    "Godis.C04_short_line_refused",
    "Godis.C04_hypothesis_met",
    "Godis.C04_missing_cr_violated",
    "Godis.C04_huge_length_violated"
   ],
   "note": "Termination proved; no-crash proved for well-terminated input with sane lengths; a missing CR or a huge length crashes (violation theorems). The exact crash condition for every input is C63_crash."
  },
  {
   "property": "C05",
   "status": "partial",
   "theorems": [
    "Godis.C05_pieces_partial",
    "Godis.C05_rest_suffix",
    "Godis.C05_truncated_violated",
    "Godis.C05_negative_violated"
   ],
   "note": "Every argument is a piece of the input followed by zero bytes, and without them if input is left over; false for truncated or negative lengths (violation theorems). Exactly what is read from every input: C63."
  },
  {
   "property": "C06",
   "status": "partial",
   "theorems": [
    "Godis.C06_first_request_partial",
    "Godis.C06_pipeline_violated"
   ],
   "note": "The full claim is false: only the first request of a frame is executed (violation theorem). Proved: the first request is."
  },
  {
   "property": "C07",
   "status": "proved",
   "theorems": [
    "Godis.C07_sharded_map_is_map",
    "Godis.C07_other_keys"
   ],
   "note": ""
  },
  {
   "property": "C08",
   "status": "proved",
   "theorems": [
    "Godis.C08_get_returns_last_write"
   ],
   "note": ""
  },
  {
   "property": "C09",
   "status": "partial",
   "theorems": [
    "Godis.C09_counter_partial",
    "Godis.C09_refused",
    "Godis.C09_overflow_violated"
   ],
   "note": "Arithmetic proved modulo 2^64; overflow is not refused (violation theorem)."
  },
  {
   "property": "C10",
   "status": "proved",
   "theorems": [
    "Godis.C10_no_lost_update",
    "Godis.C10_order_independent"
   ],
   "note": ""
  },
  {
   "property": "C11",
   "status": "proved",
   "theorems": [
    "Godis.C11_append",
    "Godis.C11_append_refused"
   ],
   "note": ""
  },
  {
   "property": "C12",
   "status": "partial",
   "theorems": [
    "Godis.C12_exists_del",
    "Godis.C12_type",
    "Godis.C12_type_violated"
   ],
   "note": "EXISTS/DEL proved; TYPE agrees with the accepted command family but its name for sets is wrong (violation theorem)."
  },
  {
   "property": "C13",
   "status": "proved",
   "theorems": [
    "Godis.C13_keys"
   ],
   "note": ""
  },
  {
   "property": "C14",
   "status": "partial",
   "theorems": [
    "Godis.C14_hgetall_exactly",
    "Godis.C14_zpop_exactly",
    "Godis.C14_lindex_exactly",
    "Godis.C14_wrong_type_partial",
    "Godis.C14_violated"
   ],
   "note": "Proved for all typed commands except HGETALL, ZPOPMIN, ZPOPMAX, LINDEX, one-key S*; false in full (violation theorem). What the exceptions do, in every state: C14_hgetall_exactly, C14_zpop_exactly, C14_lindex_exactly, C27_one_key_exactly."
  },
  {
   "property": "C15",
   "status": "partial",
   "theorems": [
    "Godis.C15_mset_exactly",
    "Godis.C15_unknown",
    "Godis.C15_arity_partial",
    "Godis.C15_mset_violated"
   ],
   "note": "Unknown names and missing arguments proved; MSET accepts missing arguments (violation theorem). Exactly what MSET does with any number of arguments: C15_mset_exactly."
  },
  {
   "property": "C16",
   "status": "proved",
   "theorems": [
    "Godis.C16_case_insensitive"
   ],
   "note": ""
  },
  {
   "property": "C17",
   "status": "proved",
   "theorems": [
    "Godis.C17_reads_change_nothing"
   ],
   "note": ""
  },
  {
   "property": "C18",
   "status": "partial",
   "theorems": [
    "Godis.C18_frame_partial",
    "Godis.C18_value_is_all_that_is_seen",
    "Godis.C18_shared_set_violated"
   ],
   "note": "Proved for servers that never ran S*STORE with exactly one source; false in full (violation theorem). The exact frame for every history, including shared sets, is C58."
  },
  {
   "property": "C19",
   "status": "partial",
   "theorems": [
    "Godis.C19_safe_commands_partial",
    "Godis.C19_keys_partial",
    "Godis.C19_lists_partial",
    "Godis.C19_zset_readers_partial",
    "Godis.C19_zset_commands_partial",
    "Godis.C19_keys_violated",
    "Godis.C19_lrem_violated",
    "Godis.C19_zrem_violated",
    "Godis.C19_height_violated"
   ],
   "note": "No crash proved, on every reachable store: for every command outside KEYS, the list commands and the sorted-set commands; for the list commands in histories without LREM (exact crash condition in every history: C59_crash, C59_safe); for all sorted-set commands except the range readers, also on damaged sorted sets, as long as no member is drawn the greatest height; for the range readers on sorted sets that are not damaged. Crashes exist for the remaining cases (violation theorems)."
  },
  {
   "property": "C20",
   "status": "partial",
   "theorems": [
    "Godis.C20_lists_partial",
    "Godis.C20_sequence_partial",
    "Godis.C20_lrem_violated"
   ],
   "note": "All list commands (except LINDEX) answer exactly as the sequence specification, for every history; the specification needs the extra states hollow/lost because of the LREM defect. See C20_lrem_violated."
  },
  {
   "property": "C21",
   "status": "proved",
   "theorems": [
    "Godis.C21_fifo",
    "Godis.C21_conservation",
    "Godis.C21_lifo"
   ],
   "note": ""
  },
  {
   "property": "C22",
   "status": "proved",
   "theorems": [
    "Godis.C22_lrange"
   ],
   "note": ""
  },
  {
   "property": "C23",
   "status": "partial",
   "theorems": [
    "Godis.C23_lrem_partial",
    "Godis.C23_lrem_violated"
   ],
   "note": "Reply and remaining sequence proved; 'remains usable' is false once LREM empties the list (violation theorem)."
  },
  {
   "property": "C24",
   "status": "partial",
   "theorems": [
    "Godis.C24_lset",
    "Godis.C24_linsert",
    "Godis.C24_lindex_actual_partial",
    "Godis.C24_lindex_violated"
   ],
   "note": "LSET and LINSERT proved; LINDEX reads the list stored under the index text (violation theorem and exact behaviour)."
  },
  {
   "property": "C25",
   "status": "partial",
   "theorems": [
    "Godis.C25_sets_partial",
    "Godis.C25_membership_partial",
    "Godis.C25_sadd",
    "Godis.C25_srem",
    "Godis.C25_smembers_partial",
    "Godis.C25_smembers_violated"
   ],
   "note": "All set commands answer exactly as the set specification, for every history of regular requests (all but S*STORE with one source); SADD/SREM proved for every reachable store; SMEMBERS of an empty set replies an error (violation theorem). All histories, including shared sets: C57."
  },
  {
   "property": "C26",
   "status": "partial",
   "theorems": [
    "Godis.C26_scard_partial",
    "Godis.C26_scard_excess_partial",
    "Godis.C26_violated"
   ],
   "note": "SCARD proved for keys never popped or moved from, and never too small otherwise; false in full (violation theorem). All histories, including shared sets: C57."
  },
  {
   "property": "C27",
   "status": "partial",
   "theorems": [
    "Godis.C27_one_key_exactly",
    "Godis.C27_empty_key_exactly",
    "Godis.C27_setops_partial",
    "Godis.C27_combine_mem",
    "Godis.C27_violated"
   ],
   "note": "Proved for two or more keys that all hold non-empty sets, on every reachable store; false for one key or an absent key (violation theorem). What happens then: C27_one_key_exactly, C27_empty_key_exactly."
  },
  {
   "property": "C28",
   "status": "partial",
   "theorems": [
    "Godis.C28_store_partial",
    "Godis.C28_alias_violated"
   ],
   "note": "Proved for two or more non-empty sources; with one source the destination aliases the source (violation theorem). All histories, and exactly what one source does: C57."
  },
  {
   "property": "C29",
   "status": "partial",
   "theorems": [
    "Godis.C29_no_count_exactly",
    "Godis.C29_spop",
    "Godis.C29_spop_violated"
   ],
   "note": "Proved with a count, on every reachable store; without a count nothing is popped (violation theorem). What happens without a count, in every state: C29_no_count_exactly."
  },
  {
   "property": "C30",
   "status": "partial",
   "theorems": [
    "Godis.C30_lost_exactly",
    "Godis.C30_smove_partial",
    "Godis.C30_violated"
   ],
   "note": "Proved if the destination holds a set or nothing; if it holds another type the member is lost (violation theorem). All histories, including shared sets: C57. What happens then, in every state: C30_lost_exactly."
  },
  {
   "property": "C31",
   "status": "partial",
   "theorems": [
    "Godis.C31_hash_partial",
    "Godis.C31_violated"
   ],
   "note": "False for every key (violation theorem: HSET never stores). Proved: exact replies of all hash commands on every reachable store."
  },
  {
   "property": "C32",
   "status": "partial",
   "theorems": [
    "Godis.C32_set_del",
    "Godis.C32_incr",
    "Godis.C32_count_partial",
    "Godis.C32_keys",
    "Godis.C32_violated"
   ],
   "note": "get/set/NX/increment/listing proved for all buildable tables; the count only for tables built by set; HDEL's report and the count after delete/increment are wrong (violation theorem)."
  },
  {
   "property": "C33",
   "status": "partial",
   "theorems": [
    "Godis.C33_score_order",
    "Godis.C33_numeric",
    "Godis.C33_replies_partial",
    "Godis.C33_sorted_partial",
    "Godis.C33_sorted_calm",
    "Godis.C33_order_free_partial",
    "Godis.C33_twice_violated"
   ],
   "note": "Every sorted-set reply fits the list specification; all views show the same ascending duplicate-free entries, for every history and random heights, unless the sorted set is damaged (NaN score, ZREM beyond position 2, ZPOPMAX of more than 2). No condition for ZADD/ZPOPMIN histories. Independence of insertion order proved. See C33_twice_violated."
  },
  {
   "property": "C34",
   "status": "partial",
   "theorems": [
    "Godis.C34_zscore_partial",
    "Godis.C34_popped_violated"
   ],
   "note": "Proved for keys used with ZADD, ZINCR, ZREM (undamaged); popped members keep their score (C40_zpopmin_violated). See C34_popped_violated."
  },
  {
   "property": "C35",
   "status": "partial",
   "theorems": [
    "Godis.C35_zrank_partial",
    "Godis.C35_absent_partial",
    "Godis.C35_violated"
   ],
   "note": "Proved for every undamaged sorted set; nil for non-members if nothing was popped. See C35_violated."
  },
  {
   "property": "C36",
   "status": "partial",
   "theorems": [
    "Godis.C36_zrange_partial",
    "Godis.C36_zrevrange_partial",
    "Godis.C36_zrevrange_all",
    "Godis.C36_zrevrange_violated"
   ],
   "note": "ZRANGE proved for all start/stop; ZREVRANGE lists the reversed ascending window, right for 0 -1, wrong otherwise (violation theorem)."
  },
  {
   "property": "C37",
   "status": "partial",
   "theorems": [
    "Godis.C37_zcount_exactly",
    "Godis.C37_zcount_partial",
    "Godis.C37_zcount_violated"
   ],
   "note": "Proved for the intervals described by Easy; wrong otherwise (violation theorem). C37_zcount_exactly: on ordinary intervals the reply is right if and only if the interval is Easy."
  },
  {
   "property": "C38",
   "status": "partial",
   "theorems": [
    "Godis.C38_zrangebyscore_exactly",
    "Godis.C38_zrangebyscore_partial",
    "Godis.C38_zrangebyscore_violated"
   ],
   "note": "Proved for the intervals described by Easy with a member not above the interval; wrong otherwise (violation theorem). C38_zrangebyscore_exactly: the listing is right if and only if that is so."
  },
  {
   "property": "C39",
   "status": "partial",
   "theorems": [
    "Godis.C39_zrem_partial",
    "Godis.C39_zrem_violated"
   ],
   "note": "Proved for members at the first two positions; wrong beyond (violation theorem)."
  },
  {
   "property": "C40",
   "status": "partial",
   "theorems": [
    "Godis.C40_zpopmax_padding_violated",
    "Godis.C40_zpopmin_partial",
    "Godis.C40_zpopmax_partial",
    "Godis.C40_zpopmax_reply_partial",
    "Godis.C40_zpopmin_violated",
    "Godis.C40_zpopmax_violated"
   ],
   "note": "ZPOPMIN reply and remaining entries proved; popped members keep their score (violation). ZPOPMAX proved for at most 2 members; wrong beyond (violation)."
  },
  {
   "property": "C41",
   "status": "partial",
   "theorems": [
    "Godis.C41_zadd_partial",
    "Godis.C41_nx_partial",
    "Godis.C41_xx_partial",
    "Godis.C41_zincr_partial",
    "Godis.C41_popped_violated"
   ],
   "note": "Proved for never-popped keys, every flag combination and argument list; ZINCR of existing members proved. See C41_popped_violated."
  },
  {
   "property": "C42",
   "status": "partial",
   "theorems": [
    "Godis.C42_other_replies",
    "Godis.C42_other_crashes",
    "Godis.C42_mixed_partial",
    "Godis.C42_heights_unobservable_partial",
    "Godis.C42_heights_violated"
   ],
   "note": "C42_other_replies, C42_other_crashes: commands that are not sorted-set commands never depend on the heights, after any history. Sorted-set replies: proved for histories (of all commands mixed) whose sorted-set requests keep away from damaged sets and ambiguous excluded bounds (Settled); false in full (violation theorem)."
  },
  {
   "property": "C43",
   "status": "proved",
   "theorems": [
    "Godis.Event.C43_linearizable",
    "Godis.Event.C43_store_reachable"
   ],
   "note": "Every schedule of the goroutines, one worker (as in the code): linearizable history, ending in the server's store."
  },
  {
   "property": "C44",
   "status": "proved",
   "theorems": [
    "Godis.Event.C44_at_most_once",
    "Godis.Event.C44_own_reply",
    "Godis.Event.C44_own_request",
    "Godis.Event.C44_timeout_takes_effect",
    "Godis.Event.C44_sent"
   ],
   "note": "At most once, own request, own reply, for every schedule; a timed-out request may take effect (witness)."
  },
  {
   "property": "C45",
   "status": "partial",
   "theorems": [
    "Godis.Main.C45_exit_violated",
    "Godis.Event.C45_at_most_one_lost_partial",
    "Godis.Event.C45_nothing_after_stop",
    "Godis.Event.C45_quiet_stop_partial",
    "Godis.Event.C45_handler_crash_violated",
    "Godis.Event.C45_accepted_lost_violated"
   ],
   "note": "At most one accepted request is lost, and none if Stop finds the channel empty; false in full: handler panic and lost request (violation theorems)."
  },
  {
   "property": "C46",
   "status": "partial",
   "theorems": [
    "Godis.Event.C46_in_order_partial",
    "Godis.Event.C46_stream_partial",
    "Godis.Event.C46_swapped_violated"
   ],
   "note": "Proved for clients with one outstanding request; false for pipelining (violation theorem)."
  },
  {
   "property": "C47",
   "status": "partial",
   "theorems": [
    "Godis.V1.C47_v1_lost_at_most_one_partial",
    "Godis.V1.C47_v1_crash_only_at_end_partial",
    "Godis.V1.C47_v1_lost_violated",
    "Godis.ConnV1.C47_prefix_partial",
    "Godis.ConnV1.C47_lost_at_most_one_partial",
    "Godis.ConnV1.C47_crash_only_at_end_partial",
    "Godis.ConnV1.C47_crash_violated",
    "Godis.ConnV1.C47_lost_violated",
    "Godis.ConnV1.C47_leak_violated"
   ],
   "note": "Handled requests are a prefix in order; at most one lost; false in full: crash, loss and goroutine leak (violation theorems). The C47_v1_ theorems say the same of a connection of the whole v1 server, with its buffer, its other connections and every schedule."
  },
  {
   "property": "C48",
   "status": "partial",
   "theorems": [
    "Godis.Gen.C48_generator_partial",
    "Godis.Gen.C48_found",
    "Godis.Gen.C48_all_registered",
    "Godis.Gen.C48_code_above_violated",
    "Godis.Gen.C48_prose_violated",
    "Godis.Gen.C48_long_line_violated",
    "Godis.Gen.C48_committed",
    "Godis.Gen.C48_entries",
    "Godis.Gen.C48_unique",
    "Godis.Gen.C48_dispatch_table",
    "Godis.Gen.C48_dispatch",
    "Godis.Gen.C48_unregistered",
    "Godis.Gen.C48_complete"
   ],
   "note": "Generator proved for every source text whose command functions have a blank line or a naming comment above them; committed tables and dispatch proved for the sources of godis; false for other sources (violation theorems)."
  },
  {
   "property": "C49",
   "status": "partial",
   "theorems": [
    "Godis.Event.C49_logged_first",
    "Godis.Event.C49_replay_partial",
    "Godis.Event.C49_order_violated"
   ],
   "note": "Logged before execution proved for every schedule; replay proved for non-overlapping requests; false when requests overlap (violation theorem)."
  },
  {
   "property": "C50",
   "status": "partial",
   "theorems": [
    "Godis.C50_answer_is_written",
    "Godis.C50_bytes_partial",
    "Godis.C50_client_recovers",
    "Godis.C50_mget_violated"
   ],
   "note": "Every executed request is answered by the wire form of its answer; only MGET of a wrong-type key is not answered (violation theorem)."
  },
  {
   "property": "C51",
   "status": "partial",
   "theorems": [
    "Godis.Gen.C51_only_companion_partial",
    "Godis.Gen.C51_missing",
    "Godis.Gen.C51_overwrites_input_violated",
    "Godis.Gen.C51_wrong_directory_violated"
   ],
   "note": "Proved for every ordinary source path; false for other paths: input overwritten, wrong directory (violation theorems)."
  },
  {
   "property": "C52",
   "status": "proved",
   "theorems": [
    "Godis.Event.C52_bounded",
    "Godis.Event.C52_no_deadlock",
    "Godis.Event.C52_stop_returns",
    "Godis.Event.C52_comes_to_rest"
   ],
   "note": "Step bound, absence of deadlock without timeouts, return of Stop, and reachability of rest, for every schedule and any positive number of workers. Goroutine scheduling is fair only in that an enabled step is eventually taken."
  },
  {
   "property": "C53",
   "status": "proved",
   "theorems": [
    "Godis.C53_finishes",
    "Godis.C53_frame_finishes"
   ],
   "note": "Links of every reachable list and of every level of every reachable skip list are acyclic (also when damaged), so the fuel of the model's loops is never exhausted. Loops over an explicit count (pops) are bounded by that count."
  },
  {
   "property": "C54",
   "status": "partial",
   "theorems": [
    "Godis.Event.C54_unambiguous",
    "Godis.Event.C54_log_reads_back",
    "Godis.Event.C54_crash_point",
    "Godis.Event.C54_recovery_partial",
    "Godis.Event.C54_own_decoder_violated",
    "Godis.Event.C54_stdout_reads_back",
    "Godis.Event.C54_stdout_crash_point",
    "Godis.Event.C54_noise_violated"
   ],
   "note": "C54_unambiguous, C54_log_reads_back, C54_crash_point hold for every schedule of well-formed requests. Replaying gives a store the server had only for requests that do not overlap (C54_recovery_partial; for overlapping ones see C49_order_violated). The server's own decoder invents a request when it reads a log cut off inside a bulk (C54_own_decoder_violated). The log is standard output, where ZCOUNT and ZRANGE BYSCORE also print: read back and crash points are proved for that, too, skipping such lines (C54_stdout_reads_back, C54_stdout_crash_point); as a plain log it cannot be read (C54_noise_violated)."
  },
  {
   "property": "C55",
   "status": "partial",
   "theorems": [
    "Godis.Main.C55_exit_cause",
    "Godis.Main.C55_exit_clean",
    "Godis.Main.C55_bounded",
    "Godis.Main.C55_signal_exits_partial",
    "Godis.Main.C55_comes_to_rest",
    "Godis.Main.C55_early_signal_violated"
   ],
   "note": "Cause, cleanness, bound and coming to rest hold for every run; that a signal ends the process is proved if no signal arrives before the server has begun to serve (C55_signal_exits_partial); an earlier one is lost and the process cannot be stopped by signals any more (C55_early_signal_violated). gnet.Serve/Stop are assumptions stated in Model/Main.lean."
  },
  {
   "property": "C56",
   "status": "partial",
   "theorems": [
    "Godis.Event.C56_only_commands_write",
    "Godis.Event.C56_exclusive",
    "Godis.Event.C56_undisturbed",
    "Godis.Debug.C56_debug_overlap_violated",
    "Godis.Debug.C56_debug_client_violated"
   ],
   "note": "Proved for every schedule of the normal build (C56_exclusive, C56_undisturbed, C56_only_commands_write); false in debug builds, where insertPreData runs commands outside the event pool without waiting for them (C56_debug_overlap_violated, C56_debug_client_violated)."
  },
  {
   "property": "C57",
   "status": "proved",
   "theorems": [
    "Godis.C57_sets",
    "Godis.C57_members",
    "Godis.C57_scard",
    "Godis.C57_one_source",
    "Godis.C57_copy",
    "Godis.C57_smove"
   ],
   "note": "For every history of requests with ASCII command names, no restriction to regular requests: replies against SharedSpec (C57_sets), membership and SCARD, one-source S*STORE makes two names of one set, two or more sources make a copy, SMOVE."
  },
  {
   "property": "C58",
   "status": "proved",
   "theorems": [
    "Godis.C58_request_frame",
    "Godis.C58_frame"
   ],
   "note": "Per request in terms of SharedSpec.Same; along histories in terms of the requests only (Connected)."
  },
  {
   "property": "C59",
   "status": "proved",
   "theorems": [
    "Godis.C59_lists",
    "Godis.C59_crash",
    "Godis.C59_safe",
    "Godis.C59_agrees"
   ],
   "note": "Against RowSpec: reply or crash of every list request after every history with ASCII command names (C59_lists, C59_crash as iff), only LREM, LINDEX and LSET can crash (C59_safe), agreement with the sequence specification of C20 (C59_agrees)."
  },
  {
   "property": "C60",
   "status": "proved",
   "theorems": [
    "Godis.V1.C60_cut_violated",
    "Godis.V1.C60_stream",
    "Godis.V1.C60_in_order",
    "Godis.V1.C60_pipelined",
    "Godis.V1.C60_linearizable"
   ],
   "note": "For arbitrary bytes in arbitrary segments: what is taken is what the decoder finds on the connection, in order (C60_stream), executed and answered in this order (C60_in_order); for requests of which no data is cut these are the requests sent (C60_pipelined); if data is cut they need not be (C60_cut_violated, the subject of C64); linearizability over all connections (C60_linearizable)."
  },
  {
   "property": "C61",
   "status": "partial",
   "theorems": [
    "Godis.V1.C61_start_clean",
    "Godis.V1.C61_counter",
    "Godis.V1.C61_stop_returned",
    "Godis.V1.C61_rest_partial",
    "Godis.V1.C61_rest_exact_partial",
    "Godis.V1.C61_bounded",
    "Godis.V1.C61_comes_to_rest",
    "Godis.V1.C61_nil_cancel",
    "Godis.V1.C61_nil_cancel_violated",
    "Godis.V1.C61_early_stop_violated",
    "Godis.V1.C61_in_flight_violated"
   ],
   "note": "Proved if Stop is called after Start has set the listener, up to panics of the process (C61_rest_partial, C61_rest_exact_partial, C61_comes_to_rest, C61_bounded); false otherwise: nil cancel function, ineffective early Stop, request in flight at Stop (violation theorems)."
  },
  {
   "property": "C62",
   "status": "partial",
   "theorems": [
    "Godis.V1.C62_causes_partial",
    "Godis.V1.C62_disconnect_violated",
    "Godis.V1.C62_bad_header_violated",
    "Godis.V1.C62_reply_violated"
   ],
   "note": "The causes of every panic that ends the process (C62_causes_partial); the claim itself is false: from every state in which the server serves, a peer can end it by disconnecting or by a bad header; also by an unencodable reply (violation theorems)."
  },
  {
   "property": "C63",
   "status": "proved",
   "theorems": [
    "Godis.C63_read",
    "Godis.C63_refused",
    "Godis.C63_crash",
    "Godis.C63_one",
    "Godis.C63_protocol"
   ],
   "note": "Exact for every byte string: read, refused or crash (Spec/Grammar). Stack overflow by nesting of millions of levels is not modelled."
  },
  {
   "property": "C64",
   "status": "partial",
   "theorems": [
    "Godis.C64_more_text",
    "Godis.C64_early_cut",
    "Godis.C64_late_cut",
    "Godis.C64_text_exists",
    "Godis.C64_wrong_value_violated",
    "Godis.C64_value_executed_violated",
    "Godis.C64_whole_partial",
    "Godis.C64_v1_whole_units_partial",
    "Godis.C64_v1_uncut_partial",
    "Godis.C64_v1_one_segment",
    "Godis.C64_v1_large_violated",
    "Godis.C64_v1_cut_violated",
    "Godis.C64_v1_value_executed_violated"
   ],
   "note": "v2: a whole frame proved (C64_whole_partial); a request of which the end is missing: exactly when it is dropped (C64_early_cut) and what is executed otherwise (C64_late_cut). v1: proved as long as no data is cut by the end of a segment or of the 4096-byte buffer (C64_v1_whole_units_partial, C64_v1_uncut_partial). False otherwise: zero bytes in place of what arrives later, values executed as requests, v1 values beyond the 4096-byte buffer (violation theorems)."
  },
  {
   "property": "C65",
   "status": "proved",
   "theorems": [
    "Godis.C65_history",
    "Godis.C65_outcome",
    "Godis.C65_no_crash"
   ],
   "note": "Against Spec/Reference (all 63 commands in one state machine), for every history and every next request of together fewer than 2^60 words (C65_history, C65_outcome), and when no panic is possible (C65_no_crash). The description is loose where the server is erratic: it allows any reply about a sorted set that is damaged (C33, C39), any of several positions for an excluded bound, and any further entries in ZPOPMAX of more than one of more than two."
  },
  {
   "property": "C66",
   "status": "proved",
   "theorems": [
    "Godis.Event.C66_linearizable",
    "Godis.V1.C66_v1_linearizable"
   ],
   "note": "For every run of either server that received fewer than 2^60 bytes (C66_linearizable, C66_v1_linearizable), with the description of C65."
  },
  {
   "property": "C67",
   "status": "proved",
   "theorems": [
    "Godis.C67_history",
    "Godis.C67_last_report",
    "Godis.C67_removed"
   ],
   "note": "C67_history: every history is explained by the score tables of Spec/Scores.lean (for all commands, damaged sets included). C67_last_report and C67_removed: what a client can conclude from one earlier reply. Deviations that are part of the specification: ZPOPMIN/ZPOPMAX keep the score of a popped member, and the number of entries may be larger than the replies of ZREM suggest (a removal beyond the second position is lost)."
  },
  {
   "property": "C68",
   "status": "partial",
   "theorems": [
    "Godis.C68_alone_partial",
    "Godis.C68_same_values_partial",
    "Godis.C68_interleavings_partial",
    "Godis.C68_lindex_violated",
    "Godis.Event.C68_schedules_partial",
    "Godis.C68_swap_partial",
    "Godis.V1.C68_v1_schedules_partial"
   ],
   "note": "C68_alone_partial and C68_same_values_partial: replies and values are those of a server of their own. C68_interleavings_partial: the histories are exactly the interleavings (both directions). C68_swap_partial: neighbouring requests of the two groups commute. C68_schedules_partial / C68_v1_schedules_partial: under every schedule of the whole server. What is missing: LINDEX also looks at the key whose name is its index argument, so for LINDEX that text counts as a key (C68_lindex_violated shows that the full statement is false of the code). The server of their own starts with its own random numbers (the levels of sorted set nodes are drawn from one shared generator)."
  },
  {
   "property": "C69",
   "status": "partial",
   "theorems": [
    "Godis.C69_key_names_partial",
    "Godis.C69_crash_partial",
    "Godis.C69_keys_partial",
    "Godis.C69_lindex_violated"
   ],
   "note": "C69_key_names_partial: a history can happen exactly when the renamed history can (both directions), with the same replies and the same values; C69_crash_partial: crashes; C69_keys_partial: KEYS. What is missing: LINDEX, which takes its index argument for a key (C69_lindex_violated shows that the full statement is false of the code)."
  },
  {
   "property": "C70",
   "status": "partial",
   "theorems": [
    "Godis.C70_lpush",
    "Godis.C70_rpush",
    "Godis.C70_sadd",
    "Godis.C70_srem",
    "Godis.C70_zadd",
    "Godis.C70_zrem_partial",
    "Godis.C70_mset",
    "Godis.C70_mget",
    "Godis.C70_lpop",
    "Godis.C70_rpop",
    "Godis.C70_first_key_only",
    "Godis.C70_violated"
   ],
   "note": "Both directions, the very same final state and the reply, in every state: C70_lpush, C70_rpush, C70_sadd, C70_zadd (numeric scores, with flags), C70_mset, C70_mget, C70_lpop, C70_rpop; in every reachable state: C70_srem. C70_zrem_partial: unless the first part of the request empties the sorted set. What is missing: the code looks only at the first key of DEL and EXISTS (C70_first_key_only says exactly that), and ZREM counts popped members; C70_violated shows that the full statement is false of the code."
  },
  {
   "property": "C71",
   "status": "proved",
   "theorems": [
    "Godis.C71_surplus"
   ],
   "note": "C71_surplus: for the 44 commands with a fixed number of parameters; equality of the complete outcome (state, reply, panic). The commands that take any number of items or options are the subject of C70."
  },
  {
   "property": "C72",
   "status": "partial",
   "theorems": [
    "Godis.C72_retry",
    "Godis.C72_retries",
    "Godis.C72_smove",
    "Godis.C72_zadd",
    "Godis.C72_violated"
   ],
   "note": "C72_retry: SET, MSET, DEL, LSET, SADD, SREM, ZREM and the hash commands, with any arguments, in every reachable state, the very same state; C72_retries: any number of times, reads included. C72_zadd: different members, one pair or all pairs counted. What is missing: SMOVE between two keys that share one set (C72_smove states when it is harmless, C72_violated shows that the full statement is false of the code), and ZADD with several pairs of which some were refused."
  },
  {
   "property": "C73",
   "status": "partial",
   "theorems": [
    "Godis.Event.C73_unique_numbers",
    "Godis.Event.C73_one_winner",
    "Godis.Event.C73_queue_once",
    "Godis.Event.C73_queue_fifo",
    "Godis.Event.C73_queue_kept",
    "Godis.Event.C73_lock_violated",
    "Godis.Event.C73_timeout_violated",
    "Godis.V1.C73_v1_unique_numbers",
    "Godis.V1.C73_v1_one_winner",
    "Godis.V1.C73_v1_queue_once"
   ],
   "note": "About what all clients see at their sockets, for every schedule, both servers (v1 by the same run). C73_unique_numbers, C73_one_winner, C73_queue_once (as multisets), C73_queue_fifo, C73_queue_kept. Missing: an item may be taken by an LPOP that is answered 'context deadline exceeded' (C73_timeout_violated), and SET ignores NX (C73_lock_violated): the full statement is false of the code. The numbers are unique for fewer than 2^63 events."
  },
  {
   "property": "C74",
   "status": "proved",
   "theorems": [
    "Godis.Event.C74_register",
    "Godis.Event.C74_read_your_writes",
    "Godis.Event.C74_no_step_back",
    "Godis.Event.C74_counter",
    "Godis.V1.C74_v1_register",
    "Godis.V1.C74_v1_counter"
   ],
   "note": "About what all clients see at their sockets, for every schedule, both servers. C74_register, C74_read_your_writes, C74_no_step_back, C74_counter. DEL with several keys removes the first one only (C70), which is what the specification says too."
  },
  {
   "property": "C75",
   "status": "partial",
   "theorems": [
    "Godis.C75_same_contents",
    "Godis.C75_same_future"
   ],
   "note": "C75_same_contents and C75_same_future, for every request that the contents decide (Decided in Spec/Contents.lean). What is missing is where the code makes replies depend on more than the contents: a sorted set that is or gets damaged by a removal (C42_heights_violated: the same requests, other random heights, other replies), and score intervals with an excluded bound that several entries have. SPOP has a choice by design."
  },
  {
   "property": "C76",
   "status": "partial",
   "theorems": [
    "Godis.C76_no_trace",
    "Godis.C76_scratch",
    "Godis.C76_nobody_can_tell",
    "Godis.C76_alias_violated"
   ],
   "note": "C76_no_trace, C76_scratch, C76_nobody_can_tell; for every request of every command. What is missing: SDIFFSTORE, SINTERSTORE, SUNIONSTORE with one source make the key another name of the source, so the source counts as changed (C76_alias_violated shows that the full statement is false of the code)."
  },
  {
   "property": "C77",
   "status": "partial",
   "theorems": [
    "Godis.C77_lpush_lpop",
    "Godis.C77_rpush_rpop",
    "Godis.C77_counters_commute",
    "Godis.C77_incrby_decrby",
    "Godis.C77_sadd_srem",
    "Godis.C77_sadd_commute",
    "Godis.C77_absent_violated",
    "Godis.C77_lrem_violated"
   ],
   "note": "C77_lpush_lpop, C77_rpush_rpop (lists in good order), C77_incrby_decrby, C77_sadd_srem, C77_counters_commute, C77_sadd_commute: after every history. What is missing: keys that are absent at first, because an emptied list or set stays (C77_absent_violated), and lists that LREM has emptied (C77_lrem_violated): the full statement is false of the code."
  },
  {
   "property": "C78",
   "status": "partial",
   "theorems": [
    "Godis.C78_texts",
    "Godis.C78_empty_violated",
    "Godis.Event.C78_clients",
    "Godis.V1.C78_v1_clients"
   ],
   "note": "C78_texts after every history; C78_clients and C78_v1_clients for what clients see at their sockets under every schedule. What is missing: the empty text in replies of list and sorted-set commands (Source allows it), because the code does answer with texts nobody sent there: C78_empty_violated. 'context deadline exceeded' is not counted as a reply (Got)."
  },
  {
   "property": "C79",
   "status": "partial",
   "theorems": [
    "Godis.Event.C79_not_early",
    "Godis.Event.C79_in_time",
    "Godis.Event.C79_refused_executed",
    "Godis.Event.C79_no_deadline_before",
    "Godis.Event.C79_late_violated"
   ],
   "note": "C79_not_early, C79_in_time (for any number of workers), C79_no_deadline_before. The last sentence of the property is false of the code: the deadline is not looked at while a request waits for a place in the channel (C79_late_violated: a request is answered after 23 seconds although the server is never idle for more than a second), and every refused request is executed (C79_refused_executed). How long after ten seconds the timer fires is left to the scheduler; v1 server: not timed."
  },
  {
   "property": "C80",
   "status": "proved",
   "theorems": [
    "Godis.C80_kind",
    "Godis.C80_redis_violated",
    "Godis.Event.C80_clients",
    "Godis.V1.C80_v1_clients"
   ],
   "note": "C80_kind after every history, C80_clients and C80_v1_clients at the sockets under every schedule; the table is Kind in Spec/Kinds.lean and kind_no_error says that no kind is an error. The table is that of this server; C80_redis_violated shows where it differs from the Redis documentation (LPOP without a count, ZRANGE of an absent key, ZINCR by 0, HGETALL of a string)."
  },
  {
   "property": "C81",
   "status": "proved",
   "theorems": [
    "Godis.Event.C81_member",
    "Godis.Event.C81_snapshots",
    "Godis.Event.C81_log",
    "Godis.Event.C81_place",
    "Godis.Event.C81_agree",
    "Godis.V1.C81_v1_member",
    "Godis.V1.C81_v1_snapshots",
    "Godis.V1.C81_v1_log"
   ],
   "note": "About what all clients see at their sockets, for every schedule, both servers: C81_member (SADD, SREM, DEL), C81_snapshots (SADD only), C81_log (RPUSH only) and from it C81_place and C81_agree. Spec/Snapshots.lean says what is heard. SMEMBERS of an absent or emptied set is the error 'redis: not found' (C25), which HearsSet counts as the answer for the empty set. SPOP and SMOVE are left out of the agreement: they leave the recorded size wrong (C25, C29)."
  },
  {
   "property": "C82",
   "status": "proved",
   "theorems": [
    "Godis.Event.C82_rows",
    "Godis.Event.C82_whole",
    "Godis.V1.C82_v1_rows",
    "Godis.V1.C82_v1_whole"
   ],
   "note": "About what all clients see at their sockets, for every schedule, both servers: C82_rows and from it C82_whole. The group is a list of different keys, written in the agreed order (Together in Spec/Together.lean)."
  },
  {
   "property": "C83",
   "status": "partial",
   "theorems": [
    "Godis.Config.C83_no_crash",
    "Godis.Config.C83_verdict",
    "Godis.Config.C83_origin",
    "Godis.Config.C83_atomic_partial",
    "Godis.Config.C83_never_zero_partial",
    "Godis.Config.C83_zero_violated"
   ],
   "note": "C83_no_crash, C83_verdict, C83_origin for every interleaving. C83_atomic_partial (linearizability with the atomic object of Spec/Config.lean) and C83_never_zero_partial hold if no document handed in leaves the timeout open, or no InitConfig overlaps a GetDefaultTimeout. What is missing is false of the code: a document without a timeout, handed in while GetDefaultTimeout runs, can make it answer 0 (C83_zero_violated). The server does not call the package yet."
  },
  {
   "property": "C84",
   "status": "proved",
   "theorems": [
    "Godis.Event.C84_board",
    "Godis.Event.C84_own_score",
    "Godis.V1.C84_v1_board"
   ],
   "note": "About what all clients see at their sockets, for every schedule, both servers: C84_board and from it C84_own_score. Spec/Board.lean says what is heard. The reply to ZRANGE of an absent key is nil (C36), a ZADD of a numerically equal score keeps the old one (+0 and -0)."
  },
  {
   "property": "C85",
   "status": "proved",
   "theorems": [
    "Godis.C85_exactly",
    "Godis.C85_stays",
    "Godis.Event.C85_clients",
    "Godis.Event.C85_one_type",
    "Godis.V1.C85_v1_clients",
    "Godis.V1.C85_v1_one_type"
   ],
   "note": "C85_exactly and C85_stays after every history; C85_clients and C85_one_type (and _v1_) for what clients see at their sockets under every schedule. Which commands create, store, replace is the table of Spec/Types.lean. Commands that do not refuse a value of another type (C14_violated) are excepted from the last sentence (lenient)."
  },
  {
   "property": "C86",
   "status": "proved",
   "theorems": [
    "Godis.Event.C86_exclusion",
    "Godis.Event.C86_sections",
    "Godis.Event.C86_read",
    "Godis.Event.C86_no_lost_update",
    "Godis.V1.C86_v1_exclusion",
    "Godis.V1.C86_v1_sections",
    "Godis.V1.C86_v1_read",
    "Godis.V1.C86_v1_no_lost_update"
   ],
   "note": "About what all clients see at their sockets, for every schedule, both servers: C86_exclusion, C86_sections, C86_read, C86_no_lost_update (and _v1_). A request that timed out counts as not answered (no holder, and a holder whose guarded request timed out must not give the lock back: Within in Spec/Locks.lean). Fewer than 2^63 socket events: after that many INCRs the counter wraps."
  },
  {
   "property": "C87",
   "status": "proved",
   "theorems": [
    "Godis.Event.C87_answered",
    "Godis.Event.C87_accounted",
    "Godis.Event.C87_seen",
    "Godis.Event.C87_in_time",
    "Godis.V1.C87_v1_seen"
   ],
   "note": "C87_answered and C87_in_time under the load bound of C79 (v2 server, one worker as in the code); C87_accounted and C87_seen (and _v1_) whenever the requests have been answered, without clocks. A crash of the process and a refusal by the goroutine pool are hypotheses, stated as such. Spec/Account.lean says what accounted for means."
  },
  {
   "property": "C88",
   "status": "proved",
   "theorems": [
    "Godis.Event.C88_in_line",
    "Godis.Event.C88_total",
    "Godis.Event.C88_total_seen",
    "Godis.Event.C88_in_time",
    "Godis.Event.C88_item",
    "Godis.Event.C88_sale",
    "Godis.Event.C88_sale_exact",
    "Godis.V1.C88_v1_in_line",
    "Godis.V1.C88_v1_total_seen",
    "Godis.V1.C88_v1_sale",
    "Godis.V1.C88_v1_sale_exact"
   ],
   "note": "About what all clients see at their sockets, for every schedule, both servers: C88_in_line (one order that explains every answer: Spec/Totals.lean, InLine), C88_total and C88_total_seen, C88_in_time (load bound of C79/C87, v2), C88_item, C88_sale, C88_sale_exact (and _v1_). Sums are 64-bit integers that wrap around (C09)."
  },
  {
   "property": "C89",
   "status": "proved",
   "theorems": [
    "Godis.C89_words",
    "Godis.C89_request",
    "Godis.C89_list_as_request",
    "Godis.Event.C89_served",
    "Godis.C89_nil_violated",
    "Godis.C89_flag_violated"
   ],
   "note": "C89_words (all replies without nil), C89_request, C89_list_as_request, C89_served (every schedule of the v2 server). Nil is excepted in the statement; C89_nil_violated shows why (the decoder takes it for the announcement of 2531 bytes). C89_flag_violated: a request built without the array flag, as in e2e/e2e_test.go, carries only its first word."
  },
  {
   "property": "C90",
   "status": "proved",
   "theorems": [
    "Godis.Event.C90_one_order",
    "Godis.Event.C90_no_circle",
    "Godis.Event.C90_register",
    "Godis.Event.C90_fresh",
    "Godis.V1.C90_v1_one_order",
    "Godis.V1.C90_v1_no_circle",
    "Godis.V1.C90_v1_register"
   ],
   "note": "About what all clients see at their sockets, for every schedule, both servers: C90_one_order, C90_no_circle, C90_register, C90_fresh. The ways in which clients learn are Spec/Causal.lean; a register is a key used only with SET, DEL and reads, a queue one used only with RPUSH, LPOP and reads, a log one used only with RPUSH and reads. A GET that was answered that the server gave up returned nothing."
  },
  {
   "property": "C91",
   "status": "proved",
   "theorems": [
    "Godis.Event.C91_mute",
    "Godis.Event.C91_removed",
    "Godis.Event.C91_added",
    "Godis.Event.C91_noise",
    "Godis.V1.C91_v1_mute",
    "Godis.V1.C91_v1_removed"
   ],
   "note": "v2 server, any number of workers. C91_noise: a visible history is possible exactly if its noise (Grammar.Faults, the exact grammar of C63) is unanswered and the rest is possible, with the same log, store and crash. noise_no_line, noise_other, noise_panic: what is noise, in terms of bytes. In v1 a bad header ends the process (C62_bad_header_violated). v1 by projection: C91_v1_mute, C91_v1_removed."
  },
  {
   "property": "C92",
   "status": "proved",
   "theorems": [
    "Godis.V1.C92_v1_wired",
    "Godis.Event.C92_wired",
    "Godis.Event.C92_wires",
    "Godis.Event.C92_possible",
    "Godis.Event.C92_one_wire"
   ],
   "note": "v2 server, any number of workers: C92_wires, C92_possible (equivalence), C92_wired (what is possible is answered where it was sent), C92_one_wire. In v1 the requests of one connection are decoded by one reader one after another, so the connection matters there. C92_v1_wired: there, too, the answer goes where the request came from."
  },
  {
   "property": "C93",
   "status": "proved",
   "theorems": [
    "Godis.Event.C93_delays",
    "Godis.Event.C93_linearizable",
    "Godis.V1.C93_v1_delays",
    "Godis.V1.C93_v1_linearizable"
   ],
   "note": "C93_delays for any number of workers; C93_linearizable for the one worker the server starts; v1 by projection to runs of the event model with one worker (C93_v1_delays, C93_v1_linearizable)."
  },
  {
   "property": "C94",
   "status": "proved",
   "theorems": [
    "Godis.Event.C94_readers",
    "Godis.Event.C94_calm",
    "Godis.Event.C94_linearizable",
    "Godis.V1.C94_v1_readers",
    "Godis.V1.C94_v1_calm"
   ],
   "note": "One worker, as the server starts. The log without the readers is a sublist of the log with them. C94_calm: the same end, too, if no removed request is one of nine reading commands that can crash the server (KEYS, LRANGE, LINDEX, ZSCORE, ZRANK, ZCOUNT, ZRANGE, ZRANGEBYSCORE, ZREVRANGE). C94_linearizable: the other requests are linearizable by themselves. v1 by projection (C94_v1_readers)."
  }
 ]
}