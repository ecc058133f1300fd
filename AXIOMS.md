# Axioms of each theorem (`#print axioms`, generated by tools/gen_axioms.py)

## none (11)
`Godis.C03_inline_ping_violated`, `Godis.C03_nested_violated`, `Godis.C04_missing_cr_violated`, `Godis.C04_huge_length_violated`, `Godis.C05_truncated_violated`, `Godis.C05_negative_violated`, `Godis.ConnV1.C47_crash_violated`, `Godis.ConnV1.C47_lost_violated`, `Godis.Gen.C48_unique`, `Godis.Gen.C51_overwrites_input_violated`, `Godis.Gen.C51_wrong_directory_violated`

## propext (11)
`Godis.C01_constructors`, `Godis.C04_short_line_refused`, `Godis.C32_incr`, `Godis.C32_violated`, `Godis.ConnV1.C47_lost_at_most_one_partial`, `Godis.ConnV1.C47_crash_only_at_end_partial`, `Godis.ConnV1.C47_leak_violated`, `Godis.C64_v1_cut_violated`, `Godis.C64_v1_value_executed_violated`, `Godis.C89_nil_violated`, `Godis.C89_flag_violated`

## propext, Quot.sound (105)
`Godis.C01_reply_framing`, `Godis.C01_two_replies`, `Godis.C02_binary_safe`, `Godis.C02_unambiguous`, `Godis.C03_original_text_partial`, `Godis.C04_hypothesis_met`, `Godis.C06_first_request_partial`, `Godis.C06_pipeline_violated`, `Godis.C09_overflow_violated`, `Godis.C12_type_violated`, `Godis.C14_hgetall_exactly`, `Godis.C14_lindex_exactly`, `Godis.C14_wrong_type_partial`, `Godis.C14_violated`, `Godis.C15_unknown`, `Godis.C15_arity_partial`, `Godis.C15_mset_violated`, `Godis.C16_case_insensitive`, `Godis.C17_reads_change_nothing`, `Godis.C18_shared_set_violated`, `Godis.C19_keys_partial`, `Godis.C19_keys_violated`, `Godis.C19_lrem_violated`, `Godis.C19_zrem_violated`, `Godis.C19_height_violated`, `Godis.C20_lrem_violated`, `Godis.C23_lrem_violated`, `Godis.C24_lindex_violated`, `Godis.C25_smembers_violated`, `Godis.C26_violated`, `Godis.C27_one_key_exactly`, `Godis.C27_violated`, `Godis.C28_alias_violated`, `Godis.C29_spop_violated`, `Godis.C30_violated`, `Godis.C32_keys`, `Godis.C33_twice_violated`, `Godis.C34_popped_violated`, `Godis.C35_violated`, `Godis.C36_zrevrange_violated`, `Godis.C37_zcount_violated`, `Godis.C38_zrangebyscore_violated`, `Godis.C39_zrem_violated`, `Godis.C40_zpopmin_violated`, `Godis.C40_zpopmax_violated`, `Godis.C41_popped_violated`, `Godis.C42_heights_violated`, `Godis.Event.C44_timeout_takes_effect`, `Godis.Main.C45_exit_violated`, `Godis.Event.C45_handler_crash_violated`, `Godis.Event.C45_accepted_lost_violated`, `Godis.Event.C46_swapped_violated`, `Godis.ConnV1.C47_prefix_partial`, `Godis.Gen.C48_found`, `Godis.Gen.C48_all_registered`, `Godis.Gen.C48_code_above_violated`, `Godis.Gen.C48_prose_violated`, `Godis.Gen.C48_long_line_violated`, `Godis.Gen.C48_committed`, `Godis.Gen.C48_entries`, `Godis.Event.C49_order_violated`, `Godis.C50_answer_is_written`, `Godis.C50_mget_violated`, `Godis.Gen.C51_missing`, `Godis.Event.C54_unambiguous`, `Godis.Event.C54_own_decoder_violated`, `Godis.Event.C54_noise_violated`, `Godis.Main.C55_early_signal_violated`, `Godis.Event.C56_only_commands_write`, `Godis.Debug.C56_debug_overlap_violated`, `Godis.Debug.C56_debug_client_violated`, `Godis.V1.C60_cut_violated`, `Godis.V1.C61_nil_cancel_violated`, `Godis.V1.C61_in_flight_violated`, `Godis.V1.C62_reply_violated`, `Godis.C64_text_exists`, `Godis.C64_wrong_value_violated`, `Godis.C64_whole_partial`, `Godis.C64_v1_large_violated`, `Godis.C68_lindex_violated`, `Godis.C69_lindex_violated`, `Godis.C70_lpush`, `Godis.C70_rpush`, `Godis.C70_sadd`, `Godis.C70_zadd`, `Godis.C70_zrem_partial`, `Godis.C70_mset`, `Godis.C70_mget`, `Godis.C70_first_key_only`, `Godis.C70_violated`, `Godis.C71_surplus`, `Godis.C72_violated`, `Godis.Event.C73_lock_violated`, `Godis.Event.C73_timeout_violated`, `Godis.C76_alias_violated`, `Godis.C77_absent_violated`, `Godis.C77_lrem_violated`, `Godis.C78_empty_violated`, `Godis.Event.C79_late_violated`, `Godis.C80_redis_violated`, `Godis.Config.C83_no_crash`, `Godis.Config.C83_verdict`, `Godis.Config.C83_origin`, `Godis.C89_request`, `Godis.Event.C92_one_wire`

## propext, Classical.choice, Quot.sound (301)
`Godis.C03_any_input_partial`, `Godis.C04_no_crash_partial`, `Godis.C04_terminates`, `Godis.C05_pieces_partial`, `Godis.C05_rest_suffix`, `Godis.C07_sharded_map_is_map`, `Godis.C07_other_keys`, `Godis.C08_get_returns_last_write`, `Godis.C09_counter_partial`, `Godis.C09_refused`, `Godis.C10_no_lost_update`, `Godis.C10_order_independent`, `Godis.C11_append`, `Godis.C11_append_refused`, `Godis.C12_exists_del`, `Godis.C12_type`, `Godis.C13_keys`, `Godis.C14_zpop_exactly`, `Godis.C15_mset_exactly`, `Godis.C18_frame_partial`, `Godis.C18_value_is_all_that_is_seen`, `Godis.C19_safe_commands_partial`, `Godis.C19_lists_partial`, `Godis.C19_zset_readers_partial`, `Godis.C19_zset_commands_partial`, `Godis.C20_lists_partial`, `Godis.C20_sequence_partial`, `Godis.C21_fifo`, `Godis.C21_conservation`, `Godis.C21_lifo`, `Godis.C22_lrange`, `Godis.C23_lrem_partial`, `Godis.C24_lset`, `Godis.C24_linsert`, `Godis.C24_lindex_actual_partial`, `Godis.C25_sets_partial`, `Godis.C25_membership_partial`, `Godis.C25_sadd`, `Godis.C25_srem`, `Godis.C25_smembers_partial`, `Godis.C26_scard_partial`, `Godis.C26_scard_excess_partial`, `Godis.C27_empty_key_exactly`, `Godis.C27_setops_partial`, `Godis.C27_combine_mem`, `Godis.C28_store_partial`, `Godis.C29_no_count_exactly`, `Godis.C29_spop`, `Godis.C30_lost_exactly`, `Godis.C30_smove_partial`, `Godis.C31_hash_partial`, `Godis.C31_violated`, `Godis.C32_set_del`, `Godis.C32_count_partial`, `Godis.C33_score_order`, `Godis.C33_numeric`, `Godis.C33_replies_partial`, `Godis.C33_sorted_partial`, `Godis.C33_sorted_calm`, `Godis.C33_order_free_partial`, `Godis.C34_zscore_partial`, `Godis.C35_zrank_partial`, `Godis.C35_absent_partial`, `Godis.C36_zrange_partial`, `Godis.C36_zrevrange_partial`, `Godis.C36_zrevrange_all`, `Godis.C37_zcount_exactly`, `Godis.C37_zcount_partial`, `Godis.C38_zrangebyscore_exactly`, `Godis.C38_zrangebyscore_partial`, `Godis.C39_zrem_partial`, `Godis.C40_zpopmax_padding_violated`, `Godis.C40_zpopmin_partial`, `Godis.C40_zpopmax_partial`, `Godis.C40_zpopmax_reply_partial`, `Godis.C41_zadd_partial`, `Godis.C41_nx_partial`, `Godis.C41_xx_partial`, `Godis.C41_zincr_partial`, `Godis.C42_other_replies`, `Godis.C42_other_crashes`, `Godis.C42_mixed_partial`, `Godis.C42_heights_unobservable_partial`, `Godis.Event.C43_linearizable`, `Godis.Event.C43_store_reachable`, `Godis.Event.C44_at_most_once`, `Godis.Event.C44_own_reply`, `Godis.Event.C44_own_request`, `Godis.Event.C44_sent`, `Godis.Event.C45_at_most_one_lost_partial`, `Godis.Event.C45_nothing_after_stop`, `Godis.Event.C45_quiet_stop_partial`, `Godis.Event.C46_in_order_partial`, `Godis.Event.C46_stream_partial`, `Godis.V1.C47_v1_lost_at_most_one_partial`, `Godis.V1.C47_v1_crash_only_at_end_partial`, `Godis.V1.C47_v1_lost_violated`, `Godis.Gen.C48_generator_partial`, `Godis.Gen.C48_dispatch_table`, `Godis.Gen.C48_dispatch`, `Godis.Gen.C48_unregistered`, `Godis.Gen.C48_complete`, `Godis.Event.C49_logged_first`, `Godis.Event.C49_replay_partial`, `Godis.C50_bytes_partial`, `Godis.C50_client_recovers`, `Godis.Gen.C51_only_companion_partial`, `Godis.Event.C52_bounded`, `Godis.Event.C52_no_deadlock`, `Godis.Event.C52_stop_returns`, `Godis.Event.C52_comes_to_rest`, `Godis.C53_finishes`, `Godis.C53_frame_finishes`, `Godis.Event.C54_log_reads_back`, `Godis.Event.C54_crash_point`, `Godis.Event.C54_recovery_partial`, `Godis.Event.C54_stdout_reads_back`, `Godis.Event.C54_stdout_crash_point`, `Godis.Main.C55_exit_cause`, `Godis.Main.C55_exit_clean`, `Godis.Main.C55_bounded`, `Godis.Main.C55_signal_exits_partial`, `Godis.Main.C55_comes_to_rest`, `Godis.Event.C56_exclusive`, `Godis.Event.C56_undisturbed`, `Godis.C57_sets`, `Godis.C57_members`, `Godis.C57_scard`, `Godis.C57_one_source`, `Godis.C57_copy`, `Godis.C57_smove`, `Godis.C58_request_frame`, `Godis.C58_frame`, `Godis.C59_lists`, `Godis.C59_crash`, `Godis.C59_safe`, `Godis.C59_agrees`, `Godis.V1.C60_stream`, `Godis.V1.C60_in_order`, `Godis.V1.C60_pipelined`, `Godis.V1.C60_linearizable`, `Godis.V1.C61_start_clean`, `Godis.V1.C61_counter`, `Godis.V1.C61_stop_returned`, `Godis.V1.C61_rest_partial`, `Godis.V1.C61_rest_exact_partial`, `Godis.V1.C61_bounded`, `Godis.V1.C61_comes_to_rest`, `Godis.V1.C61_nil_cancel`, `Godis.V1.C61_early_stop_violated`, `Godis.V1.C62_causes_partial`, `Godis.V1.C62_disconnect_violated`, `Godis.V1.C62_bad_header_violated`, `Godis.C63_read`, `Godis.C63_refused`, `Godis.C63_crash`, `Godis.C63_one`, `Godis.C63_protocol`, `Godis.C64_more_text`, `Godis.C64_early_cut`, `Godis.C64_late_cut`, `Godis.C64_value_executed_violated`, `Godis.C64_v1_whole_units_partial`, `Godis.C64_v1_uncut_partial`, `Godis.C64_v1_one_segment`, `Godis.C65_history`, `Godis.C65_outcome`, `Godis.C65_no_crash`, `Godis.Event.C66_linearizable`, `Godis.V1.C66_v1_linearizable`, `Godis.C67_history`, `Godis.C67_last_report`, `Godis.C67_removed`, `Godis.C68_alone_partial`, `Godis.C68_same_values_partial`, `Godis.C68_interleavings_partial`, `Godis.Event.C68_schedules_partial`, `Godis.C68_swap_partial`, `Godis.V1.C68_v1_schedules_partial`, `Godis.C69_key_names_partial`, `Godis.C69_crash_partial`, `Godis.C69_keys_partial`, `Godis.C70_srem`, `Godis.C70_lpop`, `Godis.C70_rpop`, `Godis.C72_retry`, `Godis.C72_retries`, `Godis.C72_smove`, `Godis.C72_zadd`, `Godis.Event.C73_unique_numbers`, `Godis.Event.C73_one_winner`, `Godis.Event.C73_queue_once`, `Godis.Event.C73_queue_fifo`, `Godis.Event.C73_queue_kept`, `Godis.V1.C73_v1_unique_numbers`, `Godis.V1.C73_v1_one_winner`, `Godis.V1.C73_v1_queue_once`, `Godis.Event.C74_register`, `Godis.Event.C74_read_your_writes`, `Godis.Event.C74_no_step_back`, `Godis.Event.C74_counter`, `Godis.V1.C74_v1_register`, `Godis.V1.C74_v1_counter`, `Godis.C75_same_contents`, `Godis.C75_same_future`, `Godis.C76_no_trace`, `Godis.C76_scratch`, `Godis.C76_nobody_can_tell`, `Godis.C77_lpush_lpop`, `Godis.C77_rpush_rpop`, `Godis.C77_counters_commute`, `Godis.C77_incrby_decrby`, `Godis.C77_sadd_srem`, `Godis.C77_sadd_commute`, `Godis.C78_texts`, `Godis.Event.C78_clients`, `Godis.V1.C78_v1_clients`, `Godis.Event.C79_not_early`, `Godis.Event.C79_in_time`, `Godis.Event.C79_refused_executed`, `Godis.Event.C79_no_deadline_before`, `Godis.C80_kind`, `Godis.Event.C80_clients`, `Godis.V1.C80_v1_clients`, `Godis.Event.C81_member`, `Godis.Event.C81_snapshots`, `Godis.Event.C81_log`, `Godis.Event.C81_place`, `Godis.Event.C81_agree`, `Godis.V1.C81_v1_member`, `Godis.V1.C81_v1_snapshots`, `Godis.V1.C81_v1_log`, `Godis.Event.C82_rows`, `Godis.Event.C82_whole`, `Godis.V1.C82_v1_rows`, `Godis.V1.C82_v1_whole`, `Godis.Config.C83_atomic_partial`, `Godis.Config.C83_never_zero_partial`, `Godis.Config.C83_zero_violated`, `Godis.Event.C84_board`, `Godis.Event.C84_own_score`, `Godis.V1.C84_v1_board`, `Godis.C85_exactly`, `Godis.C85_stays`, `Godis.Event.C85_clients`, `Godis.Event.C85_one_type`, `Godis.V1.C85_v1_clients`, `Godis.V1.C85_v1_one_type`, `Godis.Event.C86_exclusion`, `Godis.Event.C86_sections`, `Godis.Event.C86_read`, `Godis.Event.C86_no_lost_update`, `Godis.V1.C86_v1_exclusion`, `Godis.V1.C86_v1_sections`, `Godis.V1.C86_v1_read`, `Godis.V1.C86_v1_no_lost_update`, `Godis.Event.C87_answered`, `Godis.Event.C87_accounted`, `Godis.Event.C87_seen`, `Godis.Event.C87_in_time`, `Godis.V1.C87_v1_seen`, `Godis.Event.C88_in_line`, `Godis.Event.C88_total`, `Godis.Event.C88_total_seen`, `Godis.Event.C88_in_time`, `Godis.Event.C88_item`, `Godis.Event.C88_sale`, `Godis.Event.C88_sale_exact`, `Godis.V1.C88_v1_in_line`, `Godis.V1.C88_v1_total_seen`, `Godis.V1.C88_v1_sale`, `Godis.V1.C88_v1_sale_exact`, `Godis.C89_words`, `Godis.C89_list_as_request`, `Godis.Event.C89_served`, `Godis.Event.C90_one_order`, `Godis.Event.C90_no_circle`, `Godis.Event.C90_register`, `Godis.Event.C90_fresh`, `Godis.V1.C90_v1_one_order`, `Godis.V1.C90_v1_no_circle`, `Godis.V1.C90_v1_register`, `Godis.Event.C91_mute`, `Godis.Event.C91_removed`, `Godis.Event.C91_added`, `Godis.Event.C91_noise`, `Godis.V1.C91_v1_mute`, `Godis.V1.C91_v1_removed`, `Godis.V1.C92_v1_wired`, `Godis.Event.C92_wired`, `Godis.Event.C92_wires`, `Godis.Event.C92_possible`, `Godis.Event.C93_delays`, `Godis.Event.C93_linearizable`, `Godis.V1.C93_v1_delays`, `Godis.V1.C93_v1_linearizable`, `Godis.Event.C94_readers`, `Godis.Event.C94_calm`, `Godis.Event.C94_linearizable`, `Godis.V1.C94_v1_readers`, `Godis.V1.C94_v1_calm`
