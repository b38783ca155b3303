# Axioms of every theorem named in MANIFEST.json

Output of `#print axioms` for each theorem, grouped by property. P = propext, C = Classical.choice, Q = Quot.sound, none = no axioms. No other axiom occurs.

| property | theorem | axioms |
|---|---|---|
| C01 | C01_default_delivery | P C Q |
| C02 | C02_malformed_detected | P C Q |
| C03 | C03_safe_and_live | P C Q |
| C04 | C04_flexible_delivery | P C Q |
| C04 | C04_flexible_decodes | P C Q |
| C05 | C05_non_copy_delivery | P C Q |
| C05 | C05_non_copy_decodes | P C Q |
| C06 | C06_fixed_length | P Q |
| C06 | C06_packer_verbatim | P C Q |
| C06 | C06_fails_heartbeat | P |
| C07 | C07_prefix_suffix_delivery | P C Q |
| C08 | C08_malformed_reported_partial | P C Q |
| C08 | C08_wrong_prefix_stalls | P |
| C08 | C08_wrong_prefix_after_heartbeat_stalls | P |
| C08 | C08_unpacker_safe | P C Q |
| C09 | C09_stream | P Q |
| C09 | C09_udp | P Q |
| C09 | C09_udp_truncation | P Q |
| C10 | C10_pack_array | P C Q |
| C10 | C10_refuse_without_reading | P Q |
| C100 | C100_stays_up | P C Q |
| C100 | C100_stays_up_default | P C Q |
| C100 | C100_noticed | P Q |
| C100 | C100_once | P Q |
| C100 | C100_time_goes_on | P C Q |
| C100 | C100_fails_absence | P Q |
| C100 | C100_fails_interval | P Q |
| C100 | C100_demo | P Q |
| C101 | C101_default | P C Q |
| C101 | C101_flexible | P C Q |
| C101 | C101_non_copy | P C Q |
| C101 | C101_prefix_suffix | P C Q |
| C101 | C101_prefix_suffix_good | P C Q |
| C101 | C101_prefix_suffix_malformed | P C Q |
| C101 | C101_prefix_suffix_logged | P C Q |
| C101 | C101_prefix_suffix_one_each | P C Q |
| C101 | C101_prefix_suffix_demo | P C Q |
| C101 | C101_in_the_log | P C Q |
| C101 | C101_fails_long | P C Q |
| C101 | C101_fails_long_demo | P C Q |
| C101 | C101_demo | P C Q |
| C102 | C102_exclusive | P C Q |
| C102 | C102_free | P C Q |
| C102 | C102_again | P Q |
| C102 | C102_history | P Q |
| C102 | C102_result | P C Q |
| C102 | C102_once | P C Q |
| C102 | C102_start_returns | P C Q |
| C102 | C102_close_returns | P C Q |
| C102 | C102_fails_close_waits | P Q |
| C102 | C102_fair_exists | P Q |
| C102 | C102_demo | P Q |
| C102 | C102_lock_demo | P Q |
| C103 | C103_at_most | P C Q |
| C103 | C103_no_further_accept | P C Q |
| C103 | C103_gets_in | P C Q |
| C103 | C103_fails_restart | P Q |
| C103 | C103_demo | P Q |
| C103 | C103_demo_two | P |
| C104 | C104_udp | P Q |
| C104 | C104_tcp | P Q |
| C104 | C104_counts | P Q |
| C104 | C104_tcp_at_most | P Q |
| C104 | C104_fails_negative | P Q |
| C104 | C104_demo_tcp | P Q |
| C104 | C104_demo_udp | P Q |
| C104 | C104_dispatch | P C Q |
| C104 | C104_demo_dispatch | P Q |
| C104 | C104_batch_partial | P C Q |
| C104 | C104_batch_handle | P Q |
| C104 | C104_fails_leftover | P Q |
| C104 | C104_fails_arrival | P Q |
| C104 | C104_demo_batch | P Q |
| C104 | C104_idle_partial | P Q |
| C104 | C104_fails_idle | P Q |
| C104 | C104_demo_idle | P Q |
| C104 | C104_batch_turns | P Q |
| C104 | C104_turns | P Q |
| C105 | C105_once_partial | P C Q |
| C105 | C105_stays_closed_partial | P C Q |
| C105 | C105_no_race_partial | P C Q |
| C105 | C105_fails_late | P Q |
| C105 | C105_fails_race | P Q |
| C105 | C105_demo | P Q |
| C106 | C106_clock | P C Q |
| C106 | C106_in_time | P C Q |
| C106 | C106_not_early | P C Q |
| C106 | C106_no_crash | P C Q |
| C106 | C106_no_misuse_partial | P C Q |
| C106 | C106_released | P C Q |
| C106 | C106_time_goes_on | P C Q |
| C106 | C106_demo | P Q |
| C106 | C106_fails_aligned | P Q |
| C106 | C106_fails_lost | P Q |
| C106 | C106_fails_misuse | P Q |
| C107 | C107_quiet | P C Q |
| C107 | C107_noticed | P C Q |
| C107 | C107_truthful | P C Q |
| C107 | C107_time_goes_on | P C Q |
| C107 | C107_fails_loss | P Q |
| C107 | C107_fails_seen | P Q |
| C107 | C107_demo | P Q |
| C108 | C108_addresses | P C Q |
| C108 | C108_connected | P C Q |
| C108 | C108_set | P Q |
| C108 | C108_fails_family | P Q |
| C108 | C108_fails_late | P Q |
| C108 | C108_demo | P Q |
| C108 | C108_family_demo | P Q |
| C109 | C109_truthful | P Q |
| C109 | C109_silent | P Q |
| C109 | C109_noticed | P Q |
| C109 | C109_each_partial | P Q |
| C109 | C109_time_goes_on | P Q |
| C109 | C109_fails_two | P |
| C109 | C109_demo | P |
| C109 | C109_late_demo | P |
| C11 | C11_zero_copy | P Q |
| C11 | C11_same_bytes | P C Q |
| C11 | C11_prefix_suffix | P Q |
| C11 | C11_prefix_suffix_array | P Q |
| C11 | C11_fixed_length_list_drops_output | none |
| C110 | C110_handoff | P C Q |
| C110 | C110_asked | P C Q |
| C110 | C110_rests | P C Q |
| C110 | C110_reads_partial | P C Q |
| C110 | C110_all_partial | P C Q |
| C110 | C110_fails_early | P Q |
| C110 | C110_fails_mixed | P |
| C110 | C110_demo | P |
| C111 | C111_ids_partial | P C Q |
| C111 | C111_independent | P C Q |
| C111 | C111_separate | P C Q |
| C111 | C111_fails_stop_all | P Q |
| C111 | C111_fails_many | none |
| C111 | C111_demo | none |
| C111 | C111_run_demo | P Q |
| C112 | C112_percent | P C Q |
| C112 | C112_get_partial | P C Q |
| C112 | C112_reported_partial | P C Q |
| C112 | C112_put_partial | P C Q |
| C112 | C112_fails_put | P C Q |
| C112 | C112_fails_write | P Q |
| C112 | C112_get_demo | P Q |
| C112 | C112_put_demo | P Q |
| C112 | C112_put_bound | P C Q |
| C113 | C113_watch | P C Q |
| C113 | C113_in_time | P C Q |
| C113 | C113_timeout | P C Q |
| C113 | C113_prompt | P C Q |
| C113 | C113_time_goes_on | P C Q |
| C113 | C113_fails_forever | P |
| C113 | C113_demo | P |
| C113 | C113_rescue_demo | P |
| C114 | C114_watch | P Q |
| C114 | C114_in_time | P Q |
| C114 | C114_timeout | P Q |
| C114 | C114_prompt | P Q |
| C114 | C114_answer | P C Q |
| C114 | C114_time_goes_on | P Q |
| C114 | C114_timeout_not_final | P Q |
| C114 | C114_fails_forever | P Q |
| C114 | C114_demo | P Q |
| C114 | C114_admitted | P Q |
| C12 | C12_head_honest_partial | P C Q |
| C12 | C12_array_honest | P C Q |
| C12 | C12_head_can_lie | P C Q |
| C12 | C12_head_assert | P Q |
| C13 | C13_byte_string | P C Q |
| C13 | C13_self_assign_loses_content | P C Q |
| C13 | C13_self_append_use_after_free | none |
| C14 | C14_capacity | P C Q |
| C14 | C14_reserve | P C Q |
| C14 | C14_waste | P C Q |
| C14 | C14_waste_demo | none |
| C15 | C15_append2_with_length | P C Q |
| C15 | C15_append2_partial | P C Q |
| C15 | C15_append2_keeps_inner_nul | P C Q |
| C15 | C15_append2_inner_nul | none |
| C15 | C15_documented_example | none |
| C16 | C16_fifo_exact_bytes | P Q |
| C16 | C16_first_in_first_out | P Q |
| C17 | C17_move_out_bytes | P Q |
| C17 | C17_zero_takes_one | P C Q |
| C17 | C17_move_out_count | P Q |
| C18 | C18_refused_iff | P C Q |
| C18 | C18_bound | P Q |
| C19 | C19_shrink | P C Q |
| C19 | C19_bound | P Q |
| C19 | C19_bound_default | P Q |
| C19 | C19_unbounded_without | P C Q |
| C20 | C20_ideal_sender | P C Q |
| C20 | C20_order | P C Q |
| C20 | C20_reported | P C Q |
| C20 | C20_wire | P C Q |
| C20 | C20_everything_written | P C Q |
| C21 | C21_one_write | P C Q |
| C22 | C22_no_lost_wakeup | P C Q |
| C22 | C22_drains | P C Q |
| C22 | C22_left_behind_after_error | P Q |
| C22 | C22_no_starvation | P C Q |
| C22 | C22_no_starvation_demo | P C Q |
| C22 | C22_fails_priority | P C Q |
| C23 | C23_exactly_once_partial | P C Q |
| C23 | C23_true_outcome_partial | P C Q |
| C23 | C23_fails_discarded | P Q |
| C23 | C23_fails_closed | P Q |
| C23 | C23_fails_delayed_close | P Q |
| C24 | C24_ideal_sender | P C Q |
| C24 | C24_order | P C Q |
| C24 | C24_one_send | P C Q |
| C24 | C24_outcomes | P C Q |
| C24 | C24_wire | P C Q |
| C24 | C24_no_lost_wakeup | P C Q |
| C24 | C24_drains | P C Q |
| C24 | C24_promises | P C Q |
| C24 | C24_stuck_without_timer | P Q |
| C24 | C24_no_starvation | P C Q |
| C24 | C24_no_starvation_demo | P C Q |
| C25 | C25_ideal_dispatcher | P Q |
| C25 | C25_order | P Q |
| C25 | C25_call | P Q |
| C25 | C25_one_at_a_time | P C Q |
| C25 | C25_retry | P Q |
| C26 | C26_nothing_left_partial | P C Q |
| C26 | C26_drains_partial | P C Q |
| C26 | C26_no_livelock | P Q |
| C26 | C26_fails_after_reconnect | P Q |
| C26 | C26_no_starvation_partial | P C Q |
| C26 | C26_no_starvation_demo | P C Q |
| C27 | C27_bound | P Q |
| C27 | C27_bound_one_link_partial | P Q |
| C27 | C27_stops_iff | P Q |
| C27 | C27_resumes_partial | P C Q |
| C27 | C27_fails_after_reconnects | P Q |
| C28 | C28_ideal_handoff | P C Q |
| C28 | C28_exactly_once | P C Q |
| C28 | C28_all_handed_out | P C Q |
| C28 | C28_one_caller | P C Q |
| C28 | C28_duplicate | P C Q |
| C28 | C28_timeout | P C Q |
| C28 | C28_no_deadlock | P C Q |
| C28 | C28_error_releases | P C Q |
| C28 | C28_close_releases_partial | P C Q |
| C28 | C28_no_race_partial | P C Q |
| C28 | C28_fails_close | P Q |
| C28 | C28_fails_restart | P Q |
| C28 | C28_success_may_be_empty | P Q |
| C28 | C28_error_reported | P C Q |
| C29 | C29_once_partial | P C Q |
| C29 | C29_obsoleted_after | P C Q |
| C29 | C29_quiet_partial | P C Q |
| C29 | C29_reaches | P C Q |
| C29 | C29_dead | P C Q |
| C29 | C29_close_inside_start | P C Q |
| C29 | C29_fails_restart | P Q |
| C29 | C29_fails_extern | P Q |
| C29 | C29_fails_delay | P Q |
| C29 | C29_fails_stopped | P Q |
| C29 | C29_fails_obsolete_pending | P Q |
| C29 | C29_fails_obsolete_up | P Q |
| C29 | C29_stopped | P C Q |
| C29 | C29_stopped_demo | none |
| C29 | C29_no_starvation | P C Q |
| C30 | C30_moves_partial | P C Q |
| C30 | C30_bounded | P C Q |
| C30 | C30_graceful_ends | P C Q |
| C30 | C30_graceful_noop | P |
| C30 | C30_force_overrides | P C Q |
| C30 | C30_fails_late_connect | P Q |
| C30 | C30_gives_up | P C Q |
| C30 | C30_no_starvation | P C Q |
| C31 | C31_timeout | P C Q |
| C31 | C31_heartbeat | P C Q |
| C31 | C31_alive | P C Q |
| C31 | C31_detects | P C Q |
| C31 | C31_fails_backpressure | P Q |
| C31 | C31_udp_spacing | P Q |
| C32 | C32_one_entry | P C Q |
| C32 | C32_stop | P C Q |
| C32 | C32_keeps_running | P C Q |
| C32 | C32_stops | P C Q |
| C32 | C32_restart | P C Q |
| C32 | C32_live | P C Q |
| C32 | C32_aborted | P C Q |
| C32 | C32_no_race | P Q |
| C32 | C32_fails_wrap | P C Q |
| C32 | C32_fails_race | P |
| C32 | C32_race_all | P C Q |
| C33 | C33_once | P C Q |
| C33 | C33_current_partial | P C Q |
| C33 | C33_fails_stale | P Q |
| C33 | C33_fails_wrap | P C Q |
| C34 | C34_find | P C Q |
| C34 | C34_ids | P C Q |
| C34 | C34_visit | P C Q |
| C34 | C34_bound | P C Q |
| C34 | C34_full | P Q |
| C34 | C34_one_place | P C Q |
| C34 | C34_fails_restore_race | P Q |
| C34 | C34_example | P C Q |
| C35 | C35_only_dead | P C Q |
| C35 | C35_fresh_ids | P C Q |
| C35 | C35_free_complete | P Q |
| C35 | C35_free_exact | P Q |
| C35 | C35_reuse_first | P Q |
| C35 | C35_held | P C Q |
| C36 | C36_very_object_partial | P C Q |
| C36 | C36_without_init | P C Q |
| C36 | C36_fails_init | P Q |
| C36 | C36_not_lost | P C Q |
| C36 | C36_deleted_to_invalid | P Q |
| C37 | C37_least_loaded | P C Q |
| C37 | C37_balance | P C Q |
| C37 | C37_objects | P C Q |
| C37 | C37_single | P |
| C37 | C37_fails_switch | P Q |
| C38 | C38_removal_leaves_one | P Q |
| C38 | C38_last_thread | P Q |
| C38 | C38_at_most | P Q |
| C38 | C38_exact | P C Q |
| C38 | C38_steady_reachable | P C Q |
| C38 | C38_settles | P C Q |
| C38 | C38_fails_exception | P Q |
| C38 | C38_fails_early | P Q |
| C39 | C39_alternate | P C Q |
| C39 | C39_registered_in_order | P C Q |
| C39 | C39_start | P C Q |
| C39 | C39_stop | P C Q |
| C39 | C39_end | P C Q |
| C39 | C39_remove | P C Q |
| C39 | C39_find | P C Q |
| C39 | C39_destroy_after_stop | P C Q |
| C39 | C39_fails_auto_end | P Q |
| C39 | C39_fails_finalize | P Q |
| C39 | C39_fails_removed | P Q |
| C39 | C39_fails_destroy | P Q |
| C39 | C39_run | P C Q |
| C39 | C39_start_one | P C Q |
| C40 | C40_policy | P Q |
| C40 | C40_disabled | P Q |
| C40 | C40_disabled_after_disconnect | P Q |
| C40 | C40_override | P |
| C40 | C40_never_at_rest_partial | P C Q |
| C40 | C40_keeps_trying_partial | P C Q |
| C40 | C40_tries_again_partial | P C Q |
| C40 | C40_fails_bind | P Q |
| C40 | C40_fails_bind_close | P Q |
| C40 | C40_fails_one_more | P Q |
| C40 | C40_fails_idle | P Q |
| C40 | C40_give_up | P Q |
| C40 | C40_override_any | P |
| C40 | C40_for_ever_partial | P C Q |
| C40 | C40_retries_partial | P C Q |
| C40 | C40_demo_self | P Q |
| C41 | C41_request_partial | P Q |
| C41 | C41_reply | P Q |
| C41 | C41_app | P Q |
| C41 | C41_safe | P Q |
| C41 | C41_fails_reconnect | P Q |
| C42 | C42_C43_conversation_partial | P C Q |
| C42 | C43_safe | P Q |
| C42 | C42_fails_stale | P Q |
| C42 | C42_unoffered | P Q |
| C43 | C42_C43_conversation_partial | P C Q |
| C43 | C43_safe | P Q |
| C43 | C43_succeeds | P C Q |
| C43 | C43_succeeds_auth | P C Q |
| C43 | C43_fails_atyp | P Q |
| C43 | C43_fails_signed | P Q |
| C43 | C43_coalesced | P Q |
| C44 | C44_partition | P C Q |
| C44 | C44_reproduce | P C Q |
| C44 | C44_completes | P C Q |
| C45 | C45_reader | P Q |
| C45 | C45_reader_nothing | P |
| C45 | C45_writer | P C Q |
| C45 | C45_room | P C Q |
| C45 | C45_end_to_end | P C Q |
| C46 | C46_safe_partial | P C Q |
| C46 | C46_serve_only | P Q |
| C46 | C46_serve_valid | P C Q |
| C46 | C46_fails_while_sending | P |
| C46 | C46_fails_overflow | P |
| C46 | C46_fails_put_length | P |
| C46 | C46_fails_put_offset | P |
| C46 | C46_one_reply | P C Q |
| C47 | C47_kept_partial | P C Q |
| C47 | C47_one_for_one | P Q |
| C47 | C47_limit | P C Q |
| C47 | C47_refused | P Q |
| C47 | C47_stopped | P C Q |
| C47 | C47_stop_closes | P |
| C47 | C47_fails_restart | P |
| C47 | C47_fails_create | P |
| C47 | C47_fails_listen | P |
| C47 | C47_fails_after_stop | P |
| C48 | C48_tcp_send | P C Q |
| C48 | C48_udp_send | P C Q |
| C48 | C48_recv | P Q |
| C48 | C48_duration_sum | P Q |
| C48 | C48_duration_max | P Q |
| C48 | C48_duration_min_partial | P Q |
| C48 | C48_duration_merge_partial | P C Q |
| C48 | C48_duration_sub | P Q |
| C48 | C48_counter_sub | P Q |
| C48 | C48_auto_duration | P |
| C48 | C48_pack_serial | P Q |
| C48 | C48_fails_min_zero | none |
| C48 | C48_fails_merge_empty | none |
| C48 | C48_fails_sub_min_max | none |
| C48 | C48_fails_pack_race | P |
| C49 | C49_given | P Q |
| C49 | C49_order | P C Q |
| C49 | C49_pauses | P Q |
| C49 | C49_backlog | P Q |
| C49 | C49_not_stranded_partial | P C Q |
| C49 | C49_timer_resumes | P Q |
| C49 | C49_drains_partial | P C Q |
| C49 | C49_empties_partial | P C Q |
| C49 | C49_fails_error | P Q |
| C49 | C49_fails_timer | P Q |
| C49 | C49_fails_restart | P Q |
| C49 | C49_limit | P C Q |
| C50 | C50_on_connect_after_handshake | P C Q |
| C50 | C50_ready_after_handshake | P C Q |
| C50 | C50_failed_leads_to_shutdown | P C Q |
| C50 | C50_failed_is_final | P C Q |
| C50 | C50_no_early_sending_partial | P C Q |
| C50 | C50_early_send_race | P |
| C50 | C50_late_handshake | P |
| C51 | C51_unregistered | P |
| C51 | C51_void | P |
| C51 | C51_boolean | P |
| C51 | C51_value | P |
| C51 | C51_empty | P |
| C51 | C51_bookkeeping | P Q |
| C51 | C51_reregister | P |
| C52 | C52_contiguous_partial | P C Q |
| C52 | C52_fails_priority | P Q |
| C52 | C52_fails_shrink | P Q |
| C53 | C53_safe_send | P Q |
| C53 | C53_fails_unpackable | P Q |
| C53 | C53_fails_sync_duplicate | none |
| C53 | C53_sync_no_timeout_partial | P Q |
| C54 | C54_balanced | P C Q |
| C54 | C54_served | P C Q |
| C54 | C54_start | P C Q |
| C54 | addThreads_len | P C Q |
| C55 | C55_plain | P Q |
| C55 | C55_fails_decrease | P Q |
| C55 | C55_decrease_always_ends | P Q |
| C56 | C56_in_order | P C Q |
| C56 | C56_all_handled | P C Q |
| C56 | C56_terminates | P C Q |
| C56 | C56_delivers | P C Q |
| C56 | C56_no_starvation | P C Q |
| C56 | C56_fair_exists | P C Q |
| C57 | C57_ideal | P C Q |
| C57 | C57_order | P C Q |
| C57 | C57_one_at_a_time | P C Q |
| C57 | C57_nothing_left_partial | P C Q |
| C57 | C57_drains_partial | P C Q |
| C57 | C58_delivered_partial | P C Q |
| C57 | C57_fails_after_reconnect | P Q |
| C57 | C57_retry_without_interval | P Q |
| C57 | C57_keeps_receiving | P C Q |
| C57 | C57_refused_waits | P C Q |
| C58 | C58_sync | P Q |
| C58 | C58_async | P Q |
| C58 | C58_fails_zero | P |
| C59 | C59_one_read | P C Q |
| C59 | C59_only_asked | P Q |
| C59 | C59_always_given | P Q |
| C59 | C59_recv_msg_reads | P C Q |
| C59 | C59_no_second_read | P C Q |
| C59 | C59_active_reads | P C Q |
| C60 | C60_ideal | P C Q |
| C60 | C60_senders | P C Q |
| C60 | C60_none_left_out | P C Q |
| C60 | C60_taken_in_order | P C Q |
| C60 | C60_destination | P C Q |
| C60 | C60_keeps_receiving | P C Q |
| C60 | C60_error_is_final | P Q |
| C60 | C60_fails_after_error | P |
| C60 | C60_addresses | P Q |
| C61 | C61_ideal_partial | P C Q |
| C61 | C61_senders_partial | P C Q |
| C61 | C61_only_peer_partial | P C Q |
| C61 | C61_ignores_address | P |
| C61 | C61_fails_peer_changed | P |
| C61 | C61_fails_gap | P |
| C61 | C61_fails_connect | P |
| C61 | C61_connected | P Q |
| C61 | C61_fails_connected | P |
| C62 | C62_all_started_partial | P C Q |
| C62 | C62_up_partial | P C Q |
| C62 | C62_fails_after_auto_end | P Q |
| C62 | C62_fails_no_work | P Q |
| C62 | C62_starts_in_stopped_service | P Q |
| C62 | C62_demo | P Q |
| C62 | C62_demo_again | P Q |
| C63 | C63_ideal | P C Q |
| C63 | C63_nothing_left | P C Q |
| C63 | C63_stop_ends_partial | P C Q |
| C63 | C63_hang | P Q |
| C63 | C63_fails_late_add | P Q |
| C63 | C63_fails_stopped_service | P Q |
| C63 | C63_fails_del_socket | P Q |
| C63 | C63_fails_removed_while_added | P Q |
| C63 | C63_fails_restart_while_added | P Q |
| C63 | C63_demo | P Q |
| C63 | C63_demo_broken | P Q |
| C64 | C64_refused_intact | P Q |
| C64 | C64_const_intact | P Q |
| C64 | C64_total | P C Q |
| C64 | C64_sent_whole_partial | P C Q |
| C64 | C64_safe_send_partial | P C Q |
| C64 | C64_sync_same_partial | P C Q |
| C64 | C64_fails_too_big | P C Q |
| C64 | C64_empty | P C Q |
| C64 | C64_fails_memory | P |
| C64 | C64_fails_shrinks_for_nothing | P |
| C64 | C64_sync_fails_stopped | P |
| C64 | C64_sync_safe_fails | P |
| C64 | C64_demo | P |
| C64 | C64_safe_send_ends | P C Q |
| C64 | C64_fails_sync_safe_repeats | P Q |
| C65 | C65_at_most_once | P C Q |
| C65 | C65_everyone | P C Q |
| C65 | C65_shut_all | P C Q |
| C65 | C65_refused_why | P C Q |
| C65 | C65_fifo | P C Q |
| C65 | C65_one_order | P C Q |
| C65 | C65_sent_once | P C Q |
| C65 | C65_all_sent | P C Q |
| C65 | C65_demo | P Q |
| C65 | C65_fails_prior | P Q |
| C65 | C65_fails_shared | P Q |
| C65 | C65_refused_unnoticed | P Q |
| C66 | C66_returns_partial | P C Q |
| C66 | C66_safe_returns_partial | P C Q |
| C66 | C66_fails_stopped | P C Q |
| C66 | C66_fails_threads | P C Q |
| C66 | C66_fails_unpackable | P C Q |
| C67 | C67_shared_partial | P C Q |
| C67 | C67_unique | P C Q |
| C67 | C67_refused | P Q |
| C67 | C67_received | P Q |
| C67 | C67_received_fresh | P C Q |
| C67 | C67_demo | P Q |
| C67 | C67_demo_unique | P Q |
| C67 | C67_fails_changed | P Q |
| C67 | C67_fails_in_flight | P Q |
| C67 | C67_fails_same_variable | P Q |
| C67 | C67_fails_accounting | P C Q |
| C68 | C68_packed_partial | P C Q |
| C68 | C68_heartbeat | P Q |
| C68 | C68_received | P Q |
| C68 | C68_received_unpacker | P C Q |
| C68 | C68_received_flexible | P C Q |
| C68 | C68_received_prefix_suffix | P C Q |
| C68 | C68_plain | P Q |
| C68 | C68_fails_empty | P C Q |
| C68 | C68_fails_pieces | P Q |
| C68 | C68_fails_fixed_length | P C Q |
| C68 | C68_fails_switched | P Q |
| C69 | C69_native_in_order | P C Q |
| C69 | C69_native_all_handled | P C Q |
| C69 | C69_native_delivers | P C Q |
| C69 | C69_terminates | P C Q |
| C69 | C69_in_order_partial | P C Q |
| C69 | C69_all_handled_partial | P C Q |
| C69 | C69_delivers_partial | P C Q |
| C69 | C69_demo | P Q |
| C69 | C69_fails_send_msg | P Q |
| C69 | C69_fails_head | P Q |
| C69 | C69_fails_two | P Q |
| C69 | C69_fails_heartbeat | P Q |
| C69 | C69_fails_empty | P C Q |
| C69 | C69_fails_empty_debug | P Q |
| C69 | C69_no_starvation_partial | P C Q |
| C69 | C69_native_no_starvation | P C Q |
| C70 | C70_in_order | P C Q |
| C70 | C70_all_answered | P C Q |
| C70 | C70_delivers | P C Q |
| C70 | C70_terminates | P C Q |
| C70 | C70_refused_only_when_full | P C Q |
| C70 | C70_memory | P C Q |
| C70 | C70_fails_unstripped | P C Q |
| C70 | C70_demo | P Q |
| C70 | C70_demo_unstripped | P Q |
| C70 | C70_no_starvation | P C Q |
| C70 | C70_fair_exists | P C Q |
| C71 | C71_own_start | P C Q |
| C71 | C71_never_early_partial | P C Q |
| C71 | C71_prompt_partial | P C Q |
| C71 | C71_not_forgotten_partial | P C Q |
| C71 | C71_period | P Q |
| C71 | C71_aligned | P C Q |
| C71 | C71_aligned_bounded | P Q |
| C71 | C71_no_crash | P Q |
| C71 | C71_fails_stale | P Q |
| C71 | C71_fails_clock | P Q |
| C71 | C71_fails_zero | P Q |
| C71 | C71_demo | P Q |
| C72 | C72_in_sequence_partial | P C Q |
| C72 | C72_fails_restart | P Q |
| C73 | C73_every_message_partial | P C Q |
| C73 | C73_received_partial | P C Q |
| C73 | C73_resumes | P C Q |
| C73 | C73_demo | P Q |
| C73 | C73_fails_torn | P Q |
| C74 | C74_at_least_once_partial | P C Q |
| C74 | C74_received_partial | P C Q |
| C74 | C74_fails_once | P Q |
| C74 | C74_fails_torn | P Q |
| C74 | C73_resumes | P C Q |
| C75 | C75_only_sent | P C Q |
| C75 | C75_in_order_partial | P C Q |
| C75 | C75_delivers_partial | P C Q |
| C75 | C75_stalls | P C Q |
| C75 | C75_demo | P Q |
| C75 | C75_fails_big | P C Q |
| C75 | C75_fails_refused | P Q |
| C75 | C75_fails_empty | P |
| C75 | C75_no_starvation_partial | P C Q |
| C76 | C76_each | P C Q |
| C76 | C76_on_the_wire | P C Q |
| C76 | C76_all_true | P C Q |
| C76 | C76_order | P C Q |
| C76 | C76_all_arg | P C Q |
| C76 | C76_all_comes_partial | P C Q |
| C76 | C76_settles | P C Q |
| C76 | C76_demo | P |
| C76 | C76_fails_pop | P |
| C76 | C76_udp_each | P C Q |
| C76 | C76_udp_all_true | P C Q |
| C76 | C76_udp_order | P C Q |
| C76 | C76_udp_all_arg | P C Q |
| C76 | C76_udp_all_comes_partial | P C Q |
| C76 | C76_udp_demo | P |
| C76 | C76_fails_udp_error | P |
| C77 | C77_keeps_receiving_partial | P C Q |
| C77 | C77_chain | P C Q |
| C77 | C77_demo | P |
| C77 | C77_deaf_after_error | P C Q |
| C77 | C77_fails_error | P Q |
| C78 | C78_one_outcome | P C Q |
| C78 | C78_no_false_success | P C Q |
| C78 | C78_open_drains_partial | P C Q |
| C78 | C78_demo | P Q |
| C78 | C78_fails_closed | P Q |
| C78 | C78_fails_waiting | P Q |
| C78 | C78_turns | P C Q |
| C79 | C79_safe_partial | P C Q |
| C79 | C79_alive_partial | P C Q |
| C79 | C79_clean_partial | P C Q |
| C79 | C79_freed_partial | P C Q |
| C79 | C79_fails_never_started | P C Q |
| C79 | C79_demo | P |
| C79 | C79_fails_delay_close | P |
| C79 | C79_fails_tail | P |
| C79 | C79_fails_delay_reuse | P |
| C79 | C79_fails_stop | P |
| C79 | C79_fails_stopped_use | P |
| C79 | C79_fails_outside | P |
| C79 | C79_fails_new_pointer | P |
| C79 | C79_fails_reuse_up | P |
| C79 | C79_unique_partial | P C Q |
| C79 | C79_unique_demo | P |
| C79 | C79_demo_stopped | P |
| C80 | C80_careful_partial | P C Q |
| C80 | C80_careful_demo | P |
| C80 | C80_plain_partial | P C Q |
| C80 | C80_plain_demo | P |
| C80 | C80_guarded_partial | P C Q |
| C80 | C80_guarded_demo | P |
| C80 | C80_fails_stop_set | P |
| C80 | C80_fails_check_recv | P |
| C80 | C80_fails_graceful_shutdown | P Q |
| C80 | C80_fails_graceful_count | P Q |
| C81 | C81_right | P C Q |
| C81 | C81_ends | P C Q |
| C81 | C81_ends_demo | P |
| C81 | C81_own_partial | P C Q |
| C81 | C81_own_demo | P |
| C81 | C81_fails_leftover | P Q |
| C81 | C81_bytes | P |
| C82 | C82_log | P C Q |
| C82 | C82_log_demo | P C Q |
| C83 | C83_own_partial | P C Q |
| C83 | C83_right_partial | P C Q |
| C83 | C83_right_demo | P |
| C83 | C83_fails_again | P |
| C83 | C83_fails_unconnected | P |
| C84 | C84_counted | P C Q |
| C84 | C84_counted_demo | P |
| C84 | C84_exact | P C Q |
| C84 | C84_size_partial | P C Q |
| C84 | C84_size_demo | P |
| C84 | C84_fails_drained | P Q |
| C85 | C85_even | P C Q |
| C85 | C85_fewer | P C Q |
| C85 | C85_fails_none | P |
| C85 | C85_fails_more | P |
| C86 | C86_order | P |
| C86 | C86_one_partial | P C Q |
| C86 | C86_one_demo | P |
| C86 | C86_ends_partial | P C Q |
| C86 | C86_ends_demo | P |
| C86 | C86_fails_lost | P Q |
| C86 | C86_fails_command | P |
| C86 | C86_fails_some | P |
| C87 | C87_right | P C Q |
| C87 | C87_quiet_partial | P C Q |
| C87 | C87_bound | P Q |
| C87 | C87_ends | P C Q |
| C87 | C87_demo | P |
| C87 | C87_ends_demo | P |
| C87 | C87_fails_complaint | P C Q |
| C88 | C88_ends_partial | P C Q |
| C88 | C88_twice | P C Q |
| C88 | C88_demo_ssl | P C Q |
| C88 | C88_demo_ws | P C Q |
| C88 | C88_fails_passive | P Q |
| C88 | C88_fails_empty | P Q |
| C88 | C88_lost | P C Q |
| C89 | C89_container | P C Q |
| C89 | C89_no_overlap | P C Q |
| C89 | C89_send_queue | P C Q |
| C89 | C89_lock_queue | P C Q |
| C89 | C89_fails_two_greetings | P Q |
| C89 | C89_fails_app | P Q |
| C89 | C89_fails_leaving | P Q |
| C89 | C89_fails_replies | P Q |
| C89 | C89_fails_pingpong | P Q |
| C89 | C89_fails_status | P Q |
| C89 | C89_fails_count | P Q |
| C89 | C89_lock_released | P C Q |
| C90 | C90_offered_partial | P C Q |
| C90 | C90_resumed_partial | P C Q |
| C90 | C90_once_partial | P C Q |
| C90 | C90_fails_dispatch | P C Q |
| C90 | C90_fails_receive | P C Q |
| C91 | C91_safe_partial | P C Q |
| C91 | C91_handle_partial | P C Q |
| C91 | C91_last_partial | P C Q |
| C91 | C91_pack_partial | P C Q |
| C91 | C91_fails_pack | P Q |
| C91 | C91_fails_pack_beat | P Q |
| C91 | C91_fails_handle | P Q |
| C91 | C91_fails_last | P Q |
| C92 | C92_new_partial | P |
| C92 | C92_exact_partial | P Q |
| C92 | C92_reconnect | P |
| C92 | C92_asked | P Q |
| C92 | C92_untouched | P Q |
| C92 | C92_isolated | P C Q |
| C92 | C92_again | P C Q |
| C92 | C92_demo | P |
| C92 | C92_demo_again | P |
| C92 | C92_fails_default | P Q |
| C92 | C92_fails_local | P |
| C92 | C92_fails_server | P |
| C92 | C92_fails_peer | P |
| C92 | C92_fails_bad_ip | P |
| C92 | C92_set | P |
| C92 | C92_set_demo | P |
| C93 | C93_in_order | P C Q |
| C93 | C93_all_handled | P C Q |
| C93 | C93_terminates | P C Q |
| C93 | C93_delivers | P C Q |
| C93 | C93_starts | P C Q |
| C93 | C93_demo_header | P Q |
| C93 | C93_demo_plain | P Q |
| C93 | C93_no_starvation | P C Q |
| C93 | C93_fair_exists | P C Q |
| C94 | C94_only_whole | P C Q |
| C94 | C94_handled_partial | P C Q |
| C94 | C94_close_last | P C Q |
| C94 | C94_graceful_partial | P C Q |
| C94 | C94_closes | P C Q |
| C94 | C94_demo_graceful | P Q |
| C94 | C94_demo_broken | P Q |
| C94 | C94_fails_refused | P Q |
| C94 | C94_fails_delay | P Q |
| C94 | C94_fails_graceful | P Q |
| C95 | C95_in_order | P C Q |
| C95 | C95_prefix | P C Q |
| C95 | C95_all_handled | P C Q |
| C95 | C95_delivers | P C Q |
| C95 | C95_only_asked | P C Q |
| C95 | C95_starts | P C Q |
| C95 | C95_demo | P Q |
| C95 | C95_demo_empty | P Q |
| C95 | C95_no_starvation | P C Q |
| C95 | C95_fair_exists | P C Q |
| C96 | C96_in_order | P C Q |
| C96 | C96_left | P C Q |
| C96 | C96_genuine | P C Q |
| C96 | C96_fifo | P C Q |
| C96 | C96_at_most_once | P C Q |
| C96 | C96_delivers | P C Q |
| C96 | C96_all_handled | P C Q |
| C96 | C96_demo | P Q |
| C96 | C96_demo_perfect | P Q |
| C96 | C96_no_starvation | P C Q |
| C96 | C96_leaves | P C Q |
| C96 | C96_eventually | P C Q |
| C96 | C96_fair_exists | P C Q |
| C97 | C97_made_partial | P C Q |
| C97 | C97_fails_part | P C Q |
| C97 | C97_fails_array | P Q |
| C97 | C97_demo_part | P |
| C97 | C97_demo | P |
| C98 | C98_listens | P Q |
| C98 | C98_listens_again | P Q |
| C98 | C98_bound_partial | P Q |
| C98 | C98_starts_again_partial | P Q |
| C98 | C98_fails_unix | P Q |
| C98 | C98_fails_listen | P Q |
| C98 | C98_fails_family | P Q |
| C98 | C98_fails_deaf | P Q |
| C98 | C98_demo_server | P Q |
| C98 | C98_demo_udp | P Q |
| C99 | C99_window | P Q |
| C99 | C99_in_order | P C Q |
| C99 | C99_all_handled | P C Q |
| C99 | C99_delivers | P C Q |
| C99 | C99_terminates | P C Q |
| C99 | C99_all_answered | P C Q |
| C99 | C99_answers_delivered | P C Q |
| C99 | C99_both_in_order | P C Q |
| C99 | C99_circulates_partial | P C Q |
| C99 | C99_fails_both | P C Q |
| C99 | C99_demo_pipe | P Q |
| C99 | C99_demo_echo | P Q |
| C99 | C99_demo_both | P Q |
| C99 | C99_no_starvation | P C Q |
| C99 | C99_no_starvation_echo | P C Q |
| C99 | C99_fair_exists | P C Q |
| C99 | C99_fair_exists_echo | P C Q |
