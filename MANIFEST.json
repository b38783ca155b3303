{
 "claims": [
  {
   "property": "C01",
   "status": "proved",
   "theorems": [
    "StAsio.C01_default_delivery"
   ],
   "note": "End to end: any packer overload, any segmentation, any prefix of the stream."
  },
  {
   "property": "C02",
   "status": "proved",
   "theorems": [
    "StAsio.C02_malformed_detected"
   ],
   "note": ""
  },
  {
   "property": "C03",
   "status": "proved",
   "theorems": [
    "StAsio.C03_safe_and_live"
   ],
   "note": ""
  },
  {
   "property": "C04",
   "status": "proved",
   "theorems": [
    "StAsio.C04_flexible_delivery",
    "StAsio.C04_flexible_decodes"
   ],
   "note": "Both for streams of packed messages and for arbitrary byte streams."
  },
  {
   "property": "C05",
   "status": "proved",
   "theorems": [
    "StAsio.C05_non_copy_delivery",
    "StAsio.C05_non_copy_decodes"
   ],
   "note": ""
  },
  {
   "property": "C06",
   "status": "proved",
   "theorems": [
    "StAsio.C06_fixed_length",
    "StAsio.C06_packer_verbatim",
    "StAsio.C06_fails_heartbeat"
   ],
   "note": "fixed_length_packer's list overload is excluded: it drops earlier output, see C11_fixed_length_list_drops_output."
  },
  {
   "property": "C07",
   "status": "proved",
   "theorems": [
    "StAsio.C07_prefix_suffix_delivery"
   ],
   "note": ""
  },
  {
   "property": "C08",
   "status": "partial",
   "theorems": [
    "StAsio.C08_malformed_reported_partial",
    "StAsio.C08_wrong_prefix_stalls",
    "StAsio.C08_wrong_prefix_after_heartbeat_stalls",
    "StAsio.C08_unpacker_safe"
   ],
   "note": "False in general: C08_wrong_prefix_stalls and C08_wrong_prefix_after_heartbeat_stalls are counterexamples. Proved when the malformed data does not share a read with a good message and does not follow a heartbeat."
  },
  {
   "property": "C09",
   "status": "proved",
   "theorems": [
    "StAsio.C09_stream",
    "StAsio.C09_udp",
    "StAsio.C09_udp_truncation"
   ],
   "note": "Empty datagrams are skipped by recv_handler; datagrams larger than the buffer are cut by the operating system."
  },
  {
   "property": "C10",
   "status": "proved",
   "theorems": [
    "StAsio.C10_pack_array",
    "StAsio.C10_refuse_without_reading"
   ],
   "note": ""
  },
  {
   "property": "C100",
   "status": "proved",
   "theorems": [
    "StAsio.C100_stays_up",
    "StAsio.C100_stays_up_default",
    "StAsio.C100_noticed",
    "StAsio.C100_once",
    "StAsio.C100_time_goes_on",
    "StAsio.C100_fails_absence",
    "StAsio.C100_fails_interval",
    "StAsio.C100_demo"
   ],
   "note": "Timed machine of both ends with bounded delays; the bounds on delays and settings are part of the statement, C100_fails_absence and C100_fails_interval show that settings with less reserve (max_absence 2, or an interval of 1 s) shut down healthy links. Whole messages are received at once; C31_fails_backpressure is about the other case."
  },
  {
   "property": "C101",
   "status": "partial",
   "theorems": [
    "StAsio.C101_default",
    "StAsio.C101_flexible",
    "StAsio.C101_non_copy",
    "StAsio.C101_prefix_suffix",
    "StAsio.C101_prefix_suffix_good",
    "StAsio.C101_prefix_suffix_malformed",
    "StAsio.C101_prefix_suffix_logged",
    "StAsio.C101_prefix_suffix_one_each",
    "StAsio.C101_prefix_suffix_demo",
    "StAsio.C101_in_the_log",
    "StAsio.C101_fails_long",
    "StAsio.C101_fails_long_demo",
    "StAsio.C101_demo"
   ],
   "note": "Proved for all unpackers over whole streams. 'The log shows all of them' is false of the code: a log line is cut after 2047 characters, which is less than 700 bytes (C101_fails_long); C101_in_the_log proves it for what fits. The prefix-suffix unpacker may stop receiving on malformed data without any error (C08); then nothing is logged."
  },
  {
   "property": "C102",
   "status": "proved",
   "theorems": [
    "StAsio.C102_exclusive",
    "StAsio.C102_free",
    "StAsio.C102_again",
    "StAsio.C102_history",
    "StAsio.C102_result",
    "StAsio.C102_once",
    "StAsio.C102_start_returns",
    "StAsio.C102_close_returns",
    "StAsio.C102_fails_close_waits",
    "StAsio.C102_fair_exists",
    "StAsio.C102_demo",
    "StAsio.C102_lock_demo"
   ],
   "note": "C102_fails_close_waits shows that the condition on the other threads is needed: close() polls every 10 ms and can miss the lock for ever."
  },
  {
   "property": "C103",
   "status": "proved",
   "theorems": [
    "StAsio.C103_at_most",
    "StAsio.C103_no_further_accept",
    "StAsio.C103_gets_in",
    "StAsio.C103_fails_restart",
    "StAsio.C103_demo",
    "StAsio.C103_demo_two"
   ],
   "note": "Full. Without the supposition about restarts it is false: C103_fails_restart."
  },
  {
   "property": "C104",
   "status": "partial",
   "theorems": [
    "StAsio.C104_udp",
    "StAsio.C104_tcp",
    "StAsio.C104_counts",
    "StAsio.C104_tcp_at_most",
    "StAsio.C104_fails_negative",
    "StAsio.C104_demo_tcp",
    "StAsio.C104_demo_udp",
    "StAsio.C104_dispatch",
    "StAsio.C104_demo_dispatch",
    "StAsio.C104_batch_partial",
    "StAsio.C104_batch_handle",
    "StAsio.C104_fails_leftover",
    "StAsio.C104_fails_arrival",
    "StAsio.C104_demo_batch",
    "StAsio.C104_idle_partial",
    "StAsio.C104_fails_idle",
    "StAsio.C104_demo_idle",
    "StAsio.C104_batch_turns",
    "StAsio.C104_turns"
   ],
   "note": "UDP sending, TCP write times, dispatching one message at a time and handle times: exact for every history and clock. TCP send delay: measured up to the reading of the clock before the messages are taken, so too small by that gap and possibly negative (C104_fails_negative). Batch dispatching: exact for the messages offered if a handler that takes something takes everything (C104_batch_partial); otherwise waiting is counted again (C104_fails_leftover), and a message that arrives during a call and is taken by it is not counted (C104_fails_arrival). Idle time: exact unless the link breaks while receiving is halted (C104_idle_partial, C104_fails_idle). False in full of the code."
  },
  {
   "property": "C105",
   "status": "partial",
   "theorems": [
    "StAsio.C105_once_partial",
    "StAsio.C105_stays_closed_partial",
    "StAsio.C105_no_race_partial",
    "StAsio.C105_fails_late",
    "StAsio.C105_fails_race",
    "StAsio.C105_demo"
   ],
   "note": "Proved for every history in which the callback is in place before the first connection is established: at most one connection, no attempt afterwards, no restart, no race. False otherwise (the link is started before the callback is registered): C105_fails_late, C105_fails_race."
  },
  {
   "property": "C106",
   "status": "partial",
   "theorems": [
    "StAsio.C106_clock",
    "StAsio.C106_in_time",
    "StAsio.C106_not_early",
    "StAsio.C106_no_crash",
    "StAsio.C106_no_misuse_partial",
    "StAsio.C106_released",
    "StAsio.C106_time_goes_on",
    "StAsio.C106_demo",
    "StAsio.C106_fails_aligned",
    "StAsio.C106_fails_lost",
    "StAsio.C106_fails_misuse"
   ],
   "note": "False of the code: with ST_ASIO_ALIGNED_TIMER a wait of 0 ms and a call back of 1 ms end in a division by zero (C106_fails_aligned); create_kcpcb between close() and on_close loses the control block (C106_fails_lost) or releases it in use (C106_fails_misuse). Proved for programs that wait for on_close. Assumes that nobody sets the system clock."
  },
  {
   "property": "C107",
   "status": "partial",
   "theorems": [
    "StAsio.C107_quiet",
    "StAsio.C107_noticed",
    "StAsio.C107_truthful",
    "StAsio.C107_time_goes_on",
    "StAsio.C107_fails_loss",
    "StAsio.C107_fails_seen",
    "StAsio.C107_demo"
   ],
   "note": "False of the code in two respects: with the default max_absence a single lost datagram can lead to a false report (C107_fails_loss), and the default UDP packer and unpacker show heartbeats to the peer's program (C107_fails_seen). Everything else is proved: no false report if the settings fit the network, reports in time and again and again, and every report is true."
  },
  {
   "property": "C108",
   "status": "partial",
   "theorems": [
    "StAsio.C108_addresses",
    "StAsio.C108_connected",
    "StAsio.C108_set",
    "StAsio.C108_fails_family",
    "StAsio.C108_fails_late",
    "StAsio.C108_demo",
    "StAsio.C108_family_demo"
   ],
   "note": "Proved for all histories, with two exceptions that are false of the code: the first attempt after a start uses the local address of the start, not one set in the 50 ms until then (C108_fails_late), and a local address of the other IP version makes connecting impossible (C108_fails_family)."
  },
  {
   "property": "C109",
   "status": "partial",
   "theorems": [
    "StAsio.C109_truthful",
    "StAsio.C109_silent",
    "StAsio.C109_noticed",
    "StAsio.C109_each_partial",
    "StAsio.C109_time_goes_on",
    "StAsio.C109_fails_two",
    "StAsio.C109_demo",
    "StAsio.C109_late_demo"
   ],
   "note": "Truth and noticing are proved for all histories. That at most one message is on its way, and with it the bound for every single echo, needs an empty send buffer whenever the link is connected: a message left in it is sent over the next link besides the one on_connect sends, and then an echo may take nearly twice as long as max_delay unnoticed (C109_fails_two)."
  },
  {
   "property": "C11",
   "status": "partial",
   "theorems": [
    "StAsio.C11_zero_copy",
    "StAsio.C11_same_bytes",
    "StAsio.C11_prefix_suffix",
    "StAsio.C11_prefix_suffix_array",
    "StAsio.C11_fixed_length_list_drops_output"
   ],
   "note": "Proved for packer, packer2 and prefix_suffix_packer whenever the head can express every length up to the buffer size; false for fixed_length_packer's list overload when the output container is not empty (witness theorem)."
  },
  {
   "property": "C110",
   "status": "partial",
   "theorems": [
    "StAsio.C110_handoff",
    "StAsio.C110_asked",
    "StAsio.C110_rests",
    "StAsio.C110_reads_partial",
    "StAsio.C110_all_partial",
    "StAsio.C110_fails_early",
    "StAsio.C110_fails_mixed",
    "StAsio.C110_demo"
   ],
   "note": "Hand-off, reads only on demand and coming to rest are proved for all runs. A waiting caller has a read outstanding only if sync_recv_msg is not called before the link is established: else nobody ever reads (C110_fails_early). Everything comes through sync_recv_msg only if the calls have no duration and the link works: behind a timeout the next message goes to on_msg_handle (C110_fails_mixed)."
  },
  {
   "property": "C111",
   "status": "partial",
   "theorems": [
    "StAsio.C111_ids_partial",
    "StAsio.C111_independent",
    "StAsio.C111_separate",
    "StAsio.C111_fails_stop_all",
    "StAsio.C111_fails_many",
    "StAsio.C111_demo",
    "StAsio.C111_run_demo"
   ],
   "note": "Independence is proved for all histories, with stop_all_timer as the only exception: it is public and stops the timers of the library as well (C111_fails_stop_all). IDs are distinct as long as less than 65536 are reserved in total, since they are unsigned short (C111_fails_many)."
  },
  {
   "property": "C112",
   "status": "partial",
   "theorems": [
    "StAsio.C112_percent",
    "StAsio.C112_get_partial",
    "StAsio.C112_reported_partial",
    "StAsio.C112_put_partial",
    "StAsio.C112_fails_put",
    "StAsio.C112_fails_write",
    "StAsio.C112_get_demo",
    "StAsio.C112_put_demo",
    "StAsio.C112_put_bound"
   ],
   "note": "Percentages are monotone and at most 100 for all runs; downloads are reported truthfully, byte by byte, unless fwrite fails, also when connections get lost; a complete transfer is always reported. False of uploads, which are counted when the bytes are read from the file (every file that fits in one chunk is reported as finished before a byte was sent), and of downloads when fwrite fails."
  },
  {
   "property": "C113",
   "status": "proved",
   "theorems": [
    "StAsio.C113_watch",
    "StAsio.C113_in_time",
    "StAsio.C113_timeout",
    "StAsio.C113_prompt",
    "StAsio.C113_time_goes_on",
    "StAsio.C113_fails_forever",
    "StAsio.C113_demo",
    "StAsio.C113_rescue_demo"
   ],
   "note": "A clock on top of the machine of C28; threads that can run do so before time passes. C113_time_goes_on shows that time is never blocked, so the bound of C113_in_time is a real one. C113_fails_forever shows that without a duration there is no such bound (the case known from C28)."
  },
  {
   "property": "C114",
   "status": "proved",
   "theorems": [
    "StAsio.C114_watch",
    "StAsio.C114_in_time",
    "StAsio.C114_timeout",
    "StAsio.C114_prompt",
    "StAsio.C114_answer",
    "StAsio.C114_time_goes_on",
    "StAsio.C114_timeout_not_final",
    "StAsio.C114_fails_forever",
    "StAsio.C114_demo",
    "StAsio.C114_admitted"
   ],
   "note": "Time passes only when no caller can return (what a busy computer adds is not modelled); stopped() at the start of a call is not modelled. C114_timeout_not_final shows that TIMEOUT does not withdraw the message; C114_fails_forever that without a duration there is no bound."
  },
  {
   "property": "C12",
   "status": "partial",
   "theorems": [
    "StAsio.C12_head_honest_partial",
    "StAsio.C12_array_honest",
    "StAsio.C12_head_can_lie",
    "StAsio.C12_head_assert"
   ],
   "note": "False for 16-bit heads with a buffer above 65535 in NDEBUG builds (C12_head_can_lie); proved in all other configurations and always for the copying overload."
  },
  {
   "property": "C13",
   "status": "proved",
   "theorems": [
    "StAsio.C13_byte_string",
    "StAsio.C13_self_assign_loses_content",
    "StAsio.C13_self_append_use_after_free"
   ],
   "note": "any operation sequence on two buffers; aliasing (self-assignment, self-append) excluded and shown to misbehave"
  },
  {
   "property": "C14",
   "status": "proved",
   "theorems": [
    "StAsio.C14_capacity",
    "StAsio.C14_reserve",
    "StAsio.C14_waste",
    "StAsio.C14_waste_demo"
   ],
   "note": "realloc assumed to succeed; non-MSVC growth strategy"
  },
  {
   "property": "C15",
   "status": "partial",
   "theorems": [
    "StAsio.C15_append2_with_length",
    "StAsio.C15_append2_partial",
    "StAsio.C15_append2_keeps_inner_nul",
    "StAsio.C15_append2_inner_nul",
    "StAsio.C15_documented_example"
   ],
   "note": "false for the one-argument overload when the buffer ends with NUL (witness and general negation proved); two-argument overload proved"
  },
  {
   "property": "C16",
   "status": "proved",
   "theorems": [
    "StAsio.C16_fifo_exact_bytes",
    "StAsio.C16_first_in_first_out"
   ],
   "note": "operations atomic under the queue's lock; size_t arithmetic modulo 2^64; callers of move_items_in declare the true size (the code asserts it)"
  },
  {
   "property": "C17",
   "status": "proved",
   "theorems": [
    "StAsio.C17_move_out_bytes",
    "StAsio.C17_zero_takes_one",
    "StAsio.C17_move_out_count"
   ],
   "note": ""
  },
  {
   "property": "C18",
   "status": "proved",
   "theorems": [
    "StAsio.C18_refused_iff",
    "StAsio.C18_bound"
   ],
   "note": "the single sender bound is C18_bound with n = 1; proved for any number of senders"
  },
  {
   "property": "C19",
   "status": "proved",
   "theorems": [
    "StAsio.C19_shrink",
    "StAsio.C19_bound",
    "StAsio.C19_bound_default",
    "StAsio.C19_unbounded_without"
   ],
   "note": "also the bound with shrinking, and that it needs calc_shrink_size to be big enough"
  },
  {
   "property": "C20",
   "status": "proved",
   "theorems": [
    "StAsio.C20_ideal_sender",
    "StAsio.C20_order",
    "StAsio.C20_reported",
    "StAsio.C20_wire",
    "StAsio.C20_everything_written"
   ],
   "note": "all interleavings of any number of senders, strand, kernel; byte stream theorem per link"
  },
  {
   "property": "C21",
   "status": "proved",
   "theorems": [
    "StAsio.C21_one_write"
   ],
   "note": "also: buffers being written are never modified"
  },
  {
   "property": "C22",
   "status": "proved",
   "theorems": [
    "StAsio.C22_no_lost_wakeup",
    "StAsio.C22_drains",
    "StAsio.C22_left_behind_after_error",
    "StAsio.C22_no_starvation",
    "StAsio.C22_no_starvation_demo",
    "StAsio.C22_fails_priority"
   ],
   "note": "safety and progress (bounded number of internal steps leads to an empty send buffer); the condition on failed writes is shown to be needed"
  },
  {
   "property": "C23",
   "status": "partial",
   "theorems": [
    "StAsio.C23_exactly_once_partial",
    "StAsio.C23_true_outcome_partial",
    "StAsio.C23_fails_discarded",
    "StAsio.C23_fails_closed",
    "StAsio.C23_fails_delayed_close"
   ],
   "note": "missing: promises of discarded (shrink), cleared (reset) and still queued messages are never set, double set with a delayed close - proved false of the code"
  },
  {
   "property": "C24",
   "status": "proved",
   "theorems": [
    "StAsio.C24_ideal_sender",
    "StAsio.C24_order",
    "StAsio.C24_one_send",
    "StAsio.C24_outcomes",
    "StAsio.C24_wire",
    "StAsio.C24_no_lost_wakeup",
    "StAsio.C24_drains",
    "StAsio.C24_promises",
    "StAsio.C24_stuck_without_timer",
    "StAsio.C24_no_starvation",
    "StAsio.C24_no_starvation_demo"
   ],
   "note": "Concurrent machine of do_send_msg/send_handler/resume_sending incl. KCP hand-over and TIMER_CC. Hypotheses: the socket stayed valid and TIMER_CC was not stopped; C24_stuck_without_timer shows that the latter is needed."
  },
  {
   "property": "C25",
   "status": "proved",
   "theorems": [
    "StAsio.C25_ideal_dispatcher",
    "StAsio.C25_order",
    "StAsio.C25_call",
    "StAsio.C25_one_at_a_time",
    "StAsio.C25_retry"
   ],
   "note": "All schedules of the receiving chain, the dispatch strand, the retry timer, pop, close, reconnect, reset; single-message dispatch mode"
  },
  {
   "property": "C26",
   "status": "partial",
   "theorems": [
    "StAsio.C26_nothing_left_partial",
    "StAsio.C26_drains_partial",
    "StAsio.C26_no_livelock",
    "StAsio.C26_fails_after_reconnect",
    "StAsio.C26_no_starvation_partial",
    "StAsio.C26_no_starvation_demo"
   ],
   "note": "Holds unless a close stopped the retry timer after a refusal; false after reconnect (witness proved)"
  },
  {
   "property": "C27",
   "status": "partial",
   "theorems": [
    "StAsio.C27_bound",
    "StAsio.C27_bound_one_link_partial",
    "StAsio.C27_stops_iff",
    "StAsio.C27_resumes_partial",
    "StAsio.C27_fails_after_reconnects"
   ],
   "note": "limit - 1 + one read per link; exact claim for the first link; false after reconnects (witness proved)"
  },
  {
   "property": "C28",
   "status": "partial",
   "theorems": [
    "StAsio.C28_ideal_handoff",
    "StAsio.C28_exactly_once",
    "StAsio.C28_all_handed_out",
    "StAsio.C28_one_caller",
    "StAsio.C28_duplicate",
    "StAsio.C28_timeout",
    "StAsio.C28_no_deadlock",
    "StAsio.C28_error_releases",
    "StAsio.C28_close_releases_partial",
    "StAsio.C28_no_race_partial",
    "StAsio.C28_fails_close",
    "StAsio.C28_fails_restart",
    "StAsio.C28_success_may_be_empty",
    "StAsio.C28_error_reported"
   ],
   "note": "All proved but: close may miss a caller between its test and its blocking (witness); restart before an answered caller woke is a data race (witness)"
  },
  {
   "property": "C29",
   "status": "partial",
   "theorems": [
    "StAsio.C29_once_partial",
    "StAsio.C29_obsoleted_after",
    "StAsio.C29_quiet_partial",
    "StAsio.C29_reaches",
    "StAsio.C29_dead",
    "StAsio.C29_close_inside_start",
    "StAsio.C29_fails_restart",
    "StAsio.C29_fails_extern",
    "StAsio.C29_fails_delay",
    "StAsio.C29_fails_stopped",
    "StAsio.C29_fails_obsolete_pending",
    "StAsio.C29_fails_obsolete_up",
    "StAsio.C29_stopped",
    "StAsio.C29_stopped_demo",
    "StAsio.C29_no_starvation"
   ],
   "note": "Proved for all interleavings in which the two tests of start() are not separated by another thread: one successful close and one on_close per start, no restart in between, on_close reachable, obsoleted objects are dead. Quietness at on_close needs ST_ASIO_DELAY_CLOSE == 0, a running service and no call begun by a user thread behind the decision; the C29_fails_ theorems give the counterexamples otherwise."
  },
  {
   "property": "C30",
   "status": "partial",
   "theorems": [
    "StAsio.C30_moves_partial",
    "StAsio.C30_bounded",
    "StAsio.C30_graceful_ends",
    "StAsio.C30_graceful_noop",
    "StAsio.C30_force_overrides",
    "StAsio.C30_fails_late_connect",
    "StAsio.C30_gives_up",
    "StAsio.C30_no_starvation"
   ],
   "note": "Moves, bound and overriding are proved for server and client sockets, except that a connect completing after the client was shut down makes it connected while closed and then broken directly (C30_fails_late_connect)."
  },
  {
   "property": "C31",
   "status": "partial",
   "theorems": [
    "StAsio.C31_timeout",
    "StAsio.C31_heartbeat",
    "StAsio.C31_alive",
    "StAsio.C31_detects",
    "StAsio.C31_fails_backpressure",
    "StAsio.C31_udp_spacing"
   ],
   "note": "Exact decision of time-outs and heartbeats and both bounds (never dead within interval*max_absence-1 s, always detected after interval*max_absence s) proved against receptions; the claim about the peer's own sending is false when reads are suspended or incomplete (C31_fails_backpressure)."
  },
  {
   "property": "C32",
   "status": "partial",
   "theorems": [
    "StAsio.C32_one_entry",
    "StAsio.C32_stop",
    "StAsio.C32_keeps_running",
    "StAsio.C32_stops",
    "StAsio.C32_restart",
    "StAsio.C32_live",
    "StAsio.C32_aborted",
    "StAsio.C32_no_race",
    "StAsio.C32_fails_wrap",
    "StAsio.C32_fails_race",
    "StAsio.C32_race_all"
   ],
   "note": "One entry per id, nothing fires after a stop, keep-running / stop / restart-in-callback, and liveness of started timers are proved for all operation sequences; restart-in-callback needs fewer than 256 restarts since the expired schedule (C32_fails_wrap), and the library's own cross-thread restart can be lost (C32_fails_race)."
  },
  {
   "property": "C33",
   "status": "partial",
   "theorems": [
    "StAsio.C33_once",
    "StAsio.C33_current_partial",
    "StAsio.C33_fails_stale",
    "StAsio.C33_fails_wrap"
   ],
   "note": "False in general: an expiry queued before a stop and restart fires for the old schedule (C33_fails_stale). Proved: each schedule fires at most once, and if the timer is started from outside its call back only while no expiry is queued, every invocation is for the current schedule."
  },
  {
   "property": "C34",
   "status": "partial",
   "theorems": [
    "StAsio.C34_find",
    "StAsio.C34_ids",
    "StAsio.C34_visit",
    "StAsio.C34_bound",
    "StAsio.C34_full",
    "StAsio.C34_one_place",
    "StAsio.C34_fails_restore_race",
    "StAsio.C34_example"
   ],
   "note": "Lookup, unique ids, iteration and the size bound proved for all runs; 'in one place only' needs that only pooled objects are restored and no id is given twice, otherwise it is false (C34_fails_restore_race)."
  },
  {
   "property": "C35",
   "status": "proved",
   "theorems": [
    "StAsio.C35_only_dead",
    "StAsio.C35_fresh_ids",
    "StAsio.C35_free_complete",
    "StAsio.C35_free_exact",
    "StAsio.C35_reuse_first",
    "StAsio.C35_held"
   ],
   "note": "Holds for every sequence of calls, reference histories and obsoleted() histories."
  },
  {
   "property": "C36",
   "status": "partial",
   "theorems": [
    "StAsio.C36_very_object_partial",
    "StAsio.C36_without_init",
    "StAsio.C36_fails_init",
    "StAsio.C36_not_lost",
    "StAsio.C36_deleted_to_invalid"
   ],
   "note": "Proved while no id is given to two reachable objects, which is unconditional without restore_socket(..., true); false in general (C36_fails_init). No object is lost, step by step, under the same condition (C36_not_lost, C36_deleted_to_invalid)."
  },
  {
   "property": "C37",
   "status": "partial",
   "theorems": [
    "StAsio.C37_least_loaded",
    "StAsio.C37_balance",
    "StAsio.C37_objects",
    "StAsio.C37_single",
    "StAsio.C37_fails_switch"
   ],
   "note": "Least-loaded choice (C37_least_loaded), exact accounting for every history of a pump with several io_contexts (C37_balance: references = assigned - returned, as unsigned; C37_objects: = references held by the objects on it), nothing counted with a single io_context (C37_single). Missing, because false: switching from one io_context to several at run time (add_service_thread with new contexts) makes references taken before the switch uncounted when taken but counted when given back (C37_fails_switch)."
  },
  {
   "property": "C38",
   "status": "partial",
   "theorems": [
    "StAsio.C38_removal_leaves_one",
    "StAsio.C38_last_thread",
    "StAsio.C38_at_most",
    "StAsio.C38_exact",
    "StAsio.C38_steady_reachable",
    "StAsio.C38_settles",
    "StAsio.C38_fails_exception",
    "StAsio.C38_fails_early"
   ],
   "note": "Every interleaving of any number of threads and requests: a removal always leaves a thread (C38_removal_leaves_one, C38_last_thread), never more leave than asked (C38_at_most), with n threads running exactly min(asked, n-1) leave (C38_exact), and the requests are dealt with (C38_settles). Missing, because false: on_exception = false does not decrease the count, so the last thread can be removed (C38_fails_exception); requests made while threads are still starting can be dropped (C38_fails_early)."
  },
  {
   "property": "C39",
   "status": "partial",
   "theorems": [
    "StAsio.C39_alternate",
    "StAsio.C39_registered_in_order",
    "StAsio.C39_start",
    "StAsio.C39_stop",
    "StAsio.C39_end",
    "StAsio.C39_remove",
    "StAsio.C39_find",
    "StAsio.C39_destroy_after_stop",
    "StAsio.C39_fails_auto_end",
    "StAsio.C39_fails_finalize",
    "StAsio.C39_fails_removed",
    "StAsio.C39_fails_destroy",
    "StAsio.C39_run",
    "StAsio.C39_start_one"
   ],
   "note": "For every history of calls: init and uninit of every service alternate and service_started() agrees (C39_alternate), services are kept in order of creation (C39_registered_in_order), start/stop/end/remove/clear call exactly the right services in order of registration (C39_start, C39_stop, C39_end, C39_remove, C39_find), destroying after stop is safe (C39_destroy_after_stop). Missing, because false: when run_service ends by itself the services are finalised but not uninitialised and are not initialised the next time (C39_fails_auto_end); run_service with too few threads finalises services that were never started (C39_fails_finalize); a removed service can be started again and is then never stopped (C39_fails_removed); destroying a started service calls a pure virtual function (C39_fails_destroy)."
  },
  {
   "property": "C40",
   "status": "partial",
   "theorems": [
    "StAsio.C40_policy",
    "StAsio.C40_disabled",
    "StAsio.C40_disabled_after_disconnect",
    "StAsio.C40_override",
    "StAsio.C40_never_at_rest_partial",
    "StAsio.C40_keeps_trying_partial",
    "StAsio.C40_tries_again_partial",
    "StAsio.C40_fails_bind",
    "StAsio.C40_fails_bind_close",
    "StAsio.C40_fails_one_more",
    "StAsio.C40_fails_idle",
    "StAsio.C40_give_up",
    "StAsio.C40_override_any",
    "StAsio.C40_for_ever_partial",
    "StAsio.C40_retries_partial",
    "StAsio.C40_demo_self"
   ],
   "note": "For every history: each attempt is granted by a start or a non-negative prepare_reconnect answer, never while connected (C40_policy); disabled: no attempt except one already scheduled, none after a disconnect (C40_disabled, C40_disabled_after_disconnect); overriding (C40_override); enabled: never at rest, always able to go on and at most a bounded number of own steps until the next attempt (C40_never_at_rest_partial, C40_keeps_trying_partial, C40_tries_again_partial; assume bind() succeeds and set_reconnect(true) not on a client at rest). False otherwise: C40_fails_bind, C40_fails_bind_close, C40_fails_one_more, C40_fails_idle. A negative answer of prepare_reconnect is final (C40_give_up)."
  },
  {
   "property": "C41",
   "status": "partial",
   "theorems": [
    "StAsio.C41_request_partial",
    "StAsio.C41_reply",
    "StAsio.C41_app",
    "StAsio.C41_safe",
    "StAsio.C41_fails_reconnect"
   ],
   "note": "For every history: the first request after set_target_addr is read by a SOCKS4 server as the configured address and port (C41_request_partial); application protocol iff the 8 byte reply has code 90 (C41_reply, C41_app); all buffer accesses in bounds (C41_safe). False for a second negotiation without a new set_target_addr: the reply overwrote the request (C41_fails_reconnect)."
  },
  {
   "property": "C42",
   "status": "partial",
   "theorems": [
    "StAsio.C42_C43_conversation_partial",
    "StAsio.C43_safe",
    "StAsio.C42_fails_stale",
    "StAsio.C42_unoffered"
   ],
   "note": "The whole conversation refines the RFC 1928/1929 conversation, for every target, credentials, history and reply stream (C42_C43_conversation_partial), never leaving the 64 byte buffer (C43_safe). False: an address configured after a domain name is ignored (C42_fails_stale); unoffered authentication answered with empty credentials (C42_unoffered). set_target_addr/set_auth during a negotiation are not modelled."
  },
  {
   "property": "C43",
   "status": "partial",
   "theorems": [
    "StAsio.C42_C43_conversation_partial",
    "StAsio.C43_safe",
    "StAsio.C43_succeeds",
    "StAsio.C43_succeeds_auth",
    "StAsio.C43_fails_atyp",
    "StAsio.C43_fails_signed",
    "StAsio.C43_coalesced"
   ],
   "note": "For every byte stream and segmentation: application protocol only after complete replies consumed exactly (C42_C43_conversation_partial), always in bounds and always deciding (C43_safe), and success for every segmentation of a conforming proxy (C43_succeeds, C43_succeeds_auth). Exceptions, proved: unknown address type (C43_fails_atyp), signed char with a 255 byte name (C43_fails_signed); outcome depends on segmentation if server data is coalesced (C43_coalesced)."
  },
  {
   "property": "C44",
   "status": "proved",
   "theorems": [
    "StAsio.C44_partition",
    "StAsio.C44_reproduce",
    "StAsio.C44_completes"
   ],
   "note": "Ranges partition the file for every size and number of links; any interleaving of the links and cutting of the chunks reproduces the file, and transfers end. Assumes the source file does not change and no I/O error."
  },
  {
   "property": "C45",
   "status": "proved",
   "theorems": [
    "StAsio.C45_reader",
    "StAsio.C45_reader_nothing",
    "StAsio.C45_writer",
    "StAsio.C45_room",
    "StAsio.C45_end_to_end"
   ],
   "note": "Reader chunks are exactly the range; writer consumes exactly the requested bytes for every segmentation and leaves the rest."
  },
  {
   "property": "C46",
   "status": "partial",
   "theorems": [
    "StAsio.C46_safe_partial",
    "StAsio.C46_serve_only",
    "StAsio.C46_serve_valid",
    "StAsio.C46_fails_while_sending",
    "StAsio.C46_fails_overflow",
    "StAsio.C46_fails_put_length",
    "StAsio.C46_fails_put_offset",
    "StAsio.C46_one_reply"
   ],
   "note": "Holds except for three kinds of hostile messages, for which it is false (witnesses): a message while a file is being sent (use after fclose), offset + length overflow, uploads with negative length (heap overflow) or negative offset."
  },
  {
   "property": "C47",
   "status": "partial",
   "theorems": [
    "StAsio.C47_kept_partial",
    "StAsio.C47_one_for_one",
    "StAsio.C47_limit",
    "StAsio.C47_refused",
    "StAsio.C47_stopped",
    "StAsio.C47_stop_closes",
    "StAsio.C47_fails_restart",
    "StAsio.C47_fails_create",
    "StAsio.C47_fails_listen",
    "StAsio.C47_fails_after_stop"
   ],
   "note": "One for one, the limit and the silence after stop_listen hold for every history; the configured number is kept if listen and create_object succeed and listening restarts only after old handlers are gone, otherwise false (witnesses). An accept can be issued after stop_listen by a handler past its check (on the closed acceptor)."
  },
  {
   "property": "C48",
   "status": "partial",
   "theorems": [
    "StAsio.C48_tcp_send",
    "StAsio.C48_udp_send",
    "StAsio.C48_recv",
    "StAsio.C48_duration_sum",
    "StAsio.C48_duration_max",
    "StAsio.C48_duration_min_partial",
    "StAsio.C48_duration_merge_partial",
    "StAsio.C48_duration_sub",
    "StAsio.C48_counter_sub",
    "StAsio.C48_auto_duration",
    "StAsio.C48_pack_serial",
    "StAsio.C48_fails_min_zero",
    "StAsio.C48_fails_merge_empty",
    "StAsio.C48_fails_sub_min_max",
    "StAsio.C48_fails_pack_race"
   ],
   "note": "Counters of TCP and UDP sending and of receiving equal, modulo 2^64, number and bytes of the messages sent/received since the last reset, for every history; sums and counts of durations are always exact, maxima for non-negative and minima for positive measurements. Not so (witnesses): a measurement of 0 is taken as unset, adding empty statistics zeroes the minimum, subtracting keeps min and max, concurrent packing loses measurements. SYNC_RECV double counting after a restart is not covered."
  },
  {
   "property": "C49",
   "status": "partial",
   "theorems": [
    "StAsio.C49_given",
    "StAsio.C49_order",
    "StAsio.C49_pauses",
    "StAsio.C49_backlog",
    "StAsio.C49_not_stranded_partial",
    "StAsio.C49_timer_resumes",
    "StAsio.C49_drains_partial",
    "StAsio.C49_empties_partial",
    "StAsio.C49_fails_error",
    "StAsio.C49_fails_timer",
    "StAsio.C49_fails_restart",
    "StAsio.C49_limit"
   ],
   "note": "Proved for every interleaving: every message taken from the send buffer is given to KCP once and in order, only while the backlog is within the limit (so the backlog exceeds it by at most one message), a paused socket has its timer running and resumes when the backlog is within the limit, the library's own actions are bounded and end with an empty send buffer or paused. Missing: loss of the congestion timer (C49_fails_timer) strands messages, and a message refused by ikcp_send is reported as sent (C49_fails_error)."
  },
  {
   "property": "C50",
   "status": "proved",
   "theorems": [
    "StAsio.C50_on_connect_after_handshake",
    "StAsio.C50_ready_after_handshake",
    "StAsio.C50_failed_leads_to_shutdown",
    "StAsio.C50_failed_is_final",
    "StAsio.C50_no_early_sending_partial",
    "StAsio.C50_early_send_race",
    "StAsio.C50_late_handshake"
   ],
   "note": "All handshake counts, clients and servers, with reconnecting, concurrent shutdowns and sends. Beyond the statement: a failed handshake is final until the user asks again; messages are sent only on established links (partial: race of a suspended sender, C50_early_send_race); a handshake that succeeds after the shutdown was executed still calls on_connect (C50_late_handshake)."
  },
  {
   "property": "C51",
   "status": "partial",
   "theorems": [
    "StAsio.C51_unregistered",
    "StAsio.C51_void",
    "StAsio.C51_boolean",
    "StAsio.C51_value",
    "StAsio.C51_empty",
    "StAsio.C51_bookkeeping",
    "StAsio.C51_reregister"
   ],
   "note": "Proved for every history of registrations and events and for all callbacks that do not re-register their own event while they run; a callback that does can suppress the default handler although it was registered with pass_on (C51_reregister). Also: empty functions, events with other results, bookkeeping events keep running their default handler."
  },
  {
   "property": "C52",
   "status": "partial",
   "theorems": [
    "StAsio.C52_contiguous_partial",
    "StAsio.C52_fails_priority",
    "StAsio.C52_fails_shrink"
   ],
   "note": "false in general (priority send or shrink between head and body), witnesses proved; holds for plain sends"
  },
  {
   "property": "C53",
   "status": "partial",
   "theorems": [
    "StAsio.C53_safe_send",
    "StAsio.C53_fails_unpackable",
    "StAsio.C53_fails_sync_duplicate",
    "StAsio.C53_sync_no_timeout_partial"
   ],
   "note": "missing: false for synchronous safe sends with a timeout (duplicate) and for messages that cannot be packed (endless loop), both proved"
  },
  {
   "property": "C54",
   "status": "proved",
   "theorems": [
    "StAsio.C54_balanced",
    "StAsio.C54_served",
    "StAsio.C54_start",
    "StAsio.addThreads_len"
   ],
   "note": "addThreads models add_service_thread/assign_thread; C54_start covers do_service."
  },
  {
   "property": "C55",
   "status": "partial",
   "theorems": [
    "StAsio.C55_plain",
    "StAsio.C55_fails_decrease",
    "StAsio.C55_decrease_always_ends"
   ],
   "note": "Proved for the normal build (C55_plain). With ST_ASIO_DECREASE_THREAD_AT_RUNTIME it is false: the thread ends after every exception whatever on_exception answers (C55_fails_decrease, C55_decrease_always_ends)."
  },
  {
   "property": "C56",
   "status": "proved",
   "theorems": [
    "StAsio.C56_in_order",
    "StAsio.C56_all_handled",
    "StAsio.C56_terminates",
    "StAsio.C56_delivers",
    "StAsio.C56_no_starvation",
    "StAsio.C56_fair_exists"
   ],
   "note": "Joint machine of the sender (Model/TcpSend), the byte stream, the default unpacker (Model/Reader, Model/Unpacker) and the dispatcher (Model/RecvDispatch), for the default packer and unpacker with buffers the head can express; the link does not break; no priority, pop, shrink, reset."
  },
  {
   "property": "C57",
   "status": "partial",
   "theorems": [
    "StAsio.C57_ideal",
    "StAsio.C57_order",
    "StAsio.C57_one_at_a_time",
    "StAsio.C57_nothing_left_partial",
    "StAsio.C57_drains_partial",
    "StAsio.C58_delivered_partial",
    "StAsio.C57_fails_after_reconnect",
    "StAsio.C57_retry_without_interval",
    "StAsio.C57_keeps_receiving",
    "StAsio.C57_refused_waits"
   ],
   "note": "Order, one call at a time and the ideal receiver hold for all histories of all eight mode combinations; rest-implies-empty and draining are proved except after a re-dispatch timer was stopped by a close followed by a reconnection, where the property is false (C57_fails_after_reconnect). C57_retry_without_interval: the retry interval is not always kept."
  },
  {
   "property": "C58",
   "status": "proved",
   "theorems": [
    "StAsio.C58_sync",
    "StAsio.C58_async",
    "StAsio.C58_fails_zero"
   ],
   "note": "For all histories and all combinations of the modes; on_msg keeps its contract (socket.h:346): C58_fails_zero shows what happens otherwise."
  },
  {
   "property": "C59",
   "status": "proved",
   "theorems": [
    "StAsio.C59_one_read",
    "StAsio.C59_only_asked",
    "StAsio.C59_always_given",
    "StAsio.C59_recv_msg_reads",
    "StAsio.C59_no_second_read",
    "StAsio.C59_active_reads"
   ],
   "note": "For all histories; C59_one_read in every mode."
  },
  {
   "property": "C60",
   "status": "proved",
   "theorems": [
    "StAsio.C60_ideal",
    "StAsio.C60_senders",
    "StAsio.C60_none_left_out",
    "StAsio.C60_taken_in_order",
    "StAsio.C60_destination",
    "StAsio.C60_keeps_receiving",
    "StAsio.C60_error_is_final",
    "StAsio.C60_fails_after_error",
    "StAsio.C60_addresses"
   ],
   "note": "Model/UdpAddr with the ideal socket of Spec/UdpAddr. Reception ends with the first failed receive although the socket stays started: C60_error_is_final, C60_fails_after_error (the statement is limited accordingly)."
  },
  {
   "property": "C61",
   "status": "partial",
   "theorems": [
    "StAsio.C61_ideal_partial",
    "StAsio.C61_senders_partial",
    "StAsio.C61_only_peer_partial",
    "StAsio.C61_ignores_address",
    "StAsio.C61_fails_peer_changed",
    "StAsio.C61_fails_gap",
    "StAsio.C61_fails_connect",
    "StAsio.C61_connected",
    "StAsio.C61_fails_connected"
   ],
   "note": "Proved if the peer address is not changed between start and closing and no datagram arrives between bind and connect. False otherwise, and if connecting fails (the socket then works unconnected): C61_fails_peer_changed, C61_fails_gap, C61_fails_connect. C61_ignores_address: the address given with a message is ignored in this mode."
  },
  {
   "property": "C62",
   "status": "partial",
   "theorems": [
    "StAsio.C62_all_started_partial",
    "StAsio.C62_up_partial",
    "StAsio.C62_fails_after_auto_end",
    "StAsio.C62_fails_no_work",
    "StAsio.C62_starts_in_stopped_service",
    "StAsio.C62_demo",
    "StAsio.C62_demo_again"
   ],
   "note": "Holds with ST_ASIO_AVOID_AUTO_STOP_SERVICE. Without it sockets added after the io_contexts ran out of work are not started (C62_fails_after_auto_end, C62_fails_no_work). add_socket also starts sockets of a service that was stopped on its own (C62_starts_in_stopped_service)."
  },
  {
   "property": "C63",
   "status": "partial",
   "theorems": [
    "StAsio.C63_ideal",
    "StAsio.C63_nothing_left",
    "StAsio.C63_stop_ends_partial",
    "StAsio.C63_hang",
    "StAsio.C63_fails_late_add",
    "StAsio.C63_fails_stopped_service",
    "StAsio.C63_fails_del_socket",
    "StAsio.C63_fails_removed_while_added",
    "StAsio.C63_fails_restart_while_added",
    "StAsio.C63_demo",
    "StAsio.C63_demo_broken"
   ],
   "note": "Safety holds without restriction (C63_ideal, C63_nothing_left). stop_service ends if no add_socket call is under way or begins later, the service was not stopped on its own before, and no socket left the pool by del_socket or while it was being added; each restriction has a counterexample."
  },
  {
   "property": "C64",
   "status": "partial",
   "theorems": [
    "StAsio.C64_refused_intact",
    "StAsio.C64_const_intact",
    "StAsio.C64_total",
    "StAsio.C64_sent_whole_partial",
    "StAsio.C64_safe_send_partial",
    "StAsio.C64_sync_same_partial",
    "StAsio.C64_fails_too_big",
    "StAsio.C64_empty",
    "StAsio.C64_fails_memory",
    "StAsio.C64_fails_shrinks_for_nothing",
    "StAsio.C64_sync_fails_stopped",
    "StAsio.C64_sync_safe_fails",
    "StAsio.C64_demo",
    "StAsio.C64_safe_send_ends",
    "StAsio.C64_fails_sync_safe_repeats"
   ],
   "note": "Refusal, const arguments and termination are proved without restriction; the whole-or-nothing part excludes arrays beyond the packer's limits, empty messages and failed allocations, where the functions return true and queue nothing (or an empty frame); the synchronous variants are proved to be the same functions unless the io_context is stopped; witnesses for what goes wrong then."
  },
  {
   "property": "C65",
   "status": "proved",
   "theorems": [
    "StAsio.C65_at_most_once",
    "StAsio.C65_everyone",
    "StAsio.C65_shut_all",
    "StAsio.C65_refused_why",
    "StAsio.C65_fifo",
    "StAsio.C65_one_order",
    "StAsio.C65_sent_once",
    "StAsio.C65_all_sent",
    "StAsio.C65_demo",
    "StAsio.C65_fails_prior",
    "StAsio.C65_fails_shared",
    "StAsio.C65_refused_unnoticed"
   ],
   "note": "Model/Broadcast. Default mutex and no prior broadcasts for the common order (C65_fails_prior, C65_fails_shared show why)."
  },
  {
   "property": "C66",
   "status": "partial",
   "theorems": [
    "StAsio.C66_returns_partial",
    "StAsio.C66_safe_returns_partial",
    "StAsio.C66_fails_stopped",
    "StAsio.C66_fails_threads",
    "StAsio.C66_fails_unpackable"
   ],
   "note": "Proved while the io_context runs, for safe broadcasts if the message can be packed and a service thread is free. False otherwise: C66_fails_stopped, C66_fails_threads, C66_fails_unpackable."
  },
  {
   "property": "C67",
   "status": "partial",
   "theorems": [
    "StAsio.C67_shared_partial",
    "StAsio.C67_unique",
    "StAsio.C67_refused",
    "StAsio.C67_received",
    "StAsio.C67_received_fresh",
    "StAsio.C67_demo",
    "StAsio.C67_demo_unique",
    "StAsio.C67_fails_changed",
    "StAsio.C67_fails_in_flight",
    "StAsio.C67_fails_same_variable",
    "StAsio.C67_fails_accounting"
   ],
   "note": "proved for every program with unique_buffer (two messages of a call are different variables) and for programs with shared_buffer that change an object only while its use_count() is 1; the four ways to break it otherwise are proved with witnesses; reception for every inner unpacker"
  },
  {
   "property": "C68",
   "status": "partial",
   "theorems": [
    "StAsio.C68_packed_partial",
    "StAsio.C68_heartbeat",
    "StAsio.C68_received",
    "StAsio.C68_received_unpacker",
    "StAsio.C68_received_flexible",
    "StAsio.C68_received_prefix_suffix",
    "StAsio.C68_plain",
    "StAsio.C68_fails_empty",
    "StAsio.C68_fails_pieces",
    "StAsio.C68_fails_fixed_length",
    "StAsio.C68_fails_switched"
   ],
   "note": "received messages: proved for unpacker, flexible_unpacker (unpacker2 by C67_received), prefix_suffix_unpacker and the plain ones; packed messages: proved for messages packed from non-empty arrays and heartbeats; false for empty arrays, for messages sent as objects (pieces), for fixed_length_packer, and after stripped() was changed: proved"
  },
  {
   "property": "C69",
   "status": "partial",
   "theorems": [
    "StAsio.C69_native_in_order",
    "StAsio.C69_native_all_handled",
    "StAsio.C69_native_delivers",
    "StAsio.C69_terminates",
    "StAsio.C69_in_order_partial",
    "StAsio.C69_all_handled_partial",
    "StAsio.C69_delivers_partial",
    "StAsio.C69_demo",
    "StAsio.C69_fails_send_msg",
    "StAsio.C69_fails_head",
    "StAsio.C69_fails_two",
    "StAsio.C69_fails_heartbeat",
    "StAsio.C69_fails_empty",
    "StAsio.C69_fails_empty_debug",
    "StAsio.C69_no_starvation_partial",
    "StAsio.C69_native_no_starvation"
   ],
   "note": "Holds for send_native_msg with one string or one array at a time. False for every other send function: send_msg and several strings are split into several messages or get a head in front, heartbeats are delivered as messages, an empty message ends reception for good. For all send functions it is proved what arrives instead."
  },
  {
   "property": "C70",
   "status": "proved",
   "theorems": [
    "StAsio.C70_in_order",
    "StAsio.C70_all_answered",
    "StAsio.C70_delivers",
    "StAsio.C70_terminates",
    "StAsio.C70_refused_only_when_full",
    "StAsio.C70_memory",
    "StAsio.C70_fails_unstripped",
    "StAsio.C70_demo",
    "StAsio.C70_demo_unstripped",
    "StAsio.C70_no_starvation",
    "StAsio.C70_fair_exists"
   ],
   "note": "Two coupled directions as in C56, joined by on_msg_handle = send_msg. Default unpacker with stripped messages (C70_fails_unstripped shows that this is needed: an unstripped message grows by a head on each echo and may be refused for ever); bound of the send buffer for a server that sends no heartbeats. Termination: bounded by the number of refusals, which happen only while the send buffer is full. For ever (C70_no_starvation): under fair scheduling, with finitely many heartbeats of the server."
  },
  {
   "property": "C71",
   "status": "partial",
   "theorems": [
    "StAsio.C71_own_start",
    "StAsio.C71_never_early_partial",
    "StAsio.C71_prompt_partial",
    "StAsio.C71_not_forgotten_partial",
    "StAsio.C71_period",
    "StAsio.C71_aligned",
    "StAsio.C71_aligned_bounded",
    "StAsio.C71_no_crash",
    "StAsio.C71_fails_stale",
    "StAsio.C71_fails_clock",
    "StAsio.C71_fails_zero",
    "StAsio.C71_demo"
   ],
   "note": "Proved without restriction (but for clock adjustments of a system_timer): every call has its own start, made long enough ago. Proved if the timer is never started while an expiry waits for its handler: the newest start, promptness. False otherwise (C71_fails_stale), with the default system_timer when the clock is set (C71_fails_clock); ST_ASIO_ALIGNED_TIMER with interval 0 divides by zero (C71_fails_zero)."
  },
  {
   "property": "C72",
   "status": "partial",
   "theorems": [
    "StAsio.C72_in_sequence_partial",
    "StAsio.C72_fails_restart"
   ],
   "note": "Proved if the program starts the timer neither while its call back runs nor while an expiry waits for its handler; false otherwise (C72_fails_restart: a call back that restarts its own timer)."
  },
  {
   "property": "C73",
   "status": "partial",
   "theorems": [
    "StAsio.C73_every_message_partial",
    "StAsio.C73_received_partial",
    "StAsio.C73_resumes",
    "StAsio.C73_demo",
    "StAsio.C73_fails_torn"
   ],
   "note": "Proved for messages packed into one piece (array sends and heartbeats), any number of links; C73_resumes for all. False for the other send functions: they queue head and body separately, and if the write of the head fails the new link begins with the body (C73_fails_torn)."
  },
  {
   "property": "C74",
   "status": "partial",
   "theorems": [
    "StAsio.C74_at_least_once_partial",
    "StAsio.C74_received_partial",
    "StAsio.C74_fails_once",
    "StAsio.C74_fails_torn",
    "StAsio.C73_resumes"
   ],
   "note": "Proved for messages packed into one piece: at least once, in order, without gaps. A message may be received twice (C74_fails_once), and with the other send functions a new link may begin with a body (C74_fails_torn)."
  },
  {
   "property": "C75",
   "status": "partial",
   "theorems": [
    "StAsio.C75_only_sent",
    "StAsio.C75_in_order_partial",
    "StAsio.C75_delivers_partial",
    "StAsio.C75_stalls",
    "StAsio.C75_demo",
    "StAsio.C75_fails_big",
    "StAsio.C75_fails_refused",
    "StAsio.C75_fails_empty",
    "StAsio.C75_no_starvation_partial"
   ],
   "note": "Proved: only sent messages are handled, in order, at most once, no assertion fails; without refusals by ikcp_send exactly the accepted ones up to the first one that does not fit into the receiver's buffer, and the library can always go on until they are all handled. False of the code: a message longer than the receiver's ST_ASIO_MSG_BUFFER_SIZE stops the link for good (C75_stalls, C75_fails_big), a message refused by ikcp_send is lost (C75_fails_refused), an empty message of a foreign peer ends the process (C75_fails_empty). KCP is assumed to deliver messages in order."
  },
  {
   "property": "C76",
   "status": "partial",
   "theorems": [
    "StAsio.C76_each",
    "StAsio.C76_on_the_wire",
    "StAsio.C76_all_true",
    "StAsio.C76_order",
    "StAsio.C76_all_arg",
    "StAsio.C76_all_comes_partial",
    "StAsio.C76_settles",
    "StAsio.C76_demo",
    "StAsio.C76_fails_pop",
    "StAsio.C76_udp_each",
    "StAsio.C76_udp_all_true",
    "StAsio.C76_udp_order",
    "StAsio.C76_udp_all_arg",
    "StAsio.C76_udp_all_comes_partial",
    "StAsio.C76_udp_demo",
    "StAsio.C76_fails_udp_error"
   ],
   "note": "Truth, order, arguments and absence of undefined behaviour are proved for all histories (TCP, websocket, UDP). That on_all_msg_send comes is proved when no write failed and nothing was taken out of the send buffer; otherwise it is false of the code: a message popped after send_handler looked (C76_fails_pop), a UDP send that fails last (C76_fails_udp_error)."
  },
  {
   "property": "C77",
   "status": "partial",
   "theorems": [
    "StAsio.C77_keeps_receiving_partial",
    "StAsio.C77_chain",
    "StAsio.C77_demo",
    "StAsio.C77_deaf_after_error",
    "StAsio.C77_fails_error"
   ],
   "note": "Proved while no receive failed since the start. False after a failed receive (C77_fails_error, C77_deaf_after_error): recv_handler does not receive again (except for connection_refused/connection_reset on Windows, which is not modelled)."
  },
  {
   "property": "C78",
   "status": "partial",
   "theorems": [
    "StAsio.C78_one_outcome",
    "StAsio.C78_no_false_success",
    "StAsio.C78_open_drains_partial",
    "StAsio.C78_demo",
    "StAsio.C78_fails_closed",
    "StAsio.C78_fails_waiting",
    "StAsio.C78_turns"
   ],
   "note": "Exactly one outcome per message, order, no false success, and waiting messages are sent after a start are proved; false for messages accepted while the socket is closed and for the first one waiting when it is closed: they are given to the closed socket and fail (C78_fails_closed, C78_fails_waiting). Without KCP (for it see C24_stuck_without_timer)."
  },
  {
   "property": "C79",
   "status": "partial",
   "theorems": [
    "StAsio.C79_safe_partial",
    "StAsio.C79_alive_partial",
    "StAsio.C79_clean_partial",
    "StAsio.C79_freed_partial",
    "StAsio.C79_fails_never_started",
    "StAsio.C79_demo",
    "StAsio.C79_fails_delay_close",
    "StAsio.C79_fails_tail",
    "StAsio.C79_fails_delay_reuse",
    "StAsio.C79_fails_stop",
    "StAsio.C79_fails_stopped_use",
    "StAsio.C79_fails_outside",
    "StAsio.C79_fails_new_pointer",
    "StAsio.C79_fails_reuse_up",
    "StAsio.C79_unique_partial",
    "StAsio.C79_unique_demo",
    "StAsio.C79_demo_stopped"
   ],
   "note": "safety and freeing are proved for ST_ASIO_DELAY_CLOSE == 0 under the conditions of Om.proper; the full property is false: a counterexample for every condition and for ST_ASIO_DELAY_CLOSE > 0"
  },
  {
   "property": "C80",
   "status": "partial",
   "theorems": [
    "StAsio.C80_careful_partial",
    "StAsio.C80_careful_demo",
    "StAsio.C80_plain_partial",
    "StAsio.C80_plain_demo",
    "StAsio.C80_guarded_partial",
    "StAsio.C80_guarded_demo",
    "StAsio.C80_fails_stop_set",
    "StAsio.C80_fails_check_recv",
    "StAsio.C80_fails_graceful_shutdown",
    "StAsio.C80_fails_graceful_count"
   ],
   "note": "False of the code as stated: set_timer and change_timer_call_back destroy the old function object at once, also while it runs; the library's own graceful shutdown does so in every round but the last (C80_fails_graceful_shutdown, for every number of rounds), and the timer that resumes receiving can be hit by another thread (C80_fails_check_recv). Proved: safe if replaced only while not running or kept by the caller (C80_careful_partial), with function objects that do nothing after the call (C80_plain_partial), and with the is_timer() guard the library uses for TIMER_CONNECT and the heartbeat (C80_guarded_partial)."
  },
  {
   "property": "C81",
   "status": "partial",
   "theorems": [
    "StAsio.C81_right",
    "StAsio.C81_ends",
    "StAsio.C81_ends_demo",
    "StAsio.C81_own_partial",
    "StAsio.C81_own_demo",
    "StAsio.C81_fails_leftover",
    "StAsio.C81_bytes"
   ],
   "note": "C81_right, C81_ends: full for any history of tests. C81_own_partial: a test which begins with nothing of the tests before on its way keeps exactly its own bytes going. The last sentence of the property is false: C81_fails_leftover."
  },
  {
   "property": "C82",
   "status": "proved",
   "theorems": [
    "StAsio.C82_log",
    "StAsio.C82_log_demo"
   ],
   "note": "for any size but 0 and texts without NUL"
  },
  {
   "property": "C83",
   "status": "partial",
   "theorems": [
    "StAsio.C83_own_partial",
    "StAsio.C83_right_partial",
    "StAsio.C83_right_demo",
    "StAsio.C83_fails_again",
    "StAsio.C83_fails_unconnected"
   ],
   "note": "C83_own_partial: for every history, what is found by name is the link added last under it. C83_right_partial: the full property if connecting succeeds and a name is used again only when its links are gone. The full property is false: C83_fails_again, C83_fails_unconnected."
  },
  {
   "property": "C84",
   "status": "partial",
   "theorems": [
    "StAsio.C84_counted",
    "StAsio.C84_counted_demo",
    "StAsio.C84_exact",
    "StAsio.C84_size_partial",
    "StAsio.C84_size_demo",
    "StAsio.C84_fails_drained"
   ],
   "note": "C84_counted, C84_exact: full for the test config.h suggests. C84_size_partial: for concurrent_server's test of size() if no link ever leaves. For concurrent_server it is false: C84_fails_drained."
  },
  {
   "property": "C85",
   "status": "partial",
   "theorems": [
    "StAsio.C85_even",
    "StAsio.C85_fewer",
    "StAsio.C85_fails_none",
    "StAsio.C85_fails_more"
   ],
   "note": "C85_even, C85_fewer: any numbers of threads and links but 0, also if links go meanwhile. False without links and if links are added meanwhile: C85_fails_none, C85_fails_more."
  },
  {
   "property": "C86",
   "status": "partial",
   "theorems": [
    "StAsio.C86_order",
    "StAsio.C86_one_partial",
    "StAsio.C86_one_demo",
    "StAsio.C86_ends_partial",
    "StAsio.C86_ends_demo",
    "StAsio.C86_fails_lost",
    "StAsio.C86_fails_command",
    "StAsio.C86_fails_some"
   ],
   "note": "The order of the files holds always (C86_order), one file at a time and the truth of 100% if links agree on what can be opened and no command comes between 100% and the end of the last link (C86_one_partial); everything ends as long as no connection is lost (C86_ends_partial). False in general: a connection lost in the middle blocks all later files for ever (C86_fails_lost), a command right after 100% drops its file (C86_fails_command), a file only some links can open makes all the others of the list fail (C86_fails_some)."
  },
  {
   "property": "C87",
   "status": "partial",
   "theorems": [
    "StAsio.C87_right",
    "StAsio.C87_quiet_partial",
    "StAsio.C87_bound",
    "StAsio.C87_ends",
    "StAsio.C87_demo",
    "StAsio.C87_ends_demo",
    "StAsio.C87_fails_complaint"
   ],
   "note": "Messages, order, completeness and the end of every test are proved for all schedules. That right messages are never complained about is false of the code: recv_bytes is increased before recv_index, so a test may be seen as finished in between and the next one starts with a wrong index (C87_fails_complaint); proved if no on_msg is running when the counters are cleared. Links are assumed to stay connected (otherwise a test never ends)."
  },
  {
   "property": "C88",
   "status": "partial",
   "theorems": [
    "StAsio.C88_ends_partial",
    "StAsio.C88_twice",
    "StAsio.C88_demo_ssl",
    "StAsio.C88_demo_ws",
    "StAsio.C88_fails_passive",
    "StAsio.C88_fails_empty",
    "StAsio.C88_lost"
   ],
   "note": "Proved for SSL in every mode and for websockets in active mode if no message without content arrives (C88_ends_partial), and in every mode for links that are not up or are shut down a second time (C88_twice), under strong fairness stated as a hypothesis (Spec/LinkEnd) and provided that nobody goes on for ever to use a link which came up while it was being closed. False for websockets in passive mode (C88_fails_passive) and after a message without content (C88_fails_empty): async_close completes, its handler stops the timer, no read is outstanding."
  },
  {
   "property": "C89",
   "status": "proved",
   "theorems": [
    "StAsio.C89_container",
    "StAsio.C89_no_overlap",
    "StAsio.C89_send_queue",
    "StAsio.C89_lock_queue",
    "StAsio.C89_fails_two_greetings",
    "StAsio.C89_fails_app",
    "StAsio.C89_fails_leaving",
    "StAsio.C89_fails_replies",
    "StAsio.C89_fails_pingpong",
    "StAsio.C89_fails_status",
    "StAsio.C89_fails_count",
    "StAsio.C89_lock_released"
   ],
   "note": "every condition is needed: with two messages sent from on_connect, another sending thread, messages left by on_msg, answers from on_msg_handle, or the default dispatching even in a ping-pong test, two threads may be in the container at once; reading the byte count overlaps with changes even with lock_queue. A link is assumed to be opened only after the last one is over (ST_ASIO_DELAY_CLOSE > 0: a matter of time)"
  },
  {
   "property": "C90",
   "status": "partial",
   "theorems": [
    "StAsio.C90_offered_partial",
    "StAsio.C90_resumed_partial",
    "StAsio.C90_once_partial",
    "StAsio.C90_fails_dispatch",
    "StAsio.C90_fails_receive"
   ],
   "note": "Holds with one service thread (C90_offered_partial: within a bounded number of library steps, whatever their order; C90_resumed_partial: within 7). False with several service threads: after C90_fails_dispatch / C90_fails_receive the socket never offers a message (never reads) again, whatever happens. C90_once_partial holds with any number of threads. Time and closing are not in this model."
  },
  {
   "property": "C91",
   "status": "partial",
   "theorems": [
    "StAsio.C91_safe_partial",
    "StAsio.C91_handle_partial",
    "StAsio.C91_last_partial",
    "StAsio.C91_pack_partial",
    "StAsio.C91_fails_pack",
    "StAsio.C91_fails_pack_beat",
    "StAsio.C91_fails_handle",
    "StAsio.C91_fails_last"
   ],
   "note": "Nine members (or pairs of them) are safe in every program: C91_safe_partial. handle_time_sum, pack_time_sum, last_recv_time and last_send_time only under the conditions of C91_handle_partial, C91_pack_partial, C91_last_partial; without them the claim is false: C91_fails_*."
  },
  {
   "property": "C92",
   "status": "partial",
   "theorems": [
    "StAsio.C92_new_partial",
    "StAsio.C92_exact_partial",
    "StAsio.C92_reconnect",
    "StAsio.C92_asked",
    "StAsio.C92_untouched",
    "StAsio.C92_isolated",
    "StAsio.C92_again",
    "StAsio.C92_demo",
    "StAsio.C92_demo_again",
    "StAsio.C92_fails_default",
    "StAsio.C92_fails_local",
    "StAsio.C92_fails_server",
    "StAsio.C92_fails_peer",
    "StAsio.C92_fails_bad_ip",
    "StAsio.C92_set",
    "StAsio.C92_set_demo"
   ],
   "note": "Without reuse and with valid ips: exact. In general: what the call says is used, untouched settings are at their defaults, no interference, reconnects keep their addresses, the reconnect flag is reset. Missing because false of the code: defaults after reuse, failing on an invalid ip (C92_fails_...)."
  },
  {
   "property": "C93",
   "status": "proved",
   "theorems": [
    "StAsio.C93_in_order",
    "StAsio.C93_all_handled",
    "StAsio.C93_terminates",
    "StAsio.C93_delivers",
    "StAsio.C93_starts",
    "StAsio.C93_demo_header",
    "StAsio.C93_demo_plain",
    "StAsio.C93_no_starvation",
    "StAsio.C93_fair_exists"
   ],
   "note": "For the six pairs, under the conditions of Spec/Protocols.lean (usable settings, readable memory, messages the protocol can express); one link that does not break, sequential dispatching."
  },
  {
   "property": "C94",
   "status": "partial",
   "theorems": [
    "StAsio.C94_only_whole",
    "StAsio.C94_handled_partial",
    "StAsio.C94_close_last",
    "StAsio.C94_graceful_partial",
    "StAsio.C94_closes",
    "StAsio.C94_demo_graceful",
    "StAsio.C94_demo_broken",
    "StAsio.C94_fails_refused",
    "StAsio.C94_fails_delay",
    "StAsio.C94_fails_graceful"
   ],
   "note": "Only whole messages, on_close last and once, closing: proved in full. That everything that arrived is handled is proved for ST_ASIO_DELAY_CLOSE 0 and up to a message on_msg_handle refused last; that nothing sent is lost, for a sender whose send buffer is empty and whose writes have completed when it ends the link. Outside of these it is false of the code (C94_fails_refused, C94_fails_delay, C94_fails_graceful)."
  },
  {
   "property": "C95",
   "status": "proved",
   "theorems": [
    "StAsio.C95_in_order",
    "StAsio.C95_prefix",
    "StAsio.C95_all_handled",
    "StAsio.C95_delivers",
    "StAsio.C95_only_asked",
    "StAsio.C95_starts",
    "StAsio.C95_demo",
    "StAsio.C95_demo_empty",
    "StAsio.C95_no_starvation",
    "StAsio.C95_fair_exists"
   ],
   "note": "All packer/unpacker pairs, all eight modes, link stays up, nobody pops messages. Demos in four modes."
  },
  {
   "property": "C96",
   "status": "proved",
   "theorems": [
    "StAsio.C96_in_order",
    "StAsio.C96_left",
    "StAsio.C96_genuine",
    "StAsio.C96_fifo",
    "StAsio.C96_at_most_once",
    "StAsio.C96_delivers",
    "StAsio.C96_all_handled",
    "StAsio.C96_demo",
    "StAsio.C96_demo_perfect",
    "StAsio.C96_no_starvation",
    "StAsio.C96_leaves",
    "StAsio.C96_eventually",
    "StAsio.C96_fair_exists"
   ],
   "note": "Composition of the sender of C24 (any number), an arbitrary network and the receiver of C57-C59 in all eight modes. The sockets stay open and nobody pops messages; the network may do anything with datagrams, strangers included. C96_delivers and C96_all_handled are existence of a continuation from every reachable state, as in C95."
  },
  {
   "property": "C97",
   "status": "partial",
   "theorems": [
    "StAsio.C97_made_partial",
    "StAsio.C97_fails_part",
    "StAsio.C97_fails_array",
    "StAsio.C97_demo_part",
    "StAsio.C97_demo"
   ],
   "note": "Proved for all constructors but basic_buffer(other, pos, len), which is wrong for every position inside the string (C97_fails_part: it calls append(count, character) with other.size() + pos), and constant arrays shorter than the length given, for which the test written down is never used (C97_fails_array)."
  },
  {
   "property": "C98",
   "status": "partial",
   "theorems": [
    "StAsio.C98_listens",
    "StAsio.C98_listens_again",
    "StAsio.C98_bound_partial",
    "StAsio.C98_starts_again_partial",
    "StAsio.C98_fails_unix",
    "StAsio.C98_fails_listen",
    "StAsio.C98_fails_family",
    "StAsio.C98_fails_deaf",
    "StAsio.C98_demo_server",
    "StAsio.C98_demo_udp"
   ],
   "note": "Proved: servers listen exactly when promised, at the address promised, and can listen again after stop_listen; UDP sockets that stay in one address family are bound to what was promised and can be started again after closing. False of the code, with witnesses: unix domain addresses cannot be used twice because the file stays; after a failed listen, or a failed bind followed by an address of another family, start_listen fails until stop_listen; a UDP socket that fails to bind an IPv6 address and is given an IPv4 address starts without being bound."
  },
  {
   "property": "C99",
   "status": "partial",
   "theorems": [
    "StAsio.C99_window",
    "StAsio.C99_in_order",
    "StAsio.C99_all_handled",
    "StAsio.C99_delivers",
    "StAsio.C99_terminates",
    "StAsio.C99_all_answered",
    "StAsio.C99_answers_delivered",
    "StAsio.C99_both_in_order",
    "StAsio.C99_circulates_partial",
    "StAsio.C99_fails_both",
    "StAsio.C99_demo_pipe",
    "StAsio.C99_demo_echo",
    "StAsio.C99_demo_both",
    "StAsio.C99_no_starvation",
    "StAsio.C99_no_starvation_echo",
    "StAsio.C99_fair_exists",
    "StAsio.C99_fair_exists_echo"
   ],
   "note": "One direction with every protocol and a link with one answering end: proved without restriction for every window. Two ends that answer each other: order proved; going on for ever proved while the messages that are not answers fit into one send buffer, false for more (C99_fails_both: the two ends block each other for ever)."
  }
 ]
}