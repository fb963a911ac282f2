# ---- Store
claim("C08", "proved", "C08_store_refines_reference C08_total",
      "Refinement to a map indexed by datum keys, for every history; every operation of a well-formed history returns.")
claim("C09", "proved", "C09_ttl_upper C09_ttl_lower", "Both bounds, with the 9 second tolerance; TTLs that do not overflow int64.")
claim("C10", "proved", "C10_no_ttl_never_expires C10_overflow_corner",
      "Hypothesis: TTLs of earlier inserts do not overflow the clock; the corner theorem shows the hypothesis is needed.")
claim("C11", "proved", "C11_delete_exact", "Exact frame condition for the other keys.")
claim("C12", "proved", "C12_scan_exact C12_scan_sees_live_once", "Any callback, including failing and panicking ones.")
claim("C13", "partial", "C13_insert_survives_fails C13_insert_survives_partial C13_permanent_keys_survive Store.insertBDMap_eq_thread",
      "False: a scan that has found an old entry expired deletes the key after a fresh insert stored it (negation proved). Proved for every interleaving without such a pending scan, and for keys that never get a TTL.")
claim("C14", "partial", "C14_longer_ttl_partial C14_longer_ttl_fails C14_huge_ttl_dead_on_arrival C14_life_exact C14_longer_ttl_exact C14_life_example",
      "False for TTLs that overflow int64 (negation proved); proved for all others. Exactly, for a datum not stored yet: with TTL t at second s it lives until s + t if that is below 2^63, for ever if it is 2^64, and not at all otherwise; so for which pairs of TTLs the property holds.")

# ---- Insert
claim("C15", "proved", "C15_over_target_refused", "Exact condition and full frame.")
claim("C17", "proved", "C17_success_means_replicas",
      "Local store plus distinct peers that answered without error, at least the replication number.")
claim("C18", "partial", "C18_failed_insert_invisible_fails C18_failed_insert_partial C18_failed_insert_exact C18_failed_example",
      "False: the datum stays stored when replication fails (negation proved). Proved: a refused insert changes nothing, and the only other error is too few replicas. Exactly: nothing changes if it was refused, or if the same value was stored already with an expiry less than ten seconds from the new one.")
claim("C20", "proved", "C20_drain_refuses C20_no_drain_inserts C62_drain", "")
claim("C21", "partial", "C21_config_unchanged_fails C21_config_partial",
      "False: the count field of the caller's configuration is set to 1 by a forwarded insert (negation proved). Exact behaviour proved.")
claim("C71", "partial", "C71_no_insert_crashes_fails C71_insert_panics_iff C71_wellformed_insert_partial",
      "False (negation proved); exact set of panicking requests; requests with key and value never panic.")
# ---- Vector functions
claim("C68", "proved", "C68_symmetric C68_common_prefix C68_self_zero SF.bits",
      "For every arithmetic with the IEEE laws FLaws; SF.laws shows that round-to-nearest-even soft floats satisfy them.")
claim("C69", "proved", "C69_symmetric C69_zero_padding C69_zero_vector C69_bounded", "Same arithmetic laws.")
claim("C70", "partial", "C70_score_function C70_annoy_prefix_fails C70_annoy_prefix_partial C22_streamed_top_k C25_streamed_index",
      "False for two of the Annoy-prefixed names, which score by euclidean distance (negation proved); proved for all other names.")

# ---- Search
claim("C22", "proved", "C22_search_top_k C22_default_config C22_streamed_top_k",
      "Top-k of the matching live data of the reference map, for every sort.Slice and every iteration order; scores without NaN.")
claim("C23", "proved", "C23_results_pass_filters", "No hypothesis on the store, scores or configuration.")
claim("C24", "partial", "C24_search_never_panics_fails C24_search_panics_iff C24_search_returns_partial",
      "False for limit 0 (negation proved); exact panic condition on well-formed stores.")
claim("C25", "proved", "C25_index_search C25_index_search_bounded C25_no_index C25_streamed_index",
      "Exact result for every answer of the index library within the snapshot; with limit 0 the library answers nothing (annoylib.h).")
claim("C72", "partial", "C72_nan_does_not_hide_fails C72_nan_partial",
      "False (negation proved with machine arithmetic); with NaN scores the answer still consists of the right number of distinct matching data.")

# ---- Merging results
claim("C27", "proved", "C27_merge_higher_top_k C27_merge_order_independent C27_example C27_best_score_counts",
      "Top-k of the distinct arrivals for every arrival order; consistent scores per key and no NaN, as the quantifier says.")
claim("C28", "partial", "C28_merge_lower_top_k_fails C28_merge_lower_partial C28_exact C28_wrong C28_exact_example C28_wrong_example",
      "False: once full the worse result is kept (negation proved). Proved when at most limit distinct data arrive; beyond that the exact answer is proved: the limit-1 best of the first limit arrivals and the worst of all.")
claim("C29", "partial", "C29_no_duplicates_fails C29_no_duplicates_partial C29_no_duplicates_exact C29_exact_example",
      "False when a datum arrives again with a larger score (negation proved). Proved for consistent scores, in both directions. Exactly, with room for all arrivals: no datum twice just if none arrives with a greater score than at first.")
claim("C30", "proved", "C30_grouped_result C30_representative_best C30_example",
      "For every iteration order over the groups; group contents are the plain merge of the group's arrivals.")
claim("C31", "proved", "C31_result_bounded C31_grouped_result_bounded C31_ranked", "Any context; results that are returned.")
claim("C32", "partial", "C32_context_best_fails C32_context_largest C32_context_best_partial C32_no_context C32_merge_rescored",
      "False for lower-is-better: the worst score is taken (negation proved, exact behaviour proved). Proved for higher-is-better.")
claim("C73", "partial", "C73_merge_never_panics_fails C73_merge_panics_iff C73_merge_returns_partial",
      "False (negation proved); exact panic condition.")
claim("C74", "partial", "C74_group_score_kept_fails C74_group_score_kept_partial C74_group_score_exact C74_exact_example",
      "False: the representative is rescored against the context (negation proved). Proved without context data. Exactly, with context data: the score is the largest of those against the context and, unless that is prioritised, the score of the group (scores that are numbers).")
claim("C33", "proved", "C33_nothing_lost C33_no_deadlock C33_completes C33_search_result C33_example",
      "Small-step machine over all interleavings, any number of sources, any channel capacity > 0.")
claim("C34", "partial", "C34_timeout_partial C34_sources_finish_fails C34_sources_finish_partial",
      "The timeout part is proved; 'every source can still finish' is false (negation proved) and proved when the results fit the channel.")
claim("C35", "partial", "C35_key_injective C35_same_question_fails C35_same_question_partial",
      "False: datums of one request share a configuration whose timeout each search lowers (negation proved). Proved up to the timeout, and exactly when the timeout was not yet lowered.")
claim("C36", "partial", "C36_unbounded_age C36_bounded_age_fails C36_bounded_age_partial C36_kept_exact C36_kept_example",
      "False: every hit prolongs the item (unbounded age proved). Proved: one more duration per hit; exactly how long an answer is found if it is not prolonged (durations overflow: some are kept for ever, some for five minutes).")
claim("C75", "partial", "C75_complete_answers_fails C75_complete_answers_partial",
      "False: answers of searches cut short by their timeout are cached (negation proved). Proved for searches not cut short.")
claim("C16", "partial", "C16_target_fails C16_target_partial C16_concurrent_partial C16_concurrent_example C16_accepted_example C16_only_inserts_grow",
      "False: the size compared is the one of the last maintenance (negation proved). Proved: in every execution, clients writing during maintenance included, the overshoot is bounded by the inserts accepted since the run that reported the size began; sharper (since its end) when clients do not write during maintenance.")
claim("C26", "partial", "C26_index_live_fails C26_index_live_partial C26_index_quiet_partial",
      "False: the index answers from the data the last run met (negation proved). Proved: everything returned was stored and alive at some earlier moment; without writers it is stored, expired or accepted by a peer.")
claim("C39", "proved", "C39_removed_only_if_accepted C39_no_datum_lost C39_accepted_by_source C39_accepted_example",
      "Small-step machine, any number of concurrent runs and a concurrent Close; no concurrent client writes (with those see C76).")
claim("C40", "partial", "C40_low_water_mark_fails C40_low_water_mark_partial C40_only_above_mark_partial C40_example",
      "False when the mark is zero: the unsigned difference wraps (negation proved). Proved for a mark other than zero and for no target.")
claim("C41", "partial", "C41_handover_fails C41_handover_partial C41_example",
      "False: Close trusts the size of the last run, so data never counted are dropped (negation proved). Proved when the size is not zero and nobody writes: Close ends only with an empty store, everything expired or accepted by a peer.")
claim("C42", "partial", "C42_close_terminates_fails C42_close_never_returns C42_close_terminates_partial",
      "False: with a source and a datum without expiry Close never returns, under every schedule (proved).")
claim("C43", "proved", "C43_reported_size C43_reported_size_exact C43_reporting_between C43_example C43_concurrent C16_concurrent_example",
      "Any number of concurrent runs. Exact without client writes; with client writes during the run, between the data stored all the time and the data stored at its beginning with the inserts accepted since (the promise of sync.Map Range).")
claim("C44", "partial", "C44_average C44_statistics_partial C44_statistics_fails C44_example",
      "Over exact arithmetic (an ordered field with a distance); single precision is C131. False for data of maximal distance zero (negation proved).")
claim("C45", "proved", "C45_plan C45_planned_number C45_budget C45_example", "For all sizes, wrap-around of 64-bit numbers included.")
claim("C46", "proved", "C46_expiry_preserved C46_delay C46_not_forwarded", "64-bit arithmetic; exact integers when nothing overflows.")
claim("C47", "partial", "C47_throttled_fails C47_throttled_partial C47_inserts_counted C47_insert_makes_due C47_count_restarts C47_example",
      "False for a clock that went backwards (negation proved). Proved, as an equivalence, for a clock not behind the last run.")
claim("C76", "partial", "C76_no_update_lost_fails C76_no_update_lost_partial",
      "False: the consumer deletes by key after the acknowledgement of the old value (negation proved). Proved: a key is removed only by expiry, a client, or an acknowledged copy with this key.")
claim("C77", "partial", "C77_run_completes_fails C77_run_bounded_partial C77_run_not_stuck_partial C77_example",
      "False: a run without consumer blocks for ever if Close comes during its scan (negation proved). Proved: boundedly many steps under every schedule, and never stuck when there is a consumer or the data set is open.")
claim("C48", "partial", "C48_one_loop_fails C48_one_loop_partial C48_second_refused_partial C48_example C48_loops_exact C48_loops_example C48_first_start",
      "False: the check and the increment of the counter are not atomic (negation proved). Proved when starts do not overlap, and that a start after another loop has counted itself is refused. Exactly: of any number of starts of an open data set any, but at least one, may be in the loop.")
claim("C49", "proved", "C49_create C49_sequence C49_idempotent", "Requests served one after the other; overlapping ones are C78.")
claim("C50", "proved", "C50_search_unknown C50_search_known C50_info_creates C50_insert_creates C50_defaults", "The expiry library is assumed as in XEnv.Ok.")
claim("C51", "partial", "C51_restore_fails C51_restore_partial C51_restore_finite_partial",
      "False: a utilization that is not a number cannot be encoded, the data set is lost (negation proved). Proved exactly: the live configurations with a finite utilization are restored, each once. Saves without interference; see C79, C80.")
claim("C52", "partial", "C52_crash_fails C52_crash_partial",
      "False: the file is truncated before it is written (negation proved). Proved for every crash point of a save, with any other activity but a second save: only configurations that were really there.")
claim("C53", "partial", "C53_cleanup_fails C53_cleanup_partial C53_counted_partial",
      "False: an acknowledged insert that no maintenance run has counted yet is removed with its data set (negation proved). Proved: removed only if the last count was zero here and at every peer serving it.")
claim("C54", "partial", "C54_deleted_fails C54_deleted_partial",
      "False: a background walk over the names taken before the delete creates the data set again (negation proved). Proved for every schedule when no walk under way holds the name.")
claim("C55", "partial", "C55_expires_fails C55_expires_partial C55_visited_stays_partial C55_reported_partial C55_reported_example",
      "False: every background walk counts as a use (negation proved, and that a visit keeps the data set for a full retention). Proved when no walk visits it.")
claim("C78", "partial", "C78_version_fails C78_version_partial C78_version_exact C78_runs C78_exact_example",
      "False: check and assignment are not atomic (negation proved). Proved: never below the first version; monotone when requests do not overlap. Exactly: after requests served at the same time any one of those with a higher version than the first may be what remains, and nothing else.")
claim("C79", "partial", "C79_index_complete_fails C79_index_complete_partial",
      "False: an older save may end last (negation proved). Proved when saves do not overlap, with any other activity.")
claim("C80", "partial", "C80_load_fails C80_small_index_partial C80_no_save_partial",
      "False: the first data set loaded starts a save that truncates the file being read (negation proved). Proved for an index of at most 4096 bytes under every schedule, and for any size when no save opens the file meanwhile.")
claim("C56", "proved", "C56_identity C56_stable C56_comma_needed", "For addresses that are not empty and have no comma, as stated; with a comma it is false (shown).")
claim("C57", "proved", "C57_newest C57_order C57_step C57_monotone",
      "Announcements handled one after the other, within the ten minutes a record is kept at least; overlapping handlers are C81. With equal timestamps the record first seen is kept.")
claim("C58", "proved", "C58_ignored C58_join C58_sync", "Timestamps and clock as 64-bit numbers.")
claim("C59", "partial", "C59_fails C59_partial C59_blocked C59_expires",
      "False: while the record from the future is held every announcement with the right time is ignored (negation proved). Proved: accepted when the record held is older or none is held; the wrong record is kept at most fifteen minutes unless it comes in again.")
claim("C60", "proved", "C60_addresses C60_learn C60_history", "The reply of a join handled as one step.")
claim("C61", "proved", "C61_peer C61_sent", "First in the order of the record held, which is sorted.")
claim("C62", "partial", "C62_fails C62_partial C62_exact C62_drain",
      "False: every synchronisation that ends sets the flag (negation proved). Proved: not ready until a synchronisation ends, an equivalence; inserts stay refused for good.")
claim("C63", "proved", "C63_advertised C63_every", "For all strings and ports.")
claim("C64", "proved", "C64_get C64_returns C64_interleaved", "The state of a connection is what it was when the call looked at it; the network may change it at any time afterwards. For a call alone and among any number of others.")
claim("C65", "partial", "C65_fails C65_partial C65_first_partial C65_reached",
      "False: giving a connection back adds a copy to the pool, so more than 21 can have it (negation proved). Proved: 21, and one more for each time it was given back; that many are reached however often that was, so there is no bound.")
claim("C66", "partial", "C66_fails C66_exact C66_partial",
      "False: the first one to finish closes a connection that is not ready (negation proved). Proved exactly: closed if and only if it is not ready then.")
claim("C67", "proved", "C67_counter C67_quiet", "For all interleavings of any number of requests, evictions and changes of the connections' states.")
claim("C82", "partial", "C82_fails C82_partial", "False (negation proved). Proved: one connection at a time, only with a copy in that pool; counters stay.")
claim("C81", "partial", "C81_fails C81_step_partial C81_partial",
      "False: the check and the Set are two steps (negation proved). Proved for every interleaving in which the announcements of one and the same peer do not overlap.")
claim("C19", "proved", "C19_fanout_bounded C19_replica_not_forwarded C19_cluster", "One node exactly; a cluster of any nodes, where each call may reach any node or none, under every interleaving.")
claim("C37", "proved", "C37_once C37_fanout C37_unbounded", "Within five minutes of the first execution, the lifetime of the request-id cache, as stated; beyond it there is no bound (shown).")
claim("C38", "partial", "C38_fails C38_partial C38_quiet_partial C38_ends",
      "False: the handler may return while its goroutine holds a datum (negation proved). Proved: at most that one is missing, the rest arrives exactly once; all of it if the goroutine holds none; the stream ends.")
claim("C83", "partial", "C83_fails C83_partial", "False: the flush loop and the goroutine may send at the same time, and the goroutine after the return (negation proved). Proved: not during the scan, not with at most one live datum; at most one call after the return.")
claim("C84", "partial", "C84_fails C84_traversal C84_partial C84_shutdown_partial C84_apart C84_dots",
      "False: the name is joined to the path unchecked, so a data set named ../.. stands for the parent of the node's directory (negation proved). Proved exactly for names that can be names of directories.")
claim("C85", "partial", "C85_fails C85_listen C85_partial",
      "False: a deferred removal of the whole directory runs when listening ends, e.g. because the port is in use (negation proved, exact). Proved for the end by a signal.")
claim("C86", "partial", "C86_fails C86_exact C86_partial",
      "False: a record without addresses is accepted, and a request without a record then reads through a nil pointer (negation proved; exact condition). Proved while every announced record has addresses, none empty.")
claim("C87", "partial", "C87_fails C87_exact C87_partial",
      "False: the size of a peer that does not answer is read through a nil pointer (negation proved; exact condition). Proved when the peers of empty data sets answer.")
claim("C88", "partial", "C88_fails C88_exact C88_partial C88_young",
      "False: a data set that has gone, or is not initialized yet, is dereferenced (negation proved; exact condition). Proved for names still listed.")
claim("C89", "proved", "C89_complete C89_keeps", "For retention times below 292 years; the records are taken once, at the beginning, in any order.")
claim("C90", "partial", "C90_fails C90_partial C90_used_exact C90_used_example",
      "False: the entry is added for ten minutes and not prolonged, so there is a gap until the next synchronisation (negation proved). Proved exactly: a source from the synchronisation that added it for ten minutes, and at the time of each synchronisation; and exactly until when processing uses it.")
claim("C91", "partial", "C91_fails C91_exact", "False: it comes back as soon as a peer has it (negation proved). Proved exactly when.")
claim("C92", "partial", "C92_fails C92_exact C92_partial",
      "False: the record is removed by identity because of an older copy (negation proved; exact). Proved when the table did not change since the synchronisation took the records.")
claim("C93", "proved", "C93_reply C93_learned C93_none", "For any decision of net.ParseIP and IsLoopback.")
claim("C94", "proved", "C94_endpoints C94_unhealthy", "The flag for ill health is never set in the repository; the answer that exists for it would say alive (shown).")
claim("C95", "partial", "C95_cluster_search_fails C95_cluster_search_partial C95_example C95_alone_partial C95_alone_example C95_six_example",
      "False if lower is better: the merges keep the worse of two when the limit is reached (negation proved). Proved for any number of nodes if higher is better, or if at most limit many data match; in both directions if only the node itself takes part. Exact (non-index) scoring, no context, no group limit, stores filled by well-formed inserts.")
claim("C96", "partial", "C96_every_datum_fails C96_only_one C96_first_partial",
      "False: all requests of one search carry the same id, so the second is taken for a repetition (negation proved; exactly at most one datum per node). Proved: the first request with an id is carried out.")
claim("C97", "partial", "C97_cluster_groups_fails C97_cluster_groups_partial",
      "False: other nodes send group scores, which are grouped and summed again (negation proved). Proved if no other node takes part.")
claim("C98", "partial", "C98_search_request_fails C98_search_request_partial C98_needed",
      "False: a request without a configuration (negation proved). Proved for requests with a configuration, a positive limit, a result limit below 2^63, and keys on all data; each of these is needed (shown).")
claim("C99", "partial", "C99_replicas_fails C99_requests_stored C99_replicas_partial C99_sources_partial C99_cluster_partial C99_cluster_example",
      "False: the calls may come back to the node itself, or reach one node under two addresses (negation proved). Proved: as many requests as asked for have been stored, by as many nodes if the calls reach different nodes other than its own; and so if the sources are those found by synchronisation and the nodes are seen only under addresses that they announce from the start (C164, C165).")
claim("C100", "partial", "C100_every_datum_fails C100_permanent_never_sent C100_sent_partial",
      "False: a datum without expiry is never offered (negation proved; for every execution). Proved: what is offered has an expiry with more than ten seconds left.")
claim("C101", "proved", "C101_never_released C101_released_once C101_current_kept C101_progress C101_example", "For sequentially consistent reads of the fields (the check before the lock is a race in the sense of the Go memory model).")
claim("C102", "partial", "C102_files_fails C102_files_exact C102_files_partial", "False: the file of the last index stays (negation proved; exactly that one). Proved: it is never removed while current, and all others are removed.")
claim("C103", "partial", "C103_build_fails C103_search_fails C103_exact C103_one_length_partial C103_example", "False: the dimension is the length of the first vector met, and shorter ones are read past their end, by inserts and by queries (negations proved; exact condition). Proved if all vectors have one length.")
claim("C104", "proved", "C104_smaller C104_hops C104_one_datum", "The multiplication is the soft-float one; a limit of 0 stays 0.")
claim("C105", "partial", "C105_fails C105_partial C105_one_datum C105_worst", "False: the searches share one configuration and each lowers the limit in it (negation proved). Proved: the exact set of limits a search can have, the worst case is reached, and the property holds for one datum.")
claim("C106", "partial", "C106_fails C106_at_once C106_exact C106_partial", "False: from 9223372036855 ms on the conversion to nanoseconds overflows, and the timer may fire at once (negation proved; the exact condition).")
claim("C107", "partial", "C107_fails C107_goes_on C107_exact C107_small_goes_on C107_larger_peer_goes_on C107_partial C107_close_partial C107_far_partial C107_near_partial C107_nan_partial", "Proved: as long as the statistics differ data are planned, and what close means in real numbers (one per cent of the largest distance, up to rounding). False the other way round: data sets with fewer than a hundred data, or with fewer than a hundred thousand and a larger peer, never stop (negation proved; the exact condition).")
claim("C108", "partial", "C108_fails C108_exact C108_partial C108_create", "False: the number of replicas, whether they are enforced and the retention time are shown as zero, already for the default configuration (negation proved). Proved: exactly these three are missing; the configurations for which the claim holds.")
claim("C109", "partial", "C109_fails C109_nothing_stored C109_partial", "False: only the configurations are on disk (negation proved). Proved: in every execution of a new process, whatever is on disk, no data set has a datum before the first insert; the data sets and their configurations come back.")
claim("C110", "partial", "C110_fails C110_exact C110_always_replaced C110_partial", "False: versions are never compared (negation proved). Proved: exactly, the value inserted last is stored; the claim for versions inserted in ascending order.")
claim("C111", "partial", "C111_fails C111_never C111_no_invention C111_one_value_partial C111_one_source_partial", "False: two nodes swap their values, for any number of exchanges (negation proved). Proved: values only come from clients; agreement if clients never change a value, or if only one node sends.")
claim("C112", "proved", "C112_answers", "For any arithmetic in which a split with an empty side counts as unbalanced (proved of IEEE arithmetic), below 2^31 items. Whether a build ends depends on its random numbers: an index is one whose build has ended.")
claim("C113", "partial", "C113_enough_fails C113_share_partial C113_large_partial", "False: the limit is passed as the number of candidates to collect over all trees, so the same item counts once for each tree (negation proved: six answers for a limit of seven among eight). Proved: at least limit / trees answers or all; all if there are at most dimension + 2 items, or if the limit exceeds (items - 1) * trees; all for limits of 2^31 or more.")
claim("C114", "partial", "C114_nearest_fails C114_complete_partial", "False: the query itself, stored, is not found with a limit of three among five (negation proved). Proved: the nearest are found if there are at most dimension + 2 items or the limit exceeds (items - 1) * trees.")
claim("C115", "proved", "C115_size", "For an index whose build has ended.")
claim("C116", "partial", "C116_index_search_fails C116_index_search_partial", "False: vectors of different lengths (negation proved, see C103). Proved from the creation of the data set on, for histories with vectors of one length; with at most length + 2 items nothing that passes the filters is missed.")
claim("C117", "partial", "C117_memory_fails C117_memory_exact C117_memory_partial", "False: the wrapper copies the answer to memory from malloc that nothing frees (negation proved). Proved: exactly 12 bytes are lost for each position answered; a bound by the numbers of searches and items.")
claim("C118", "partial", "C118_one_moment_fails C118_exact C118_quiet_partial", "False: the fields are read and written without a lock (negation proved: the average of one datum reported as that of two). Proved: exactly the mixtures, field by field, of what holds while the request is served can be returned; so if nothing changes, that.")
claim("C119", "partial", "C119_memory_fails C119_first C119_exact C119_uniform_partial", "False: a slice is two words, and the length of a new one may be read with the pointer of an old one (negation proved). On every data set a request during the end of its first run can crash the node. Proved: it can happen exactly if a length changes while the request is served; not if all vectors have one length and the data set is not counted as empty.")
claim("C120", "partial", "C120_learned_fails C120_lost C120_sound C120_alone_partial C120_in_turn_partial", "False: the list is extended without a lock by goroutines that overlap (negation proved; the loss has no bound). Proved: all announced addresses come from replies; an address is added and nothing lost while no other goroutine moves, so replies dealt with in turn are all announced. Headers and strings are read and written at once in this model.")
claim("C121", "partial", "C121_every_minute_fails C121_every_minute_partial C121_example", "False: the report asks all sources in turn before the round starts (negation proved). Proved: a round starts at most a minute and ten seconds per source asked after the one before, within the minute if there are no sources, and never more often than the ticker ticks.")
claim("C122", "partial", "C122_one_round_fails C122_unbounded C122_one_round_partial C122_example", "False: nothing waits for the round before (negation proved; with enough silent addresses any number of rounds overlap). Proved: with at most k calls in a task, at most k * 10 s / 60 s + 3 tasks of a kind run at the same time.")
claim("C123", "partial", "C123_one_moment_fails C123_one_moment_partial C123_example", "False: data that were never stored together can be answered together (negation proved). Proved for all concurrent changes: no failure, and the answer is the exact top-k of a selection with at most one datum per key, nothing that was not stored and alive at some moment, and nothing missing that was there all the time. Scores without NaN.")
claim("C124", "proved", "C124_stream_during_writes C124_example", "Relies on the documented promise of sync.Map's Range, which is part of the step relation.")
claim("C125", "partial", "C125_linearizable_fails C125_linearizable_partial C125_values_partial C125_permanent_partial C125_example Linear.step_conc", "False for expiries (negation proved with three inserts of one value whose expiries are less than ten seconds apart). Proved in the order of the returns: keys and values are exactly those of the sequence, the expiry is that of one of the near ones; for data without expiry the full statement holds. Without scans that purge (C13).")
claim("C126", "partial", "C126_repeated_query_fails C126_repeated_query_partial C126_example", "False: the searches of one request lower its shared timeout, which is part of the cache key, so the key depends on which search begins first (negation proved). Proved: answered from the cache, by an answer at least as new, exactly if the two searches found the same configuration, in particular for requests with one datum.")
claim("C127", "partial", "C127_json_fails C127_exact C127_right_order_partial", "False: the type is set after the header has been sent, so it is guessed from the body (negation and exact answer proved, relying on the documentation of net/http). The unused helper has the right order.")
claim("C128", "partial", "C128_settings_fails C128_settings_partial C128_exact", "False: services, port and directory are taken from the command line only (negation proved). Exact precedence proved for the broadcast addresses; viper's precedence is modelled from its documentation.")
claim("C129", "partial", "C129_signal_ends_fails C129_signal_ends_partial C129_only_close C129_never_ends C129_example", "False: the goroutine takes one signal only and then waits for Close, which need not return (C42): no number of signals ends the server (proved). A signal is never lost, and after it the process ends exactly when Close returns or Listen fails. One data set.")
claim("C130", "partial", "C130_key_string_fails C130_other_key C130_key_string_partial C130_copy_right C130_example", "False: between lines 11 and 12 only a uintptr refers to the bytes, which may be freed and reused for another key (negation proved). Proved: right, and for ever, unless the collector frees them exactly there; with the commented-out copy always right. Memory is freed and reused by whole arrays.")
claim("C131", "partial", "C131_accuracy_fails C131_saturated C131_error_bound C131_accuracy_partial C131_example", "False: in float32 adding 1/n stops having an effect; 2^25 data [1] are reported with average 1/2 and a histogram that sums to 1/2 (negation proved). Proved for at most 80000 data, and an error bound (n+1) B / 2^23 for n < 2^23-1 data bounded by B: IEEE single precision, round to nearest even, every operation rounded.")
claim("C132", "partial", "C132_index_covers_fails C132_index_covers_exact C132_index_covers_partial C132_second_run_partial C132_index_misses C132_example", "False: the slice behind the index has max(1000, previous N) places; of 1001 data inserted before the first run one cannot be found (negation proved). Exactly: what can be found are the first max(1000, previous N) data met. Complete if the run reports at most 1000 or at most the previous N, and after every later run on unchanged data.")
claim("C133", "partial", "C133_index_fresh_fails C133_index_fresh_partial C133_index_stale C133_example", "False: a run that meets nothing keeps the old index, so after the last datum is deleted the index returns it for ever (negation and the for-ever version proved). Proved for runs that meet a live datum in a data set that is not closed, whatever clients do.")
claim("C134", "partial", "C134_distance_error_partial C134_distance_accurate_partial C134_infinite C134_vanishes C134_distance_accurate_fails C134_example", "False: the sum of squares is kept in float32, so a component that differs by 2^64 makes the distance +Inf, and vectors within 2^-75 of each other have distance 0 (both proved for all such vectors; negation proved). Proved: within one per cent up to 65536 components if the true distance is 0 or in [2^-60, 2^62]; in general the error of the square is at most (2n+8)/2^24 of it plus 3n/2^149.")
claim("C135", "partial", "C135_nearest_partial C135_nearest_error_partial C135_nearest_fails C135_example C135_error_example", "False even for harmless numbers: (4096, 1/2) is returned and (4096, 0) left out for the query (0, 0), because both distances are 4096 in float32 (negation proved). Proved: for finite vectors within 2^62 of the query and up to 65536 components, what is left out is not nearer than what is returned, and the order is right, up to one per cent (and 2^-64). By the number n of components, and with no bound on how near: the squares of the distances up to a share of (2n + 8) / 2^24 of each and 6n / 2^149.")
claim("C136", "partial", "C136_quick_accurate_partial C136_quick_accurate_fails C136_example", "False only for components that are farther apart than a float32 can say (negation proved). Proved if no two components differ by more than 3*2^126, with no lower bound: the sum is kept in float64.")
claim("C137", "partial", "C137_product_error_partial C137_product_accurate_partial C137_product_accurate_fails C137_example", "False: (4096, 1, 4096) times (4096, 1, -4096) is 0 instead of 1 (negation proved). Proved: the error is at most (2n+4)/2^24 of the sum of the magnitudes of the terms plus 3n/2^149; within one per cent if no term is negative and the product is in [2^-120, 2^124].")
claim("C138", "partial", "C138_cosine_accurate_partial C138_cosine_error_partial C138_cosine_accurate_fails C138_long C138_short C138_example C138_error_example", "False: a vector with a component of 2^64 or more has similarity 0 or NaN to every vector, one without a component above 2^-75 has similarity 0 to every vector, itself included (both proved for all such vectors; negation proved). Proved if each vector is zero or has a length in [2^-60, 2^60]; by the number n of components the error is (5n + 20) / 2^24 if the lengths are in [2^-50, 2^60].")
claim("C139", "partial", "C139_most_similar_partial C139_most_similar_error_partial C139_most_similar_fails C139_example", "False: for the query (1, 0) the vector (4096, 1) is returned and (1, 0) left out (negation proved). Proved up to 1/50 of the cosine, for vectors that are zero or of length in [2^-60, 2^60] with up to 32768 components; by the number n of components up to 2 (5n + 20) / 2^24, for lengths in [2^-50, 2^60].")
claim("C140", "partial", "C140_quick_nearest_partial C140_quick_nearest_fails C140_example", "False: the differences are rounded to float32 (negation proved). Proved up to three parts in a million.")
claim("C141", "partial", "C141_angular_accurate_partial C141_angular_error_partial C141_angular_accurate_fails C141_example", "False as C138 (negation proved). Proved if each vector is zero or has a length in [2^-60, 2^60]; the bound is the square root of half the error of the cosine, also by the number of components as in C138.")
claim("C142", "partial", "C142_more_arrivals_partial C142_more_time_partial C142_more_time_fails C142_example", "False if lower is better: when the limit is reached the merge replaces a better result by a worse one, so more arrivals spoil the answer (negation proved). Proved if higher is better, or if no more data arrive than fit.")
claim("C143", "partial", "C143_finds_itself_partial C143_finds_itself_fails C143_example", "False: with 2^-80 and 0 stored, a search for 0 returns 2^-80 (negation proved). Proved, with score 0, if the other stored vectors are at true distances in [2^-60, 2^62] from it.")
claim("C144", "partial", "C144_ends_unless_partial C144_small_partial C144_example", "Proved: it ends and does so with one result, unless there is a point in the fixed sequence of random numbers from which on every round of as many flips as there are items in some subset is unbalanced; always, if all items fit into one node. Missing: that the generator has no such point (not known for Kiss64).")
claim("C145", "partial", "C145_unary_search_fails C145_unary_search_exact", "False: the handler returns nil and no error for every request (negation proved; exactly that). There is no case in which it holds.")
claim("C146", "partial", "C146_cluster_similar_fails C146_cluster_similar_partial C146_cluster_similar_error_partial C146_example", "False as stated (negation proved: (4096, 1) is returned for (1, 0) and (1, 0) is not). Proved up to 1/50 of the cosine, for finite vectors of length zero or between 2^-60 and 2^60 with up to 2^15 components, no groups and no time limit reached (as in C95); by the number n of components up to 2 (5n + 20) / 2^24.")
claim("C147", "partial", "C147_inserted_found_fails C147_inserted_found_partial C147_example", "False as stated (negation proved: 0 is inserted, then 2^-80; a search for 0 returns 2^-80). Proved if the other stored vectors are at true distances between 2^-60 and 2^62, for a node without peers, until ten seconds before the TTL ends.")
claim("C148", "partial", "C148_index_finds_itself_fails C148_index_finds_itself_partial C148_example", "False as stated (negation proved: of five numbers, one of them 1, a search for 1 finds others). Proved for a vector that on its way through the trees comes to no plane that it lies in (margin zero), for every arithmetic with Lib.Ok in which a zero plane gives margin zero, all vectors, dimensions and limits.")
claim("C149", "proved", "C149_set_up_once C149_progress C149_example", "Every interleaving of any number of requests, clean-ups, deletions, expiries and janitor runs; memory sequentially consistent.")
claim("C150", "partial", "C150_stopped_fails C150_early C150_replaced C150_stopped_partial C150_example", "False (negation proved, twice): the clean-up closes a data set that is in the list and not yet set up, which then starts its loop; and an expired data set is replaced by the next request without being closed. Proved if neither happens.")
claim("C151", "partial", "C151_forgotten_fails C151_kept C151_forgotten_partial C151_reminded C151_example", "False (negation proved): two nodes remind each other of a name for ever, as each report prolongs it by ten minutes and every node reports every minute. Proved: a reported service is known for ten minutes; its time to live changes only by reports that name it. For services learned from others: what go-cache's IncrementExpiration does to an entry without expiry is not assumed.")
claim("C152", "partial", "C152_description_fails C152_description_exact C152_parts_partial C152_example", "False (negation proved): with seed 2^64-1 the second carry is one too small. Exact: the carry is wrong exactly when it was 2^58 and the last six bits of the number were ones. With the seed the index uses nothing is said about when that state is met.")
claim("C153", "partial", "C153_retention_fails C153_retention_exact C153_longer_partial C153_use_partial C153_example", "False (negation proved): the product with a second in nanoseconds overflows, and a retention of 2^55 seconds is a day. Exact: true if and only if the retention is at most 9223372036 seconds.")
claim("C154", "proved", "C154_more C154_search C154_example", "For every native library with the properties Lib.Ok. The limit 2^32-1 is left out: there search_k is -1, which stands for the number asked for times the number of trees, and that product may overflow an int.")
claim("C155", "proved", "C155_everyone C155_example", "JoinToPeers and SyncWithPeers are one step each; the nodes know their addresses from the start (the address in the answer to Join is one of them); each node's first own step is a join.")
claim("C156", "proved", "C156_spreads C156_example C156_unremoved C156_unremoved_example", "As in C155; the configuration of the copy is the one of a peer with at least the version that was listed; the data set on the other node is empty (entries are exchanged by Process, C125ff).")
claim("C157", "proved", "C157_ready C157_example", "The flag is read and written as one step.")
claim("C158", "partial", "C158_last_copy_fails C158_last_copy_partial C158_one_partial C158_arrives C158_atomic C158_ends C158_example C158_turn_example C158_arrives_example", "False: two nodes above their marks that hold the same datum send it to each other, each accepts what it has already, and each removes it when the answer comes. Proved: no copy is lost unless a node removes the datum while another node waits for its answer to a transfer of it; in particular if all nodes but one have no target and stay open.")
claim("C159", "partial", "C159_refusals_fails C159_refused C159_same C159_granted_partial C159_example", "False (negation proved): if the file cannot be opened, grown or mapped, or the disk is full, or there is no memory, the process crashes, for all vectors. Proved: whatever is refused, an index that is built is the same as without refusals; if nothing is refused and the disk has room for four nodes for each item, it is built within its memory, every node of it can be read, and the file has exactly the size of the nodes. Linux; the file is sparse, so that room is needed for what is written only.")
claim("C160", "partial", "C160_connections_fails C160_ends C160_held C160_connections_partial C160_fourteen_partial C160_fifteen C160_example", "False (negation proved): after its time limit a search whose sources have more results than the channel has room for keeps connections for ever. Exactly: the connections kept are those of calls that stand before the full channel of a search ended by its time limit. So searches that end in time, and searches for at most fourteen results (a node and six peers), keep none; for fifteen it can happen (shown). The pool itself: C64-C67.")
claim("C161", "partial", "C161_whole_fails C161_prefixes C161_whole_partial C161_example", "False (negation proved): a peer that cannot be reached or breaks off is taken for one that has nothing more. Proved: of each source the search has a first part of its answer, the whole of it unless the call failed, and always all local results.")
claim("C162", "partial", "C162_ready_fails C162_ready_exact C162_ready_partial C162_refused C162_no_health C162_synced C162_history C162_takes C162_close C162_exit C162_web_ends C162_example", "False (negation proved): the first synchronisation makes the node ready before its port is open. Exactly: it says so without taking calls only right before it opens its port, or after it could not, or after serving has ended, and then the process removes its directory and ends. From the moment the port is open it takes calls as long as it serves. If port 8000 is taken the server goes on without health checks (shown). A node is ready exactly if a synchronisation has ended and no closing has come after it (C162_synced).")
claim("C163", "proved", "C163_no_worse C163_same C163_prefix C163_unreturned C163_example", "Results with equal scores may come in a different order or be others (the example has two such answers): the claim is about places and scores. Needs scores that are numbers (C22 has what NaN does).")
claim("C164", "proved", "C164_others C164_example", "The nodes start without records and sources; what clients and other tasks do to the data sets adds no sources (`Adding`).")
claim("C165", "partial", "C165_once_fails C165_once_partial C165_exactly_one_partial C165_example C165_exactly_one_example", "False (negation proved): a node that learns from a join that it is seen under another address announces itself under another identity; as long as both records are kept it is two sources. Holds if the nodes are seen only under addresses that they announce from the start; then, with C156, after each late enough synchronisation exactly one source reaches each connected node that keeps the data set.")
claim("C166", "proved", "C166_only_named C166_run C166_example", "Requests that crash the node are not among them (C71, C98); the saves that a creation starts in the background prolong all data sets and are separate steps (C167, C153).")
claim("C167", "partial", "C167_alone_fails C167_alone_partial C167_example", "False (negation proved): the ids of queries are kept per node, not per data set, so a search with the id of an earlier search of another data set gets an empty answer and no error. Holds, together with the contents of the data set in the end, if no client uses an id for two data sets.")
claim("C168", "proved", "C168_all_returned C168_example", "For ungrouped searches with a positive limit by a score function whose name does not begin with Annoy (those may use an index that is older than the data, C132, C133); answers from the cache are not part of it (C35, C36). Searches without room are C95.")
claim("C169", "proved", "C169_inserted_returned C169_example", "As C168. That no live datum is dropped before its time to live is over is C09 and C10, used in the proof.")
claim("C170", "partial", "C170_gone_fails C170_end_partial C170_at_once_partial C170_bounded_partial C170_forever C170_example", "False (negation proved): what is sent is the time left when the scan came to the datum, so the time that a copy waits in the queue and is on its way is added to its life; two nodes that need half a minute for a transfer keep a datum for ever (shown). Exactly: a copy ends at the end of the TTL plus the time that it was on its way, from node to node. Proved: it is gone in time if nothing takes time; and in bounded time if a node sends a datum at most once in p seconds (60, C47), a transfer takes at most d seconds with the waiting, and N nodes have N d < p. For clocks off by fixed amounts, times and TTLs below 2^61 seconds.")
claim("C171", "partial", "C171_largest_fails C171_largest_partial C171_cluster_partial C171_example C171_cluster_example", "False: for the query (4096, 1, 4096) the vector (0, 1/2, 0) is returned and (4096, 1, -4096), whose product is 1 but 0 in float32, left out (negation proved). Proved up to the errors of the two products: for n common components (2n + 4) / 2^24 of the magnitudes of the terms, and 3n / 2^149; at one node and over several (as in C95).")
claim("C172", "partial", "C172_direction_fails C172_direction_partial C172_direction_error_partial C172_cluster_partial C172_example C172_error_example C172_cluster_example", "False: for the query (1, 0) the vector (4096, 1) is returned and (1, 0) left out (negation proved). Proved up to twice the error of the angle: with n components the root of (5n + 20) / 2^25 and a hundred-thousandth (of half a turn) if the lengths are zero or in [2^-50, 2^60]; 142/1000 for any up to 32768 components and lengths in [2^-60, 2^60]; at one node and over several (as in C95).")
claim("C173", "proved", "C173_contents C173_seen C173_found C173_stays C173_nothing_new C173_stream_scans C173_search_scans C173_then C173_example C173_found_example", "For data with a key and a value (a datum without one: C24, C71), while the data set is listed (for how long that is: C53-C55, C153). Requests one after the other; for scans during writes see C123-C125. The maintenance loop, which moves and evicts data, is not among the steps (C39-C47, C76).")
claim("C174", "proved", "C174_remembered C174_bounded C174_example", "The clean-up of go-cache runs once a minute (node/node.go:62); times do not go back. The results kept by a data set are another matter: how long is for the client to say (C36).")
claim("C175", "proved", "C175_arrives C175_distinct C175_example C175_types_example", "The wire format is modelled from its specification; that the protobuf library, which is not in the repository, follows it is part of the trusted base.")
claim("C176", "proved", "C176_newer C176_search C176_example", "The unknown fields are of the wire types in use (not groups). The library keeps them beside the message; data that are stored drop them (Clean).")
claim("C177", "proved", "C177_compiled", "A fact about one constant of 3451 bytes, proved by evaluating the modelled decoder on it in the kernel.")
claim("C178", "partial", "C178_handed_on_fails C178_handed_on_partial C178_forwarded C178_streamed C178_unary C178_answer_fails C178_example", "False (negation proved): no size limit is set, so the library's default of 4 MiB for a message holds; an insert of just that size cannot be sent on with its configuration, and two data of 3 MB which a node has taken cannot be returned together by Search. Proved: with 24 bytes to spare an insert can be sent on and its datum returned in the stream of a search; it can always be read with the data set; an answer of Search reaches the client exactly if its data together have room.")
claim("C179", "partial", "C179_fails C179_dropped C179_replaced C179_late C179_thousand C179_partial C179_example", "False (negation proved) in four ways: the runtime drops an entry of sync.Pool without closing its connection; the loading cache replaces a pool by a fresh one on a refresh, without closing it (that goburrow/cache does not call the removal listener then is a fact about the library); a connection given back while its pool is being closed stays in it; CloseAll stops after 1000 entries. Proved: in executions without these, every open connection is in use, can be taken again, or is going to be closed.")
claim("C180", "partial", "C180_fails C180_grows C180_partial", "False (negation proved): each Get puts a connection that it finds healthy back before it hands it out, and Put adds it once more, so n + 1 uses one after the other leave n + 2 entries of the same connection. Proved: a pool never has more entries of a connection than one more than the number of times it was given back.")
claim("C181", "partial", "C181_fails C181_partial C181_key_partial C181_example", "False (negation proved): a node may pass the insert on to itself under an address that it does not know as its own, and all copies are on one node. Proved if each call reaches the node of the source called, or none, and the sources are different nodes, none of them the node itself (C164 and C165 give this for sources found by synchronisation); also with other values written for the key, then for the key alone.")
claim("C182", "proved", "C182_steps C182_goes_on C182_answered C182_example", "For inserts that do not crash the node (C71, `Safe`). A call that gets no answer ends by its deadline: the step by which a caller goes on does not wait for the handler that it has called (as in C99).")
claim("C183", "proved", "C183_any_order C183_repeated C183_repeated_forever C183_example", "The order in which the map keeps its entries is not observed (`Same`). A data set that is full refuses both inserts, in either order.")
claim("C184", "partial", "C184_fails C184_partial C184_more_partial C184_example", "False (negation proved) if lower is better: an aggregator that is full keeps the larger of two distances (C28, C95), so two nodes with one point each answer with the farther one, one node with both points with the nearer. Proved if higher is better, or if no more than `limit` different data match, for answers that all nodes have given in time.")
claim("C185", "partial", "C185_fails C185_exact C185_partial C185_two C185_unbounded C185_example", "False (negation proved): a search for more than a hundred results whose time limit comes before they are collected leaves two goroutines for ever, without any peer; so n searches leave 2 n. Exactly: the sources that stand before the full channel of a search ended by its time limit, and one that waits for them; at most one more than the sources. Nothing is left of searches that end in time or whose sources have at most a hundred results together. The connections: C160.")
claim("C186", "partial", "C186_fails C186_partial C186_example", "False (negation proved): only six sources are asked, so that in a mesh of eight nodes one is never asked. Proved if no node has more than six sources. How often each node carries it out: C37; time limits: C104.")
claim("C187", "proved", "C187_whole_cluster C187_best C187_inserted C187_example", "For one datum, no grouping, a score function of this repository (not Annoy), no time limit reached (C104) and nothing taken from a query cache (C35, C36; C201). The id of the query is remembered as long as the search lasts (C174). With more than six sources: C186.")
claim("C188", "proved", "C188_cluster_search_ends C188_answer C188_limited C187_example", "The machine of C187; limits for which merging does not crash the node (C73).")
claim("C189", "proved", "C189_genuine C189_example", "The machine of C187 with time limits: an answer may be sent at any moment, made from any part of what has come. For one datum, no grouping, a score function of this repository (not Annoy).")
claim("C190", "proved", "C190_joined C190_example", "The nodes are seen only under addresses that they announce from the start (C165) and answer there; the search is as in C187 (one datum, room for all, no time limit reached). Directly after a synchronisation of the node that is asked: later its sources may have expired until the next one (C90). Up to seven nodes, since six sources are asked (C186).")
claim("C191", "proved", "C191_found C191_example", "C181 and C187 together, with their conditions. That the sources are other nodes, none twice: C164 and C165.")
claim("C192", "proved", "C192_alone C192_each C192_goes_on C192_example", "Different ids (two searches with the same id: C167). The machine of C187, without time limits; each search meets the conditions of C187. The time that one search costs another is not modelled.")
claim("C193", "partial", "C193_fails C193_exact C193_partial C193_example", "With more than six sources it fails: six are asked, in a random order, and if the willing ones are not among them the insert is refused although enough nodes would take it (`C193_fails`). C193_exact: those six decide. C193_partial: true with at most six sources.")
claim("C194", "proved", "C194_loaded C194_empty C194_example", "Items 0, 1, ... without gaps; the file can be written and read; the products of the question with the planes of the index are finite numbers (otherwise the order of the queue may differ between the two copies of the roots); without a search limit the number asked for times (2 * items + 1) is below 2^32. veri itself does not call save or load.")
claim("C195", "partial", "C195_fails C195_exact C195_partial C195_example", "Fails: the variable CONFIG comes before VERICONFIG, as AutomaticEnv looks for it first, and without a home directory and a named file the process ends with code 1. C195_exact: what is read in every case; C195_partial: true if --config is given or CONFIG is not set, and a file is named or there is a home directory. viper v1.8.1 is modelled from what is known of its source, which is not in the repository.")
claim("C196", "partial", "C196_fails C196_partial C196_example", "Fails: a vector that lies in a plane goes to a random side of it, a search for it to the other one perhaps (C148). C196_partial: true of a vector that never comes to a plane that it lies in. No distance is NaN; fewer than 2^31 places in the index; limits from 1 to 2^31 - 1.")
claim("C197", "partial", "C197_fails C197_partial C197_example", "Fails for the reason of C196, and for that of C132. C197_partial: true if the run reports at most 1000 data or no more than had been reported when it began, and the vector never comes to a plane that it lies in. The inserts come before the first run (nobody writes during maintenance).")
claim("C198", "proved", "C198_alone C198_genuine C198_ends C198_goes_on C198_example", "Different ids (two searches with the same id: C167). What C189 says holds for each; flat results, names other than the index searches. The time that one search costs another is not modelled: limits may come at any moment.")
claim("C199", "partial", "C199_fails C199_parts C199_exact C199_partial C199_value_exact C199_example C199_padded C199_padded_example", "Fails: a length may be written with more bytes than it needs (0x80 0x00 for 0). C199_padded: with any number more the same value is decoded. C199_exact: this is the only way for a key; for a value there is also the label that is cut off (C05). C199_parts: in all cases the fields are what the bytes say, in their order. The destination has a capacity of at most 2^48 bytes.")
claim("C200", "partial", "C200_fails C200_partial C200_exact C200_example", "Fails: the node that gets the copy is asked before, the one that deletes the original after. C200_exact (no node fails, the client gives an id): every node is asked at one moment, and a key is returned if and only if some node showed it at that moment. C200_partial: with nodes that may fail and without an id; in particular a datum that one reachable node keeps is found. The scan of one node is one step (C123, C124 look into it); search without grouping and index, room for all matching keys, at most six sources per node.")
claim("C201", "proved", "C201_genuine C201_off C201_example", "The machine of C198 with the caches. That a kept answer is old or not whole is C36 and C75; that other requests have other keys is C35, used in the proof. For one datum per request, no grouping, a score function of this repository (not Annoy). As in C198 what a node stores may change all the time; the stores are those since the caches were empty.")
claim("C202", "proved", "C202_data C202_scores C202_example", "For a score function of this repository (not Annoy) and a positive limit. That other nodes answer for only one of the data is C96, that grouped scores are those of groups of groups C97; nothing is said on them here. Without caches (C201).")
claim("C203", "proved", "C203_own C203_example", "For a score function of this repository (not Annoy), without groups and caches. Of matches at other nodes C96 says that they may be missing; here only the data of the node asked are claimed. A match is known by its key: with which of the scores it comes is not claimed (C27 to C29).")
