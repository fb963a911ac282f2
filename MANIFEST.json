{
 "claims": [
  {
   "property": "C01",
   "status": "proved",
   "theorems": [
    "Veri.C01_key_roundtrip",
    "Veri.C01_datum_key_roundtrip"
   ],
   "note": "All keys whose slices fit Go's allocation limit (2^48 bytes), any trailing bytes, any destination."
  },
  {
   "property": "C02",
   "status": "proved",
   "theorems": [
    "Veri.C02_value_roundtrip",
    "Veri.C02_datum_roundtrip"
   ],
   "note": "Also whole datums through ToDatum."
  },
  {
   "property": "C03",
   "status": "proved",
   "theorems": [
    "Veri.C03_key_encoding_prefix_free",
    "Veri.C03_store_key_injective",
    "Veri.C03_value_encoding_injective"
   ],
   "note": "No size hypothesis."
  },
  {
   "property": "C04",
   "status": "proved",
   "theorems": [
    "Veri.C04_encode_exact"
   ],
   "note": "Buffer writes are bounds-checked in the model; none fails."
  },
  {
   "property": "C05",
   "status": "partial",
   "theorems": [
    "Veri.C05_truncated_key_rejected",
    "Veri.C05_truncated_value_partial",
    "Veri.C05_truncated_value_rejected_fails",
    "Veri.C05_truncated_value_leaks_old"
   ],
   "note": "Proved for keys; false for values: a label cut short is accepted and padded (negation and exact behaviour proved)."
  },
  {
   "property": "C06",
   "status": "partial",
   "theorems": [
    "Veri.C06_newDatum_partial",
    "Veri.C06_newDatum_keeps_arguments_fails",
    "Veri.C06_size2_collision"
   ],
   "note": "False: NewDatum stores size1 as size2 (negation proved); exact behaviour proved."
  },
  {
   "property": "C07",
   "status": "proved",
   "theorems": [
    "Veri.C07_score_roundtrip"
   ],
   "note": "All 64-bit patterns."
  },
  {
   "property": "C08",
   "status": "proved",
   "theorems": [
    "Veri.C08_store_refines_reference",
    "Veri.C08_total"
   ],
   "note": "Refinement to a map indexed by datum keys, for every history; every operation of a well-formed history returns."
  },
  {
   "property": "C09",
   "status": "proved",
   "theorems": [
    "Veri.C09_ttl_upper",
    "Veri.C09_ttl_lower"
   ],
   "note": "Both bounds, with the 9 second tolerance; TTLs that do not overflow int64."
  },
  {
   "property": "C10",
   "status": "proved",
   "theorems": [
    "Veri.C10_no_ttl_never_expires",
    "Veri.C10_overflow_corner"
   ],
   "note": "Hypothesis: TTLs of earlier inserts do not overflow the clock; the corner theorem shows the hypothesis is needed."
  },
  {
   "property": "C11",
   "status": "proved",
   "theorems": [
    "Veri.C11_delete_exact"
   ],
   "note": "Exact frame condition for the other keys."
  },
  {
   "property": "C12",
   "status": "proved",
   "theorems": [
    "Veri.C12_scan_exact",
    "Veri.C12_scan_sees_live_once"
   ],
   "note": "Any callback, including failing and panicking ones."
  },
  {
   "property": "C13",
   "status": "partial",
   "theorems": [
    "Veri.C13_insert_survives_fails",
    "Veri.C13_insert_survives_partial",
    "Veri.C13_permanent_keys_survive",
    "Veri.Store.insertBDMap_eq_thread"
   ],
   "note": "False: a scan that has found an old entry expired deletes the key after a fresh insert stored it (negation proved). Proved for every interleaving without such a pending scan, and for keys that never get a TTL."
  },
  {
   "property": "C14",
   "status": "partial",
   "theorems": [
    "Veri.C14_longer_ttl_partial",
    "Veri.C14_longer_ttl_fails",
    "Veri.C14_huge_ttl_dead_on_arrival",
    "Veri.C14_life_exact",
    "Veri.C14_longer_ttl_exact",
    "Veri.C14_life_example"
   ],
   "note": "False for TTLs that overflow int64 (negation proved); proved for all others. Exactly, for a datum not stored yet: with TTL t at second s it lives until s + t if that is below 2^63, for ever if it is 2^64, and not at all otherwise; so for which pairs of TTLs the property holds."
  },
  {
   "property": "C15",
   "status": "proved",
   "theorems": [
    "Veri.C15_over_target_refused"
   ],
   "note": "Exact condition and full frame."
  },
  {
   "property": "C16",
   "status": "partial",
   "theorems": [
    "Veri.C16_target_fails",
    "Veri.C16_target_partial",
    "Veri.C16_concurrent_partial",
    "Veri.C16_concurrent_example",
    "Veri.C16_accepted_example",
    "Veri.C16_only_inserts_grow"
   ],
   "note": "False: the size compared is the one of the last maintenance (negation proved). Proved: in every execution, clients writing during maintenance included, the overshoot is bounded by the inserts accepted since the run that reported the size began; sharper (since its end) when clients do not write during maintenance."
  },
  {
   "property": "C17",
   "status": "proved",
   "theorems": [
    "Veri.C17_success_means_replicas"
   ],
   "note": "Local store plus distinct peers that answered without error, at least the replication number."
  },
  {
   "property": "C18",
   "status": "partial",
   "theorems": [
    "Veri.C18_failed_insert_invisible_fails",
    "Veri.C18_failed_insert_partial",
    "Veri.C18_failed_insert_exact",
    "Veri.C18_failed_example"
   ],
   "note": "False: the datum stays stored when replication fails (negation proved). Proved: a refused insert changes nothing, and the only other error is too few replicas. Exactly: nothing changes if it was refused, or if the same value was stored already with an expiry less than ten seconds from the new one."
  },
  {
   "property": "C19",
   "status": "proved",
   "theorems": [
    "Veri.C19_fanout_bounded",
    "Veri.C19_replica_not_forwarded",
    "Veri.C19_cluster"
   ],
   "note": "One node exactly; a cluster of any nodes, where each call may reach any node or none, under every interleaving."
  },
  {
   "property": "C20",
   "status": "proved",
   "theorems": [
    "Veri.C20_drain_refuses",
    "Veri.C20_no_drain_inserts",
    "Veri.C62_drain"
   ],
   "note": ""
  },
  {
   "property": "C21",
   "status": "partial",
   "theorems": [
    "Veri.C21_config_unchanged_fails",
    "Veri.C21_config_partial"
   ],
   "note": "False: the count field of the caller's configuration is set to 1 by a forwarded insert (negation proved). Exact behaviour proved."
  },
  {
   "property": "C22",
   "status": "proved",
   "theorems": [
    "Veri.C22_search_top_k",
    "Veri.C22_default_config",
    "Veri.C22_streamed_top_k"
   ],
   "note": "Top-k of the matching live data of the reference map, for every sort.Slice and every iteration order; scores without NaN."
  },
  {
   "property": "C23",
   "status": "proved",
   "theorems": [
    "Veri.C23_results_pass_filters"
   ],
   "note": "No hypothesis on the store, scores or configuration."
  },
  {
   "property": "C24",
   "status": "partial",
   "theorems": [
    "Veri.C24_search_never_panics_fails",
    "Veri.C24_search_panics_iff",
    "Veri.C24_search_returns_partial"
   ],
   "note": "False for limit 0 (negation proved); exact panic condition on well-formed stores."
  },
  {
   "property": "C25",
   "status": "proved",
   "theorems": [
    "Veri.C25_index_search",
    "Veri.C25_index_search_bounded",
    "Veri.C25_no_index",
    "Veri.C25_streamed_index"
   ],
   "note": "Exact result for every answer of the index library within the snapshot; with limit 0 the library answers nothing (annoylib.h)."
  },
  {
   "property": "C26",
   "status": "partial",
   "theorems": [
    "Veri.C26_index_live_fails",
    "Veri.C26_index_live_partial",
    "Veri.C26_index_quiet_partial"
   ],
   "note": "False: the index answers from the data the last run met (negation proved). Proved: everything returned was stored and alive at some earlier moment; without writers it is stored, expired or accepted by a peer."
  },
  {
   "property": "C27",
   "status": "proved",
   "theorems": [
    "Veri.C27_merge_higher_top_k",
    "Veri.C27_merge_order_independent",
    "Veri.C27_example",
    "Veri.C27_best_score_counts"
   ],
   "note": "Top-k of the distinct arrivals for every arrival order; consistent scores per key and no NaN, as the quantifier says."
  },
  {
   "property": "C28",
   "status": "partial",
   "theorems": [
    "Veri.C28_merge_lower_top_k_fails",
    "Veri.C28_merge_lower_partial",
    "Veri.C28_exact",
    "Veri.C28_wrong",
    "Veri.C28_exact_example",
    "Veri.C28_wrong_example"
   ],
   "note": "False: once full the worse result is kept (negation proved). Proved when at most limit distinct data arrive; beyond that the exact answer is proved: the limit-1 best of the first limit arrivals and the worst of all."
  },
  {
   "property": "C29",
   "status": "partial",
   "theorems": [
    "Veri.C29_no_duplicates_fails",
    "Veri.C29_no_duplicates_partial",
    "Veri.C29_no_duplicates_exact",
    "Veri.C29_exact_example"
   ],
   "note": "False when a datum arrives again with a larger score (negation proved). Proved for consistent scores, in both directions. Exactly, with room for all arrivals: no datum twice just if none arrives with a greater score than at first."
  },
  {
   "property": "C30",
   "status": "proved",
   "theorems": [
    "Veri.C30_grouped_result",
    "Veri.C30_representative_best",
    "Veri.C30_example"
   ],
   "note": "For every iteration order over the groups; group contents are the plain merge of the group's arrivals."
  },
  {
   "property": "C31",
   "status": "proved",
   "theorems": [
    "Veri.C31_result_bounded",
    "Veri.C31_grouped_result_bounded",
    "Veri.C31_ranked"
   ],
   "note": "Any context; results that are returned."
  },
  {
   "property": "C32",
   "status": "partial",
   "theorems": [
    "Veri.C32_context_best_fails",
    "Veri.C32_context_largest",
    "Veri.C32_context_best_partial",
    "Veri.C32_no_context",
    "Veri.C32_merge_rescored"
   ],
   "note": "False for lower-is-better: the worst score is taken (negation proved, exact behaviour proved). Proved for higher-is-better."
  },
  {
   "property": "C33",
   "status": "proved",
   "theorems": [
    "Veri.C33_nothing_lost",
    "Veri.C33_no_deadlock",
    "Veri.C33_completes",
    "Veri.C33_search_result",
    "Veri.C33_example"
   ],
   "note": "Small-step machine over all interleavings, any number of sources, any channel capacity > 0."
  },
  {
   "property": "C34",
   "status": "partial",
   "theorems": [
    "Veri.C34_timeout_partial",
    "Veri.C34_sources_finish_fails",
    "Veri.C34_sources_finish_partial"
   ],
   "note": "The timeout part is proved; 'every source can still finish' is false (negation proved) and proved when the results fit the channel."
  },
  {
   "property": "C35",
   "status": "partial",
   "theorems": [
    "Veri.C35_key_injective",
    "Veri.C35_same_question_fails",
    "Veri.C35_same_question_partial"
   ],
   "note": "False: datums of one request share a configuration whose timeout each search lowers (negation proved). Proved up to the timeout, and exactly when the timeout was not yet lowered."
  },
  {
   "property": "C36",
   "status": "partial",
   "theorems": [
    "Veri.C36_unbounded_age",
    "Veri.C36_bounded_age_fails",
    "Veri.C36_bounded_age_partial",
    "Veri.C36_kept_exact",
    "Veri.C36_kept_example"
   ],
   "note": "False: every hit prolongs the item (unbounded age proved). Proved: one more duration per hit; exactly how long an answer is found if it is not prolonged (durations overflow: some are kept for ever, some for five minutes)."
  },
  {
   "property": "C37",
   "status": "proved",
   "theorems": [
    "Veri.C37_once",
    "Veri.C37_fanout",
    "Veri.C37_unbounded"
   ],
   "note": "Within five minutes of the first execution, the lifetime of the request-id cache, as stated; beyond it there is no bound (shown)."
  },
  {
   "property": "C38",
   "status": "partial",
   "theorems": [
    "Veri.C38_fails",
    "Veri.C38_partial",
    "Veri.C38_quiet_partial",
    "Veri.C38_ends"
   ],
   "note": "False: the handler may return while its goroutine holds a datum (negation proved). Proved: at most that one is missing, the rest arrives exactly once; all of it if the goroutine holds none; the stream ends."
  },
  {
   "property": "C39",
   "status": "proved",
   "theorems": [
    "Veri.C39_removed_only_if_accepted",
    "Veri.C39_no_datum_lost",
    "Veri.C39_accepted_by_source",
    "Veri.C39_accepted_example"
   ],
   "note": "Small-step machine, any number of concurrent runs and a concurrent Close; no concurrent client writes (with those see C76)."
  },
  {
   "property": "C40",
   "status": "partial",
   "theorems": [
    "Veri.C40_low_water_mark_fails",
    "Veri.C40_low_water_mark_partial",
    "Veri.C40_only_above_mark_partial",
    "Veri.C40_example"
   ],
   "note": "False when the mark is zero: the unsigned difference wraps (negation proved). Proved for a mark other than zero and for no target."
  },
  {
   "property": "C41",
   "status": "partial",
   "theorems": [
    "Veri.C41_handover_fails",
    "Veri.C41_handover_partial",
    "Veri.C41_example"
   ],
   "note": "False: Close trusts the size of the last run, so data never counted are dropped (negation proved). Proved when the size is not zero and nobody writes: Close ends only with an empty store, everything expired or accepted by a peer."
  },
  {
   "property": "C42",
   "status": "partial",
   "theorems": [
    "Veri.C42_close_terminates_fails",
    "Veri.C42_close_never_returns",
    "Veri.C42_close_terminates_partial"
   ],
   "note": "False: with a source and a datum without expiry Close never returns, under every schedule (proved)."
  },
  {
   "property": "C43",
   "status": "proved",
   "theorems": [
    "Veri.C43_reported_size",
    "Veri.C43_reported_size_exact",
    "Veri.C43_reporting_between",
    "Veri.C43_example",
    "Veri.C43_concurrent",
    "Veri.C16_concurrent_example"
   ],
   "note": "Any number of concurrent runs. Exact without client writes; with client writes during the run, between the data stored all the time and the data stored at its beginning with the inserts accepted since (the promise of sync.Map Range)."
  },
  {
   "property": "C44",
   "status": "partial",
   "theorems": [
    "Veri.C44_average",
    "Veri.C44_statistics_partial",
    "Veri.C44_statistics_fails",
    "Veri.C44_example"
   ],
   "note": "Over exact arithmetic (an ordered field with a distance); single precision is C131. False for data of maximal distance zero (negation proved)."
  },
  {
   "property": "C45",
   "status": "proved",
   "theorems": [
    "Veri.C45_plan",
    "Veri.C45_planned_number",
    "Veri.C45_budget",
    "Veri.C45_example"
   ],
   "note": "For all sizes, wrap-around of 64-bit numbers included."
  },
  {
   "property": "C46",
   "status": "proved",
   "theorems": [
    "Veri.C46_expiry_preserved",
    "Veri.C46_delay",
    "Veri.C46_not_forwarded"
   ],
   "note": "64-bit arithmetic; exact integers when nothing overflows."
  },
  {
   "property": "C47",
   "status": "partial",
   "theorems": [
    "Veri.C47_throttled_fails",
    "Veri.C47_throttled_partial",
    "Veri.C47_inserts_counted",
    "Veri.C47_insert_makes_due",
    "Veri.C47_count_restarts",
    "Veri.C47_example"
   ],
   "note": "False for a clock that went backwards (negation proved). Proved, as an equivalence, for a clock not behind the last run."
  },
  {
   "property": "C48",
   "status": "partial",
   "theorems": [
    "Veri.C48_one_loop_fails",
    "Veri.C48_one_loop_partial",
    "Veri.C48_second_refused_partial",
    "Veri.C48_example",
    "Veri.C48_loops_exact",
    "Veri.C48_loops_example",
    "Veri.C48_first_start"
   ],
   "note": "False: the check and the increment of the counter are not atomic (negation proved). Proved when starts do not overlap, and that a start after another loop has counted itself is refused. Exactly: of any number of starts of an open data set any, but at least one, may be in the loop."
  },
  {
   "property": "C49",
   "status": "proved",
   "theorems": [
    "Veri.C49_create",
    "Veri.C49_sequence",
    "Veri.C49_idempotent"
   ],
   "note": "Requests served one after the other; overlapping ones are C78."
  },
  {
   "property": "C50",
   "status": "proved",
   "theorems": [
    "Veri.C50_search_unknown",
    "Veri.C50_search_known",
    "Veri.C50_info_creates",
    "Veri.C50_insert_creates",
    "Veri.C50_defaults"
   ],
   "note": "The expiry library is assumed as in XEnv.Ok."
  },
  {
   "property": "C51",
   "status": "partial",
   "theorems": [
    "Veri.C51_restore_fails",
    "Veri.C51_restore_partial",
    "Veri.C51_restore_finite_partial"
   ],
   "note": "False: a utilization that is not a number cannot be encoded, the data set is lost (negation proved). Proved exactly: the live configurations with a finite utilization are restored, each once. Saves without interference; see C79, C80."
  },
  {
   "property": "C52",
   "status": "partial",
   "theorems": [
    "Veri.C52_crash_fails",
    "Veri.C52_crash_partial"
   ],
   "note": "False: the file is truncated before it is written (negation proved). Proved for every crash point of a save, with any other activity but a second save: only configurations that were really there."
  },
  {
   "property": "C53",
   "status": "partial",
   "theorems": [
    "Veri.C53_cleanup_fails",
    "Veri.C53_cleanup_partial",
    "Veri.C53_counted_partial"
   ],
   "note": "False: an acknowledged insert that no maintenance run has counted yet is removed with its data set (negation proved). Proved: removed only if the last count was zero here and at every peer serving it."
  },
  {
   "property": "C54",
   "status": "partial",
   "theorems": [
    "Veri.C54_deleted_fails",
    "Veri.C54_deleted_partial"
   ],
   "note": "False: a background walk over the names taken before the delete creates the data set again (negation proved). Proved for every schedule when no walk under way holds the name."
  },
  {
   "property": "C55",
   "status": "partial",
   "theorems": [
    "Veri.C55_expires_fails",
    "Veri.C55_expires_partial",
    "Veri.C55_visited_stays_partial",
    "Veri.C55_reported_partial",
    "Veri.C55_reported_example"
   ],
   "note": "False: every background walk counts as a use (negation proved, and that a visit keeps the data set for a full retention). Proved when no walk visits it."
  },
  {
   "property": "C56",
   "status": "proved",
   "theorems": [
    "Veri.C56_identity",
    "Veri.C56_stable",
    "Veri.C56_comma_needed"
   ],
   "note": "For addresses that are not empty and have no comma, as stated; with a comma it is false (shown)."
  },
  {
   "property": "C57",
   "status": "proved",
   "theorems": [
    "Veri.C57_newest",
    "Veri.C57_order",
    "Veri.C57_step",
    "Veri.C57_monotone"
   ],
   "note": "Announcements handled one after the other, within the ten minutes a record is kept at least; overlapping handlers are C81. With equal timestamps the record first seen is kept."
  },
  {
   "property": "C58",
   "status": "proved",
   "theorems": [
    "Veri.C58_ignored",
    "Veri.C58_join",
    "Veri.C58_sync"
   ],
   "note": "Timestamps and clock as 64-bit numbers."
  },
  {
   "property": "C59",
   "status": "partial",
   "theorems": [
    "Veri.C59_fails",
    "Veri.C59_partial",
    "Veri.C59_blocked",
    "Veri.C59_expires"
   ],
   "note": "False: while the record from the future is held every announcement with the right time is ignored (negation proved). Proved: accepted when the record held is older or none is held; the wrong record is kept at most fifteen minutes unless it comes in again."
  },
  {
   "property": "C60",
   "status": "proved",
   "theorems": [
    "Veri.C60_addresses",
    "Veri.C60_learn",
    "Veri.C60_history"
   ],
   "note": "The reply of a join handled as one step."
  },
  {
   "property": "C61",
   "status": "proved",
   "theorems": [
    "Veri.C61_peer",
    "Veri.C61_sent"
   ],
   "note": "First in the order of the record held, which is sorted."
  },
  {
   "property": "C62",
   "status": "partial",
   "theorems": [
    "Veri.C62_fails",
    "Veri.C62_partial",
    "Veri.C62_exact",
    "Veri.C62_drain"
   ],
   "note": "False: every synchronisation that ends sets the flag (negation proved). Proved: not ready until a synchronisation ends, an equivalence; inserts stay refused for good."
  },
  {
   "property": "C63",
   "status": "proved",
   "theorems": [
    "Veri.C63_advertised",
    "Veri.C63_every"
   ],
   "note": "For all strings and ports."
  },
  {
   "property": "C64",
   "status": "proved",
   "theorems": [
    "Veri.C64_get",
    "Veri.C64_returns",
    "Veri.C64_interleaved"
   ],
   "note": "The state of a connection is what it was when the call looked at it; the network may change it at any time afterwards. For a call alone and among any number of others."
  },
  {
   "property": "C65",
   "status": "partial",
   "theorems": [
    "Veri.C65_fails",
    "Veri.C65_partial",
    "Veri.C65_first_partial",
    "Veri.C65_reached"
   ],
   "note": "False: giving a connection back adds a copy to the pool, so more than 21 can have it (negation proved). Proved: 21, and one more for each time it was given back; that many are reached however often that was, so there is no bound."
  },
  {
   "property": "C66",
   "status": "partial",
   "theorems": [
    "Veri.C66_fails",
    "Veri.C66_exact",
    "Veri.C66_partial"
   ],
   "note": "False: the first one to finish closes a connection that is not ready (negation proved). Proved exactly: closed if and only if it is not ready then."
  },
  {
   "property": "C67",
   "status": "proved",
   "theorems": [
    "Veri.C67_counter",
    "Veri.C67_quiet"
   ],
   "note": "For all interleavings of any number of requests, evictions and changes of the connections' states."
  },
  {
   "property": "C68",
   "status": "proved",
   "theorems": [
    "Veri.C68_symmetric",
    "Veri.C68_common_prefix",
    "Veri.C68_self_zero",
    "Veri.SF.bits"
   ],
   "note": "For every arithmetic with the IEEE laws FLaws; SF.laws shows that round-to-nearest-even soft floats satisfy them."
  },
  {
   "property": "C69",
   "status": "proved",
   "theorems": [
    "Veri.C69_symmetric",
    "Veri.C69_zero_padding",
    "Veri.C69_zero_vector",
    "Veri.C69_bounded"
   ],
   "note": "Same arithmetic laws."
  },
  {
   "property": "C70",
   "status": "partial",
   "theorems": [
    "Veri.C70_score_function",
    "Veri.C70_annoy_prefix_fails",
    "Veri.C70_annoy_prefix_partial",
    "Veri.C22_streamed_top_k",
    "Veri.C25_streamed_index"
   ],
   "note": "False for two of the Annoy-prefixed names, which score by euclidean distance (negation proved); proved for all other names."
  },
  {
   "property": "C71",
   "status": "partial",
   "theorems": [
    "Veri.C71_no_insert_crashes_fails",
    "Veri.C71_insert_panics_iff",
    "Veri.C71_wellformed_insert_partial"
   ],
   "note": "False (negation proved); exact set of panicking requests; requests with key and value never panic."
  },
  {
   "property": "C72",
   "status": "partial",
   "theorems": [
    "Veri.C72_nan_does_not_hide_fails",
    "Veri.C72_nan_partial"
   ],
   "note": "False (negation proved with machine arithmetic); with NaN scores the answer still consists of the right number of distinct matching data."
  },
  {
   "property": "C73",
   "status": "partial",
   "theorems": [
    "Veri.C73_merge_never_panics_fails",
    "Veri.C73_merge_panics_iff",
    "Veri.C73_merge_returns_partial"
   ],
   "note": "False (negation proved); exact panic condition."
  },
  {
   "property": "C74",
   "status": "partial",
   "theorems": [
    "Veri.C74_group_score_kept_fails",
    "Veri.C74_group_score_kept_partial",
    "Veri.C74_group_score_exact",
    "Veri.C74_exact_example"
   ],
   "note": "False: the representative is rescored against the context (negation proved). Proved without context data. Exactly, with context data: the score is the largest of those against the context and, unless that is prioritised, the score of the group (scores that are numbers)."
  },
  {
   "property": "C75",
   "status": "partial",
   "theorems": [
    "Veri.C75_complete_answers_fails",
    "Veri.C75_complete_answers_partial"
   ],
   "note": "False: answers of searches cut short by their timeout are cached (negation proved). Proved for searches not cut short."
  },
  {
   "property": "C76",
   "status": "partial",
   "theorems": [
    "Veri.C76_no_update_lost_fails",
    "Veri.C76_no_update_lost_partial"
   ],
   "note": "False: the consumer deletes by key after the acknowledgement of the old value (negation proved). Proved: a key is removed only by expiry, a client, or an acknowledged copy with this key."
  },
  {
   "property": "C77",
   "status": "partial",
   "theorems": [
    "Veri.C77_run_completes_fails",
    "Veri.C77_run_bounded_partial",
    "Veri.C77_run_not_stuck_partial",
    "Veri.C77_example"
   ],
   "note": "False: a run without consumer blocks for ever if Close comes during its scan (negation proved). Proved: boundedly many steps under every schedule, and never stuck when there is a consumer or the data set is open."
  },
  {
   "property": "C78",
   "status": "partial",
   "theorems": [
    "Veri.C78_version_fails",
    "Veri.C78_version_partial",
    "Veri.C78_version_exact",
    "Veri.C78_runs",
    "Veri.C78_exact_example"
   ],
   "note": "False: check and assignment are not atomic (negation proved). Proved: never below the first version; monotone when requests do not overlap. Exactly: after requests served at the same time any one of those with a higher version than the first may be what remains, and nothing else."
  },
  {
   "property": "C79",
   "status": "partial",
   "theorems": [
    "Veri.C79_index_complete_fails",
    "Veri.C79_index_complete_partial"
   ],
   "note": "False: an older save may end last (negation proved). Proved when saves do not overlap, with any other activity."
  },
  {
   "property": "C80",
   "status": "partial",
   "theorems": [
    "Veri.C80_load_fails",
    "Veri.C80_small_index_partial",
    "Veri.C80_no_save_partial"
   ],
   "note": "False: the first data set loaded starts a save that truncates the file being read (negation proved). Proved for an index of at most 4096 bytes under every schedule, and for any size when no save opens the file meanwhile."
  },
  {
   "property": "C81",
   "status": "partial",
   "theorems": [
    "Veri.C81_fails",
    "Veri.C81_step_partial",
    "Veri.C81_partial"
   ],
   "note": "False: the check and the Set are two steps (negation proved). Proved for every interleaving in which the announcements of one and the same peer do not overlap."
  },
  {
   "property": "C82",
   "status": "partial",
   "theorems": [
    "Veri.C82_fails",
    "Veri.C82_partial"
   ],
   "note": "False (negation proved). Proved: one connection at a time, only with a copy in that pool; counters stay."
  },
  {
   "property": "C83",
   "status": "partial",
   "theorems": [
    "Veri.C83_fails",
    "Veri.C83_partial"
   ],
   "note": "False: the flush loop and the goroutine may send at the same time, and the goroutine after the return (negation proved). Proved: not during the scan, not with at most one live datum; at most one call after the return."
  },
  {
   "property": "C84",
   "status": "partial",
   "theorems": [
    "Veri.C84_fails",
    "Veri.C84_traversal",
    "Veri.C84_partial",
    "Veri.C84_shutdown_partial",
    "Veri.C84_apart",
    "Veri.C84_dots"
   ],
   "note": "False: the name is joined to the path unchecked, so a data set named ../.. stands for the parent of the node's directory (negation proved). Proved exactly for names that can be names of directories."
  },
  {
   "property": "C85",
   "status": "partial",
   "theorems": [
    "Veri.C85_fails",
    "Veri.C85_listen",
    "Veri.C85_partial"
   ],
   "note": "False: a deferred removal of the whole directory runs when listening ends, e.g. because the port is in use (negation proved, exact). Proved for the end by a signal."
  },
  {
   "property": "C86",
   "status": "partial",
   "theorems": [
    "Veri.C86_fails",
    "Veri.C86_exact",
    "Veri.C86_partial"
   ],
   "note": "False: a record without addresses is accepted, and a request without a record then reads through a nil pointer (negation proved; exact condition). Proved while every announced record has addresses, none empty."
  },
  {
   "property": "C87",
   "status": "partial",
   "theorems": [
    "Veri.C87_fails",
    "Veri.C87_exact",
    "Veri.C87_partial"
   ],
   "note": "False: the size of a peer that does not answer is read through a nil pointer (negation proved; exact condition). Proved when the peers of empty data sets answer."
  },
  {
   "property": "C88",
   "status": "partial",
   "theorems": [
    "Veri.C88_fails",
    "Veri.C88_exact",
    "Veri.C88_partial",
    "Veri.C88_young"
   ],
   "note": "False: a data set that has gone, or is not initialized yet, is dereferenced (negation proved; exact condition). Proved for names still listed."
  },
  {
   "property": "C89",
   "status": "proved",
   "theorems": [
    "Veri.C89_complete",
    "Veri.C89_keeps"
   ],
   "note": "For retention times below 292 years; the records are taken once, at the beginning, in any order."
  },
  {
   "property": "C90",
   "status": "partial",
   "theorems": [
    "Veri.C90_fails",
    "Veri.C90_partial",
    "Veri.C90_used_exact",
    "Veri.C90_used_example"
   ],
   "note": "False: the entry is added for ten minutes and not prolonged, so there is a gap until the next synchronisation (negation proved). Proved exactly: a source from the synchronisation that added it for ten minutes, and at the time of each synchronisation; and exactly until when processing uses it."
  },
  {
   "property": "C91",
   "status": "partial",
   "theorems": [
    "Veri.C91_fails",
    "Veri.C91_exact"
   ],
   "note": "False: it comes back as soon as a peer has it (negation proved). Proved exactly when."
  },
  {
   "property": "C92",
   "status": "partial",
   "theorems": [
    "Veri.C92_fails",
    "Veri.C92_exact",
    "Veri.C92_partial"
   ],
   "note": "False: the record is removed by identity because of an older copy (negation proved; exact). Proved when the table did not change since the synchronisation took the records."
  },
  {
   "property": "C93",
   "status": "proved",
   "theorems": [
    "Veri.C93_reply",
    "Veri.C93_learned",
    "Veri.C93_none"
   ],
   "note": "For any decision of net.ParseIP and IsLoopback."
  },
  {
   "property": "C94",
   "status": "proved",
   "theorems": [
    "Veri.C94_endpoints",
    "Veri.C94_unhealthy"
   ],
   "note": "The flag for ill health is never set in the repository; the answer that exists for it would say alive (shown)."
  },
  {
   "property": "C95",
   "status": "partial",
   "theorems": [
    "Veri.C95_cluster_search_fails",
    "Veri.C95_cluster_search_partial",
    "Veri.C95_example",
    "Veri.C95_alone_partial",
    "Veri.C95_alone_example",
    "Veri.C95_six_example"
   ],
   "note": "False if lower is better: the merges keep the worse of two when the limit is reached (negation proved). Proved for any number of nodes if higher is better, or if at most limit many data match; in both directions if only the node itself takes part. Exact (non-index) scoring, no context, no group limit, stores filled by well-formed inserts."
  },
  {
   "property": "C96",
   "status": "partial",
   "theorems": [
    "Veri.C96_every_datum_fails",
    "Veri.C96_only_one",
    "Veri.C96_first_partial"
   ],
   "note": "False: all requests of one search carry the same id, so the second is taken for a repetition (negation proved; exactly at most one datum per node). Proved: the first request with an id is carried out."
  },
  {
   "property": "C97",
   "status": "partial",
   "theorems": [
    "Veri.C97_cluster_groups_fails",
    "Veri.C97_cluster_groups_partial"
   ],
   "note": "False: other nodes send group scores, which are grouped and summed again (negation proved). Proved if no other node takes part."
  },
  {
   "property": "C98",
   "status": "partial",
   "theorems": [
    "Veri.C98_search_request_fails",
    "Veri.C98_search_request_partial",
    "Veri.C98_needed"
   ],
   "note": "False: a request without a configuration (negation proved). Proved for requests with a configuration, a positive limit, a result limit below 2^63, and keys on all data; each of these is needed (shown)."
  },
  {
   "property": "C99",
   "status": "partial",
   "theorems": [
    "Veri.C99_replicas_fails",
    "Veri.C99_requests_stored",
    "Veri.C99_replicas_partial",
    "Veri.C99_sources_partial",
    "Veri.C99_cluster_partial",
    "Veri.C99_cluster_example"
   ],
   "note": "False: the calls may come back to the node itself, or reach one node under two addresses (negation proved). Proved: as many requests as asked for have been stored, by as many nodes if the calls reach different nodes other than its own; and so if the sources are those found by synchronisation and the nodes are seen only under addresses that they announce from the start (C164, C165)."
  },
  {
   "property": "C100",
   "status": "partial",
   "theorems": [
    "Veri.C100_every_datum_fails",
    "Veri.C100_permanent_never_sent",
    "Veri.C100_sent_partial"
   ],
   "note": "False: a datum without expiry is never offered (negation proved; for every execution). Proved: what is offered has an expiry with more than ten seconds left."
  },
  {
   "property": "C101",
   "status": "proved",
   "theorems": [
    "Veri.C101_never_released",
    "Veri.C101_released_once",
    "Veri.C101_current_kept",
    "Veri.C101_progress",
    "Veri.C101_example"
   ],
   "note": "For sequentially consistent reads of the fields (the check before the lock is a race in the sense of the Go memory model)."
  },
  {
   "property": "C102",
   "status": "partial",
   "theorems": [
    "Veri.C102_files_fails",
    "Veri.C102_files_exact",
    "Veri.C102_files_partial"
   ],
   "note": "False: the file of the last index stays (negation proved; exactly that one). Proved: it is never removed while current, and all others are removed."
  },
  {
   "property": "C103",
   "status": "partial",
   "theorems": [
    "Veri.C103_build_fails",
    "Veri.C103_search_fails",
    "Veri.C103_exact",
    "Veri.C103_one_length_partial",
    "Veri.C103_example"
   ],
   "note": "False: the dimension is the length of the first vector met, and shorter ones are read past their end, by inserts and by queries (negations proved; exact condition). Proved if all vectors have one length."
  },
  {
   "property": "C104",
   "status": "proved",
   "theorems": [
    "Veri.C104_smaller",
    "Veri.C104_hops",
    "Veri.C104_one_datum"
   ],
   "note": "The multiplication is the soft-float one; a limit of 0 stays 0."
  },
  {
   "property": "C105",
   "status": "partial",
   "theorems": [
    "Veri.C105_fails",
    "Veri.C105_partial",
    "Veri.C105_one_datum",
    "Veri.C105_worst"
   ],
   "note": "False: the searches share one configuration and each lowers the limit in it (negation proved). Proved: the exact set of limits a search can have, the worst case is reached, and the property holds for one datum."
  },
  {
   "property": "C106",
   "status": "partial",
   "theorems": [
    "Veri.C106_fails",
    "Veri.C106_at_once",
    "Veri.C106_exact",
    "Veri.C106_partial"
   ],
   "note": "False: from 9223372036855 ms on the conversion to nanoseconds overflows, and the timer may fire at once (negation proved; the exact condition)."
  },
  {
   "property": "C107",
   "status": "partial",
   "theorems": [
    "Veri.C107_fails",
    "Veri.C107_goes_on",
    "Veri.C107_exact",
    "Veri.C107_small_goes_on",
    "Veri.C107_larger_peer_goes_on",
    "Veri.C107_partial",
    "Veri.C107_close_partial",
    "Veri.C107_far_partial",
    "Veri.C107_near_partial",
    "Veri.C107_nan_partial"
   ],
   "note": "Proved: as long as the statistics differ data are planned, and what close means in real numbers (one per cent of the largest distance, up to rounding). False the other way round: data sets with fewer than a hundred data, or with fewer than a hundred thousand and a larger peer, never stop (negation proved; the exact condition)."
  },
  {
   "property": "C108",
   "status": "partial",
   "theorems": [
    "Veri.C108_fails",
    "Veri.C108_exact",
    "Veri.C108_partial",
    "Veri.C108_create"
   ],
   "note": "False: the number of replicas, whether they are enforced and the retention time are shown as zero, already for the default configuration (negation proved). Proved: exactly these three are missing; the configurations for which the claim holds."
  },
  {
   "property": "C109",
   "status": "partial",
   "theorems": [
    "Veri.C109_fails",
    "Veri.C109_nothing_stored",
    "Veri.C109_partial"
   ],
   "note": "False: only the configurations are on disk (negation proved). Proved: in every execution of a new process, whatever is on disk, no data set has a datum before the first insert; the data sets and their configurations come back."
  },
  {
   "property": "C110",
   "status": "partial",
   "theorems": [
    "Veri.C110_fails",
    "Veri.C110_exact",
    "Veri.C110_always_replaced",
    "Veri.C110_partial"
   ],
   "note": "False: versions are never compared (negation proved). Proved: exactly, the value inserted last is stored; the claim for versions inserted in ascending order."
  },
  {
   "property": "C111",
   "status": "partial",
   "theorems": [
    "Veri.C111_fails",
    "Veri.C111_never",
    "Veri.C111_no_invention",
    "Veri.C111_one_value_partial",
    "Veri.C111_one_source_partial"
   ],
   "note": "False: two nodes swap their values, for any number of exchanges (negation proved). Proved: values only come from clients; agreement if clients never change a value, or if only one node sends."
  },
  {
   "property": "C112",
   "status": "proved",
   "theorems": [
    "Veri.C112_answers"
   ],
   "note": "For any arithmetic in which a split with an empty side counts as unbalanced (proved of IEEE arithmetic), below 2^31 items. Whether a build ends depends on its random numbers: an index is one whose build has ended."
  },
  {
   "property": "C113",
   "status": "partial",
   "theorems": [
    "Veri.C113_enough_fails",
    "Veri.C113_share_partial",
    "Veri.C113_large_partial"
   ],
   "note": "False: the limit is passed as the number of candidates to collect over all trees, so the same item counts once for each tree (negation proved: six answers for a limit of seven among eight). Proved: at least limit / trees answers or all; all if there are at most dimension + 2 items, or if the limit exceeds (items - 1) * trees; all for limits of 2^31 or more."
  },
  {
   "property": "C114",
   "status": "partial",
   "theorems": [
    "Veri.C114_nearest_fails",
    "Veri.C114_complete_partial"
   ],
   "note": "False: the query itself, stored, is not found with a limit of three among five (negation proved). Proved: the nearest are found if there are at most dimension + 2 items or the limit exceeds (items - 1) * trees."
  },
  {
   "property": "C115",
   "status": "proved",
   "theorems": [
    "Veri.C115_size"
   ],
   "note": "For an index whose build has ended."
  },
  {
   "property": "C116",
   "status": "partial",
   "theorems": [
    "Veri.C116_index_search_fails",
    "Veri.C116_index_search_partial"
   ],
   "note": "False: vectors of different lengths (negation proved, see C103). Proved from the creation of the data set on, for histories with vectors of one length; with at most length + 2 items nothing that passes the filters is missed."
  },
  {
   "property": "C117",
   "status": "partial",
   "theorems": [
    "Veri.C117_memory_fails",
    "Veri.C117_memory_exact",
    "Veri.C117_memory_partial"
   ],
   "note": "False: the wrapper copies the answer to memory from malloc that nothing frees (negation proved). Proved: exactly 12 bytes are lost for each position answered; a bound by the numbers of searches and items."
  },
  {
   "property": "C118",
   "status": "partial",
   "theorems": [
    "Veri.C118_one_moment_fails",
    "Veri.C118_exact",
    "Veri.C118_quiet_partial"
   ],
   "note": "False: the fields are read and written without a lock (negation proved: the average of one datum reported as that of two). Proved: exactly the mixtures, field by field, of what holds while the request is served can be returned; so if nothing changes, that."
  },
  {
   "property": "C119",
   "status": "partial",
   "theorems": [
    "Veri.C119_memory_fails",
    "Veri.C119_first",
    "Veri.C119_exact",
    "Veri.C119_uniform_partial"
   ],
   "note": "False: a slice is two words, and the length of a new one may be read with the pointer of an old one (negation proved). On every data set a request during the end of its first run can crash the node. Proved: it can happen exactly if a length changes while the request is served; not if all vectors have one length and the data set is not counted as empty."
  },
  {
   "property": "C120",
   "status": "partial",
   "theorems": [
    "Veri.C120_learned_fails",
    "Veri.C120_lost",
    "Veri.C120_sound",
    "Veri.C120_alone_partial",
    "Veri.C120_in_turn_partial"
   ],
   "note": "False: the list is extended without a lock by goroutines that overlap (negation proved; the loss has no bound). Proved: all announced addresses come from replies; an address is added and nothing lost while no other goroutine moves, so replies dealt with in turn are all announced. Headers and strings are read and written at once in this model."
  },
  {
   "property": "C121",
   "status": "partial",
   "theorems": [
    "Veri.C121_every_minute_fails",
    "Veri.C121_every_minute_partial",
    "Veri.C121_example"
   ],
   "note": "False: the report asks all sources in turn before the round starts (negation proved). Proved: a round starts at most a minute and ten seconds per source asked after the one before, within the minute if there are no sources, and never more often than the ticker ticks."
  },
  {
   "property": "C122",
   "status": "partial",
   "theorems": [
    "Veri.C122_one_round_fails",
    "Veri.C122_unbounded",
    "Veri.C122_one_round_partial",
    "Veri.C122_example"
   ],
   "note": "False: nothing waits for the round before (negation proved; with enough silent addresses any number of rounds overlap). Proved: with at most k calls in a task, at most k * 10 s / 60 s + 3 tasks of a kind run at the same time."
  },
  {
   "property": "C123",
   "status": "partial",
   "theorems": [
    "Veri.C123_one_moment_fails",
    "Veri.C123_one_moment_partial",
    "Veri.C123_example"
   ],
   "note": "False: data that were never stored together can be answered together (negation proved). Proved for all concurrent changes: no failure, and the answer is the exact top-k of a selection with at most one datum per key, nothing that was not stored and alive at some moment, and nothing missing that was there all the time. Scores without NaN."
  },
  {
   "property": "C124",
   "status": "proved",
   "theorems": [
    "Veri.C124_stream_during_writes",
    "Veri.C124_example"
   ],
   "note": "Relies on the documented promise of sync.Map's Range, which is part of the step relation."
  },
  {
   "property": "C125",
   "status": "partial",
   "theorems": [
    "Veri.C125_linearizable_fails",
    "Veri.C125_linearizable_partial",
    "Veri.C125_values_partial",
    "Veri.C125_permanent_partial",
    "Veri.C125_example",
    "Veri.Linear.step_conc"
   ],
   "note": "False for expiries (negation proved with three inserts of one value whose expiries are less than ten seconds apart). Proved in the order of the returns: keys and values are exactly those of the sequence, the expiry is that of one of the near ones; for data without expiry the full statement holds. Without scans that purge (C13)."
  },
  {
   "property": "C126",
   "status": "partial",
   "theorems": [
    "Veri.C126_repeated_query_fails",
    "Veri.C126_repeated_query_partial",
    "Veri.C126_example"
   ],
   "note": "False: the searches of one request lower its shared timeout, which is part of the cache key, so the key depends on which search begins first (negation proved). Proved: answered from the cache, by an answer at least as new, exactly if the two searches found the same configuration, in particular for requests with one datum."
  },
  {
   "property": "C127",
   "status": "partial",
   "theorems": [
    "Veri.C127_json_fails",
    "Veri.C127_exact",
    "Veri.C127_right_order_partial"
   ],
   "note": "False: the type is set after the header has been sent, so it is guessed from the body (negation and exact answer proved, relying on the documentation of net/http). The unused helper has the right order."
  },
  {
   "property": "C128",
   "status": "partial",
   "theorems": [
    "Veri.C128_settings_fails",
    "Veri.C128_settings_partial",
    "Veri.C128_exact"
   ],
   "note": "False: services, port and directory are taken from the command line only (negation proved). Exact precedence proved for the broadcast addresses; viper's precedence is modelled from its documentation."
  },
  {
   "property": "C129",
   "status": "partial",
   "theorems": [
    "Veri.C129_signal_ends_fails",
    "Veri.C129_signal_ends_partial",
    "Veri.C129_only_close",
    "Veri.C129_never_ends",
    "Veri.C129_example"
   ],
   "note": "False: the goroutine takes one signal only and then waits for Close, which need not return (C42): no number of signals ends the server (proved). A signal is never lost, and after it the process ends exactly when Close returns or Listen fails. One data set."
  },
  {
   "property": "C130",
   "status": "partial",
   "theorems": [
    "Veri.C130_key_string_fails",
    "Veri.C130_other_key",
    "Veri.C130_key_string_partial",
    "Veri.C130_copy_right",
    "Veri.C130_example"
   ],
   "note": "False: between lines 11 and 12 only a uintptr refers to the bytes, which may be freed and reused for another key (negation proved). Proved: right, and for ever, unless the collector frees them exactly there; with the commented-out copy always right. Memory is freed and reused by whole arrays."
  },
  {
   "property": "C131",
   "status": "partial",
   "theorems": [
    "Veri.C131_accuracy_fails",
    "Veri.C131_saturated",
    "Veri.C131_error_bound",
    "Veri.C131_accuracy_partial",
    "Veri.C131_example"
   ],
   "note": "False: in float32 adding 1/n stops having an effect; 2^25 data [1] are reported with average 1/2 and a histogram that sums to 1/2 (negation proved). Proved for at most 80000 data, and an error bound (n+1) B / 2^23 for n < 2^23-1 data bounded by B: IEEE single precision, round to nearest even, every operation rounded."
  },
  {
   "property": "C132",
   "status": "partial",
   "theorems": [
    "Veri.C132_index_covers_fails",
    "Veri.C132_index_covers_exact",
    "Veri.C132_index_covers_partial",
    "Veri.C132_second_run_partial",
    "Veri.C132_index_misses",
    "Veri.C132_example"
   ],
   "note": "False: the slice behind the index has max(1000, previous N) places; of 1001 data inserted before the first run one cannot be found (negation proved). Exactly: what can be found are the first max(1000, previous N) data met. Complete if the run reports at most 1000 or at most the previous N, and after every later run on unchanged data."
  },
  {
   "property": "C133",
   "status": "partial",
   "theorems": [
    "Veri.C133_index_fresh_fails",
    "Veri.C133_index_fresh_partial",
    "Veri.C133_index_stale",
    "Veri.C133_example"
   ],
   "note": "False: a run that meets nothing keeps the old index, so after the last datum is deleted the index returns it for ever (negation and the for-ever version proved). Proved for runs that meet a live datum in a data set that is not closed, whatever clients do."
  },
  {
   "property": "C134",
   "status": "partial",
   "theorems": [
    "Veri.C134_distance_error_partial",
    "Veri.C134_distance_accurate_partial",
    "Veri.C134_infinite",
    "Veri.C134_vanishes",
    "Veri.C134_distance_accurate_fails",
    "Veri.C134_example"
   ],
   "note": "False: the sum of squares is kept in float32, so a component that differs by 2^64 makes the distance +Inf, and vectors within 2^-75 of each other have distance 0 (both proved for all such vectors; negation proved). Proved: within one per cent up to 65536 components if the true distance is 0 or in [2^-60, 2^62]; in general the error of the square is at most (2n+8)/2^24 of it plus 3n/2^149."
  },
  {
   "property": "C135",
   "status": "partial",
   "theorems": [
    "Veri.C135_nearest_partial",
    "Veri.C135_nearest_error_partial",
    "Veri.C135_nearest_fails",
    "Veri.C135_example",
    "Veri.C135_error_example"
   ],
   "note": "False even for harmless numbers: (4096, 1/2) is returned and (4096, 0) left out for the query (0, 0), because both distances are 4096 in float32 (negation proved). Proved: for finite vectors within 2^62 of the query and up to 65536 components, what is left out is not nearer than what is returned, and the order is right, up to one per cent (and 2^-64). By the number n of components, and with no bound on how near: the squares of the distances up to a share of (2n + 8) / 2^24 of each and 6n / 2^149."
  },
  {
   "property": "C136",
   "status": "partial",
   "theorems": [
    "Veri.C136_quick_accurate_partial",
    "Veri.C136_quick_accurate_fails",
    "Veri.C136_example"
   ],
   "note": "False only for components that are farther apart than a float32 can say (negation proved). Proved if no two components differ by more than 3*2^126, with no lower bound: the sum is kept in float64."
  },
  {
   "property": "C137",
   "status": "partial",
   "theorems": [
    "Veri.C137_product_error_partial",
    "Veri.C137_product_accurate_partial",
    "Veri.C137_product_accurate_fails",
    "Veri.C137_example"
   ],
   "note": "False: (4096, 1, 4096) times (4096, 1, -4096) is 0 instead of 1 (negation proved). Proved: the error is at most (2n+4)/2^24 of the sum of the magnitudes of the terms plus 3n/2^149; within one per cent if no term is negative and the product is in [2^-120, 2^124]."
  },
  {
   "property": "C138",
   "status": "partial",
   "theorems": [
    "Veri.C138_cosine_accurate_partial",
    "Veri.C138_cosine_error_partial",
    "Veri.C138_cosine_accurate_fails",
    "Veri.C138_long",
    "Veri.C138_short",
    "Veri.C138_example",
    "Veri.C138_error_example"
   ],
   "note": "False: a vector with a component of 2^64 or more has similarity 0 or NaN to every vector, one without a component above 2^-75 has similarity 0 to every vector, itself included (both proved for all such vectors; negation proved). Proved if each vector is zero or has a length in [2^-60, 2^60]; by the number n of components the error is (5n + 20) / 2^24 if the lengths are in [2^-50, 2^60]."
  },
  {
   "property": "C139",
   "status": "partial",
   "theorems": [
    "Veri.C139_most_similar_partial",
    "Veri.C139_most_similar_error_partial",
    "Veri.C139_most_similar_fails",
    "Veri.C139_example"
   ],
   "note": "False: for the query (1, 0) the vector (4096, 1) is returned and (1, 0) left out (negation proved). Proved up to 1/50 of the cosine, for vectors that are zero or of length in [2^-60, 2^60] with up to 32768 components; by the number n of components up to 2 (5n + 20) / 2^24, for lengths in [2^-50, 2^60]."
  },
  {
   "property": "C140",
   "status": "partial",
   "theorems": [
    "Veri.C140_quick_nearest_partial",
    "Veri.C140_quick_nearest_fails",
    "Veri.C140_example"
   ],
   "note": "False: the differences are rounded to float32 (negation proved). Proved up to three parts in a million."
  },
  {
   "property": "C141",
   "status": "partial",
   "theorems": [
    "Veri.C141_angular_accurate_partial",
    "Veri.C141_angular_error_partial",
    "Veri.C141_angular_accurate_fails",
    "Veri.C141_example"
   ],
   "note": "False as C138 (negation proved). Proved if each vector is zero or has a length in [2^-60, 2^60]; the bound is the square root of half the error of the cosine, also by the number of components as in C138."
  },
  {
   "property": "C142",
   "status": "partial",
   "theorems": [
    "Veri.C142_more_arrivals_partial",
    "Veri.C142_more_time_partial",
    "Veri.C142_more_time_fails",
    "Veri.C142_example"
   ],
   "note": "False if lower is better: when the limit is reached the merge replaces a better result by a worse one, so more arrivals spoil the answer (negation proved). Proved if higher is better, or if no more data arrive than fit."
  },
  {
   "property": "C143",
   "status": "partial",
   "theorems": [
    "Veri.C143_finds_itself_partial",
    "Veri.C143_finds_itself_fails",
    "Veri.C143_example"
   ],
   "note": "False: with 2^-80 and 0 stored, a search for 0 returns 2^-80 (negation proved). Proved, with score 0, if the other stored vectors are at true distances in [2^-60, 2^62] from it."
  },
  {
   "property": "C144",
   "status": "partial",
   "theorems": [
    "Veri.C144_ends_unless_partial",
    "Veri.C144_small_partial",
    "Veri.C144_example"
   ],
   "note": "Proved: it ends and does so with one result, unless there is a point in the fixed sequence of random numbers from which on every round of as many flips as there are items in some subset is unbalanced; always, if all items fit into one node. Missing: that the generator has no such point (not known for Kiss64)."
  },
  {
   "property": "C145",
   "status": "partial",
   "theorems": [
    "Veri.C145_unary_search_fails",
    "Veri.C145_unary_search_exact"
   ],
   "note": "False: the handler returns nil and no error for every request (negation proved; exactly that). There is no case in which it holds."
  },
  {
   "property": "C146",
   "status": "partial",
   "theorems": [
    "Veri.C146_cluster_similar_fails",
    "Veri.C146_cluster_similar_partial",
    "Veri.C146_cluster_similar_error_partial",
    "Veri.C146_example"
   ],
   "note": "False as stated (negation proved: (4096, 1) is returned for (1, 0) and (1, 0) is not). Proved up to 1/50 of the cosine, for finite vectors of length zero or between 2^-60 and 2^60 with up to 2^15 components, no groups and no time limit reached (as in C95); by the number n of components up to 2 (5n + 20) / 2^24."
  },
  {
   "property": "C147",
   "status": "partial",
   "theorems": [
    "Veri.C147_inserted_found_fails",
    "Veri.C147_inserted_found_partial",
    "Veri.C147_example"
   ],
   "note": "False as stated (negation proved: 0 is inserted, then 2^-80; a search for 0 returns 2^-80). Proved if the other stored vectors are at true distances between 2^-60 and 2^62, for a node without peers, until ten seconds before the TTL ends."
  },
  {
   "property": "C148",
   "status": "partial",
   "theorems": [
    "Veri.C148_index_finds_itself_fails",
    "Veri.C148_index_finds_itself_partial",
    "Veri.C148_example"
   ],
   "note": "False as stated (negation proved: of five numbers, one of them 1, a search for 1 finds others). Proved for a vector that on its way through the trees comes to no plane that it lies in (margin zero), for every arithmetic with Lib.Ok in which a zero plane gives margin zero, all vectors, dimensions and limits."
  },
  {
   "property": "C149",
   "status": "proved",
   "theorems": [
    "Veri.C149_set_up_once",
    "Veri.C149_progress",
    "Veri.C149_example"
   ],
   "note": "Every interleaving of any number of requests, clean-ups, deletions, expiries and janitor runs; memory sequentially consistent."
  },
  {
   "property": "C150",
   "status": "partial",
   "theorems": [
    "Veri.C150_stopped_fails",
    "Veri.C150_early",
    "Veri.C150_replaced",
    "Veri.C150_stopped_partial",
    "Veri.C150_example"
   ],
   "note": "False (negation proved, twice): the clean-up closes a data set that is in the list and not yet set up, which then starts its loop; and an expired data set is replaced by the next request without being closed. Proved if neither happens."
  },
  {
   "property": "C151",
   "status": "partial",
   "theorems": [
    "Veri.C151_forgotten_fails",
    "Veri.C151_kept",
    "Veri.C151_forgotten_partial",
    "Veri.C151_reminded",
    "Veri.C151_example"
   ],
   "note": "False (negation proved): two nodes remind each other of a name for ever, as each report prolongs it by ten minutes and every node reports every minute. Proved: a reported service is known for ten minutes; its time to live changes only by reports that name it. For services learned from others: what go-cache's IncrementExpiration does to an entry without expiry is not assumed."
  },
  {
   "property": "C152",
   "status": "partial",
   "theorems": [
    "Veri.C152_description_fails",
    "Veri.C152_description_exact",
    "Veri.C152_parts_partial",
    "Veri.C152_example"
   ],
   "note": "False (negation proved): with seed 2^64-1 the second carry is one too small. Exact: the carry is wrong exactly when it was 2^58 and the last six bits of the number were ones. With the seed the index uses nothing is said about when that state is met."
  },
  {
   "property": "C153",
   "status": "partial",
   "theorems": [
    "Veri.C153_retention_fails",
    "Veri.C153_retention_exact",
    "Veri.C153_longer_partial",
    "Veri.C153_use_partial",
    "Veri.C153_example"
   ],
   "note": "False (negation proved): the product with a second in nanoseconds overflows, and a retention of 2^55 seconds is a day. Exact: true if and only if the retention is at most 9223372036 seconds."
  },
  {
   "property": "C154",
   "status": "proved",
   "theorems": [
    "Veri.C154_more",
    "Veri.C154_search",
    "Veri.C154_example"
   ],
   "note": "For every native library with the properties Lib.Ok. The limit 2^32-1 is left out: there search_k is -1, which stands for the number asked for times the number of trees, and that product may overflow an int."
  },
  {
   "property": "C155",
   "status": "proved",
   "theorems": [
    "Veri.C155_everyone",
    "Veri.C155_example"
   ],
   "note": "JoinToPeers and SyncWithPeers are one step each; the nodes know their addresses from the start (the address in the answer to Join is one of them); each node's first own step is a join."
  },
  {
   "property": "C156",
   "status": "proved",
   "theorems": [
    "Veri.C156_spreads",
    "Veri.C156_example",
    "Veri.C156_unremoved",
    "Veri.C156_unremoved_example"
   ],
   "note": "As in C155; the configuration of the copy is the one of a peer with at least the version that was listed; the data set on the other node is empty (entries are exchanged by Process, C125ff)."
  },
  {
   "property": "C157",
   "status": "proved",
   "theorems": [
    "Veri.C157_ready",
    "Veri.C157_example"
   ],
   "note": "The flag is read and written as one step."
  },
  {
   "property": "C158",
   "status": "partial",
   "theorems": [
    "Veri.C158_last_copy_fails",
    "Veri.C158_last_copy_partial",
    "Veri.C158_one_partial",
    "Veri.C158_arrives",
    "Veri.C158_atomic",
    "Veri.C158_ends",
    "Veri.C158_example",
    "Veri.C158_turn_example",
    "Veri.C158_arrives_example"
   ],
   "note": "False: two nodes above their marks that hold the same datum send it to each other, each accepts what it has already, and each removes it when the answer comes. Proved: no copy is lost unless a node removes the datum while another node waits for its answer to a transfer of it; in particular if all nodes but one have no target and stay open."
  },
  {
   "property": "C159",
   "status": "partial",
   "theorems": [
    "Veri.C159_refusals_fails",
    "Veri.C159_refused",
    "Veri.C159_same",
    "Veri.C159_granted_partial",
    "Veri.C159_example"
   ],
   "note": "False (negation proved): if the file cannot be opened, grown or mapped, or the disk is full, or there is no memory, the process crashes, for all vectors. Proved: whatever is refused, an index that is built is the same as without refusals; if nothing is refused and the disk has room for four nodes for each item, it is built within its memory, every node of it can be read, and the file has exactly the size of the nodes. Linux; the file is sparse, so that room is needed for what is written only."
  },
  {
   "property": "C160",
   "status": "partial",
   "theorems": [
    "Veri.C160_connections_fails",
    "Veri.C160_ends",
    "Veri.C160_held",
    "Veri.C160_connections_partial",
    "Veri.C160_fourteen_partial",
    "Veri.C160_fifteen",
    "Veri.C160_example"
   ],
   "note": "False (negation proved): after its time limit a search whose sources have more results than the channel has room for keeps connections for ever. Exactly: the connections kept are those of calls that stand before the full channel of a search ended by its time limit. So searches that end in time, and searches for at most fourteen results (a node and six peers), keep none; for fifteen it can happen (shown). The pool itself: C64-C67."
  },
  {
   "property": "C161",
   "status": "partial",
   "theorems": [
    "Veri.C161_whole_fails",
    "Veri.C161_prefixes",
    "Veri.C161_whole_partial",
    "Veri.C161_example"
   ],
   "note": "False (negation proved): a peer that cannot be reached or breaks off is taken for one that has nothing more. Proved: of each source the search has a first part of its answer, the whole of it unless the call failed, and always all local results."
  },
  {
   "property": "C162",
   "status": "partial",
   "theorems": [
    "Veri.C162_ready_fails",
    "Veri.C162_ready_exact",
    "Veri.C162_ready_partial",
    "Veri.C162_refused",
    "Veri.C162_no_health",
    "Veri.C162_synced",
    "Veri.C162_history",
    "Veri.C162_takes",
    "Veri.C162_close",
    "Veri.C162_exit",
    "Veri.C162_web_ends",
    "Veri.C162_example"
   ],
   "note": "False (negation proved): the first synchronisation makes the node ready before its port is open. Exactly: it says so without taking calls only right before it opens its port, or after it could not, or after serving has ended, and then the process removes its directory and ends. From the moment the port is open it takes calls as long as it serves. If port 8000 is taken the server goes on without health checks (shown). A node is ready exactly if a synchronisation has ended and no closing has come after it (C162_synced)."
  },
  {
   "property": "C163",
   "status": "proved",
   "theorems": [
    "Veri.C163_no_worse",
    "Veri.C163_same",
    "Veri.C163_prefix",
    "Veri.C163_unreturned",
    "Veri.C163_example"
   ],
   "note": "Results with equal scores may come in a different order or be others (the example has two such answers): the claim is about places and scores. Needs scores that are numbers (C22 has what NaN does)."
  },
  {
   "property": "C164",
   "status": "proved",
   "theorems": [
    "Veri.C164_others",
    "Veri.C164_example"
   ],
   "note": "The nodes start without records and sources; what clients and other tasks do to the data sets adds no sources (`Adding`)."
  },
  {
   "property": "C165",
   "status": "partial",
   "theorems": [
    "Veri.C165_once_fails",
    "Veri.C165_once_partial",
    "Veri.C165_exactly_one_partial",
    "Veri.C165_example",
    "Veri.C165_exactly_one_example"
   ],
   "note": "False (negation proved): a node that learns from a join that it is seen under another address announces itself under another identity; as long as both records are kept it is two sources. Holds if the nodes are seen only under addresses that they announce from the start; then, with C156, after each late enough synchronisation exactly one source reaches each connected node that keeps the data set."
  },
  {
   "property": "C166",
   "status": "proved",
   "theorems": [
    "Veri.C166_only_named",
    "Veri.C166_run",
    "Veri.C166_example"
   ],
   "note": "Requests that crash the node are not among them (C71, C98); the saves that a creation starts in the background prolong all data sets and are separate steps (C167, C153)."
  },
  {
   "property": "C167",
   "status": "partial",
   "theorems": [
    "Veri.C167_alone_fails",
    "Veri.C167_alone_partial",
    "Veri.C167_example"
   ],
   "note": "False (negation proved): the ids of queries are kept per node, not per data set, so a search with the id of an earlier search of another data set gets an empty answer and no error. Holds, together with the contents of the data set in the end, if no client uses an id for two data sets."
  },
  {
   "property": "C168",
   "status": "proved",
   "theorems": [
    "Veri.C168_all_returned",
    "Veri.C168_example"
   ],
   "note": "For ungrouped searches with a positive limit by a score function whose name does not begin with Annoy (those may use an index that is older than the data, C132, C133); answers from the cache are not part of it (C35, C36). Searches without room are C95."
  },
  {
   "property": "C169",
   "status": "proved",
   "theorems": [
    "Veri.C169_inserted_returned",
    "Veri.C169_example"
   ],
   "note": "As C168. That no live datum is dropped before its time to live is over is C09 and C10, used in the proof."
  },
  {
   "property": "C170",
   "status": "partial",
   "theorems": [
    "Veri.C170_gone_fails",
    "Veri.C170_end_partial",
    "Veri.C170_at_once_partial",
    "Veri.C170_bounded_partial",
    "Veri.C170_forever",
    "Veri.C170_example"
   ],
   "note": "False (negation proved): what is sent is the time left when the scan came to the datum, so the time that a copy waits in the queue and is on its way is added to its life; two nodes that need half a minute for a transfer keep a datum for ever (shown). Exactly: a copy ends at the end of the TTL plus the time that it was on its way, from node to node. Proved: it is gone in time if nothing takes time; and in bounded time if a node sends a datum at most once in p seconds (60, C47), a transfer takes at most d seconds with the waiting, and N nodes have N d < p. For clocks off by fixed amounts, times and TTLs below 2^61 seconds."
  },
  {
   "property": "C171",
   "status": "partial",
   "theorems": [
    "Veri.C171_largest_fails",
    "Veri.C171_largest_partial",
    "Veri.C171_cluster_partial",
    "Veri.C171_example",
    "Veri.C171_cluster_example"
   ],
   "note": "False: for the query (4096, 1, 4096) the vector (0, 1/2, 0) is returned and (4096, 1, -4096), whose product is 1 but 0 in float32, left out (negation proved). Proved up to the errors of the two products: for n common components (2n + 4) / 2^24 of the magnitudes of the terms, and 3n / 2^149; at one node and over several (as in C95)."
  },
  {
   "property": "C172",
   "status": "partial",
   "theorems": [
    "Veri.C172_direction_fails",
    "Veri.C172_direction_partial",
    "Veri.C172_direction_error_partial",
    "Veri.C172_cluster_partial",
    "Veri.C172_example",
    "Veri.C172_error_example",
    "Veri.C172_cluster_example"
   ],
   "note": "False: for the query (1, 0) the vector (4096, 1) is returned and (1, 0) left out (negation proved). Proved up to twice the error of the angle: with n components the root of (5n + 20) / 2^25 and a hundred-thousandth (of half a turn) if the lengths are zero or in [2^-50, 2^60]; 142/1000 for any up to 32768 components and lengths in [2^-60, 2^60]; at one node and over several (as in C95)."
  },
  {
   "property": "C173",
   "status": "proved",
   "theorems": [
    "Veri.C173_contents",
    "Veri.C173_seen",
    "Veri.C173_found",
    "Veri.C173_stays",
    "Veri.C173_nothing_new",
    "Veri.C173_stream_scans",
    "Veri.C173_search_scans",
    "Veri.C173_then",
    "Veri.C173_example",
    "Veri.C173_found_example"
   ],
   "note": "For data with a key and a value (a datum without one: C24, C71), while the data set is listed (for how long that is: C53-C55, C153). Requests one after the other; for scans during writes see C123-C125. The maintenance loop, which moves and evicts data, is not among the steps (C39-C47, C76)."
  },
  {
   "property": "C174",
   "status": "proved",
   "theorems": [
    "Veri.C174_remembered",
    "Veri.C174_bounded",
    "Veri.C174_example"
   ],
   "note": "The clean-up of go-cache runs once a minute (node/node.go:62); times do not go back. The results kept by a data set are another matter: how long is for the client to say (C36)."
  },
  {
   "property": "C175",
   "status": "proved",
   "theorems": [
    "Veri.C175_arrives",
    "Veri.C175_distinct",
    "Veri.C175_example",
    "Veri.C175_types_example"
   ],
   "note": "The wire format is modelled from its specification; that the protobuf library, which is not in the repository, follows it is part of the trusted base."
  },
  {
   "property": "C176",
   "status": "proved",
   "theorems": [
    "Veri.C176_newer",
    "Veri.C176_search",
    "Veri.C176_example"
   ],
   "note": "The unknown fields are of the wire types in use (not groups). The library keeps them beside the message; data that are stored drop them (Clean)."
  },
  {
   "property": "C177",
   "status": "proved",
   "theorems": [
    "Veri.C177_compiled"
   ],
   "note": "A fact about one constant of 3451 bytes, proved by evaluating the modelled decoder on it in the kernel."
  },
  {
   "property": "C178",
   "status": "partial",
   "theorems": [
    "Veri.C178_handed_on_fails",
    "Veri.C178_handed_on_partial",
    "Veri.C178_forwarded",
    "Veri.C178_streamed",
    "Veri.C178_unary",
    "Veri.C178_answer_fails",
    "Veri.C178_example"
   ],
   "note": "False (negation proved): no size limit is set, so the library's default of 4 MiB for a message holds; an insert of just that size cannot be sent on with its configuration, and two data of 3 MB which a node has taken cannot be returned together by Search. Proved: with 24 bytes to spare an insert can be sent on and its datum returned in the stream of a search; it can always be read with the data set; an answer of Search reaches the client exactly if its data together have room."
  },
  {
   "property": "C179",
   "status": "partial",
   "theorems": [
    "Veri.C179_fails",
    "Veri.C179_dropped",
    "Veri.C179_replaced",
    "Veri.C179_late",
    "Veri.C179_thousand",
    "Veri.C179_partial",
    "Veri.C179_example"
   ],
   "note": "False (negation proved) in four ways: the runtime drops an entry of sync.Pool without closing its connection; the loading cache replaces a pool by a fresh one on a refresh, without closing it (that goburrow/cache does not call the removal listener then is a fact about the library); a connection given back while its pool is being closed stays in it; CloseAll stops after 1000 entries. Proved: in executions without these, every open connection is in use, can be taken again, or is going to be closed."
  },
  {
   "property": "C180",
   "status": "partial",
   "theorems": [
    "Veri.C180_fails",
    "Veri.C180_grows",
    "Veri.C180_partial"
   ],
   "note": "False (negation proved): each Get puts a connection that it finds healthy back before it hands it out, and Put adds it once more, so n + 1 uses one after the other leave n + 2 entries of the same connection. Proved: a pool never has more entries of a connection than one more than the number of times it was given back."
  },
  {
   "property": "C181",
   "status": "partial",
   "theorems": [
    "Veri.C181_fails",
    "Veri.C181_partial",
    "Veri.C181_key_partial",
    "Veri.C181_example"
   ],
   "note": "False (negation proved): a node may pass the insert on to itself under an address that it does not know as its own, and all copies are on one node. Proved if each call reaches the node of the source called, or none, and the sources are different nodes, none of them the node itself (C164 and C165 give this for sources found by synchronisation); also with other values written for the key, then for the key alone."
  },
  {
   "property": "C182",
   "status": "proved",
   "theorems": [
    "Veri.C182_steps",
    "Veri.C182_goes_on",
    "Veri.C182_answered",
    "Veri.C182_example"
   ],
   "note": "For inserts that do not crash the node (C71, `Safe`). A call that gets no answer ends by its deadline: the step by which a caller goes on does not wait for the handler that it has called (as in C99)."
  },
  {
   "property": "C183",
   "status": "proved",
   "theorems": [
    "Veri.C183_any_order",
    "Veri.C183_repeated",
    "Veri.C183_repeated_forever",
    "Veri.C183_example"
   ],
   "note": "The order in which the map keeps its entries is not observed (`Same`). A data set that is full refuses both inserts, in either order."
  },
  {
   "property": "C184",
   "status": "partial",
   "theorems": [
    "Veri.C184_fails",
    "Veri.C184_partial",
    "Veri.C184_more_partial",
    "Veri.C184_example"
   ],
   "note": "False (negation proved) if lower is better: an aggregator that is full keeps the larger of two distances (C28, C95), so two nodes with one point each answer with the farther one, one node with both points with the nearer. Proved if higher is better, or if no more than `limit` different data match, for answers that all nodes have given in time."
  },
  {
   "property": "C185",
   "status": "partial",
   "theorems": [
    "Veri.C185_fails",
    "Veri.C185_exact",
    "Veri.C185_partial",
    "Veri.C185_two",
    "Veri.C185_unbounded",
    "Veri.C185_example"
   ],
   "note": "False (negation proved): a search for more than a hundred results whose time limit comes before they are collected leaves two goroutines for ever, without any peer; so n searches leave 2 n. Exactly: the sources that stand before the full channel of a search ended by its time limit, and one that waits for them; at most one more than the sources. Nothing is left of searches that end in time or whose sources have at most a hundred results together. The connections: C160."
  },
  {
   "property": "C186",
   "status": "partial",
   "theorems": [
    "Veri.C186_fails",
    "Veri.C186_partial",
    "Veri.C186_example"
   ],
   "note": "False (negation proved): only six sources are asked, so that in a mesh of eight nodes one is never asked. Proved if no node has more than six sources. How often each node carries it out: C37; time limits: C104."
  },
  {
   "property": "C187",
   "status": "proved",
   "theorems": [
    "Veri.C187_whole_cluster",
    "Veri.C187_best",
    "Veri.C187_inserted",
    "Veri.C187_example"
   ],
   "note": "For one datum, no grouping, a score function of this repository (not Annoy), no time limit reached (C104) and nothing taken from a query cache (C35, C36; C201). The id of the query is remembered as long as the search lasts (C174). With more than six sources: C186."
  },
  {
   "property": "C188",
   "status": "proved",
   "theorems": [
    "Veri.C188_cluster_search_ends",
    "Veri.C188_answer",
    "Veri.C188_limited",
    "Veri.C187_example"
   ],
   "note": "The machine of C187; limits for which merging does not crash the node (C73)."
  },
  {
   "property": "C189",
   "status": "proved",
   "theorems": [
    "Veri.C189_genuine",
    "Veri.C189_example"
   ],
   "note": "The machine of C187 with time limits: an answer may be sent at any moment, made from any part of what has come. For one datum, no grouping, a score function of this repository (not Annoy)."
  },
  {
   "property": "C190",
   "status": "proved",
   "theorems": [
    "Veri.C190_joined",
    "Veri.C190_example"
   ],
   "note": "The nodes are seen only under addresses that they announce from the start (C165) and answer there; the search is as in C187 (one datum, room for all, no time limit reached). Directly after a synchronisation of the node that is asked: later its sources may have expired until the next one (C90). Up to seven nodes, since six sources are asked (C186)."
  },
  {
   "property": "C191",
   "status": "proved",
   "theorems": [
    "Veri.C191_found",
    "Veri.C191_example"
   ],
   "note": "C181 and C187 together, with their conditions. That the sources are other nodes, none twice: C164 and C165."
  },
  {
   "property": "C192",
   "status": "proved",
   "theorems": [
    "Veri.C192_alone",
    "Veri.C192_each",
    "Veri.C192_goes_on",
    "Veri.C192_example"
   ],
   "note": "Different ids (two searches with the same id: C167). The machine of C187, without time limits; each search meets the conditions of C187. The time that one search costs another is not modelled."
  },
  {
   "property": "C193",
   "status": "partial",
   "theorems": [
    "Veri.C193_fails",
    "Veri.C193_exact",
    "Veri.C193_partial",
    "Veri.C193_example"
   ],
   "note": "With more than six sources it fails: six are asked, in a random order, and if the willing ones are not among them the insert is refused although enough nodes would take it (`C193_fails`). C193_exact: those six decide. C193_partial: true with at most six sources."
  },
  {
   "property": "C194",
   "status": "proved",
   "theorems": [
    "Veri.C194_loaded",
    "Veri.C194_empty",
    "Veri.C194_example"
   ],
   "note": "Items 0, 1, ... without gaps; the file can be written and read; the products of the question with the planes of the index are finite numbers (otherwise the order of the queue may differ between the two copies of the roots); without a search limit the number asked for times (2 * items + 1) is below 2^32. veri itself does not call save or load."
  },
  {
   "property": "C195",
   "status": "partial",
   "theorems": [
    "Veri.C195_fails",
    "Veri.C195_exact",
    "Veri.C195_partial",
    "Veri.C195_example"
   ],
   "note": "Fails: the variable CONFIG comes before VERICONFIG, as AutomaticEnv looks for it first, and without a home directory and a named file the process ends with code 1. C195_exact: what is read in every case; C195_partial: true if --config is given or CONFIG is not set, and a file is named or there is a home directory. viper v1.8.1 is modelled from what is known of its source, which is not in the repository."
  },
  {
   "property": "C196",
   "status": "partial",
   "theorems": [
    "Veri.C196_fails",
    "Veri.C196_partial",
    "Veri.C196_example"
   ],
   "note": "Fails: a vector that lies in a plane goes to a random side of it, a search for it to the other one perhaps (C148). C196_partial: true of a vector that never comes to a plane that it lies in. No distance is NaN; fewer than 2^31 places in the index; limits from 1 to 2^31 - 1."
  },
  {
   "property": "C197",
   "status": "partial",
   "theorems": [
    "Veri.C197_fails",
    "Veri.C197_partial",
    "Veri.C197_example"
   ],
   "note": "Fails for the reason of C196, and for that of C132. C197_partial: true if the run reports at most 1000 data or no more than had been reported when it began, and the vector never comes to a plane that it lies in. The inserts come before the first run (nobody writes during maintenance)."
  },
  {
   "property": "C198",
   "status": "proved",
   "theorems": [
    "Veri.C198_alone",
    "Veri.C198_genuine",
    "Veri.C198_ends",
    "Veri.C198_goes_on",
    "Veri.C198_example"
   ],
   "note": "Different ids (two searches with the same id: C167). What C189 says holds for each; flat results, names other than the index searches. The time that one search costs another is not modelled: limits may come at any moment."
  },
  {
   "property": "C199",
   "status": "partial",
   "theorems": [
    "Veri.C199_fails",
    "Veri.C199_parts",
    "Veri.C199_exact",
    "Veri.C199_partial",
    "Veri.C199_value_exact",
    "Veri.C199_example",
    "Veri.C199_padded",
    "Veri.C199_padded_example"
   ],
   "note": "Fails: a length may be written with more bytes than it needs (0x80 0x00 for 0). C199_padded: with any number more the same value is decoded. C199_exact: this is the only way for a key; for a value there is also the label that is cut off (C05). C199_parts: in all cases the fields are what the bytes say, in their order. The destination has a capacity of at most 2^48 bytes."
  },
  {
   "property": "C200",
   "status": "partial",
   "theorems": [
    "Veri.C200_fails",
    "Veri.C200_partial",
    "Veri.C200_exact",
    "Veri.C200_example"
   ],
   "note": "Fails: the node that gets the copy is asked before, the one that deletes the original after. C200_exact (no node fails, the client gives an id): every node is asked at one moment, and a key is returned if and only if some node showed it at that moment. C200_partial: with nodes that may fail and without an id; in particular a datum that one reachable node keeps is found. The scan of one node is one step (C123, C124 look into it); search without grouping and index, room for all matching keys, at most six sources per node."
  },
  {
   "property": "C201",
   "status": "proved",
   "theorems": [
    "Veri.C201_genuine",
    "Veri.C201_off",
    "Veri.C201_example"
   ],
   "note": "The machine of C198 with the caches. That a kept answer is old or not whole is C36 and C75; that other requests have other keys is C35, used in the proof. For one datum per request, no grouping, a score function of this repository (not Annoy). As in C198 what a node stores may change all the time; the stores are those since the caches were empty."
  },
  {
   "property": "C202",
   "status": "proved",
   "theorems": [
    "Veri.C202_data",
    "Veri.C202_scores",
    "Veri.C202_example"
   ],
   "note": "For a score function of this repository (not Annoy) and a positive limit. That other nodes answer for only one of the data is C96, that grouped scores are those of groups of groups C97; nothing is said on them here. Without caches (C201)."
  },
  {
   "property": "C203",
   "status": "proved",
   "theorems": [
    "Veri.C203_own",
    "Veri.C203_example"
   ],
   "note": "For a score function of this repository (not Annoy), without groups and caches. Of matches at other nodes C96 says that they may be missing; here only the data of the node asked are claimed. A match is known by its key: with which of the scores it comes is not claimed (C27 to C29)."
  }
 ]
}