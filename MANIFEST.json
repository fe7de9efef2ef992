{
 "claims": [
  {
   "property": "C01",
   "status": "proved",
   "theorems": [
    "Verif.Props.C01_roundtrip",
    "Verif.Props.C01_roundtrip_iff",
    "Verif.Props.C01_simple_iff",
    "Verif.Props.C01_prefix_free"
   ],
   "note": "Round trip for all clean objects, iff characterisation, prefix-freeness."
  },
  {
   "property": "C02",
   "status": "proved",
   "theorems": [
    "Verif.Props.C02_pipelining"
   ],
   "note": ""
  },
  {
   "property": "C03",
   "status": "proved",
   "theorems": [
    "Verif.Props.C03_locality",
    "Verif.Props.C03_truncation",
    "Verif.Props.C03_error_stable"
   ],
   "note": ""
  },
  {
   "property": "C04",
   "status": "proved",
   "theorems": [
    "Verif.Props.C04_reencode_stable"
   ],
   "note": ""
  },
  {
   "property": "C05",
   "status": "partial",
   "theorems": [
    "Verif.Props.C05_counterexample",
    "Verif.Props.C05_no_panic_false",
    "Verif.Props.C05_panic_iff",
    "Verif.Props.C05_no_panic_partial"
   ],
   "note": "False of the code: bulk length -2 panics (C05_counterexample). C05_panic_iff gives the exact crash condition."
  },
  {
   "property": "C06",
   "status": "proved",
   "theorems": [
    "Verif.Props.C06_terminates",
    "Verif.Props.C06_progress",
    "Verif.Props.C06_loop"
   ],
   "note": ""
  },
  {
   "property": "C07",
   "status": "proved",
   "theorems": [
    "Verif.Props.C07_parse_exact",
    "Verif.Props.C07_parse_reject",
    "Verif.Props.C07_format_parse",
    "Verif.Props.C07_format_spec"
   ],
   "note": ""
  },
  {
   "property": "C08",
   "status": "proved",
   "theorems": [
    "Verif.Props.C08_add",
    "Verif.Props.C08_errors",
    "Verif.Props.C08_bad_step",
    "Verif.Props.C08_then_get",
    "Verif.Props.C08_accumulates"
   ],
   "note": "INCR/INCRBY/DECR/DECRBY on any stored integer, any step; wrap-around modulo 2^64 characterised; whole histories add up"
  },
  {
   "property": "C09",
   "status": "proved",
   "theorems": [
    "Verif.Props.C09_get_after_set",
    "Verif.Props.C09_never_written"
   ],
   "note": "over all histories between SET and GET that do not name the key as a string key to write"
  },
  {
   "property": "C10",
   "status": "proved",
   "theorems": [
    "Verif.Props.C10_append",
    "Verif.Props.C10_strlen",
    "Verif.Props.C10_appends"
   ],
   "note": ""
  },
  {
   "property": "C11",
   "status": "proved",
   "theorems": [
    "Verif.Props.C11_getrange"
   ],
   "note": "position by position"
  },
  {
   "property": "C12",
   "status": "proved",
   "theorems": [
    "Verif.Props.C12_mset",
    "Verif.Props.C12_mget",
    "Verif.Props.C12_exists"
   ],
   "note": "MSET against the history of single SETs"
  },
  {
   "property": "C13",
   "status": "proved",
   "theorems": [
    "Verif.Props.C13_trace",
    "Verif.Props.C13_determined",
    "Verif.Props.C13_structure",
    "Verif.Props.C13_llen"
   ],
   "note": "refinement of every history to sequences, determinism, and the pointer structure of every reachable list"
  },
  {
   "property": "C14",
   "status": "proved",
   "theorems": [
    "Verif.Props.C14_pop_empty",
    "Verif.Props.C14_fifo",
    "Verif.Props.C14_lifo"
   ],
   "note": "arbitrary interleavings of pushes and pops at opposite ends; pushes then pops at the same end"
  },
  {
   "property": "C15",
   "status": "partial",
   "theorems": [
    "Verif.Props.C15_lrem_partial",
    "Verif.Props.C15_lrem_missing",
    "Verif.Props.C15_exceptions",
    "Verif.Props.C15_false"
   ],
   "note": "false for the element \"dummy string\" (C15_false) and the count -2^63; both exceptions are characterised (C15_exceptions)"
  },
  {
   "property": "C16",
   "status": "partial",
   "theorems": [
    "Verif.Props.C16_linsert_partial",
    "Verif.Props.C16_exception",
    "Verif.Props.C16_false"
   ],
   "note": "false for the pivot \"dummy string\" (C16_false); that case is characterised (C16_exception)"
  },
  {
   "property": "C17",
   "status": "partial",
   "theorems": [
    "Verif.Props.C17_lrange",
    "Verif.Props.C17_lrange_partial",
    "Verif.Props.C17_false"
   ],
   "note": "false for right bounds below minus the length (C17_false); the exact window for all bounds is C17_lrange"
  },
  {
   "property": "C18",
   "status": "proved",
   "theorems": [
    "Verif.Props.C18_ltrim"
   ],
   "note": ""
  },
  {
   "property": "C19",
   "status": "proved",
   "theorems": [
    "Verif.Props.C19_lindex",
    "Verif.Props.C19_lset",
    "Verif.Props.C19_set_then_index"
   ],
   "note": ""
  },
  {
   "property": "C20",
   "status": "partial",
   "theorems": [
    "Verif.Props.C20_hset",
    "Verif.Props.C20_hdel",
    "Verif.Props.C20_reads_partial",
    "Verif.Props.C20_hmget",
    "Verif.Props.C20_hlen",
    "Verif.Props.C20_keyLen",
    "Verif.Props.C20_empty_field",
    "Verif.Props.C20_false"
   ],
   "note": "false for the empty field name, which HSET stores but HGET/HEXISTS/HSTRLEN refuse (C20_false, C20_empty_field); everything else proved"
  },
  {
   "property": "C21",
   "status": "proved",
   "theorems": [
    "Verif.Props.C21_enumerate",
    "Verif.Props.C21_missing",
    "Verif.Props.C21_permutation"
   ],
   "note": ""
  },
  {
   "property": "C22",
   "status": "partial",
   "theorems": [
    "Verif.Props.C22_sadd",
    "Verif.Props.C22_srem",
    "Verif.Props.C22_scard",
    "Verif.Props.C22_smembers",
    "Verif.Props.C22_sismember_partial",
    "Verif.Props.C22_empty_member",
    "Verif.Props.C22_false"
   ],
   "note": "false for the empty member, which SADD stores but SISMEMBER refuses (C22_false, C22_empty_member); everything else proved"
  },
  {
   "property": "C23",
   "status": "proved",
   "theorems": [
    "Verif.Props.C23_algebra"
   ],
   "note": ""
  },
  {
   "property": "C24",
   "status": "partial",
   "theorems": [
    "Verif.Props.C24_count",
    "Verif.Props.C24_single_partial",
    "Verif.Props.C24_missing",
    "Verif.Props.C24_empty_crashes",
    "Verif.Props.C24_false"
   ],
   "note": "false without count on an existing empty set: the server dies (C24_false, C24_empty_crashes); everything else proved"
  },
  {
   "property": "C25",
   "status": "proved",
   "theorems": [
    "Verif.Props.C25_frame",
    "Verif.Props.C25_read_only",
    "Verif.Props.C25_one_namespace"
   ],
   "note": ""
  },
  {
   "property": "C26",
   "status": "partial",
   "theorems": [
    "Verif.Props.C26_false",
    "Verif.Props.C26_no_effect_partial",
    "Verif.Props.C26_bare_hset"
   ],
   "note": "false as stated: HSET without fields creates an empty hash (C26_false, C26_bare_hset); every other failing request leaves the database unchanged"
  },
  {
   "property": "C27",
   "status": "partial",
   "theorems": [
    "Verif.Props.C27_false",
    "Verif.Props.C27_crash_iff",
    "Verif.Props.C27_answered_partial",
    "Verif.Props.C27_no_divergence"
   ],
   "note": "false as stated (C27_false); the exact set of crashing requests is characterised in both directions"
  },
  {
   "property": "C28",
   "status": "proved",
   "theorems": [
    "Verif.Props.C28_shape",
    "Verif.Props.C28_one_reply_each"
   ],
   "note": ""
  },
  {
   "property": "C29",
   "status": "proved",
   "theorems": [
    "Verif.Props.C29_dispatch",
    "Verif.Props.C29_unknown",
    "Verif.Props.C29_bad_arguments",
    "Verif.Props.C29_malformed",
    "Verif.Props.C29_case_insensitive",
    "Verif.Props.C29_ascii_case"
   ],
   "note": "dispatch against an independent syntax table of all 43 command names"
  },
  {
   "property": "C30",
   "status": "proved",
   "theorems": [
    "Verif.Props.C30_roundtrip",
    "Verif.Props.C30_streaming",
    "Verif.Props.C30_packable",
    "Verif.Props.C30_injective"
   ],
   "note": ""
  },
  {
   "property": "C31",
   "status": "proved",
   "theorems": [
    "Verif.Props.C31_truncated",
    "Verif.Props.C31_every_cut",
    "Verif.Props.C31_prefix",
    "Verif.Props.C31_recovery"
   ],
   "note": ""
  },
  {
   "property": "C32",
   "status": "proved",
   "theorems": [
    "Verif.Props.C32_prefix",
    "Verif.Props.C32_missing",
    "Verif.Props.C32_flushed",
    "Verif.Props.C32_gauges",
    "Verif.Props.C32_counts",
    "Verif.Props.C32_error_sticky",
    "Verif.Props.C32_faultless"
   ],
   "note": ""
  },
  {
   "property": "C33",
   "status": "partial",
   "theorems": [
    "Verif.Props.C33_rebuilds_partial",
    "Verif.Props.C33_same_answers",
    "Verif.Props.C33_answers_partial",
    "Verif.Props.C33_crash_loop",
    "Verif.Props.C33_false_ltrim",
    "Verif.Props.C33_false_spop",
    "Verif.Props.C33_false_binary",
    "Verif.Props.C33_exact"
   ],
   "note": "false: LTRIM is not logged, SPOP replays another choice, non-UTF-8 requests are not logged (C33_false_ltrim, C33_false_spop, C33_false_binary); proved for all other histories; C33_exact says for every history what the new server executes"
  },
  {
   "property": "C34",
   "status": "partial",
   "theorems": [
    "Verif.Props.C34_at_most_once",
    "Verif.Props.C34_orders",
    "Verif.Props.C34_all_orders",
    "Verif.Props.C34_false",
    "Verif.Props.C34_diverges",
    "Verif.Props.C34_ordered_partial"
   ],
   "note": "false: every order of the records is possible (C34_all_orders, C34_false, C34_diverges); proved when each writer finishes before the next request (C34_ordered_partial); C34_orders/C34_at_most_once hold for every schedule"
  },
  {
   "property": "C35",
   "status": "partial",
   "theorems": [
    "Verif.Props.C35_boundary_partial",
    "Verif.Props.C35_lost",
    "Verif.Props.C35_false",
    "Verif.Props.C35_phantom"
   ],
   "note": "false after a torn tail: the file is opened for append and the torn bytes stay, so later records are lost or misread (C35_false, C35_lost, C35_phantom); true when the file ends at a record boundary (C35_boundary_partial)"
  },
  {
   "property": "C36",
   "status": "proved",
   "theorems": [
    "Verif.Props.C36_decodes",
    "Verif.Props.C36_replays",
    "Verif.Props.C36_cut",
    "Verif.Props.C36_torn_rejected",
    "Verif.Props.C36_wraps"
   ],
   "note": "for files below 4 GiB; the size field wraps at 2^32 (C36_wraps)"
  },
  {
   "property": "C37",
   "status": "partial",
   "theorems": [
    "Verif.Props.C37_cancel_calls",
    "Verif.Props.C37_wait_calls",
    "Verif.Props.C37_get",
    "Verif.Props.C37_wait",
    "Verif.Props.C37_once",
    "Verif.Props.C37_cancelled",
    "Verif.Props.C37_cancel_errors",
    "Verif.Props.C37_cancel_once",
    "Verif.Props.C37_wakes",
    "Verif.Props.C37_ends",
    "Verif.Props.C37_one_canceller",
    "Verif.Props.C37_false",
    "Verif.Props.C37_dead",
    "Verif.Props.C37_both"
   ],
   "note": "false when two goroutines cancel at once: both close the channel and the process panics (C37_false); every other clause is proved for all executions, and with at most one canceller no crash is possible (C37_one_canceller)"
  },
  {
   "property": "C38",
   "status": "proved",
   "theorems": [
    "Verif.Props.C38_send_calls",
    "Verif.Props.C38_receive_calls",
    "Verif.Props.C38_close_calls",
    "Verif.Props.C38_fifo",
    "Verif.Props.C38_prefix",
    "Verif.Props.C38_offered",
    "Verif.Props.C38_refused",
    "Verif.Props.C38_closed",
    "Verif.Props.C38_close_safe",
    "Verif.Props.C38_progress",
    "Verif.Props.C38_not_woken",
    "Verif.Props.C38_lost"
   ],
   "note": ""
  },
  {
   "property": "C39",
   "status": "proved",
   "theorems": [
    "Verif.Props.C39_count",
    "Verif.Props.C39_exact",
    "Verif.Props.C39_no_crash",
    "Verif.Props.C39_progress",
    "Verif.Props.C39_bounded",
    "Verif.Props.C39_no_leak",
    "Verif.Props.C39_goroutine",
    "Verif.Props.C39_main"
   ],
   "note": "the counter is an int32: exact below 2^31 names (C39_exact)"
  },
  {
   "property": "C40",
   "status": "partial",
   "theorems": [
    "Verif.Props.C40_false",
    "Verif.Props.C40_kept_partial",
    "Verif.Props.C40_quiet_partial",
    "Verif.Props.C40_offered",
    "Verif.Props.C40_served"
   ],
   "note": "false: re-subscribing a name while a publish cleans up its closed predecessor removes the new subscription (C40_false); proved when no other subscription of the name was closed (C40_kept_partial, C40_served) and when no publish is under way at the subscription (C40_quiet_partial)"
  },
  {
   "property": "C41",
   "status": "partial",
   "theorems": [
    "Verif.Props.C41_sync_calls",
    "Verif.Props.C41_simple",
    "Verif.Props.C41_locked",
    "Verif.Props.C41_locked_progress",
    "Verif.Props.C41_sync",
    "Verif.Props.C41_sync_get",
    "Verif.Props.C41_sync_goes_on",
    "Verif.Props.C41_false",
    "Verif.Props.C41_sync_len_partial"
   ],
   "note": "simple and locked maps: proved for every history and every interleaving; sync map: Len is false under concurrent Set of one key (C41_false), proved for one goroutine (C41_sync) and when calls for the same key do not overlap (C41_sync_len_partial)"
  },
  {
   "property": "C42",
   "status": "proved",
   "theorems": [
    "Verif.Props.C42_get",
    "Verif.Props.C42_everyone",
    "Verif.Props.C42_wakes",
    "Verif.Props.C42_second",
    "Verif.Props.C42_no_crash",
    "Verif.Props.C42_two_sets",
    "Verif.Props.C42_dead",
    "Verif.Props.C42_set_calls",
    "Verif.Props.C42_get_calls"
   ],
   "note": ""
  },
  {
   "property": "C43",
   "status": "proved",
   "theorems": [
    "Verif.Props.C43_bus",
    "Verif.Props.C43_unique"
   ],
   "note": ""
  },
  {
   "property": "C44",
   "status": "partial",
   "theorems": [
    "Verif.Props.C44_false",
    "Verif.Props.C44_not_returns",
    "Verif.Props.C44_reader",
    "Verif.Props.C44_stalled",
    "Verif.Props.C44_expired",
    "Verif.Props.C44_partial",
    "Verif.Props.C44_read_partial",
    "Verif.Props.C44_server"
   ],
   "note": "False as stated: C44_false, C44_reader, C44_stalled and C44_server are executions in which a Write never returns or all responses stop for good. C44_partial covers connections nobody closes, whose timer has not fired and whose client reads."
  },
  {
   "property": "C45",
   "status": "proved",
   "theorems": [
    "Verif.Props.C45_once",
    "Verif.Props.C45_lost",
    "Verif.Props.C45_silent",
    "Verif.Props.C45_wire",
    "Verif.Props.C45_progress",
    "Verif.Props.C45_not_last",
    "Verif.Props.C45_calls"
   ],
   "note": "Once only, the effects of a lost race and the silence after it, and progress; C45_not_last records that the farewell need not be the last data sent."
  },
  {
   "property": "C46",
   "status": "proved",
   "theorems": [
    "Verif.Props.C46_requester",
    "Verif.Props.C46_once",
    "Verif.Props.C46_sequential",
    "Verif.Props.C46_serial",
    "Verif.Props.C46_silent",
    "Verif.Props.C46_reordered",
    "Verif.Props.C46_lost",
    "Verif.Props.C46_request_events",
    "Verif.Props.C46_response_events",
    "Verif.Props.C46_events"
   ],
   "note": "Requester, at most once, and sequential meaning of all replies (C46_sequential) in every interleaving; order kept for clients that wait (C46_serial). C46_reordered, C46_lost and C46_silent record that order and delivery are not guaranteed."
  },
  {
   "property": "C47",
   "status": "partial",
   "theorems": [
    "Verif.Props.C47_once",
    "Verif.Props.C47_parts",
    "Verif.Props.C47_crash",
    "Verif.Props.C47_flushed",
    "Verif.Props.C47_completes",
    "Verif.Props.C47_no_master",
    "Verif.Props.C47_false",
    "Verif.Props.C47_no_file",
    "Verif.Props.C47_exit",
    "Verif.Props.C47_exit_false",
    "Verif.Props.C47_late",
    "Verif.Props.C47_clients",
    "Verif.Props.C47_main",
    "Verif.Props.C47_after",
    "Verif.Props.C47_hang",
    "Verif.Props.C47_leaving"
   ],
   "note": "The shutdown sequence runs at most once and in order in every interleaving (C47_once, C47_completes, C47_flushed). False as stated: without replication it crashes before the flush (C47_false, C47_no_master), without a file it crashes (C47_no_file), and fully configured the process may exit before the flush (C47_exit_false) or lose records written after it (C47_late)."
  },
  {
   "property": "C48",
   "status": "partial",
   "theorems": [
    "Verif.Props.C48_value",
    "Verif.Props.C48_cases",
    "Verif.Props.C48_counterexample",
    "Verif.Props.C48_order_partial",
    "Verif.Props.C48_empty"
   ],
   "note": "False when exactly one string is empty: the comparison returns 0 (C48_counterexample). C48_order_partial covers all other pairs; C48_value/C48_cases give the exact value."
  },
  {
   "property": "C49",
   "status": "proved",
   "theorems": [
    "Verif.Props.C49_index",
    "Verif.Props.C49_slice"
   ],
   "note": ""
  },
  {
   "property": "C50",
   "status": "proved",
   "theorems": [
    "Verif.Props.C50_stops_at_first_error",
    "Verif.Props.C50_all_succeed",
    "Verif.Props.C50_only_ways",
    "Verif.Props.C50_order",
    "Verif.Props.C50_no_return"
   ],
   "note": ""
  },
  {
   "property": "C51",
   "status": "proved",
   "theorems": [
    "Verif.Props.C51_cached_fields",
    "Verif.Props.C51_equals_iff",
    "Verif.Props.C51_increase",
    "Verif.Props.C51_decrease",
    "Verif.Props.C51_bulk",
    "Verif.Props.C51_simple",
    "Verif.Props.C51_int"
   ],
   "note": ""
  },
  {
   "property": "C52",
   "status": "proved",
   "theorems": [
    "Verif.Props.C52_sent",
    "Verif.Props.C52_words_unique",
    "Verif.Props.C52_received",
    "Verif.Props.C52_verbatim",
    "Verif.Props.C52_limits",
    "Verif.Props.C52_glued",
    "Verif.Props.C52_unclosed"
   ],
   "note": "Every line (C52_sent, C52_received), unique words, verbatim words; C52_limits, C52_glued, C52_unclosed state what the client cannot send."
  },
  {
   "property": "C53",
   "status": "partial",
   "theorems": [
    "Verif.Props.C53_exact",
    "Verif.Props.C53_crashes",
    "Verif.Props.C53_drain",
    "Verif.Props.C53_contents",
    "Verif.Props.C53_order_partial",
    "Verif.Props.C53_terminates",
    "Verif.Props.C53_adds_partial",
    "Verif.Props.C53_one_level_partial",
    "Verif.Props.C53_false",
    "Verif.Props.C53_false_add",
    "Verif.Props.C53_nan",
    "Verif.Props.C53_empty"
   ],
   "note": "Contents are proved for all histories up to the first crash, order for NaN-free histories and non-empty entries, absence of crashes when nothing is taken out or when all insertions draw one level. Crashes, NaN and the empty entry are witnessed as negations. All answers and crashes are described exactly by a row of cells (C53_exact, C53_crashes, C53_drain)."
  },
  {
   "property": "C54",
   "status": "partial",
   "theorems": [
    "Verif.Props.C54_twice",
    "Verif.Props.C54_rank_false",
    "Verif.Props.C54_max_partial",
    "Verif.Props.C54_adds_partial",
    "Verif.Props.C54_false"
   ],
   "note": "Rank is proved to crash on every present entry of every reachable set. PopMax, when it does not crash, is proved to take a greatest entry; it does not crash as long as nothing was taken out. Witness of the crash; it never works twice in a row (C54_twice)."
  },
  {
   "property": "C55",
   "status": "partial",
   "theorems": [
    "Verif.Props.C55_framed",
    "Verif.Props.C55_explained",
    "Verif.Props.C55_exact_partial",
    "Verif.Props.C55_plain",
    "Verif.Props.C55_false",
    "Verif.Props.C55_out_of_step"
   ],
   "note": "False as stated: C55_false (every request whose first element is not a string), C55_out_of_step (what the client reads instead). C55_exact_partial is an equivalence: a reply is framed iff no part of the request it repeats breaks a line; C55_framed covers all replies that are not internal errors, C55_plain all requests without line feeds; C55_explained gives the whole text of internal errors."
  },
  {
   "property": "C56",
   "status": "proved",
   "theorems": [
    "Verif.Props.C56_string",
    "Verif.Props.C56_nil",
    "Verif.Props.C56_int",
    "Verif.Props.C56_error",
    "Verif.Props.C56_empty",
    "Verif.Props.C56_array",
    "Verif.Props.C56_array_false"
   ],
   "note": "C56_array_false shows that the restriction to strings without line breaks is needed."
  },
  {
   "property": "C57",
   "status": "proved",
   "theorems": [
    "Verif.Props.C57_local",
    "Verif.Props.C57_isolation",
    "Verif.Props.C57_alone",
    "Verif.Props.C57_server"
   ],
   "note": "Stated for the sequential engine (C57_isolation, C57_alone), per request (C57_local) and for every execution of the concurrent request pipeline (C57_server). The replies of commands that list a map compare as sets only in C57_isolation."
  },
  {
   "property": "C58",
   "status": "proved",
   "theorems": [
    "Verif.Props.C58_any_order"
   ],
   "note": "Excludes the commands whose reply depends on Go's random map order (Spec.unordered)."
  },
  {
   "property": "C59",
   "status": "partial",
   "theorems": [
    "Verif.Props.C59_crash_partial",
    "Verif.Props.C59_false",
    "Verif.Props.C59_exact"
   ],
   "note": "The full claim CrashSafe is refuted by C59_false (LTRIM is not logged). Proved when the log writers do not overtake each other, without LTRIM and SPOP and with UTF-8 strings; C59_exact says for every run which requests the next server executes."
  },
  {
   "property": "C60",
   "status": "proved",
   "theorems": [
    "Verif.Props.C60_again",
    "Verif.Props.C60_others"
   ],
   "note": "C60_again for the repeatable requests, C60_others shows for every other writing command a reachable state where repeating changes the database again."
  },
  {
   "property": "C61",
   "status": "proved",
   "theorems": [
    "Verif.Props.C61_entered",
    "Verif.Props.C61_session",
    "Verif.Props.C61_crash",
    "Verif.Props.C61_set_get",
    "Verif.Props.C61_killed"
   ],
   "note": "For a client that is alone on the server and whose replies are not lost on the way (C46_lost), with replies below 2^63 bytes."
  },
  {
   "property": "C62",
   "status": "proved",
   "theorems": [
    "Verif.Props.C62_written",
    "Verif.Props.C62_read",
    "Verif.Props.C62_understood"
   ],
   "note": "Against an independent grammar (Spec/Wire.lean)."
  },
  {
   "property": "C63",
   "status": "partial",
   "theorems": [
    "Verif.Props.C63_prefix_partial",
    "Verif.Props.C63_fresh_partial",
    "Verif.Props.C63_idle_partial",
    "Verif.Props.C63_lost",
    "Verif.Props.C63_own_partial",
    "Verif.Props.C63_false",
    "Verif.Props.C63_reverts",
    "Verif.Props.C63_no_file",
    "Verif.Props.C63_exact"
   ],
   "note": "The full claim Mirrors is refuted by C63_false; C63_lost, C63_reverts and C63_no_file show further ways in which a replica differs from its master. Proved under the conditions of C33/C34: log writers that do not overtake each other, no LTRIM and SPOP, UTF-8 strings, log below 4 GiB; C63_exact says without these conditions (except 4 GiB) which requests the replica executes."
  },
  {
   "property": "C64",
   "status": "partial",
   "theorems": [
    "Verif.Props.C64_temps",
    "Verif.Props.C64_closed",
    "Verif.Props.C64_progress",
    "Verif.Props.C64_engine",
    "Verif.Props.C64_nothing_partial",
    "Verif.Props.C64_conns",
    "Verif.Props.C64_raws",
    "Verif.Props.C64_accept",
    "Verif.Props.C64_completes",
    "Verif.Props.C64_false"
   ],
   "note": "The full claim NothingLeft is refuted by C64_false. Proved for temporary files, connections and progress; C64_conns and C64_raws say exactly what stays behind."
  },
  {
   "property": "C65",
   "status": "partial",
   "theorems": [
    "Verif.Props.C65_fails",
    "Verif.Props.C65_port",
    "Verif.Props.C65_replicas",
    "Verif.Props.C65_file",
    "Verif.Props.C65_replay",
    "Verif.Props.C65_restart",
    "Verif.Props.C65_ignored",
    "Verif.Props.C65_edge",
    "Verif.Props.C65_false",
    "Verif.Props.C65_stop",
    "Verif.Props.C65_default",
    "Verif.Props.C65_plain"
   ],
   "note": "The full claim ServesReplicas is refuted by C65_false; everything else is proved for every configuration."
  },
  {
   "property": "C66",
   "status": "proved",
   "theorems": [
    "Verif.Props.C66_written",
    "Verif.Props.C66_read",
    "Verif.Props.C66_only",
    "Verif.Props.C66_unambiguous",
    "Verif.Props.C66_same",
    "Verif.Props.C66_unknown",
    "Verif.Props.C66_order",
    "Verif.Props.C66_file",
    "Verif.Props.C66_every_file"
   ],
   "note": "Against an independent grammar of the wire format (Spec/Proto.lean); the protobuf runtime itself is modelled, not part of the repository."
  },
  {
   "property": "C67",
   "status": "proved",
   "theorems": [
    "Verif.Props.C67_found",
    "Verif.Props.C67_fate",
    "Verif.Props.C67_deliverable",
    "Verif.Props.C67_answerable",
    "Verif.Props.C67_bounded",
    "Verif.Props.C67_rest",
    "Verif.Props.C67_kept",
    "Verif.Props.C67_fates"
   ],
   "note": "Possibility, not certainty, of answering: C67_fates shows that each of the five ends happens, and C46_lost that a dropped request stays unanswered."
  },
  {
   "property": "C68",
   "status": "proved",
   "theorems": [
    "Verif.Props.C68_reply_keeps",
    "Verif.Props.C68_start",
    "Verif.Props.C68_request_keeps",
    "Verif.Props.C68_idle",
    "Verif.Props.C68_ended",
    "Verif.Props.C68_settles",
    "Verif.Props.C68_time_passes",
    "Verif.Props.C68_bytes_do_not_count",
    "Verif.Props.C68_timers_pile_up",
    "Verif.Props.C68_timers",
    "Verif.Props.C68_no_writes"
   ],
   "note": "Discrete clock; the goroutines of the server are assumed not to be delayed while the clock moves (C68_settles and C68_time_passes show that this never stops the clock)."
  },
  {
   "property": "C69",
   "status": "proved",
   "theorems": [
    "Verif.Props.C69_requests",
    "Verif.Props.C69_prompt",
    "Verif.Props.C69_garbage",
    "Verif.Props.C69_end",
    "Verif.Props.C69_finished",
    "Verif.Props.C69_rest",
    "Verif.Props.C69_pieces",
    "Verif.Props.C69_settles"
   ],
   "note": "The server closing the connection itself is in C44, C45 and C68."
  },
  {
   "property": "C70",
   "status": "proved",
   "theorems": [
    "Verif.Props.C70_streams",
    "Verif.Props.C70_conversation",
    "Verif.Props.C70_sequential",
    "Verif.Props.C70_real_time",
    "Verif.Props.C70_crash",
    "Verif.Props.C70_last",
    "Verif.Props.C70_killed",
    "Verif.Props.C70_fatal",
    "Verif.Props.C70_dead"
   ],
   "note": "Composition of the systems of C46 and C69; connections closed by the server are in C44, C45 and C68. Lost requests and replies are part of the system (C67)."
  },
  {
   "property": "C71",
   "status": "partial",
   "theorems": [
    "Verif.Props.C71_errorf",
    "Verif.Props.C71_false",
    "Verif.Props.C71_written",
    "Verif.Props.C71_errorf_any",
    "Verif.Props.C71_one_partial",
    "Verif.Props.C71_levels",
    "Verif.Props.C71_ends",
    "Verif.Props.C71_error",
    "Verif.Props.C71_shutdown",
    "Verif.Props.C71_latest"
   ],
   "note": "Full claim refuted: C71_false shows that the text is wrong for every template and arguments, for all formatting functions but Errorf. C71_errorf, C71_levels, C71_latest and C71_ends hold; C71_one_partial says what is written instead for one hole. fmt.Sprintf and zap are modelled for strings, ints and the verbs %s %d %v."
  },
  {
   "property": "C72",
   "status": "partial",
   "theorems": [
    "Verif.Props.C72_access_partial",
    "Verif.Props.C72_only",
    "Verif.Props.C72_exists",
    "Verif.Props.C72_resolve",
    "Verif.Props.C72_reads",
    "Verif.Props.C72_keys",
    "Verif.Props.C72_false"
   ],
   "note": "Full claim refuted for LTRIM (C72_false), which declares itself as reading; C72_access_partial covers every other reading command. C72_only, C72_exists, C72_resolve and C72_reads hold for all commands."
  },
  {
   "property": "C73",
   "status": "proved",
   "theorems": [
    "Verif.Props.C73_quote",
    "Verif.Props.C73_list",
    "Verif.Props.C73_record",
    "Verif.Props.C73_line",
    "Verif.Props.C73_text",
    "Verif.Props.C73_plain",
    "Verif.Props.C73_literal",
    "Verif.Props.C73_hidden",
    "Verif.Props.C73_shown",
    "Verif.Props.C73_request",
    "Verif.Props.C73_forge",
    "Verif.Props.C73_false"
   ],
   "note": "For records the server makes itself, with ids and hosts without a comma (uuids, IPv4 addresses or 'unknown'). For records of a foreign log file the printed form is ambiguous (C73_false). strconv.IsPrint is a parameter."
  },
  {
   "property": "C74",
   "status": "partial",
   "theorems": [
    "Verif.Props.C74_levels",
    "Verif.Props.C74_room",
    "Verif.Props.C74_overflow",
    "Verif.Props.C74_memory_partial",
    "Verif.Props.C74_nested",
    "Verif.Props.C74_false"
   ],
   "note": "Stack: exact (levels of the object; at most one call per four bytes, and some streams of four bytes per call exceed any fixed stack, C74_overflow). Memory: linear for each nesting depth (C74_memory_partial), but quadratic over all requests: every array keeps the text of everything inside it twice (C74_nested, C74_false; 100 kB on the wire take 2.5 GB)."
  },
  {
   "property": "C75",
   "status": "proved",
   "theorems": [
    "Verif.Props.C75_hash",
    "Verif.Props.C75_smembers",
    "Verif.Props.C75_algebra",
    "Verif.Props.C75_count",
    "Verif.Props.C75_single"
   ],
   "note": "for each allowed answer an iteration order is constructed under which the model gives it; together with C21 to C24 the set of possible answers is exact"
  },
  {
   "property": "C76",
   "status": "proved",
   "theorems": [
    "Verif.Props.C76_found",
    "Verif.Props.C76_unknown",
    "Verif.Props.C76_hidden"
   ],
   "note": "the answer is characterised exactly (C76_found, C76_unknown); what the operating system reports is a parameter"
  },
  {
   "property": "C77",
   "status": "partial",
   "theorems": [
    "Verif.Props.C77_out",
    "Verif.Props.C77_unserved",
    "Verif.Props.C77_many",
    "Verif.Props.C77_rest_partial",
    "Verif.Props.C77_false"
   ],
   "note": "the full claim Durable is refuted by C77_false; C77_out, C77_unserved and C77_many say what is kept and what is lost; C77_rest_partial adds the hypothesis that the buffer is empty"
  },
  {
   "property": "C78",
   "status": "partial",
   "theorems": [
    "Verif.Props.C78_lasting_partial",
    "Verif.Props.C78_invisible_partial",
    "Verif.Props.C78_exact",
    "Verif.Props.C78_replies",
    "Verif.Props.C78_forgotten",
    "Verif.Props.C78_false"
   ],
   "note": "proved for lives that end at rest with the log written out (C78_invisible_partial, and C78_exact for all requests), and after servers killed at any moments that left complete records (C78_lasting_partial); the claim Lasting for files left by killed servers is refuted by C78_false, C78_forgotten says when a whole life is lost"
  },
  {
   "property": "C79",
   "status": "proved",
   "theorems": [
    "Verif.Props.C79_received",
    "Verif.Props.C79_nobody",
    "Verif.Props.C79_count",
    "Verif.Props.C79_order",
    "Verif.Props.C79_served",
    "Verif.Props.C79_progress",
    "Verif.Props.C79_overtaken"
   ],
   "note": "topic and data channels as one system; invariant tying each channel to the sends of the topic; C79_overtaken shows the order is not promised to a publisher that does not wait"
  },
  {
   "property": "C80",
   "status": "proved",
   "theorems": [
    "Verif.Props.C80_alike",
    "Verif.Props.C80_transparent",
    "Verif.Props.C80_no_wait",
    "Verif.Props.C80_not_stuck"
   ],
   "note": "weak bisimulation between the server with its two topics and channels and the system of C46; stopping the server and removing topics is C47"
  },
  {
   "property": "C81",
   "status": "partial",
   "theorems": [
    "Verif.Props.C81_alike",
    "Verif.Props.C81_lost",
    "Verif.Props.C81_log",
    "Verif.Props.C81_exact",
    "Verif.Props.C81_restart_partial",
    "Verif.Props.C81_kept",
    "Verif.Props.C81_last",
    "Verif.Props.C81_false"
   ],
   "note": "the whole server is weakly bisimilar to that of C70 (C81_alike) and its engine is that of C34 (C81_log); the full claim KeptOverNetwork is refuted by C81_false and C81_lost; C81_restart_partial adds that no writer is overtaken, the buffer is empty, and excludes LTRIM, SPOP and text that is not UTF-8; C81_kept shows that this can always be so; C81_exact says what the next server holds in all cases with an empty buffer"
  },
  {
   "property": "C82",
   "status": "proved",
   "theorems": [
    "Verif.Props.C82_parts",
    "Verif.Props.C82_wire",
    "Verif.Props.C82_refused",
    "Verif.Props.C82_closed",
    "Verif.Props.C82_last_request",
    "Verif.Props.C82_heard",
    "Verif.Props.C82_last",
    "Verif.Props.C82_open"
   ],
   "note": "product of the system of C81 with one system of C44 for each connection, synchronised at reads and writes; projections, an invariant tying the goroutines to each other, and a lifting of every run on open connections"
  },
  {
   "property": "C83",
   "status": "partial",
   "theorems": [
    "Verif.Props.C83_silenced",
    "Verif.Props.C83_stalled",
    "Verif.Props.C83_answers_partial",
    "Verif.Props.C83_newcomer",
    "Verif.Props.C83_false"
   ],
   "note": "the full claim Isolated is refuted by C83_false; C83_answers_partial says exactly when an outstanding reply can still be written: whenever the response worker does not wait for an expire worker that has gone; C83_silenced, C83_stalled and C83_newcomer say what happens then"
  },
  {
   "property": "C84",
   "status": "partial",
   "theorems": [
    "Verif.Props.C84_once_more",
    "Verif.Props.C84_parts",
    "Verif.Props.C84_serves",
    "Verif.Props.C84_unheard",
    "Verif.Props.C84_unsaid",
    "Verif.Props.C84_left",
    "Verif.Props.C84_ends",
    "Verif.Props.C84_leaves",
    "Verif.Props.C84_last",
    "Verif.Props.C84_completes",
    "Verif.Props.C84_settled",
    "Verif.Props.C84_can_stop",
    "Verif.Props.C84_stops_well",
    "Verif.Props.C84_restart_partial",
    "Verif.Props.C84_invisible_partial",
    "Verif.Props.C84_false"
   ],
   "note": "product of the system of C82 with that of C47, synchronised at everything both speak about; the full claim KeptByStop is refuted by C84_false; C84_restart_partial says exactly what the next process holds after any number of processes stopped well, C84_can_stop and C84_stops_well that a process with a master can be stopped well unless its engine has a request"
  },
  {
   "property": "C85",
   "status": "proved",
   "theorems": [
    "Verif.Props.C85_parts",
    "Verif.Props.C85_one_database",
    "Verif.Props.C85_screen",
    "Verif.Props.C85_possible"
   ],
   "note": "system of C82 with any number of command line clients; an invariant per terminal relates lines, requests, bytes on the wire and replies seen; the order is that in which the engine executes, real time by the order of events"
  },
  {
   "property": "C86",
   "status": "partial",
   "theorems": [
    "Verif.Props.C86_parts",
    "Verif.Props.C86_users_partial",
    "Verif.Props.C86_possible",
    "Verif.Props.C86_false"
   ],
   "note": "product of the systems of C84 and C85; the full claim KeptForUser is refuted by C86_false (user_loses); C86_users_partial holds for requests in UTF-8 other than LTRIM and SPOP, with processes stopped well and writers that are not overtaken, which C34_false and C33_false show to be needed"
  },
  {
   "property": "C87",
   "status": "partial",
   "theorems": [
    "Verif.Props.C87_parts",
    "Verif.Props.C87_users_partial",
    "Verif.Props.C87_possible",
    "Verif.Props.C87_served_partial",
    "Verif.Props.C87_false"
   ],
   "note": "product of the systems of C86 and C64 with one log file; the full claim ShownAtReplica is refuted by C87_false; C87_users_partial and C87_served_partial hold for requests in UTF-8 other than LTRIM and SPOP, with processes stopped well and writers that are not overtaken, which C34_false and C33_false show to be needed"
  },
  {
   "property": "C88",
   "status": "partial",
   "theorems": [
    "Verif.Props.C88_settles_partial",
    "Verif.Props.C88_held",
    "Verif.Props.C88_exact",
    "Verif.Props.C88_answered",
    "Verif.Props.C88_false",
    "Verif.Props.C88_stalled"
   ],
   "note": "the full claim InTheEnd is refuted by C88_false and C88_stalled; C88_exact says when it holds: exactly when the response worker is not held for ever in one call of Write"
  },
  {
   "property": "C89",
   "status": "proved",
   "theorems": [
    "Verif.Props.C89_read",
    "Verif.Props.C89_answered"
   ],
   "note": "for executions without end of the system of C82, on top of C62, C69 and C88"
  },
  {
   "property": "C90",
   "status": "partial",
   "theorems": [
    "Verif.Props.C90_recorded",
    "Verif.Props.C90_flushed_partial",
    "Verif.Props.C90_busy_partial",
    "Verif.Props.C90_kept_partial",
    "Verif.Props.C90_stays",
    "Verif.Props.C90_false"
   ],
   "note": "the full claim AllOnDisk is refuted by C90_false; C90_recorded says that every record is given to the file; C90_flushed_partial and C90_busy_partial prove the claim when the log is flushed again and again and when there is always more to log"
  },
  {
   "property": "C91",
   "status": "partial",
   "theorems": [
    "Verif.Props.C91_gone_partial",
    "Verif.Props.C91_told",
    "Verif.Props.C91_stays",
    "Verif.Props.C91_exact",
    "Verif.Props.C91_waits",
    "Verif.Props.C91_false",
    "Verif.Props.C91_stalled"
   ],
   "note": "the full claim GoneInTheEnd is refuted by C91_false (C91_waits, C91_stalled); C91_exact says when it holds"
  },
  {
   "property": "C92",
   "status": "partial",
   "theorems": [
    "Verif.Props.C92_closed_partial",
    "Verif.Props.C92_exact",
    "Verif.Props.C92_reader",
    "Verif.Props.C92_ended",
    "Verif.Props.C92_kept",
    "Verif.Props.C92_waits",
    "Verif.Props.C92_farewell",
    "Verif.Props.C92_false"
   ],
   "note": "each part of the full claim is refuted by C92_false (C92_farewell, C92_waits, C92_kept); C92_exact says exactly when the socket and the workers are gone, C92_reader and C92_ended what becomes of the reader"
  },
  {
   "property": "C93",
   "status": "proved",
   "theorems": [
    "Verif.Props.C93_released",
    "Verif.Props.C93_answered"
   ],
   "note": "C93_released without any assumption on engine, topics and response worker; C93_answered when all is well"
  },
  {
   "property": "C94",
   "status": "partial",
   "theorems": [
    "Verif.Props.C94_exact",
    "Verif.Props.C94_order_partial",
    "Verif.Props.C94_circle",
    "Verif.Props.C94_self",
    "Verif.Props.C94_false",
    "Verif.Props.C94_handled"
   ],
   "note": "the full claim AllGetUp is refuted by C94_false (C94_circle, C94_self: servers that are their own masters, directly or in a circle, never get up); C94_exact says when a server gets up, C94_order_partial that it does when there is no endless chain of masters"
  },
  {
   "property": "C95",
   "status": "partial",
   "theorems": [
    "Verif.Props.C95_exact",
    "Verif.Props.C95_forgets",
    "Verif.Props.C95_false"
   ],
   "note": "the full claim PassedOn is refuted by C95_false; C95_exact says what a replica takes whatever its master had taken from others, C95_forgets what is left of it after the next start"
  },
  {
   "property": "C96",
   "status": "partial",
   "theorems": [
    "Verif.Props.C96_one",
    "Verif.Props.C96_exact",
    "Verif.Props.C96_calm_partial",
    "Verif.Props.C96_closes",
    "Verif.Props.C96_goes_on",
    "Verif.Props.C96_returns",
    "Verif.Props.C96_left",
    "Verif.Props.C96_before",
    "Verif.Props.C96_false"
   ],
   "note": "both parts of the full claim are refuted by C96_false (C96_goes_on for all states after stop); C96_exact says when the process is ended, C96_calm_partial and C96_closes what holds"
  },
  {
   "property": "C97",
   "status": "proved",
   "theorems": [
    "Verif.Props.C97_tickets",
    "Verif.Props.C97_count",
    "Verif.Props.C97_queue",
    "Verif.Props.C97_lock"
   ],
   "note": "C97_tickets, C97_count, C97_queue, C97_lock over the model of users at terminals (Desk), where other clients may do what they like to other keys"
  },
  {
   "property": "C98",
   "status": "partial",
   "theorems": [
    "Verif.Props.C98_counter_partial",
    "Verif.Props.C98_counter_false",
    "Verif.Props.C98_group_partial",
    "Verif.Props.C98_group_false",
    "Verif.Props.C98_journal_partial",
    "Verif.Props.C98_journal_false",
    "Verif.Props.C98_tickets_partial",
    "Verif.Props.C98_queue_partial",
    "Verif.Props.C98_lock_partial",
    "Verif.Props.C98_tickets_false",
    "Verif.Props.C98_queue_false",
    "Verif.Props.C98_lock_false",
    "Verif.Props.C98_register_partial",
    "Verif.Props.C98_register_false",
    "Verif.Props.C98_roll_partial",
    "Verif.Props.C98_first_partial",
    "Verif.Props.C98_roll_false",
    "Verif.Props.C98_rows_partial",
    "Verif.Props.C98_rows_false",
    "Verif.Props.C98_sheet_partial",
    "Verif.Props.C98_sheet_false",
    "Verif.Props.C98_list_partial",
    "Verif.Props.C98_text_partial",
    "Verif.Props.C98_sets_partial"
   ],
   "note": "the full claims TicketsLast, QueueLasts, LockLasts, RegisterLasts, JournalLasts, GroupLasts, CounterLasts, RollLasts, RowsLast and SheetLasts are refuted by C98_tickets_false, C98_queue_false, C98_lock_false, C98_register_false, C98_journal_false, C98_group_false, C98_counter_false, C98_roll_false, C98_rows_false and C98_sheet_false (main may return before the log is written: the next process gives the same number, the same item and the lock again, and does not have the value, the entry or the amount); C98_tickets_partial, C98_queue_partial, C98_lock_partial, C98_register_partial, C98_journal_partial, C98_group_partial, C98_counter_partial, C98_roll_partial, C98_first_partial, C98_rows_partial, C98_sheet_partial, C98_list_partial, C98_text_partial and C98_sets_partial hold for processes whose log is written before they exit, and requests in UTF-8 other than LTRIM and SPOP"
  },
  {
   "property": "C99",
   "status": "proved",
   "theorems": [
    "Verif.Props.C99_register",
    "Verif.Props.C99_told",
    "Verif.Props.C99_lost_update"
   ],
   "note": "C99_register; C99_told is the case where everybody sets the same; C99_lost_update shows that reading and writing back is not one step"
  },
  {
   "property": "C100",
   "status": "proved",
   "theorems": [
    "Verif.Props.C100_journal",
    "Verif.Props.C100_alike"
   ],
   "note": "C100_journal; C100_alike for two users who read the whole list"
  },
  {
   "property": "C101",
   "status": "proved",
   "theorems": [
    "Verif.Props.C101_group",
    "Verif.Props.C101_alone",
    "Verif.Props.C101_onlookers"
   ],
   "note": "C101_group; C101_alone for one user; C101_onlookers if the others only read"
  },
  {
   "property": "C102",
   "status": "proved",
   "theorems": [
    "Verif.Props.C102_counter",
    "Verif.Props.C102_exact"
   ],
   "note": "C102_counter in 64 bits; C102_exact where the amounts cannot overflow"
  },
  {
   "property": "C103",
   "status": "proved",
   "theorems": [
    "Verif.Props.C103_roll",
    "Verif.Props.C103_first"
   ],
   "note": "C103_roll; C103_first: at most one line is told that it added a name"
  },
  {
   "property": "C104",
   "status": "proved",
   "theorems": [
    "Verif.Props.C104_rows",
    "Verif.Props.C104_alike",
    "Verif.Props.C104_torn"
   ],
   "note": "C104_rows; C104_alike for keys only set alike; C104_torn shows that setting them one after the other does not do"
  },
  {
   "property": "C105",
   "status": "proved",
   "theorems": [
    "Verif.Props.C105_sheet",
    "Verif.Props.C105_together"
   ],
   "note": "C105_sheet without any hypothesis on what is done to the hash; C105_together for fields only set together"
  },
  {
   "property": "C106",
   "status": "proved",
   "theorems": [
    "Verif.Props.C106_kept",
    "Verif.Props.C106_number"
   ],
   "note": "C106_kept for any statement about the abstract database; C106_number for a key that always holds a number"
  },
  {
   "property": "C107",
   "status": "proved",
   "theorems": [
    "Verif.Props.C107_list",
    "Verif.Props.C107_text",
    "Verif.Props.C107_sets"
   ],
   "note": "C107_list, C107_text and C107_sets without any hypothesis on what is done; instances of the same induction as C105_sheet"
  },
  {
   "property": "C108",
   "status": "partial",
   "theorems": [
    "Verif.Props.C108_users_partial",
    "Verif.Props.C108_pair_partial",
    "Verif.Props.C108_kept_partial",
    "Verif.Props.C108_together_partial",
    "Verif.Props.C108_kept_false"
   ],
   "note": "the full claim KeptForever is refuted by C108_kept_false: a record cut by a crash swallows the record the next process writes behind it, and the process after that executes a SET nobody sent; C108_kept_partial and C108_together_partial hold for processes that end at any moments if none but the last leaves a part of a record in the file; C108_users_partial and C108_pair_partial as users see it, for processes whose log is written before they exit"
  },
  {
   "property": "C109",
   "status": "proved",
   "theorems": [
    "Verif.Props.C109_replay",
    "Verif.Props.C109_file"
   ],
   "note": "C109_replay for all records and databases, including where the server dies; C109_file for any file"
  },
  {
   "property": "C110",
   "status": "proved",
   "theorems": [
    "Verif.Props.C110_refused",
    "Verif.Props.C110_waits",
    "Verif.Props.C110_soon",
    "Verif.Props.C110_connection",
    "Verif.Props.C110_stopped"
   ],
   "note": "C110_refused for all byte strings; C110_soon: with the last byte of the malformed form and not before; C110_waits with C62_read and C05_panic_iff says what every input is; C110_connection and C110_stopped for executions of a connection"
  }
 ]
}