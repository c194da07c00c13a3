{
 "claims": [
  {
   "property": "C01",
   "status": "proved",
   "theorems": [
    "Trc.Ring.C01_walk_is_most_recent",
    "Trc.Ring.C01_constant_capacity"
   ],
   "note": ""
  },
  {
   "property": "C02",
   "status": "proved",
   "theorems": [
    "Trc.Ring.C02_never_panics",
    "Trc.Ring.C02_negative_capacity"
   ],
   "note": ""
  },
  {
   "property": "C03",
   "status": "proved",
   "theorems": [
    "Trc.Ring.C03_add_hands_back_oldest",
    "Trc.Ring.C03_resize_hands_back_rest",
    "Trc.Ring.C03_conservation"
   ],
   "note": ""
  },
  {
   "property": "C04",
   "status": "proved",
   "theorems": [
    "Trc.Ring.C04_nonpositive_ignored",
    "Trc.Ring.C04_enough_room",
    "Trc.Ring.C04_shrink_then_grow"
   ],
   "note": ""
  },
  {
   "property": "C05",
   "status": "proved",
   "theorems": [
    "Trc.Ring.C05_walk_visits_all",
    "Trc.Ring.C05_walk_stops_at_error"
   ],
   "note": ""
  },
  {
   "property": "C06",
   "status": "proved",
   "theorems": [
    "Trc.Ring.C06_stats"
   ],
   "note": ""
  },
  {
   "property": "C07",
   "status": "proved",
   "theorems": [
    "Trc.Ring.C07_family",
    "Trc.Ring.C07_isolated",
    "Trc.Ring.C07_bounded",
    "Trc.Ring.C07_bounded_during_resize",
    "Trc.Ring.C07_nonpositive_ignored",
    "Trc.Ring.C07_resize",
    "Trc.Ring.C07_category_contents"
   ],
   "note": ""
  },
  {
   "property": "C08",
   "status": "proved",
   "theorems": [
    "Trc.Mutex.C08_serializable",
    "Trc.Mutex.C08_exclusive",
    "Trc.Mutex.C08_real_time",
    "Trc.Mutex.C08_core_trace",
    "Trc.Mutex.C08_ring_buffer"
   ],
   "note": ""
  },
  {
   "property": "C09",
   "status": "proved",
   "theorems": [
    "Trc.Core.C09_frozen",
    "Trc.Core.C09_frozen_events"
   ],
   "note": ""
  },
  {
   "property": "C10",
   "status": "proved",
   "theorems": [
    "Trc.Core.C10_errored"
   ],
   "note": ""
  },
  {
   "property": "C11",
   "status": "proved",
   "theorems": [
    "Trc.Core.C11_complete_in_order"
   ],
   "note": ""
  },
  {
   "property": "C12",
   "status": "proved",
   "theorems": [
    "Trc.Core.C12_truncation",
    "Trc.Core.C12_count_exact",
    "Trc.Core.C12_notice",
    "Trc.Core.C12_setting"
   ],
   "note": ""
  },
  {
   "property": "C13",
   "status": "proved",
   "theorems": [
    "Trc.Core.C13_formatted_at_call"
   ],
   "note": ""
  },
  {
   "property": "C14",
   "status": "proved",
   "theorems": [
    "Trc.StringerConc.C14_lazy_concurrent",
    "Trc.StringerConc.C14_lazy_stable",
    "Trc.StringerConc.C14_normal_concurrent",
    "Trc.StringerConc.C14_lazy_first_read",
    "Trc.StringerConc.C14_lazy_later_reads"
   ],
   "note": ""
  },
  {
   "property": "C15",
   "status": "proved",
   "theorems": [
    "Trc.Core.C15_duration",
    "Trc.Core.C15_duration_monotone"
   ],
   "note": ""
  },
  {
   "property": "C16",
   "status": "proved",
   "theorems": [
    "Trc.Core.C16_global_limit",
    "Trc.Core.C16_existing_traces_unaffected",
    "Trc.Core.C16_set_max_events"
   ],
   "note": ""
  },
  {
   "property": "C17",
   "status": "proved",
   "theorems": [
    "Trc.Core.C17_recycled_starts_clean",
    "Trc.Heap.C17_recycled_object_starts_clean"
   ],
   "note": ""
  },
  {
   "property": "C18",
   "status": "proved",
   "theorems": [
    "Trc.Core.C18_stack",
    "Trc.Core.C18_only_captured",
    "Trc.Core.C18_setting",
    "Trc.Core.C18_ignored"
   ],
   "note": ""
  },
  {
   "property": "C19",
   "status": "proved",
   "theorems": [
    "Trc.Heap.C19_unfinished_never_recycled",
    "Trc.Heap.C19_dropped_while_active",
    "Trc.Heap.C19_calls_stay_in_their_trace"
   ],
   "note": ""
  },
  {
   "property": "C20",
   "status": "proved",
   "theorems": [
    "Trc.Heap.C20_never_panics",
    "Trc.Heap.C20_held_distinct",
    "Trc.Heap.C20_events_distinct",
    "Trc.Heap.C20_held_not_reused"
   ],
   "note": ""
  },
  {
   "property": "C21",
   "status": "partial",
   "theorems": [
    "Trc.Heap.C21_freed_always_violated",
    "Trc.Heap.C21_frozen_while_held_partial",
    "Trc.Heap.C21_stale_handle_violated"
   ],
   "note": "False in the code once the collector has freed the trace (a witness run: C21_stale_handle_violated; and for every run and every finished trace that is dropped and freed: C21_freed_always_violated, its handle has no events at once, and the next trace created may be what it reports). Proved: it holds until then."
  },
  {
   "property": "C22",
   "status": "partial",
   "theorems": [
    "Trc.Heap.C22_snapshot_stable_partial",
    "Trc.Heap.C22_text_stable_partial",
    "Trc.Heap.C22_stack_overwritten_violated",
    "Trc.Heap.C22_dropped_always_violated"
   ],
   "note": "False in the code once the collector has freed the trace: stacks share memory with pooled events (C22_stack_overwritten_violated; for every snapshot with a stack of a finished, dropped trace: C22_dropped_always_violated). Proved: snapshots are stable until the trace is freed; time, text and error flag always."
  },
  {
   "property": "C23",
   "status": "proved",
   "theorems": [
    "Trc.Heap.C23_allocated",
    "Trc.Heap.C23_counters"
   ],
   "note": "Event/stringer lost counters are never changed by the code and not part of the claim."
  },
  {
   "property": "C24",
   "status": "proved",
   "theorems": [
    "Trc.Wrap.C24_creates",
    "Trc.Wrap.C24_new_trace",
    "Trc.Wrap.C24_retained",
    "Trc.Wrap.C24_nested",
    "Trc.Wrap.C24_text"
   ],
   "note": ""
  },
  {
   "property": "C25",
   "status": "proved",
   "theorems": [
    "Trc.C25_response",
    "Trc.C25_newest_first"
   ],
   "note": ""
  },
  {
   "property": "C26",
   "status": "partial",
   "theorems": [
    "Trc.C26_missed",
    "Trc.C26_most_recent_partial",
    "Trc.C26_most_recent_exact",
    "Trc.C26_most_recent_violated"
   ],
   "note": "False when traces of a category are added in another order than that of their start times, as concurrent creators may (proved: C26_most_recent_violated). Proved: the property whenever each category was filled in start order, and for traces with distinct IDs only then (C26_most_recent_exact); and, in whatever order, what must hold for a match to be missing (C26_missed)."
  },
  {
   "property": "C27",
   "status": "proved",
   "theorems": [
    "Trc.C27_totalCount"
   ],
   "note": ""
  },
  {
   "property": "C28",
   "status": "partial",
   "theorems": [
    "Trc.C28_matchCount_partial",
    "Trc.C28_matchCount_exact",
    "Trc.C28_matchCount_violated"
   ],
   "note": "False when a category has more matches than the limit: MatchCount counts at most the limit per category (proved: C28_matchCount_violated). Proved: the exact value, the bounds, and the property when no category exceeds the limit."
  },
  {
   "property": "C29",
   "status": "proved",
   "theorems": [
    "Trc.C29_stats"
   ],
   "note": ""
  },
  {
   "property": "C30",
   "status": "proved",
   "theorems": [
    "Trc.C30_order"
   ],
   "note": ""
  },
  {
   "property": "C31",
   "status": "proved",
   "theorems": [
    "Trc.C31_allow_iff",
    "Trc.C31_allow_repeatable"
   ],
   "note": ""
  },
  {
   "property": "C32",
   "status": "proved",
   "theorems": [
    "Trc.C32_empty_allows_all",
    "Trc.C32_more_conditions_narrow",
    "Trc.C32_contradictions_allow_nothing"
   ],
   "note": ""
  },
  {
   "property": "C33",
   "status": "proved",
   "theorems": [
    "Trc.C33_invalid_query",
    "Trc.C33_valid_query"
   ],
   "note": ""
  },
  {
   "property": "C34",
   "status": "partial",
   "theorems": [
    "Trc.C34_allow_all_iff",
    "Trc.C34_mentions_partial",
    "Trc.C34_ids_violated",
    "Trc.C34_ids_hidden_violated",
    "Trc.Web.C34_tells_exact",
    "Trc.Web.C34_neat_violated"
   ],
   "note": "The IDs condition prints the sources instead of the IDs (proved: C34_ids_violated, and C34_ids_hidden_violated for all filters with IDs). Proved: '(allow all)' exactly for the filter without conditions, and every other condition is mentioned with its value (C34_mentions_partial). C34_tells_exact: filters whose sources are words without closing brackets and whose categories have no quote print the same iff they have the same conditions but for the IDs; C34_neat_violated: without these conditions, filters that differ can print the same."
  },
  {
   "property": "C35",
   "status": "proved",
   "theorems": [
    "Trc.C35_limit",
    "Trc.C35_buckets",
    "Trc.C35_buckets_kept",
    "Trc.C35_default_buckets"
   ],
   "note": ""
  },
  {
   "property": "C36",
   "status": "partial",
   "theorems": [
    "Trc.C36_idempotent_partial",
    "Trc.C36_idempotent_exact",
    "Trc.C36_negative_bucket_violated"
   ],
   "note": "False for negative bucket boundaries: a second normalization adds another bucket (proved: C36_negative_bucket_violated). Proved: idempotent otherwise."
  },
  {
   "property": "C37",
   "status": "proved",
   "theorems": [
    "Trc.C37_counts"
   ],
   "note": ""
  },
  {
   "property": "C38",
   "status": "proved",
   "theorems": [
    "Trc.C38_cumulative"
   ],
   "note": ""
  },
  {
   "property": "C39",
   "status": "proved",
   "theorems": [
    "Trc.C39_extremes"
   ],
   "note": ""
  },
  {
   "property": "C40",
   "status": "partial",
   "theorems": [
    "Trc.C40_merge_partial",
    "Trc.C40_eventCount_violated",
    "Trc.C40_events_exact"
   ],
   "note": "False for event counts: CategoryStats.Merge leaves EventCount out (proved: C40_eventCount_violated). Proved: everything else, and exactly which merges count events rightly (C40_events_exact)."
  },
  {
   "property": "C41",
   "status": "partial",
   "theorems": [
    "Trc.C41_order_partial",
    "Trc.C41_eventCount_violated",
    "Trc.C41_events_exact"
   ],
   "note": "False for event counts: those merged first decide (proved: C41_eventCount_violated; exactly: C41_events_exact). Proved: everything else."
  },
  {
   "property": "C42",
   "status": "partial",
   "theorems": [
    "Trc.StatsHeap.C42_arguments_partial",
    "Trc.StatsHeap.C42_buckets_violated",
    "Trc.StatsHeap.C42_exact"
   ],
   "note": "False for bucket counts: the aggregate shares the array of the statistics merged first (C42_buckets_violated). Proved: all other fields, that the aggregate itself is right, and exactly which statistics share: the first that has a category gives its bucket counts to the aggregate, every other one is unchanged (C42_exact)."
  },
  {
   "property": "C43",
   "status": "partial",
   "theorems": [
    "Trc.C43_overall_partial",
    "Trc.C43_allCategories",
    "Trc.C43_eventCount_violated",
    "Trc.C43_events_exact"
   ],
   "note": "False for event counts: always 0 in Overall (proved: C43_eventCount_violated, C43_events_exact). Proved: all other counts, extremes, and the listing."
  },
  {
   "property": "C44",
   "status": "proved",
   "theorems": [
    "Trc.C44_aggregates"
   ],
   "note": "For every arrival order and every mixture of responses, errors and empty answers."
  },
  {
   "property": "C45",
   "status": "proved",
   "theorems": [
    "Trc.C45_most_recent",
    "Trc.C45_start_times",
    "Trc.C45_global"
   ],
   "note": "On traces on which the comparison is a strict weak order (see C48)."
  },
  {
   "property": "C46",
   "status": "proved",
   "theorems": [
    "Trc.C46_arrival_order"
   ],
   "note": "Also for different unstable sorts and map iteration orders."
  },
  {
   "property": "C47",
   "status": "partial",
   "theorems": [
    "Trc.C47_returns_partial",
    "Trc.C47_collectors",
    "Trc.C47_failing_searcher",
    "Trc.C47_negative_bucket_violated",
    "Trc.C47_other_buckets_violated",
    "Trc.C47_collectors_exact"
   ],
   "note": "A negative bucket makes the shared request grow when a collector normalizes it again, and the merge panics; so do malformed remote statistics. Proved for non-negative buckets and mergeable statistics, in particular for any collectors together with failing searchers; and over collectors that do not get to the request before the statistics are set up, a negative bucket always panics unless all searchers fail (C47_collectors_exact)."
  },
  {
   "property": "C48",
   "status": "partial",
   "theorems": [
    "Trc.C48_order_partial",
    "Trc.C48_cycle_violated",
    "Trc.C48_mixed_exact"
   ],
   "note": "Mixing local (monotonic) and remote (wall) times can give a cycle if the wall clock was set back. Proved for one kind of clock, and for mixtures with clocks in step; exact: mixed with any remote traces the order is a strict weak order iff it compares the given traces as their wall clocks then IDs do (C48_mixed_exact)."
  },
  {
   "property": "C49",
   "status": "proved",
   "theorems": [
    "Trc.Broker.C49_returned",
    "Trc.Broker.C49_stream_stats",
    "Trc.Broker.C49_not_subscribed"
   ],
   "note": "Broker as a transition system with any number of goroutines; statistics equal counts over the history between subscription and return."
  },
  {
   "property": "C50",
   "status": "proved",
   "theorems": [
    "Trc.Broker.C50_sent",
    "Trc.Broker.C50_received",
    "Trc.Broker.C50_sublist"
   ],
   "note": "Per-subscription fate of every published trace, queue contents, and order over the whole history."
  },
  {
   "property": "C51",
   "status": "proved",
   "theorems": [
    "Trc.Broker.C51_verdict",
    "Trc.Broker.C51_publish_completes",
    "Trc.Broker.C51_not_delayed",
    "Trc.Broker.C51_publish_begins"
   ],
   "note": "Verdict characterised by the history of that channel alone; a publish always runs to its end by its own steps."
  },
  {
   "property": "C52",
   "status": "proved",
   "theorems": [
    "Trc.Broker.C52_refused",
    "Trc.Broker.C52_refused_unchanged",
    "Trc.Broker.C52_called",
    "Trc.Broker.C52_granted",
    "Trc.Broker.C52_fresh_stats"
   ],
   "note": ""
  },
  {
   "property": "C53",
   "status": "proved",
   "theorems": [
    "Trc.Broker.C53_nothing_after_return",
    "Trc.Broker.C53_no_programmer_error",
    "Trc.Broker.C53_returns",
    "Trc.Broker.C53_others_stay"
   ],
   "note": ""
  },
  {
   "property": "C54",
   "status": "partial",
   "theorems": [
    "Trc.Wrap.C54_reduced_partial",
    "Trc.Wrap.C54_about",
    "Trc.Wrap.C54_exact",
    "Trc.Wrap.Witness.C54_reduced_violated"
   ],
   "note": "False when the trace is finished while NewStreamTrace reads it: the message says finished and carries one event (proved: C54_reduced_violated; exactly when: C54_exact). Proved: everything else, under any concurrent calls."
  },
  {
   "property": "C55",
   "status": "partial",
   "theorems": [
    "Trc.Wrap.C55_interleaved",
    "Trc.Wrap.C55_streamed_exact",
    "Trc.Wrap.C55_caught_up",
    "Trc.Wrap.C55_created",
    "Trc.Wrap.C55_streamed_partial",
    "Trc.Wrap.Witness.C55_streamed_violated"
   ],
   "note": "False when two goroutines log to the same trace at once, since logging and publishing are two steps (proved: C55_streamed_violated). Proved: the exact message sequence when calls on one trace do not overlap (C55_streamed_partial); and for every interleaving of logging calls, finishing and publications which message each publication makes (C55_interleaved), that an event gets a message of its own exactly if the trace is published before anything else is logged to it (C55_streamed_exact), and that the last message is up to date once all calls have returned (C55_caught_up). All up to the event limit, with any other concurrent activity."
  },
  {
   "property": "C56",
   "status": "proved",
   "theorems": [
    "Trc.Wrap.C56_prefix"
   ],
   "note": ""
  },
  {
   "property": "C57",
   "status": "partial",
   "theorems": [
    "Trc.Wrap.Args.C57_own_args_partial",
    "Trc.Wrap.Args.C57_own_args_violated",
    "Trc.Wrap.Args.C57_spare_exact",
    "Trc.Wrap.Args.C57_spare_violated"
   ],
   "note": "False when the caller's argument slice has spare capacity: append shares the array (C57_own_args_violated; C57_spare_violated for every slice with spare capacity, C57_spare_exact says exactly which arguments each call ends up with). Proved: the property for slices without spare capacity."
  },
  {
   "property": "C58",
   "status": "partial",
   "theorems": [
    "Trc.Wrap.C58_regions_partial",
    "Trc.Wrap.Witness.C58_name_violated",
    "Trc.Wrap.Witness.C58_orphan_violated",
    "Trc.Wrap.C58_name_exact"
   ],
   "note": "False for region names with percent signs and on contexts without a trace (proved: C58_name_violated, C58_orphan_violated); C58_name_exact: exactly the names without a percent sign give the right text. Proved: the exact events for all nestings of regions and prefixes otherwise."
  },
  {
   "property": "C59",
   "status": "partial",
   "theorems": [
    "Trc.Wrap.C59_stack_exact",
    "Trc.Wrap.C59_transparent_partial",
    "Trc.Wrap.C59_freed",
    "Trc.Wrap.C59_freed_prefix",
    "Trc.Wrap.Witness.C59_stack_violated"
   ],
   "note": "Stacks lose frames at the outer end, since wrapper frames take up some of the eight captured (C59_stack_violated; C59_stack_exact gives the stack through any wrappers), and lazy events are formatted when first published. Proved: everything else; stacks are a prefix, and equal if they fit."
  },
  {
   "property": "C60",
   "status": "proved",
   "theorems": [
    "Trc.Wrap.C60_innermost",
    "Trc.Wrap.C60_put",
    "Trc.Wrap.C60_orphan"
   ],
   "note": ""
  },
  {
   "property": "C61",
   "status": "proved",
   "theorems": [
    "Trc.Web.C61_round_trip"
   ],
   "note": ""
  },
  {
   "property": "C62",
   "status": "proved",
   "theorems": [
    "Trc.Web.C62_clamped",
    "Trc.Web.C62_stats_interval"
   ],
   "note": ""
  },
  {
   "property": "C63",
   "status": "proved",
   "theorems": [
    "Trc.Web.C63_bucketing",
    "Trc.Web.C63_ascending"
   ],
   "note": ""
  },
  {
   "property": "C64",
   "status": "partial",
   "theorems": [
    "Trc.Web.C64_negotiated_exact",
    "Trc.Web.C64_negotiated_partial",
    "Trc.Web.C64_first_line",
    "Trc.Web.C64_second_line_violated"
   ],
   "note": "Proved for requests with at most one Accept line; with more, only the first line is looked at (C64_second_line_violated), C64_first_line says that the first decides, and C64_negotiated_exact for which requests the claim holds. mime.ParseMediaType is a parameter."
  },
  {
   "property": "C65",
   "status": "partial",
   "theorems": [
    "Trc.Web.C65_finishes_always_violated",
    "Trc.Web.C65_truncated_always_violated",
    "Trc.Web.C65_calls",
    "Trc.Web.C65_finished",
    "Trc.Web.C65_events_partial",
    "Trc.Web.C65_handler_finishes_violated",
    "Trc.Web.C65_truncated_violated"
   ],
   "note": "Call level proved for every handler (C65_calls, C65_finished). What the response trace records is proved under the hypotheses of C65_events_partial. Without them the claim is false for every handler: for any that finishes the trace (C65_finishes_always_violated) and any that exceeds the limit (C65_truncated_always_violated), with the events that are left; the other _violated theorems are witnesses."
  },
  {
   "property": "C66",
   "status": "partial",
   "theorems": [
    "Trc.Web.C66_bytes_partial",
    "Trc.Web.C66_status_partial",
    "Trc.Web.C66_exact",
    "Trc.Web.C66_late_status_violated",
    "Trc.Web.C66_informational_violated",
    "Trc.Web.C66_head_violated",
    "Trc.Web.C66_panic_violated"
   ],
   "note": "Status and byte counts are right for handlers that write the status once before the body. Violated for a late WriteHeader, informational statuses, HEAD requests and panicking handlers. C66_exact says for every handler that returns exactly when the two agree."
  },
  {
   "property": "C67",
   "status": "partial",
   "theorems": [
    "Trc.Web.C67_deltas_exact",
    "Trc.Web.C67_in_step",
    "Trc.Web.C67_shape",
    "Trc.Web.C67_deltas_partial",
    "Trc.Web.C67_mixed_clocks_violated"
   ],
   "note": "Shape proved for all traces; sums of deltas for traces whose times are on one clock, and for traces with clocks in step, some of whose times come from the wire (C67_in_step). C67_deltas_exact says what the sum is for any trace: the duration less by how much the wall clock was set between successive readings. Mixed clocks: C67_mixed_clocks_violated."
  },
  {
   "property": "C68",
   "status": "proved",
   "theorems": [
    "Trc.C68_zero",
    "Trc.C68_trim"
   ],
   "note": ""
  },
  {
   "property": "C69",
   "status": "proved",
   "theorems": [
    "Trc.Web.C69_unsubscribed",
    "Trc.Web.C69_not_own",
    "Trc.Web.C69_in_order",
    "Trc.Web.C69_filtered",
    "Trc.Web.C69_returns",
    "Trc.Web.C69_stops",
    "Trc.Web.C69_zero_interval_hangs"
   ],
   "note": "Proved for every schedule of the stream handler and the publishing goroutines. C69_zero_interval_hangs is an additional finding."
  },
  {
   "property": "C70",
   "status": "partial",
   "theorems": [
    "Trc.Web.C70_answers_partial",
    "Trc.Web.C70_answers_exact",
    "Trc.Web.C70_bad_body",
    "Trc.Web.C70_failing_searcher_violated",
    "Trc.Web.C70_no_stats_violated",
    "Trc.Web.C70_json_problems_violated"
   ],
   "note": "Violated: any failing searcher, or a response without statistics, panics the handler; JSON responses never carry the handler's problems. Partial: every other request is answered with all problems. Exact: the handler answers just if the searcher returns a response with statistics (C70_answers_exact)."
  },
  {
   "property": "C71",
   "status": "partial",
   "theorems": [
    "Trc.Web.C71_remote_exact",
    "Trc.Web.C71_remote_partial",
    "Trc.Web.C71_client_errors",
    "Trc.Web.C71_large_request_violated",
    "Trc.Web.C71_negative_bucket_violated"
   ],
   "note": "Partial: proved for filters without a stale compiled query, without negative buckets, of at most 1 MB. Violated for negative buckets and larger requests; C71_remote_exact: these are the only exceptions. The problems of the request are lost (reply.problems = [])."
  },
  {
   "property": "C72",
   "status": "partial",
   "theorems": [
    "Trc.Web.C72_scheme_exact",
    "Trc.Web.C72_zero_buffer_always_violated",
    "Trc.Web.C72_in_range",
    "Trc.Web.C72_idempotent",
    "Trc.Web.C72_scheme_partial",
    "Trc.Web.C72_scheme_violated",
    "Trc.Web.C72_server_partial",
    "Trc.Web.C72_zero_buffer_violated",
    "Trc.Web.C72_unset"
   ],
   "note": "Ranges and idempotence for all settings; the URI scheme claim is false for hosts beginning with http and for other schemes (C72_scheme_violated; exactly for which: C72_scheme_exact); a send buffer of 0 or less is always replaced by the server's default (C72_zero_buffer_always_violated)."
  },
  {
   "property": "C73",
   "status": "proved",
   "theorems": [
    "Trc.Util.C73_bounds",
    "Trc.Util.C73_monotone",
    "Trc.Util.C73_idempotent",
    "Trc.Util.C73_small"
   ],
   "note": ""
  },
  {
   "property": "C74",
   "status": "proved",
   "theorems": [
    "Trc.C74_compact",
    "Trc.C74_filter_model"
   ],
   "note": ""
  },
  {
   "property": "C75",
   "status": "proved",
   "theorems": [
    "Trc.Lock.C75_no_deadlock",
    "Trc.Lock.C75_no_cycle",
    "Trc.Lock.C75_releases",
    "Trc.Lock.C75_waiting_gets_lock",
    "Trc.Lock.C75_reentrant_argument_deadlocks"
   ],
   "note": "Proved for any number of goroutines and calls. C75_reentrant_argument_deadlocks shows why the proviso on formatting is needed."
  },
  {
   "property": "C76",
   "status": "partial",
   "theorems": [
    "Trc.Wrap.C76_set_max_events_violated",
    "Trc.Wrap.C76_set_max_events_partial"
   ],
   "note": "False: wrappers hide the method, so it reports failure on every trace of a collector (proved: C76_set_max_events_violated). Proved: exactly when it works."
  },
  {
   "property": "C77",
   "status": "partial",
   "theorems": [
    "Trc.Wrap.C77_error_always_violated",
    "Trc.Wrap.C77_snapshot_partial",
    "Trc.Wrap.C77_finished_exact",
    "Trc.Wrap.Witness.C77_snapshot_violated"
   ],
   "note": "False when the trace changes between the getters (a witness: C77_snapshot_violated; for every active, unerrored trace below its limit and every error logged before the events are read: C77_error_always_violated). Proved: for finished traces, and without concurrent changes; and of copies that say finished, exactly: events and errored are always right, and the copy is a snapshot if and only if its duration is right, which it need not be if the trace was finished while it was copied (C77_finished_exact)."
  },
  {
   "property": "C78",
   "status": "partial",
   "theorems": [
    "Trc.Wrap.C78_publish_partial",
    "Trc.Wrap.Witness.C78_publish_violated"
   ],
   "note": "False with a custom new-trace function that wraps before the publisher (proved: C78_publish_violated). Proved: exactly when it panics; never with the default."
  },
  {
   "property": "C79",
   "status": "partial",
   "theorems": [
    "Trc.C79_merged_exact",
    "Trc.C79_merged_always_violated",
    "Trc.C79_rate",
    "Trc.C79_overall_partial",
    "Trc.C79_counted_twice_partial",
    "Trc.C79_merged_violated",
    "Trc.C79_new_category"
   ],
   "note": "What a category reports on its own: C79_rate. Overall: proved for all statistics, orders and clock readings (C79_overall_partial). Merging two sources is false in the code: CategoryStats.Merge adds the traces first and asks for its own rate afterwards, so the other side's traces count twice (C79_merged_violated, C79_counted_twice_partial); the merged rate is right exactly if the other side's is zero (C79_merged_exact), and otherwise too high for ever (C79_merged_always_violated). Floats are modelled as exact rationals."
  },
  {
   "property": "C80",
   "status": "proved",
   "theorems": [
    "Trc.Util.C80_read_back",
    "Trc.Util.C80_same_text",
    "Trc.Util.C80_no_seconds"
   ],
   "note": "For all 64-bit durations; ParseDuration's floating-point product assumed exact where all values are integers below 2^53 (ExactMul)."
  },
  {
   "property": "C81",
   "status": "proved",
   "theorems": [
    "Trc.Web.C81_in_order",
    "Trc.Web.C81_bad_event",
    "Trc.Web.C81_stops_at_bad",
    "Trc.Web.C81_final",
    "Trc.Web.C81_can_return",
    "Trc.Web.C81_end_to_end"
   ],
   "note": "Events are those the eventsource package delivers; it is external. The end-to-end theorem composes with the handler model of C69."
  },
  {
   "property": "C82",
   "status": "partial",
   "theorems": [
    "Trc.Web.C82_closed_partial",
    "Trc.Web.C82_cancelled_partial",
    "Trc.Web.C82_always_violated",
    "Trc.Web.C82_connection_violated"
   ],
   "note": "False when Stream returns an error before its context is cancelled: the goroutine waits for the context and the connection stays open until then. Proved for a nil result, and that cancelling the context closes the connection."
  },
  {
   "property": "C83",
   "status": "proved",
   "theorems": [
    "Trc.Cmd.C83_one_at_a_time",
    "Trc.Cmd.C83_cleans_up",
    "Trc.Cmd.C83_can_return",
    "Trc.Cmd.C83_retries",
    "Trc.Cmd.C83_no_crash",
    "Trc.Cmd.C83_streams"
   ],
   "note": "One goroutine of runStreams per URI; the stream within is the model of C81. Liveness as 'can return': there is a continuation without the receiver's help."
  },
  {
   "property": "C84",
   "status": "partial",
   "theorems": [
    "Trc.Cmd.C84_stream_filter_partial",
    "Trc.Cmd.C84_ignored",
    "Trc.Cmd.C84_exact",
    "Trc.Cmd.C84_active_violated"
   ],
   "note": "False for --active, which is ignored, and for --finished together with --events. Proved for all other flags, and exactly what is shown for all flags (C84_exact)."
  },
  {
   "property": "C85",
   "status": "proved",
   "theorems": [
    "Trc.Cmd.C85_stack_depth",
    "Trc.Cmd.C85_end_to_end"
   ],
   "note": "Composes the models of the request normalization, the client, the handler, the collector search and the multi searcher. Which traces are chosen among the matching ones is C25, C26 and C45."
  },
  {
   "property": "C86",
   "status": "partial",
   "theorems": [
    "Trc.Wrap.C86_lines_partial",
    "Trc.Wrap.C86_lines_exact",
    "Trc.Wrap.C86_started",
    "Trc.Wrap.C86_logger",
    "Trc.Wrap.C86_logger_starts",
    "Trc.Wrap.Witness.C86_extra_violated"
   ],
   "note": "One line per call, in order, with the event's text or the outcome, if formats do not end in the midst of a directive and take all the arguments and IDs have no percent sign (`C86_lines_partial`); for any formats, what is written for a call ends a line exactly under these conditions (`C86_lines_exact`). Through a logger each line is put out after its header, and every record begins a line whatever is written (`C86_logger`, `C86_logger_starts`). False in general (`C86_extra_violated`): the ID and the newline are put into the format, so superfluous arguments and formats ending with a percent sign break lines."
  },
  {
   "property": "C87",
   "status": "partial",
   "theorems": [
    "Trc.Wrap.C87_finished_partial",
    "Trc.Wrap.C87_once_partial",
    "Trc.Wrap.C87_told",
    "Trc.Wrap.Witness.C87_once_violated"
   ],
   "note": "False: every logging call or Finish on a finished trace publishes it again, as finished (C87_once_violated). Proved: the number of final messages is the number of publications after the first Finish, all of them agree and none is followed by one that says active; once Finish has returned there is at least one; exactly one if nothing is called on the trace while it is being finished or later."
  },
  {
   "property": "C88",
   "status": "proved",
   "theorems": [
    "Trc.Search.C88_concurrent",
    "Trc.Search.C88_not_an_instant"
   ],
   "note": "Each trace is added once and keeps its category. C88_not_an_instant: what is counted need not be retained at any one instant (three traces counted though there are never more than two)."
  },
  {
   "property": "C89",
   "status": "partial",
   "theorems": [
    "Trc.Web.C89_category_exact",
    "Trc.Web.C89_category_always_violated",
    "Trc.Web.C89_query_exact",
    "Trc.Web.C89_summary_partial",
    "Trc.Web.C89_summary_violated",
    "Trc.Web.C89_trace_links",
    "Trc.Web.C89_trace_link"
   ],
   "note": "False: query parameters are put together unescaped and marked safe, so & ; # + and % with two hexadecimal digits in a category, source or query change the meaning of the summary's links, and a category named overall has no link of its own. True for texts without these characters, and for the links of single traces. Exactly: the links of a row ask for its category, and those of a page for its query, if and only if the text has none of & ; # + and no such % (C89_category_exact, C89_query_exact; C89_category_always_violated). What html/template does with URLs is modelled after the standard library."
  },
  {
   "property": "C90",
   "status": "partial",
   "theorems": [
    "Trc.Web.C90_counts_partial",
    "Trc.Web.C90_counts_exact",
    "Trc.Web.C90_counts_violated"
   ],
   "note": "False for errors and buckets: their links also find active traces with errors and traces that ended in an error; and numbers are not restricted to the page's sources and query. True with these restrictions; and on pages without sources and query all numbers are right just if no trace has an error (C90_counts_exact)."
  },
  {
   "property": "C91",
   "status": "partial",
   "theorems": [
    "Trc.Web.C91_percentages_partial",
    "Trc.Web.C91_exact",
    "Trc.Web.C91_percentages_violated"
   ],
   "note": "False without traces: the percentages are 0/0 (C91_exact: just then). The quotient is exact in the model, floating point in the code."
  },
  {
   "property": "C92",
   "status": "partial",
   "theorems": [
    "Trc.Web.C92_shown",
    "Trc.Web.C92_highlight_partial",
    "Trc.Web.C92_highlight_exact",
    "Trc.Web.C92_highlight_violated",
    "Trc.Web.C92_own_tags_violated",
    "Trc.Web.C92_any_tag_violated"
   ],
   "note": "False on pages with a query: the script that marks what was found assigns the text of the event to innerHTML, so that texts with tags become markup (C92_any_tag_violated for any tag before a match). True without a query (C92_shown). With a query, C92_highlight_exact: a text in which no reference begins is shown as it is iff it has none of the mark's own tags and no tag begins before, in, or after the match; C92_highlight_partial: then the mark is the only tag. The regular expression is an arbitrary function; of how browsers read markup it is left out that > does not end tags in attributes or comments, and that some references need no semicolon."
  },
  {
   "property": "C93",
   "status": "partial",
   "theorems": [
    "Trc.Web.C93_form_partial",
    "Trc.Web.C93_form_exact",
    "Trc.Web.C93_form_violated"
   ],
   "note": "False: the form has no fields for IDs and buckets, only one for the first source, and that only if the response names several sources including it; browsers drop line breaks from the query and pair those in hidden fields. True otherwise, and in no other case (C93_form_exact). The browser's part is modelled after the HTML standard."
  },
  {
   "property": "C94",
   "status": "proved",
   "theorems": [
    "Trc.Cmd.C94_in_order",
    "Trc.Cmd.C94_complete",
    "Trc.Cmd.C94_not_stuck",
    "Trc.Cmd.C94_can_end",
    "Trc.Cmd.C94_ended",
    "Trc.Cmd.C94_end_to_end"
   ],
   "note": "The run group is oklog/run after its documentation: when one actor returns, all are interrupted in order, and Run returns when all have returned. C94_complete and C94_can_end need a positive stats interval (see C82). Writing a trace to the output is one step."
  },
  {
   "property": "C95",
   "status": "proved",
   "theorems": [
    "Trc.Wrap.C95_found"
   ],
   "note": "Composes C07, C11, C18, C24, C25, C56, C59. IDs are assumed distinct (they come from ulid). The search looks at the trace while nothing happens to it (C88 is about searches during activity); the size of the categories is not changed meanwhile."
  },
  {
   "property": "C96",
   "status": "partial",
   "theorems": [
    "Trc.Race.C96_ordered_partial",
    "Trc.Race.C96_race_free_partial",
    "Trc.Race.C96_finish_violated",
    "Trc.Race.C96_search_violated",
    "Trc.Race.C96_prefix_violated"
   ],
   "note": "False in the code, in three ways. Finish publishes after it has released the trace, so a goroutine creating traces may have had it pushed out, freed and recycled, and initializes it while Finish reads it (C96_finish_violated). Search results point to the frames of events, which are recycled while the results are read (C96_search_violated). Goroutines using a prefixed trace whose arguments have spare capacity append to the same array (C96_prefix_violated). Proved for all programs, interleavings and pool behaviours: events, buffers, collectors and brokers never race, and traces and frames race only if their object was recycled and the accesses belong to different lifetimes (C96_ordered_partial); so nothing races as long as no object is taken from its pool twice and no prefix has spare capacity (C96_race_free_partial). Memory is modelled as coarse as the locks; atomics, the pools' own memory and user code are no accesses."
  },
  {
   "property": "C97",
   "status": "partial",
   "theorems": [
    "Trc.Shared.C97_read_only_partial",
    "Trc.Shared.C97_no_conflict_partial",
    "Trc.Shared.C97_default_buckets",
    "Trc.Shared.C97_negative_always_violated",
    "Trc.Shared.C97_negative_violated"
   ],
   "note": "True of requests without negative buckets. With a negative bucket a normalized request is not in order (zero is put before it), so that each searcher sorts it and prepends a zero again: C97_negative_always_violated shows conflicting writes for every such request and whatever happened before, C97_negative_violated a case. That sort.Slice does not write to a slice that is in order already is part of the model."
  },
  {
   "property": "C98",
   "status": "proved",
   "theorems": [
    "Trc.Cmd.C98_printed"
   ],
   "note": "Composes C50, C55, C69, C81, C84 and C94. IDs are assumed distinct (they come from ulid). What a settled state is, is in the structure Settled; that such states are reached is shown for any list of messages (EndExample.caught, EndExample.prints)."
  },
  {
   "property": "C99",
   "status": "partial",
   "theorems": [
    "Trc.Ulid.C99_panic_exact",
    "Trc.Ulid.C99_format",
    "Trc.Ulid.C99_by_time",
    "Trc.Ulid.C99_increasing_partial",
    "Trc.Ulid.C99_sequential",
    "Trc.Ulid.C99_no_panic_partial",
    "Trc.Ulid.Example.C99_order_violated",
    "Trc.Ulid.Example.C99_distinct_violated",
    "Trc.Ulid.Example.C99_panic_violated"
   ],
   "note": "Proved: IDs have 26 characters of the alphabet; of two traces that started in different milliseconds the earlier has the smaller ID, whatever is going on (C99_by_time); IDs increase strictly if they are requested in the order of the start times, in particular for traces created one after the other (C99_sequential), as long as the 80 random bits are not all zero; there is no panic if the random bits leave room for the increments; within one millisecond, when exactly there is a panic (C99_panic_exact). Violated in full: a goroutine that reads the clock and gets its ID after another one has got an ID for the next millisecond draws new random bits, so its ID can be smaller than, or the same as, that of an earlier trace of its millisecond; and MustNew panics if the entropy overflows. The package ulid is modelled from its documentation, as it is not in the repository."
  },
  {
   "property": "C100",
   "status": "partial",
   "theorems": [
    "Trc.Cmd.C100_by_url",
    "Trc.Cmd.C100_by_name_partial",
    "Trc.Cmd.C100_refused",
    "Trc.Cmd.C100_once_partial",
    "Trc.Cmd.C100_total_partial",
    "Trc.Cmd.C100_once_violated",
    "Trc.Cmd.C100_name_violated",
    "Trc.Cmd.C100_blank",
    "Trc.Cmd.C100_once_exact",
    "Trc.Cmd.C100_total_exact"
   ],
   "note": "Proved: by URL; by name unless the host begins with http; failure without asking; each URI once exactly if no two of the names stand for the same URI (once_exact), and when the total is right (total_exact). Violated: two names of one server (asked and counted twice), hosts that begin with http, schemes in capitals."
  },
  {
   "property": "C101",
   "status": "partial",
   "theorems": [
    "Trc.Util.C101_rate_close",
    "Trc.Util.C101_rate_monotone",
    "Trc.Util.C101_million",
    "Trc.Util.C101_zero",
    "Trc.Util.C101_width_partial",
    "Trc.Util.C101_width_violated",
    "Trc.Util.C101_width_exact",
    "Trc.Util.C101_bytes_close",
    "Trc.Util.C101_bytes_monotone"
   ],
   "note": "Proved: closeness, monotonicity, when 1M+ and 0 are shown, for rates and sizes. The width of four characters is violated by rates that round up to 10.0K or 1000K (C101_width_violated: all of 9951..10000 and 999501..1000000), and proved for the others; C101_width_exact states the boundary as an equivalence."
  },
  {
   "property": "C102",
   "status": "partial",
   "theorems": [
    "Trc.Web.C102_exact",
    "Trc.Web.C102_highlight_partial",
    "Trc.Web.C102_overall",
    "Trc.Web.C102_clicked_partial",
    "Trc.Web.C102_default_buckets",
    "Trc.Web.C102_fraction_violated"
   ],
   "note": "Partial: false for a minimum duration that is written with a fraction, such as 1.5s (C102_fraction_violated): the point makes the selector invalid and nothing is highlighted. Proved for all others that are not negative, which include all default buckets (C102_default_buckets). C102_exact: right if and only if the duration is written without a point. Following links: for the names of categories of C89_summary_partial."
  },
  {
   "property": "C103",
   "status": "partial",
   "theorems": [
    "Trc.Cmd.C103_all",
    "Trc.Cmd.C103_recent_partial",
    "Trc.Cmd.C103_recent_violated",
    "Trc.Cmd.C103_found"
   ],
   "note": "C103_all and C103_found hold as stated. Partial: that the most recent ones are printed if there are more than --limit is false if a trace that started later was added to its category earlier (C103_recent_violated, as C26), and is proved if traces were added in the order of their start times and the wall clocks ran in step with the monotonic clocks (C103_recent_partial)."
  },
  {
   "property": "C104",
   "status": "partial",
   "theorems": [
    "Trc.Web.Assets.C104_local_partial",
    "Trc.Web.Assets.C104_embedded_partial",
    "Trc.Web.Assets.C104_unset_violated",
    "Trc.Web.Assets.C104_root_violated",
    "Trc.Web.Assets.C104_json"
   ],
   "note": "False: an unset variable means the working directory, so a file traces.html or traces.css there is used, and since the set of templates includes its root, a directory named root there, as in /, makes every page an error. True if the directory has nothing named root and only proper templates under the two names."
  },
  {
   "property": "C105",
   "status": "partial",
   "theorems": [
    "Trc.Config.C105_settings",
    "Trc.Config.C105_configured_partial",
    "Trc.Config.C105_configured_exact",
    "Trc.Config.C105_nested",
    "Trc.Config.C105_earlier",
    "Trc.Config.C105_nil_func",
    "Trc.Config.C105_array_violated"
   ],
   "note": "False only for a program that changes the array of a slice of decorators after giving it to NewCollector or SetDecorators(ds...): the collector keeps the slice without copying it. C105_configured_exact: for all programs, a trace is wrapped by what that array holds when the trace is made. SetNewTrace(nil) makes NewTrace panic, SetSourceName(\"\") sets an empty source. Settings changed while another goroutine makes traces are data races (C96 leaves them out)."
  },
  {
   "property": "C106",
   "status": "partial",
   "theorems": [
    "Trc.Web.Age.C106_age_partial",
    "Trc.Web.Age.C106_second_violated",
    "Trc.Web.Age.C106_precise",
    "Trc.Web.Age.C106_fresh",
    "Trc.Web.Age.C106_monotone",
    "Trc.Web.Age.C106_exact",
    "Trc.Web.Age.C106_second_always_violated"
   ],
   "note": "False: the page is given the start in whole seconds, so a trace is shown as up to a second older than it is; one that started a millisecond ago may be shown as a second old, and milliseconds as shown mean nothing. True to within that second. Exactly: ages are right at all times if and only if the trace started at a whole second (C106_exact); any other trace is at some moment shown as older than it is (C106_second_always_violated)."
  },
  {
   "property": "C107",
   "status": "partial",
   "theorems": [
    "Trc.Web.Fields.C107_race_exact",
    "Trc.Web.Fields.C107_crash_exact",
    "Trc.Web.Fields.C107_failed_exact",
    "Trc.Web.Fields.C107_uses_partial",
    "Trc.Web.Fields.C107_no_race_partial",
    "Trc.Web.Fields.C107_new",
    "Trc.Web.Fields.C107_race_violated",
    "Trc.Web.Fields.C107_crash_violated"
   ],
   "note": "False for literals with a field left to its default, as the doc of the fields invites: the first requests initialize the fields without synchronization, so two of them race (the complex example does this), and a server given a Searcher only ends the whole program on one request that accepts text/event-stream. True if what is to be used is there (which implementation serves) and if both fields are set, as by NewTraceServer (no race). C107_race_exact, C107_crash_exact and C107_failed_exact say exactly for which fields there is a race, a crash or a failing request. The race is a conflict of accesses that nothing orders: the model has no other synchronization because ServeHTTP has none."
  },
  {
   "property": "C108",
   "status": "proved",
   "theorems": [
    "Trc.Gather.C108_gathers",
    "Trc.Gather.C108_no_goroutine_left",
    "Trc.Gather.C108_returns",
    "Trc.Gather.C108_one_hangs",
    "Trc.Gather.C108_one_panics",
    "Trc.Gather.C108_any_order"
   ],
   "note": "About the goroutines and the channel of MultiSearcher.Search; what is made of the answers, in any order of arrival, is C44 to C47. C108_one_hangs and C108_one_panics state the limits: the search itself does not look at its context."
  },
  {
   "property": "C109",
   "status": "partial",
   "theorems": [
    "Trc.Cmd.C109_help",
    "Trc.Cmd.C109_misuse",
    "Trc.Cmd.C109_runs",
    "Trc.Cmd.C109_levels",
    "Trc.Cmd.C109_search_partial",
    "Trc.Cmd.C109_failed_violated",
    "Trc.Cmd.C109_no_command_violated"
   ],
   "note": "False: trc search exits with status 0 though no server has answered (the problems are in its output only), and a missing or misspelled command after a valid URI prints help and exits with status 0. True otherwise. Parsing of the arguments is the ff package's, and a parameter."
  },
  {
   "property": "C110",
   "status": "proved",
   "theorems": [
    "Trc.Web.C110_found"
   ],
   "note": "End to end: C103 (from NewTrace to what trc prints), C65 (what the middleware logs) and C66 (status and size) for the middleware as actions on the wrapped trace. Formatting of strings with %s and of ints with %d is a hypothesis on the parameter Render; C103's general form printed_new is used for direct calls of the trace's methods."
  },
  {
   "property": "C111",
   "status": "partial",
   "theorems": [
    "Trc.Web.C111_collector",
    "Trc.Web.C111_net_partial",
    "Trc.Web.C111_negative_violated",
    "Trc.Web.C111_foreign_violated"
   ],
   "note": "True for collectors (C111_collector, all requests) and for networks if no bucket is negative (C111_net_partial). False otherwise: with ?b=-1s every multi-searcher over a live remote server panics (C111_negative_violated, for all contents and other searchers), and a foreign server with more counts than buckets makes an error page (C111_foreign_violated). That nothing else in the template can fail is by reading it."
  },
  {
   "property": "C112",
   "status": "partial",
   "theorems": [
    "Trc.Heap.C112_bounded_partial",
    "Trc.Heap.C112_events_per_trace",
    "Trc.Heap.C112_never_empty_again",
    "Trc.Heap.C112_categories",
    "Trc.Heap.C112_unbounded_violated"
   ],
   "note": "C112_bounded_partial: with categories out of a list of names, each collector keeps at most names × size traces and names × size × limit events at any time of any run; C112_events_per_trace: no setting takes a trace above 10000. False as stated: categories are never removed (C112_never_empty_again), so distinct categories, such as the paths that README.md uses, are kept forever without any bound (C112_unbounded_violated, for every category size)."
  },
  {
   "property": "C113",
   "status": "partial",
   "theorems": [
    "Trc.Web.Behind.C113_same_answer_partial",
    "Trc.Web.Behind.C113_plain_handler",
    "Trc.Web.Behind.C113_optional_flush",
    "Trc.Web.Behind.C113_exact",
    "Trc.Web.Behind.C113_hijack_violated",
    "Trc.Web.Behind.C113_flusher_violated"
   ],
   "note": "Proved for every writer and every handler that asks only what the middleware does not change the answer to (C113_same_answer_partial), hence for handlers that write, flush and log (C113_plain_handler); C113_exact gives, for each other question, a handler whose client gets a different answer. It also says that the status and the number of bytes that the middleware logs are the first code given (200 if none) and the bytes that the writer said it took. False as stated: http.Hijacker is hidden (C113_hijack_violated), and every writer is an http.Flusher (C113_flusher_violated)."
  },
  {
   "property": "C114",
   "status": "proved",
   "theorems": [
    "Trc.Heap.C114_same_traces",
    "Trc.Heap.C114_same_events",
    "Trc.Heap.C114_invisible",
    "Trc.Heap.C114_lazy_text"
   ],
   "note": "C114_same_traces for what is collected, C114_same_events for what a later look shows (for a lazy event: the arguments at the first look at all events, or at an earlier look at some), C114_invisible if the arguments of lazy events keep their values; C114_lazy_text shows that this condition is needed."
  },
  {
   "property": "C115",
   "status": "partial",
   "theorems": [
    "Trc.Wrap.C115_exact",
    "Trc.Wrap.C115_in_order_partial",
    "Trc.Wrap.C115_truncated_violated",
    "Trc.Web.C115_no_duration_violated",
    "Trc.Web.C115_remote",
    "Trc.Wrap.Witness.C115_late_violated"
   ],
   "note": "Exactly when (C115_exact): everything is in order up to the last event, and the whole is if and only if the last event is not later than the end. Proved if all that was logged is shown and nothing is logged while the trace is copied (C115_in_order_partial). False for every truncated trace that is looked at after it was finished (C115_truncated_violated), for events logged between the reading of the duration and that of the events (C115_late_violated), and shares are not numbers without a duration (C115_no_duration_violated). Traces of other servers are shown alike if the wall clock ran in step (C115_remote). Floats are exact rationals, infinities or not a number."
  },
  {
   "property": "C116",
   "status": "partial",
   "theorems": [
    "Trc.Wrap.C116_logged_first_partial",
    "Trc.Wrap.C116_in_order_partial",
    "Trc.Wrap.C116_lazy_violated",
    "Trc.Wrap.Witness.C116_order_violated"
   ],
   "note": "Proved for formats whose verbs take exactly the arguments given, and arguments that do not change what they look like: at every moment of every interleaving the events read have lines of their own in the log (`C116_logged_first_partial`), in the order of the events if those who log to the trace do not overlap, whatever others write (`C116_in_order_partial`). False in full: the log decorator formats arguments at once even for lazy calls, so if an argument changes before the first read the log tells another text than the trace (`C116_lazy_violated`, for all formats and arguments that change); and lines of concurrent goroutines may be in another order than their events (`C116_order_violated`)."
  },
  {
   "property": "C117",
   "status": "partial",
   "theorems": [
    "Trc.Web.C117_marked_exact",
    "Trc.Web.C117_page_partial",
    "Trc.Web.C117_found_partial",
    "Trc.Web.C117_separator_violated",
    "Trc.Web.C117_ampersand_violated",
    "Trc.Web.C117_function_violated",
    "Trc.Web.C117_stack_violated",
    "Trc.Web.C117_refused_violated"
   ],
   "note": "False in general: the script looks for the query in the markup of the element, so texts with a comma or quote before another character are never marked in events (C117_separator_violated, for all such texts and events), nor are texts with an ampersand before a character other than a, l, g or n (C117_ampersand_violated); functions are shown without the path of their package (C117_function_violated, for all texts with a slash); stacks may be left out (C117_stack_violated); for queries that the browser's RegExp refuses, such as (?i)timeout, nothing is marked (C117_refused_violated). Proved: for texts without such characters everything is shown with the first match marked (C117_page_partial), a found trace has a mark (C117_found_partial), and an element is marked iff the query is in its text and its markup (C117_marked_exact)."
  },
  {
   "property": "C118",
   "status": "proved",
   "theorems": [
    "Trc.Broker.C118_alone",
    "Trc.Broker.C118_together"
   ],
   "note": "Histories of the whole are exactly the interleavings of histories of the parts that have the same publishes. Publishes are given as stream traces: that reading the trace for them changes nothing is C114. Goroutines that call Stream in one part are assumed not to do so in the other when putting parts together."
  },
  {
   "property": "C119",
   "status": "partial",
   "theorems": [
    "Trc.Wrap.C119_trace_exact",
    "Trc.Wrap.C119_trace_partial",
    "Trc.Wrap.C119_trace_violated",
    "Trc.Wrap.C119_early_violated"
   ],
   "note": "False as stated: an inner NewTrace returns the trace of the context, so the deferred Finish of an inner traced function ends the outer trace (C119_trace_violated: for every program that logs after such a return, the trace misses events; C119_early_violated: the trace is shown as finished while the function that made it runs). C119_trace_exact says which events, which duration and which status a search shows for every program; C119_trace_partial is the property for programs that log nothing after such a return."
  },
  {
   "property": "C120",
   "status": "proved",
   "theorems": [
    "Trc.Web.Use.C120_highlighted",
    "Trc.Web.Use.C120_one"
   ],
   "note": "The scripts of the page as functions on its state; the browser's mouseover/mouseout as in UI Events."
  },
  {
   "property": "C121",
   "status": "proved",
   "theorems": [
    "Trc.Web.Use.C121_stacks",
    "Trc.Web.Use.C121_typing",
    "Trc.Web.Use.C121_leave",
    "Trc.Web.Use.C121_debug"
   ],
   "note": "See C120. Keys typed in a form field do nothing; a key with a field focused is not a shortcut."
  },
  {
   "property": "C122",
   "status": "partial",
   "theorems": [
    "Trc.Heap.C122_rows_partial",
    "Trc.Heap.C122_reuse_exact",
    "Trc.Heap.C122_fresh_violated",
    "Trc.Heap.C122_reuse_violated",
    "Trc.Heap.C122_never_lost_violated",
    "Trc.Heap.C122_lost_violated",
    "Trc.Heap.C122_concurrent_violated"
   ],
   "note": "rows_partial, reuse_exact: what holds at a quiet moment. fresh, reuse, never_lost, lost, concurrent _violated: what does not."
  },
  {
   "property": "C123",
   "status": "proved",
   "theorems": [
    "Trc.Web.C123_page"
   ],
   "note": "page: the composition of C95, C89, C64, C67 and C92 for a program that logs with eztrc, up to what the browser shows."
  },
  {
   "property": "C124",
   "status": "partial",
   "theorems": [
    "Trc.Web.C124_time",
    "Trc.Web.C124_agree_partial",
    "Trc.Web.C124_remote",
    "Trc.Web.C124_midnight_violated",
    "Trc.Web.C124_set_violated",
    "Trc.Web.C124_exact"
   ],
   "note": "time holds for all rows; agree_partial and remote: the times agree with the durations on one day and on a clock that was not set; exact: the boundary at midnight; midnight, set _violated: the rest."
  },
  {
   "property": "C125",
   "status": "partial",
   "theorems": [
    "Trc.Web.C125_links",
    "Trc.Web.C125_default",
    "Trc.Web.C125_exact",
    "Trc.Web.C125_vscode_partial",
    "Trc.Web.C125_vscode_violated",
    "Trc.Web.C125_nil_violated"
   ],
   "note": "links, default: every function and stack; exact: VS Code opens the file iff the path has no ?, # or escape (vscode_partial: plain paths); vscode, nil _violated: the rest."
  },
  {
   "property": "C126",
   "status": "partial",
   "theorems": [
    "Trc.Cmd.C126_trace",
    "Trc.Cmd.C126_lines",
    "Trc.Cmd.C126_values",
    "Trc.Cmd.C126_stream",
    "Trc.Cmd.C126_search",
    "Trc.Cmd.C126_array_partial",
    "Trc.Cmd.C126_exact",
    "Trc.Cmd.C126_null_violated",
    "Trc.Cmd.C126_wire",
    "Trc.Cmd.C126_printed"
   ],
   "note": "Reading back holds for all strings and times (years 1 to 9999), both formats and any cut of the output; a search that finds nothing prints \"traces\": null, as the slice is nil (C126_null_violated, C126_exact)."
  },
  {
   "property": "C127",
   "status": "proved",
   "theorems": [
    "Trc.Web.C127_events",
    "Trc.Web.C127_values",
    "Trc.Web.C127_client"
   ],
   "note": "The eventsource package is not in the repository: its encoder is modelled from its source, and the reader is that of the HTML standard. The text of the seconds of a duration (a float64) is a parameter that is only known to be a JSON number. Times are of years 1 to 9999; others cannot be marshaled."
  },
  {
   "property": "C128",
   "status": "proved",
   "theorems": [
    "Trc.Web.C128_page"
   ],
   "note": "Networks are inductively built from collectors, multi-searchers, servers and servers that are down; what a network reaches is given beside it, as the buffers, names and failures. matched counts at most the limit per category of a program, as C28 says. The time taken is not modelled. Negative buckets make a network panic (C111), so they are excluded."
  },
  {
   "property": "C129",
   "status": "proved",
   "theorems": [
    "Trc.Web.C129_traces",
    "Trc.Web.C129_recent"
   ],
   "note": "Networks as in C128, each with what it holds: every retained trace as it is compared with the filter and as it is copied (the two may differ, as traces change meanwhile). Copies from a server lose the monotonic reading. The order is claimed only if no clock was set and traces were added in order; without, C26, C48 and C45 tell what may go wrong."
  },
  {
   "property": "C130",
   "status": "proved",
   "theorems": [
    "Trc.Heap.C130_made_for",
    "Trc.Heap.C130_apart",
    "Trc.Heap.C130_untouched"
   ],
   "note": "C130_made_for: the n-th creation of the program was for the collector and the category where the trace is found, and the object shows what was given there; C130_apart; C130_untouched: steps on other collectors leave a collector's categories and the values and reads of its traces alone. Beside them an example where an object goes from one collector to another."
  },
  {
   "property": "C131",
   "status": "partial",
   "theorems": [
    "Trc.Own.C131_only_stacks_partial",
    "Trc.Own.C131_copies_partial",
    "Trc.Own.C131_search_exact",
    "Trc.Own.C131_publish_exact",
    "Trc.Own.C131_search_always_violated",
    "Trc.Own.C131_answers_shared",
    "Trc.Own.Witness.C131_query_violated",
    "Trc.Own.C131_found",
    "Trc.Own.C131_streamed",
    "Trc.Own.C131_panics"
   ],
   "note": "False for every type whose Events returns the slice that it keeps, as StaticTrace's does: TrimStacks and NewStreamTrace write to that slice. A search that asks for no stacks takes them away for good (C131_search_always_violated), publishing to a subscriber too, so that queries no longer find the trace (C131_query_violated); exactly when one look changes the trace is in C131_search_exact and C131_publish_exact, and answers share the trace's events (C131_answers_shared). Proved: only stacks are ever cut, from their ends (C131_only_stacks_partial), and traces whose Events makes copies, as those of trc, are never changed (C131_copies_partial); what one search finds and one publication streams of a trace of any type (C131_found, C131_streamed), and exactly when publishing one panics (C131_panics)."
  },
  {
   "property": "C132",
   "status": "partial",
   "theorems": [
    "Trc.Cmd.C132_runs_partial",
    "Trc.Cmd.C132_exact",
    "Trc.Cmd.C132_buffer_always_violated",
    "Trc.Cmd.C132_interval_always_violated",
    "Trc.Cmd.C132_defaults"
   ],
   "note": "False for every negative --recv-buffer (make(chan) panics: C132_buffer_always_violated) and for every --stats-interval that is not positive (time.NewTicker panics in the goroutine of each URI: C132_interval_always_violated). Proved: it runs, and can be ended, exactly if the buffer can be made and the interval is positive (C132_exact, C132_runs_partial), whatever the other flags are, and so by default (C132_defaults)."
  },
  {
   "property": "C133",
   "status": "proved",
   "theorems": [
    "Trc.Wrap.C133_told",
    "Trc.Wrap.C133_members"
   ],
   "note": "C133_told: for every tree of searchers, every interleaving of the member goroutines and other lines in between, the events of the search are a permutation of Srch.report (texts written out independently), with the outcome last, the answer is Srch.answer, and errored iff some client failed or another line is an error. C133_members: the lines of each member keep their order. What a member finds is given (modelled in Verif/Search and Verif/Web/Server); the trace is assumed to have room for the lines and not to be finished meanwhile."
  },
  {
   "property": "C134",
   "status": "partial",
   "theorems": [
    "Trc.Web.Using.C134_search",
    "Trc.Web.Using.C134_lines",
    "Trc.Web.Using.C134_outcome",
    "Trc.Web.Using.C134_stream_always_violated",
    "Trc.Web.Using.C134_stream_exact",
    "Trc.Web.Using.C134_stream_ignored"
   ],
   "note": "Holds for SearchClient (C134_search, C134_lines, C134_outcome). Violated by StreamClient: the documented field HTTPClient is set to a default and never used, so no request is ever made through it (C134_stream_always_violated, with C134_stream_ignored: the field has no effect at all; C134_stream_exact: what the claim says holds only without a client or without requests)."
  },
  {
   "property": "C135",
   "status": "proved",
   "theorems": [
    "Trc.Web.Using.C135_reports",
    "Trc.Web.Using.C135_delivers",
    "Trc.Web.Using.C135_loop"
   ],
   "note": "C135_loop shows that the loop with its effects has all behaviours of the loop of C81. %q is a parameter; the data of an event is an arbitrary string with an arbitrary JSON value."
  },
  {
   "property": "C136",
   "status": "partial",
   "theorems": [
    "Trc.Web.Feedback.C136_bounded_partial",
    "Trc.Web.Feedback.C136_apart_partial",
    "Trc.Web.Feedback.C136_storm_violated",
    "Trc.Web.Feedback.C136_storm_exact"
   ],
   "note": "False as stated: the handler takes a failing write for an error to log and goes on, and skips only the events of its own trace, so two streams that match each other's requests and can't write (WriteTimeout) log to each other without end after one event (C136_storm_violated). True without failing writes, with at most one stream that fails, and for filters that match no other streams (with bounds). C136_storm_exact states exactly which filters allow it: there is a limit iff there is no endless way from stream to stream on which each matches the requests of the one before."
  },
  {
   "property": "C137",
   "status": "proved",
   "theorems": [
    "Trc.Cmd.C137_told",
    "Trc.Cmd.C137_quiet"
   ],
   "note": "For IDs without a percent sign (ULIDs have none). The order of the records in between is any; the numbers of the whole search come last of them, and started and done first and last. A failed server is told about twice (by its client, as an error, and by the multi-search). Other loggers' output on standard error is left out."
  },
  {
   "property": "C138",
   "status": "partial",
   "theorems": [
    "Trc.Web.C138_tells_exact",
    "Trc.Web.C138_tells_partial",
    "Trc.Web.C138_ids_violated",
    "Trc.Web.C138_quotes_violated"
   ],
   "note": "The full claim is false: the sources of a filter are printed in place of its IDs (any two non-empty lists print alike, whatever the rest), and a quote in a category or query can imitate another field. Proved: print alike iff same buckets, limit, stack depth, and filters that print alike (C138_tells_partial); with sources that are words without closing brackets and categories without quotes, iff they ask for the same but for the IDs (C138_tells_exact)."
  },
  {
   "property": "C139",
   "status": "proved",
   "theorems": [
    "Trc.Cmd.C139_nanoseconds",
    "Trc.Cmd.C139_order",
    "Trc.Cmd.C139_agree"
   ],
   "note": "The rounding of float64 is a parameter with the three facts listed in Rounding; how strconv writes a float64 is a parameter of which Writing says that it is a JSON number that is read back as it was."
  },
  {
   "property": "C140",
   "status": "proved",
   "theorems": [
    "Trc.Wrap.C140_told",
    "Trc.Wrap.C140_undecodable"
   ],
   "note": "Proved for every searcher of C133 and every rendering: the lines and their order (told), the error mark, the status, and requests that cannot be decoded (undecodable). The searcher, the templates, the disk and the encoder are inputs; others log before and after, not meanwhile, except as part of the search."
  },
  {
   "property": "C141",
   "status": "partial",
   "theorems": [
    "Trc.Web.C141_client",
    "Trc.Web.C141_json_partial",
    "Trc.Web.C141_refused",
    "Trc.Web.C141_unreadable_always_violated",
    "Trc.Web.C141_json_exact",
    "Trc.Web.C141_mistyped_always_violated",
    "Trc.Web.C141_mistyped_kept",
    "Trc.Web.C141_minimum_always_violated"
   ],
   "note": "The client's URLs and JSON bodies up to 1 MiB are served exactly what they ask for, and invalid queries are refused with the reason. Violated for bodies that are too large or no JSON (the error is only logged and the stream has all traces), for mistyped JSON (the mistyped conditions are dropped, a mistyped minimum duration becomes 0), and for URLs whose min is no duration. C141_json_exact: the JSON of a filter is served what it asks for if and only if it is at most 1 MiB or the filter asks for everything."
  },
  {
   "property": "C142",
   "status": "partial",
   "theorems": [
    "Trc.Web.C142_told_partial",
    "Trc.Web.C142_refused_always_violated"
   ],
   "note": "Proved for every stream whose filter is accepted and whose lines fit into the trace. Violated for requests that are refused because of their query: the reason is only in the response, the trace tells nothing and is not marked. Streams with more lines than a trace has events lose the last of them, by C12."
  },
  {
   "property": "C143",
   "status": "partial",
   "theorems": [
    "Trc.Cmd.C143_told",
    "Trc.Cmd.C143_tries",
    "Trc.Cmd.C143_looks",
    "Trc.Cmd.C143_heard_exact",
    "Trc.Cmd.C143_stopped_partial",
    "Trc.Cmd.C143_stopped_violated"
   ],
   "note": "What is written is right for every execution (C143_told, C143_tries), and as long as the reporter runs it can look (C143_looks). C143_heard_exact: a server heard from at the interval it is asked for can be reported silent exactly if --stats-interval is below half a second, because the client forces the interval that it asks for and the reporter does not. C143_stopped_violated: a line about missing data can follow 'stopped'; C143_stopped_partial: nothing else can, and nothing at all after runStream has returned. A look of the reporter and a call of onRead are single steps. That a reporter that can look does look is fairness of the scheduler and the runtime's timers."
  },
  {
   "property": "C144",
   "status": "proved",
   "theorems": [
    "Trc.Web.C144_link",
    "Trc.Web.C144_json"
   ],
   "note": "For every network of collectors, multi-searchers and remote servers as in C129, for both links of a trace, for IDs in the format that C99 proves for IDs made by NewTrace; the proof composes C89 (the link is read as a request for the ID) with C129 (what the network answers). C144_json adds that the JSON link is answered with JSON whatever the browser accepts. More than ten traces with one ID would be cut at the limit, which distinct IDs rule out."
  },
  {
   "property": "C145",
   "status": "partial",
   "theorems": [
    "Trc.Cmd.C145_answer",
    "Trc.Cmd.C145_asked_exact",
    "Trc.Cmd.C145_limit_violated",
    "Trc.Cmd.C145_servers_exact",
    "Trc.Cmd.C145_levels"
   ],
   "note": "C145_answer holds without exception, C145_levels for texts that do not end in a newline (the logger adds one only if there is none). C145_asked_exact: the lines about the request agree with the request that is printed and sent exactly if 1 <= limit <= 250 and the query, if any, compiles, since the log is written from the flags before normalization (search.go:67-69); C145_limit_violated is the other side for limits. C145_servers_exact: the URIs told are those asked exactly if no name is blank, since main.go:130 skips blank names without removing them. searchCommandLogged returns the output of searchCommand (logged_same), which C84, C100 and C109 are about."
  },
  {
   "property": "C146",
   "status": "partial",
   "theorems": [
    "Trc.Cmd.C146_count",
    "Trc.Cmd.C146_finished",
    "Trc.Cmd.C146_filter",
    "Trc.Cmd.C146_settings_exact",
    "Trc.Cmd.C146_buffer_always_violated"
   ],
   "note": "C146_count, C146_finished and C146_filter hold without exception (fewer than 2^64 traces). C146_settings_exact: the send buffer and the statistics interval told are those that the servers read exactly if they are in 1..100000 and 1s..60s, as the log is written from the flags and the client forces them into its ranges, and a send buffer of 0 is not sent at all; C146_buffer_always_violated is the other side. Printed means given to the JSON encoder, whose errors the program ignores."
  },
  {
   "property": "C147",
   "status": "partial",
   "theorems": [
    "Trc.Wrap.C147_where_exact",
    "Trc.Wrap.C147_annotation_always_violated",
    "Trc.Wrap.Witness.C147_deep_violated"
   ],
   "note": "False in two ways. The code that logged is first in the stack exactly if at most six wrappers, regions, prefixes and helper functions are between it and the core trace, and otherwise the stack is empty (C147_where_exact); with eztrc.Tracef on a trace of the default collector that is from the fifth nested Region on (C147_deep_violated). The event that NewTrace adds to a trace that is in the context already never begins with its caller (C147_annotation_always_violated)."
  },
  {
   "property": "C148",
   "status": "partial",
   "theorems": [
    "Trc.Lock.C148_get_exact",
    "Trc.Lock.C148_event_exact",
    "Trc.Lock.C148_search_exact",
    "Trc.Lock.C148_values_violated",
    "Trc.Lock.C148_lazy_violated",
    "Trc.Lock.C148_search_violated",
    "Trc.Lock.C148_levels_partial",
    "Trc.Lock.C148_no_cycle_partial",
    "Trc.Lock.C148_mutual_violated",
    "Trc.Lock.C148_publish_violated"
   ],
   "note": "False: events are formatted while the trace is locked, lazily logged ones also while the broker or the ring buffer is. Proved exactly when a call returns if nobody else interferes (get, event, search: the values use neither the trace nor, when formatted for subscribers or by a search, the broker or the buffer), whatever others do; and that with levels of traces (values of a trace use only plain, unpublished traces of higher levels) no goroutines wait for each other. Without levels two goroutines can (mutual, publish). Missing: which other disciplines are safe; values whose methods wait for something else than locks."
  },
  {
   "property": "C149",
   "status": "proved",
   "theorems": [
    "Trc.Lock.C149_returns",
    "Trc.Lock.C149_free"
   ],
   "note": "Fairness is a hypothesis about executions: who can release a lock does so at some time, and who waits for a lock that is free again and again gets it at some time (Lock/Fair.lean). Without the latter the statement is false (unfair_starves). Levels are bounded."
  },
  {
   "property": "C150",
   "status": "partial",
   "theorems": [
    "Trc.Web.C150_init",
    "Trc.Web.C150_stats",
    "Trc.Web.C150_nothing_missed",
    "Trc.Web.C150_grows",
    "Trc.Web.C150_first_always_violated"
   ],
   "note": "That the init event comes first is false for every request with a buffer: select may take a trace and the statistics before it (C150_first_always_violated). The rest is proved."
  },
  {
   "property": "C151",
   "status": "partial",
   "theorems": [
    "Trc.Web.C151_long_always_violated",
    "Trc.Web.C151_search_partial",
    "Trc.Web.C151_undecodable"
   ],
   "note": "C151_search_partial composes the middleware's own lines, the request line of the handler, the report of the search (C133) and that of the rendering (C140) into the complete event list, with finished, errored, and the equality of reported and received status and size, exactly if the trace may have as many events as are told. False for every search that tells more: the line of the request and that of the status are not in the trace (C151_long_always_violated). The trace is assumed fresh when the handler starts. C151_undecodable is the case of status 400. Byte sizes of the error page and the error object are stated as numbers."
  },
  {
   "property": "C152",
   "status": "partial",
   "theorems": [
    "Trc.Web.C152_stream_partial",
    "Trc.Web.C152_long_always_violated",
    "Trc.Web.C152_refused"
   ],
   "note": "Proved for every stream that tells no more than its trace holds (C152_stream_partial), and for refused requests (C152_refused: the trace tells status 400 but not the reason, and is not errored unless the filter could not be decoded). For every longer stream the claim is false (C152_long_always_violated): the line of the request and the status are missing, and a truncation notice is in their place; an open stream logs its statistics at every interval, so with the defaults this happens after less than three hours. The eventsource package is not modelled: what it writes is arbitrary."
  },
  {
   "property": "C153",
   "status": "proved",
   "theorems": [
    "Trc.Cmd.C153_told",
    "Trc.Cmd.C153_quiet",
    "Trc.Cmd.C153_stream"
   ],
   "note": "For IDs without a percent sign (ULIDs have none). C153_stream says that the lines of a call are what Stream logs in each of its executions (C135); that all calls have returned when the trace is finished is C83 and C146. The order of lines of different servers is any. Other loggers' output on standard error is left out."
  },
  {
   "property": "C154",
   "status": "proved",
   "theorems": [
    "Trc.Ring.C154_slots",
    "Trc.Ring.C154_lets_go",
    "Trc.Heap.C154_program"
   ],
   "note": "Ring buffer (C154_lets_go), family of them under any interleaving (C154_slots), and whole programs (C154_program). Zero value = default of the element type; C154_lets_go takes the values to be distinct and not zero, as pointers to live traces are."
  },
  {
   "property": "C155",
   "status": "partial",
   "theorems": [
    "Trc.Heap.C155_logged",
    "Trc.Heap.C155_lets_go_partial",
    "Trc.Heap.C155_kept_always_violated"
   ],
   "note": "False as stated (C155_kept_always_violated): stringer.free puts the stringer back with its format and arguments, so every logged value stays referred to by the pool after Free, for Tracef as for LazyTracef, until that stringer is reused or the garbage collector empties the pool. True part: all that is referred to was logged (C155_logged), and when the pool of stringers is empty it was logged in a trace that has not been freed (C155_lets_go_partial)."
  },
  {
   "property": "C156",
   "status": "partial",
   "theorems": [
    "Trc.C156_statistics",
    "Trc.C156_buckets",
    "Trc.C156_depth",
    "Trc.C156_limit_partial",
    "Trc.C156_narrower_partial",
    "Trc.C156_limit_exact",
    "Trc.C156_limit_violated",
    "Trc.C156_narrower_violated",
    "Trc.Web.C156_network"
   ],
   "note": "Statistics, buckets and stack depth: proved. Limits and filters: true exactly if in each category traces were added in the order in which they started; otherwise a higher limit, or a filter that a trace satisfies, can make the trace disappear, as each category is cut at the limit in the order of adding before all are sorted by start time (C26)."
  },
  {
   "property": "C157",
   "status": "proved",
   "theorems": [
    "Trc.Search.C157_busy"
   ],
   "note": "`C157_busy`: for every history, every later history of other categories and every request that names the category, both searches succeed and agree in traces, number of matches and the category's statistics, whatever the traces of other categories look like then. The traces of the category are assumed not to change between the searches, and to have the category they were added to, as NewTrace does. A search that names no category has no such guarantee: the example shows its answer filled by the busy category."
  },
  {
   "property": "C158",
   "status": "proved",
   "theorems": [
    "Trc.Search.C158_lifetime",
    "Trc.Search.C158_exact"
   ],
   "note": "`C158_lifetime` has resizes between two sizes; `C158_exact` is the iff for a size that stays the same. IDs are assumed distinct (C99 tells when they are), and the buffer of the category made, as NewTrace does before it adds."
  },
  {
   "property": "C159",
   "status": "proved",
   "theorems": [
    "Trc.Wrap.C159_stream_first",
    "Trc.Wrap.C159_search_first"
   ],
   "note": "`C159_stream_first` and `C159_search_first`, with calls of others at every point between the reads of NewStreamTrace and NewSearchTrace. The trace is finished when it is published or searched first; a trace that is finished while it is being published is the case of C54_reduced_violated."
  },
  {
   "property": "C160",
   "status": "proved",
   "theorems": [
    "Trc.Web.C160_traces",
    "Trc.Web.C160_numbers"
   ],
   "note": "C160_traces: for two networks (Holding) that hold the same traces up to order and up to the monotonic times that JSON drops, the traces of the two answers are equal as sent. C160_numbers: for two networks (Network) that reach the same buffers and sources, total, matches, number of traces and sources are equal. The two servers may use different sort algorithms, orders of map iteration and clocks. The summary statistics are not compared (their merging is C42/C43)."
  },
  {
   "property": "C161",
   "status": "proved",
   "theorems": [
    "Trc.Web.C161_rows"
   ],
   "note": "C161_rows, for every Network: the rows of the page's summary by category and over all, in terms of the traces reached. Builds on C90's summary_spec, now stated for statistics with the right counts (Tallied) instead of those observed by one collector. Event counts are not on the page and are not merged (C40_eventCount_violated)."
  },
  {
   "property": "C162",
   "status": "partial",
   "theorems": [
    "Trc.Web.C162_once_partial",
    "Trc.Web.C162_exact",
    "Trc.Web.C162_twice_always_violated"
   ],
   "note": "C162_once_partial: distinct IDs among what is reached give distinct IDs in the answer. C162_exact: never more often than reached, and exactly as often if all matches fit in the limit. C162_twice_always_violated: any server that asks the same server twice has each match of it at least twice in its answer, if the answers fit in the limit. The code has no step that removes duplicates."
  },
  {
   "property": "C163",
   "status": "proved",
   "theorems": [
    "Trc.Web.C163_missing",
    "Trc.Web.C163_down",
    "Trc.Web.C163_answers",
    "Trc.Web.C163_numbers"
   ],
   "note": "C163_missing is about any two networks of which one reaches less; C163_down is the case of one server among several that a server asks directly, and C163_numbers the numbers of the answers in that case. C163_answers is about one multi-searcher and does not assume anything about the order in which traces were added."
  },
  {
   "property": "C164",
   "status": "partial",
   "theorems": [
    "Trc.Web.C164_circle_always_violated",
    "Trc.Web.C164_hops",
    "Trc.Web.C164_ranked_partial"
   ],
   "note": "False for servers on a circle: if a server on it reaches a trace, the equations between the servers' answers have no solution at all, so no search of it can end by itself (C164_circle_always_violated); cut off after n hops, the answer counts the traces of each server as often as the search came by (C164_hops). Without circles there is exactly one behaviour and every readable request is answered (C164_ranked_partial). A deadline of the HTTP server or of the context is not modelled other than by the cut in C164_hops; the no-solution theorem is for circles in which each server asks one server of the circle and any searchers outside it."
  }
 ]
}