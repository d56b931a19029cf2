{
 "claims": [
  {
   "property": "C01",
   "status": "proved",
   "theorems": [
    "Nigiri.C01_delta_roundtrip",
    "Nigiri.C01_delta_roundtrip_inv",
    "Nigiri.C01_delta_saturates",
    "Nigiri.C01_delta_monotone",
    "Nigiri.C01_delta_strict",
    "Nigiri.C01_tt_to_delta_eq"
   ],
   "note": "delta clamp/round trip/monotonicity for all int values"
  },
  {
   "property": "C02",
   "status": "proved",
   "theorems": [
    "Nigiri.C02_split_day_mam",
    "Nigiri.C02_split_tt_to_delta",
    "Nigiri.C02_day_idx_mam",
    "Nigiri.C02_day_idx_mam_unique",
    "Nigiri.C02_split_time_mod",
    "Nigiri.C02_split_day_mam_before_begin"
   ],
   "note": "day/minute split, all offsets; the pre-base-day case of split_day_mam is stated explicitly"
  },
  {
   "property": "C03",
   "status": "proved",
   "theorems": [
    "Nigiri.C03_delta_roundtrip",
    "Nigiri.C03_delta_value_eq_iff",
    "Nigiri.C03_delta_lt_not_chronological",
    "Nigiri.C03_delta_sub",
    "Nigiri.C03_delta_offset_roundtrip",
    "Nigiri.C03_footpath_roundtrip",
    "Nigiri.C03_footpath_word",
    "Nigiri.C03_stop_roundtrip",
    "Nigiri.C03_shape_idx_roundtrip",
    "Nigiri.C03_shape_idx_collision",
    "Nigiri.C03_tb_day_offset",
    "Nigiri.C03_tb_transport_key"
   ],
   "note": "bit-level packing for every in-range value; documented collisions stated as separate theorems"
  },
  {
   "property": "C04",
   "status": "proved",
   "theorems": [
    "Nigiri.C04_mam_dist_minimal",
    "Nigiri.C04_mam_dist_direction"
   ],
   "note": "shortest way around the clock and day direction"
  },
  {
   "property": "C05",
   "status": "proved",
   "theorems": [
    "Nigiri.C05_contains",
    "Nigiri.C05_intersect",
    "Nigiri.C05_overlaps",
    "Nigiri.C05_overlaps_empty",
    "Nigiri.C05_containsI",
    "Nigiri.C05_shift",
    "Nigiri.C05_iteration",
    "Nigiri.C05_clamp"
   ],
   "note": "set semantics; overlaps on empty intervals documented by a separate theorem"
  },
  {
   "property": "C06",
   "status": "proved",
   "theorems": [
    "Nigiri.ParetoSet.C06_antichain",
    "Nigiri.ParetoSet.C06_add_result",
    "Nigiri.ParetoSet.C06_non_dominated",
    "Nigiri.ParetoSet.C06_early_return_needs_transitivity"
   ],
   "note": "any insertion sequence, any reflexive transitive dominance; transitivity is necessary (witness)"
  },
  {
   "property": "C07",
   "status": "proved",
   "theorems": [
    "Nigiri.Dial.C07_priority_queue",
    "Nigiri.Dial.C07_defined"
   ],
   "note": "refinement to a multiset priority queue for any operation sequence"
  },
  {
   "property": "C08",
   "status": "proved",
   "theorems": [
    "Nigiri.Dijkstra.C08_dijkstra_exact",
    "Nigiri.Dijkstra.C08_dijkstra_shortest",
    "Nigiri.Dijkstra.C08_dijkstra_limit"
   ],
   "note": "exactness and termination of the bucket-queue Dijkstra"
  },
  {
   "property": "C09",
   "status": "partial",
   "theorems": [
    "Nigiri.TdFootpath.C09_forward",
    "Nigiri.TdFootpath.C09_backward",
    "Nigiri.TdFootpath.C09_result_range",
    "Nigiri.TdFootpath.C09_for_each_partial",
    "Nigiri.TdFootpath.C09_for_each_counterexample"
   ],
   "note": "get_td_duration proved in both directions; for_each_footpath clamps at 511 minutes: proved below, counterexample theorem above"
  },
  {
   "property": "C10",
   "status": "proved",
   "theorems": [
    "Nigiri.Calendar.C10_weekday",
    "Nigiri.Calendar.C10_calendar",
    "Nigiri.Calendar.C10_columns"
   ],
   "note": "calendar_to_bitfield incl. feed-end extension; date parsing library trusted"
  },
  {
   "property": "C11",
   "status": "proved",
   "theorems": [
    "Nigiri.Calendar.C11_exceptions",
    "Nigiri.Calendar.C11_outside_timetable_counterexample"
   ],
   "note": "merge_traffic_days over all services; counterexample theorem documents bits beyond the timetable end"
  },
  {
   "property": "C12",
   "status": "proved",
   "theorems": [
    "Nigiri.SeqNumbers.C12_roundtrip",
    "Nigiri.SeqNumbers.C12_unencoded",
    "Nigiri.SeqNumbers.C12_single"
   ],
   "note": "trips with >= 2 stops; single-stop case characterised"
  },
  {
   "property": "C13",
   "status": "proved",
   "theorems": [
    "Nigiri.Interpolate.C13_interpolate",
    "Nigiri.Interpolate.C13_rounding_exists"
   ],
   "note": "all trips with at least two stops; the floating point rounding is abstracted by its monotonicity and range (IsInterp, met by exact rounding); a missing first arrival becomes 0 (stated)"
  },
  {
   "property": "C14",
   "status": "partial",
   "theorems": [
    "Nigiri.Frequency.C14_window_partial",
    "Nigiri.Frequency.C14_last_departure_counterexample",
    "Nigiri.Frequency.C14_inverted_window_counterexample",
    "Nigiri.Frequency.C14_headway",
    "Nigiri.Frequency.C14_runs"
   ],
   "note": "generated departures are scheduled ones, complete if the headway divides the window; counterexample theorems for the missing last departure and inverted windows; several trips of a block: C134"
  },
  {
   "property": "C15",
   "status": "proved",
   "theorems": [
    "Nigiri.LocalToUtc.C15_one_run_per_service_day",
    "Nigiri.LocalToUtc.C15_instants",
    "Nigiri.LocalToUtc.C15_monotone",
    "Nigiri.LocalToUtc.C15_offset_counterexample"
   ],
   "note": "one run per service day, exact instants (equal frequency offsets, non-decreasing local times), always non-decreasing UTC times; the wrong instants for blocks with different frequency offsets are stated as a counterexample; noon offsets are an input"
  },
  {
   "property": "C16",
   "status": "proved",
   "theorems": [
    "Nigiri.Blocks.C16_partition",
    "Nigiri.Blocks.C16_chain",
    "Nigiri.Blocks.C16_maximal"
   ],
   "note": "any block, any number of trips, every day: partition, linkage and maximality"
  },
  {
   "property": "C17",
   "status": "partial",
   "theorems": [
    "Nigiri.RouteInsert.C17_sorted",
    "Nigiri.RouteInsert.C17_fifo_partial",
    "Nigiri.RouteInsert.C17_overtake_counterexample"
   ],
   "note": "order by minute of day at every event and FIFO for equal numbers of midnights proved for every insertion sequence; the full no-overtaking claim is false of the code (C17_overtake_counterexample)"
  },
  {
   "property": "C18",
   "status": "proved",
   "theorems": [
    "Nigiri.Raptor.C18_sound",
    "Nigiri.Raptor.C18_earliest",
    "Nigiri.Raptor.C18_complete"
   ],
   "note": "get_earliest_transport, both directions; the route must be sorted by minute of day (established by C17)"
  },
  {
   "property": "C19",
   "status": "proved",
   "theorems": [
    "Nigiri.Raptor.C19_labels",
    "Nigiri.Raptor.C19_reported"
   ],
   "note": "labels and reported arrivals, both directions, range queries, real-time transports, static/time dependent footpaths, intermodal ends; no hypothesis on lower bounds or overtaking. Via stops and ping bounds are not part of this model"
  },
  {
   "property": "C20",
   "status": "proved",
   "theorems": [
    "Nigiri.Raptor.C20_optimal",
    "Nigiri.Raptor.C20_exact",
    "Nigiri.Raptor.C20_one_to_all"
   ],
   "note": "for timetables whose routes do not overtake (Aligned) and FIFO footpaths, admissible lower bounds, start not a destination; counterexamples in DESIGN.md section 4 explain why these hypotheses are needed"
  },
  {
   "property": "C21",
   "status": "proved",
   "theorems": [
    "Nigiri.Raptor.C21_pruning"
   ],
   "note": "search with admissible lower bounds offers the same arrivals as with zero bounds"
  },
  {
   "property": "C22",
   "status": "proved",
   "theorems": [
    "Nigiri.Lb.C22_optimistic",
    "Nigiri.Lb.C22_journeys",
    "Nigiri.Lb.C22_admissible",
    "Nigiri.Lb.C22_search",
    "Nigiri.Lb.C22_order_counterexample"
   ],
   "note": "build_lb_graph, update_lbs, the query's dijkstra and its propagation to child stops; admissible for every journey of at most 7200 minutes; the numbering condition is necessary (C22_order_counterexample)"
  },
  {
   "property": "C23",
   "status": "proved",
   "theorems": [
    "Nigiri.C23_is_allowed",
    "Nigiri.C23_masks",
    "Nigiri.C23_flag_roundtrip",
    "Nigiri.C23_unknown_flag",
    "Nigiri.C23_route_filter",
    "Nigiri.Raptor.C23_rides_exact",
    "Nigiri.Raptor.C23_class_filter"
   ],
   "note": "exact characterisation of the rides of the search; class filter equals removing the routes. Combined block transports carry only the class of their first trip (finding 24)"
  },
  {
   "property": "C24",
   "status": "proved",
   "theorems": [
    "Nigiri.C24_stop_direction_duality",
    "Nigiri.C24_stop_flags",
    "Nigiri.Raptor.C24_restrictions",
    "Nigiri.Raptor.C24_wheelchair"
   ],
   "note": "every ride behind a reported arrival boards/alights where allowed; wheelchair search equals ordinary search on the wheelchair permissions"
  },
  {
   "property": "C25",
   "status": "proved",
   "theorems": [
    "Nigiri.Search.C25_terminates",
    "Nigiri.Search.C25_limits",
    "Nigiri.Search.C25_fixed",
    "Nigiri.Search.C25_contains",
    "Nigiri.Search.C25_enough",
    "Nigiri.Search.C25_starts",
    "Nigiri.Search.C25_cut_counterexample",
    "Nigiri.Search.C25_count_counterexample"
   ],
   "note": "Interval estimation and the loop of the search driver, for every routing algorithm and clock. C25_cut_counterexample and C25_count_counterexample document where the code deviates from the informal expectation."
  },
  {
   "property": "C26",
   "status": "proved",
   "theorems": [
    "Nigiri.Search.C26_interval",
    "Nigiri.Search.C26_point",
    "Nigiri.Search.C26_antichain",
    "Nigiri.Search.C26_sorted",
    "Nigiri.Search.C26_slow_direct_lost"
   ],
   "note": "For every routing algorithm. C26_slow_direct_lost: slow direct connections are removed by the post processing."
  },
  {
   "property": "C27",
   "status": "proved",
   "theorems": [
    "Nigiri.StartTimes.C27_sound",
    "Nigiri.StartTimes.C27_complete",
    "Nigiri.StartTimes.C27_ontrip",
    "Nigiri.StartTimes.C27_point",
    "Nigiri.StartTimes.C27_locations",
    "Nigiri.StartTimes.C27_destinations",
    "Nigiri.StartTimes.C27_dest_offsets",
    "Nigiri.StartTimes.C27_extension_counterexample",
    "Nigiri.StartTimes.C27_rt_infeasible_counterexample",
    "Nigiri.StartTimes.C27_511_counterexample"
   ],
   "note": "scheduled and real-time transports, constant and time-dependent offsets, every iteration order of the hash maps; counterexample theorems: extension of an interval may drop starts of other locations, infeasible offsets of real-time departures count as 511 minutes, constant offsets of exactly 511 minutes are dropped"
  },
  {
   "property": "C28",
   "status": "proved",
   "theorems": [
    "Nigiri.Query.C28_flip_involutive",
    "Nigiri.Query.C28_flip_swaps",
    "Nigiri.Query.C28_sanitize_vias",
    "Nigiri.Query.C28_sanitize"
   ],
   "note": "flip_dir, sanitize_query, sanitize_via_stops, sanitize"
  },
  {
   "property": "C29",
   "status": "proved",
   "theorems": [
    "Nigiri.Rt.FeedDemo.C29_cancelled_instance_counterexample",
    "Nigiri.Rt.FeedDemo.C29_block_counterexample",
    "Nigiri.Rt.C29_exactly_the_addressed",
    "Nigiri.Rt.C29_one_instance",
    "Nigiri.Rt.C29_not_twice",
    "Nigiri.Rt.C29_other_instances"
   ],
   "note": "any history of cancellations, updates and added trips (trip matching not modelled, fewer than 2^31 bitfields). Counterexample theorems: a cancelled run which already had a real-time instance is only flagged and stays usable for routing; cancelling one trip of a block cancels all of it"
  },
  {
   "property": "C30",
   "status": "proved",
   "theorems": [
    "Nigiri.Rt.C30_all_runs",
    "Nigiri.Rt.C30_trip_update",
    "Nigiri.Rt.C30_vehicle_position",
    "Nigiri.Rt.C30_history",
    "Nigiri.Rt.C30_initial"
   ],
   "note": "trip updates: any run, any message, any previous state; vehicle positions and arbitrary histories for scheduled runs with an ordered schedule"
  },
  {
   "property": "C31",
   "status": "proved",
   "theorems": [
    "Nigiri.Rt.C31_before_first_update",
    "Nigiri.Rt.C31_delay",
    "Nigiri.Rt.C31_time",
    "Nigiri.Rt.C31_time_carry",
    "Nigiri.Rt.C31_block_start",
    "Nigiri.Rt.C31_behind",
    "Nigiri.Rt.C31_ahead",
    "Nigiri.Rt.C31_again",
    "Nigiri.Rt.C31_by_sequence",
    "Nigiri.Rt.C31_unmatched_ignored",
    "Nigiri.Rt.PropagateDemo.C31_demo_situation",
    "Nigiri.Rt.C31_rejected_stop_counterexample",
    "Nigiri.Rt.C31_added_trip_counterexample"
   ],
   "note": "scheduled runs, times within +-8000 minutes of the base day (no 16-bit clamp); first/later trips of a block; counterexample theorems: updates with a rejected stop assignment are skipped together with the propagation, additional trips count the bound twice"
  },
  {
   "property": "C32",
   "status": "proved",
   "theorems": [
    "Nigiri.StringStore.C32_interning",
    "Nigiri.StringStore.C32_stable"
   ],
   "note": "any history of store calls; hash set container trusted, 32-bit index overflow not modelled"
  },
  {
   "property": "C33",
   "status": "proved",
   "theorems": [
    "Nigiri.CachedLookup.C33_cached_lookup"
   ],
   "note": "refinement to a plain map for any call sequence, including writes through the returned reference"
  },
  {
   "property": "C34",
   "status": "proved",
   "theorems": [
    "Nigiri.Merge.C34_found_there",
    "Nigiri.Merge.C34_only_duplicates",
    "Nigiri.Merge.C34_service",
    "Nigiri.Merge.C34_not_twice"
   ],
   "note": "merge, find_duplicates, any sequence of searches; location equivalence (matches) is a parameter"
  },
  {
   "property": "C35",
   "status": "proved",
   "theorems": [
    "Nigiri.Footpaths.C35_closure",
    "Nigiri.Footpaths.C35_opposite",
    "Nigiri.Footpaths.C35_transitive",
    "Nigiri.Footpaths.C35_both_directions",
    "Nigiri.Footpaths.C35_directed_counterexample",
    "Nigiri.Footpaths.C35_wrap_counterexample",
    "Nigiri.Footpaths.C35_duplicate_counterexample"
   ],
   "note": "Rooted footpath graphs with unique durations below 256 minutes; parallel execution of the searches is independent and not modelled; counterexample theorems: directed graphs (loading fails), durations above 255 minutes wrap, duplicate footpaths are resolved arbitrarily"
  },
  {
   "property": "C36",
   "status": "proved",
   "theorems": [
    "Nigiri.TB.C36_query",
    "Nigiri.TB.C36_enqueue",
    "Nigiri.TB.C36_initial",
    "Nigiri.TB.C36_monotone",
    "Nigiri.TB.C36_bitfield_counterexample"
   ],
   "note": "query/update over arbitrary histories of enqueue operations with values that fit the bit fields; counterexample for routes with more than 4096 trips"
  },
  {
   "property": "C37",
   "status": "proved",
   "theorems": [
    "Nigiri.TB.C37_feasible",
    "Nigiri.TB.Demo37.C37_overtake_counterexample"
   ],
   "note": "for timetables whose trips are ordered at each stop (C37_overtake_counterexample shows that this is needed)"
  },
  {
   "property": "C38",
   "status": "partial",
   "theorems": [
    "Nigiri.TB.C38_limit_partial",
    "Nigiri.TB.Demo53.C38_limit_counterexample"
   ],
   "note": "false as stated: the engine ignores the limit of the query (C38_limit_counterexample); only the global limit is proved"
  },
  {
   "property": "C39",
   "status": "proved",
   "theorems": [
    "Nigiri.FastestDirect.C39_fastest_direct",
    "Nigiri.FastestDirect.C39_given",
    "Nigiri.FastestDirect.Demo.C39_intermediate_counterexample"
   ],
   "note": "every query and hash map order; C39_intermediate_counterexample: walks over stops which are no destination are not considered (footpaths are expected to be closed); the floating point factor is abstract"
  },
  {
   "property": "C40",
   "status": "partial",
   "theorems": [
    "Nigiri.C40_dominates_iff",
    "Nigiri.C40_partial_order",
    "Nigiri.C40_mirror",
    "Nigiri.C40_zero_length_counterexample"
   ],
   "note": "partial order for all journeys; characterisation for journeys of the same direction; counterexample theorem for zero-length backward journeys"
  },
  {
   "property": "C41",
   "status": "partial",
   "theorems": [
    "Nigiri.C41_default_identity",
    "Nigiri.C41_formula",
    "Nigiri.C41_minimum_and_monotone",
    "Nigiri.C41_wrap_counterexample",
    "Nigiri.C41_equality_counterexample",
    "Nigiri.C41_equality_partial"
   ],
   "note": "proved while values fit the result type; counterexample theorems for 8-bit wrap and for operator=="
  },
  {
   "property": "C42",
   "status": "partial",
   "theorems": [
    "Nigiri.ParseTime.C42_hhmm",
    "Nigiri.ParseTime.C42_missing",
    "Nigiri.ParseTime.C42_malformed_counterexample"
   ],
   "note": "well-formed and blank fields; counterexample theorem: malformed text is not rejected"
  },
  {
   "property": "C43",
   "status": "partial",
   "theorems": [
    "Nigiri.C43_root",
    "Nigiri.C43_same_root",
    "Nigiri.C43_defined",
    "Nigiri.C43_cycle_counterexample",
    "Nigiri.C43_deep_counterexample"
   ],
   "note": "proved for chains of at most 21 links and total definedness; counterexample theorems show it fails on cyclic or deeper parent tables"
  },
  {
   "property": "C44",
   "status": "proved",
   "theorems": [
    "Nigiri.Raptor.C44_range"
   ],
   "note": "range query offers exactly what the independent searches offer"
  },
  {
   "property": "C45",
   "status": "proved",
   "theorems": [
    "Nigiri.RaptorVia.C45_labels",
    "Nigiri.RaptorVia.C45_reported",
    "Nigiri.RaptorVia.C45_start_counterexample",
    "Nigiri.RaptorVia.C45_td_counterexample"
   ],
   "note": "Soundness of the search with any number of vias, both directions, static and real-time vehicles, footpaths, last mile. The two conditions in the statement are necessary: C45_start_counterexample, C45_td_counterexample. Optimality with vias and ping bounds are not modelled."
  },
  {
   "property": "C46",
   "status": "proved",
   "theorems": [
    "Nigiri.EndToEnd.C46_sound",
    "Nigiri.EndToEnd.C46_optimal",
    "Nigiri.EndToEnd.C46_complete",
    "Nigiri.EndToEnd.C46_point_complete",
    "Nigiri.EndToEnd.C46_point_optimal",
    "Nigiri.EndToEnd.C46_lower_bounds",
    "Nigiri.EndToEnd.C46_max_travel_counterexample"
   ],
   "note": "RAPTOR (fixed lower bounds, no vias), get_starts with constant offsets and the search driver; legs of the journeys are not part of the model. Hypotheses: routes do not overtake; if the interval is extended on the side searched last, only one start location (finding 34: C27_extension_counterexample); reconstruction does not fail. C46_max_travel_counterexample: with a fixed start time the maximum travel time is not enforced."
  },
  {
   "property": "C47",
   "status": "proved",
   "theorems": [
    "Nigiri.Rt.C47_findable"
   ],
   "note": "any feed history"
  },
  {
   "property": "C48",
   "status": "proved",
   "theorems": [
    "Nigiri.Rt.C48_history",
    "Nigiri.Rt.FeedDemo.C48_reassigned_counterexample",
    "Nigiri.Rt.C48_stops_permitted",
    "Nigiri.Rt.C48_stop_semantics"
   ],
   "note": "single updates and whole histories; C48_reassigned_counterexample: a skipped stop which is then moved to another track stays closed"
  },
  {
   "property": "C49",
   "status": "proved",
   "theorems": [
    "Nigiri.Footpaths.C49_mirror"
   ],
   "note": "any result of the closure"
  },
  {
   "property": "C50",
   "status": "proved",
   "theorems": [
    "Nigiri.Footpaths.C50_tracks_inherit",
    "Nigiri.Footpaths.C50_within_station",
    "Nigiri.Footpaths.C50_opposite",
    "Nigiri.Footpaths.C50_only"
   ],
   "note": "add_links_to_and_between_children"
  },
  {
   "property": "C51",
   "status": "partial",
   "theorems": [
    "Nigiri.Merge.C51_trip_found_partial",
    "Nigiri.Merge.C51_listed",
    "Nigiri.Merge.C51_overlap_counterexample",
    "Nigiri.Merge.C51_superset_counterexample",
    "Nigiri.Merge.C51_chain_counterexample"
   ],
   "note": "proved for single merges of comparable day sets; the full claim is false of the code: counterexample theorems for partial overlaps, proper supersets (extra days) and chains of three duplicates (trip lost)"
  },
  {
   "property": "C52",
   "status": "partial",
   "theorems": [
    "Nigiri.TB.C52_reset",
    "Nigiri.TB.C52_reuse_partial",
    "Nigiri.TB.Demo53.C52_reuse_counterexample"
   ],
   "note": "independence after reset_arrivals proved; false for a reused query state (C52_reuse_counterexample), proved when arrival times and distances are those of a new state"
  },
  {
   "property": "C53",
   "status": "proved",
   "theorems": [
    "Nigiri.TB.C53_sound",
    "Nigiri.TB.C53_monotone"
   ],
   "note": "end to end from preprocessing to results, any history of calls"
  },
  {
   "property": "C54",
   "status": "proved",
   "theorems": [
    "Nigiri.TB.C54_optimal",
    "Nigiri.TB.Demo54.C54_last_mile_counterexample",
    "Nigiri.TB.Demo53.C54_alight_counterexample",
    "Nigiri.TB.Demo53.C54_same_start_counterexample"
   ],
   "note": "C54_optimal under Regular/QueryFit (Spec/TripBased.lean); necessity of conditions: C54_alight_counterexample, C54_same_start_counterexample, C54_last_mile_counterexample"
  },
  {
   "property": "C55",
   "status": "partial",
   "theorems": [
    "Nigiri.Raptor.C55_itinerary_partial",
    "Nigiri.Raptor.C55_reported_partial",
    "Nigiri.Raptor.C55_wheelchair_false"
   ],
   "note": "unconditional for passengers without a wheelchair; for wheelchair queries only if no stop open to others is closed to wheelchairs: C55_wheelchair_false"
  },
  {
   "property": "C56",
   "status": "partial",
   "theorems": [
    "Nigiri.Raptor.C56_complete_partial",
    "Nigiri.Raptor.C56_long_offset",
    "Nigiri.Raptor.C56_wheelchair_false"
   ],
   "note": "for wheelchair queries only if wheelchair permissions equal the ordinary ones: C56_wheelchair_false"
  },
  {
   "property": "C57",
   "status": "partial",
   "theorems": [
    "Nigiri.Raptor.C57_itinerary_partial",
    "Nigiri.Raptor.C57_not_worse_partial",
    "Nigiri.Raptor.C57_reported_partial",
    "Nigiri.Raptor.C57_wheelchair_ignored",
    "Nigiri.Raptor.C57_bicycle_ignored",
    "Nigiri.Raptor.C57_unadjusted_duration"
   ],
   "note": "proved for default transfer time settings, static footpaths and vehicles not restricted by wheelchair/section flags; the full claim is false of the code: C57_wheelchair_ignored, C57_bicycle_ignored, C57_unadjusted_duration"
  },
  {
   "property": "C58",
   "status": "proved",
   "theorems": [
    "Nigiri.Raptor.Pong.C58_best",
    "Nigiri.Raptor.Pong.C58_distinct"
   ],
   "note": "without via stops and time-dependent offsets; conditions in Spec/PingPong (start footpaths used, origin and destination not in walking distance, rides take time, no last walk across the end of the look-ahead)"
  },
  {
   "property": "C59",
   "status": "partial",
   "theorems": [
    "Nigiri.Raptor.Pong.C59_complete_partial",
    "Nigiri.Raptor.Pong.C59_dense",
    "Nigiri.Raptor.Pong.C59_daily",
    "Nigiri.Raptor.Pong.C59_counterexample",
    "Nigiri.Raptor.Pong.C59_counterexample_interval"
   ],
   "note": "proved up to gaps in the service of more than a day (C59_complete_partial, C59_daily); the full claim is false of the code: C59_counterexample, C59_counterexample_interval"
  },
  {
   "property": "C60",
   "status": "partial",
   "theorems": [
    "Nigiri.Raptor.Pong.C60_no_exception_partial",
    "Nigiri.Raptor.Pong.C60_returns",
    "Nigiri.Raptor.Pong.C60_counterexample_footpaths",
    "Nigiri.Raptor.Pong.C60_counterexample_walk"
   ],
   "note": "proved for queries that use start footpaths and without a last walk across the end of the look-ahead; the full claim is false of the code: C60_counterexample_footpaths, C60_counterexample_walk"
  },
  {
   "property": "C61",
   "status": "proved",
   "theorems": [
    "Nigiri.Raptor.OneToAll.C61_sound",
    "Nigiri.Raptor.OneToAll.C61_complete",
    "Nigiri.Raptor.OneToAll.C61_rounds",
    "Nigiri.Raptor.OneToAll.C61_fastest",
    "Nigiri.Raptor.OneToAll.C61_unreachable"
   ],
   "note": "time-dependent offsets are not used by the code; travel times include the transfer time at the stop"
  },
  {
   "property": "C62",
   "status": "partial",
   "theorems": [
    "Nigiri.Raptor.OneToAll.C62_limit_partial",
    "Nigiri.Raptor.OneToAll.C62_limit_false",
    "Nigiri.Raptor.OneToAll.C62_fastest_false"
   ],
   "note": "proved: the excess is at most the duration of the last walk (C62_limit_partial); the full claim is false of the code: C62_limit_false, C62_fastest_false"
  },
  {
   "property": "C63",
   "status": "proved",
   "theorems": [
    "Nigiri.Direct.C63_sound",
    "Nigiri.Direct.C63_determined"
   ],
   "note": ""
  },
  {
   "property": "C64",
   "status": "partial",
   "theorems": [
    "Nigiri.Direct.C64_sorted_partial",
    "Nigiri.Direct.C64_sorted_td_partial",
    "Nigiri.Direct.Demo.C64_td_walk"
   ],
   "note": "false with time-dependent walks: C64_td_walk"
  },
  {
   "property": "C65",
   "status": "partial",
   "theorems": [
    "Nigiri.Direct.C65_complete_partial",
    "Nigiri.Direct.Demo.C65_first_pair_only"
   ],
   "note": "C65_first_pair_only: a connection from the origin itself is missed if an earlier stop of the vehicle is near the origin; walks below 511 minutes, single location for exact matching"
  },
  {
   "property": "C66",
   "status": "partial",
   "theorems": [
    "Nigiri.Direct.C66_sound",
    "Nigiri.Direct.C66_factor",
    "Nigiri.Direct.C66_complete_partial",
    "Nigiri.Direct.C66_no_effect",
    "Nigiri.Direct.C66_added",
    "Nigiri.Direct.Demo.C66_duplicate",
    "Nigiri.Direct.Demo.C66_lost"
   ],
   "note": "C66_lost, C66_no_effect, C66_duplicate show where the full claim fails"
  },
  {
   "property": "C67",
   "status": "partial",
   "theorems": [
    "Nigiri.Direct.C67_count",
    "Nigiri.Direct.C67_fits",
    "Nigiri.Direct.C67_not_original",
    "Nigiri.Direct.C67_only_original",
    "Nigiri.Direct.C67_direct_partial",
    "Nigiri.Direct.C67_replaces_partial",
    "Nigiri.Direct.C67_first_partial",
    "Nigiri.Direct.Demo.C67_additional_service"
   ],
   "note": "number, times and 'not the original' without conditions; validity without time-dependent walks and without requirements that restrict the vehicles (C57); C67_additional_service: other additional services are dropped as 'the original'"
  },
  {
   "property": "C68",
   "status": "partial",
   "theorems": [
    "Nigiri.Direct.C68_itinerary_partial",
    "Nigiri.Direct.C68_earliest_partial",
    "Nigiri.Direct.Demo.C68_td_walk"
   ],
   "note": "without time-dependent walks; false with them: C68_td_walk (the walk is moved to a time at which the path may be closed); earliest: as C64, C65"
  },
  {
   "property": "C69",
   "status": "proved",
   "theorems": [
    "Nigiri.Resolve.C69_start_time",
    "Nigiri.Resolve.C69_start_date",
    "Nigiri.Resolve.C69_trip_id",
    "Nigiri.Resolve.C69_id_table",
    "Nigiri.Resolve.C69_resolve",
    "Nigiri.Resolve.C69_route",
    "Nigiri.Resolve.C69_rejected",
    "Nigiri.Resolve.C69_service_day",
    "Nigiri.Resolve.C69_service_time",
    "Nigiri.Resolve.C69_hrd_false",
    "Nigiri.Resolve.C69_api_needs_date"
   ],
   "note": "GTFS feeds; C69_hrd_false: HRD feeds store an offset that is read as minus one day; C69_api_needs_date: resolve without a start date finds nothing"
  },
  {
   "property": "C70",
   "status": "partial",
   "theorems": [
    "Nigiri.Resolve.C70_trip_start",
    "Nigiri.Resolve.C70_first_stop_partial",
    "Nigiri.Resolve.C70_last_stop_partial",
    "Nigiri.Resolve.C70_for_each_trip",
    "Nigiri.Resolve.C70_first_stop_false",
    "Nigiri.Resolve.C70_last_stop_false"
   ],
   "note": "for a cancelled trip, origin only if it is the last and destination only if it is the first trip of the run: C70_first_stop_false, C70_last_stop_false"
  },
  {
   "property": "C71",
   "status": "partial",
   "theorems": [
    "Nigiri.Resolve.C71_departure_day_partial",
    "Nigiri.Resolve.C71_reference_partial",
    "Nigiri.Resolve.C71_utc_day",
    "Nigiri.Resolve.C71_local_day_false"
   ],
   "note": "UTC day without condition; local day only if no departure falls on the local day before its UTC day: C71_local_day_false"
  },
  {
   "property": "C72",
   "status": "partial",
   "theorems": [
    "Nigiri.Fares.C72_transfers_partial",
    "Nigiri.Fares.C72_every_leg",
    "Nigiri.Fares.C72_at_most_twice",
    "Nigiri.Fares.C72_ends_partial",
    "Nigiri.Fares.C72_hypotheses",
    "Nigiri.Fares.C72_twice",
    "Nigiri.Fares.C72_endless",
    "Nigiri.Fares.C72_count",
    "Nigiri.Fares.C72_effective_legs"
   ],
   "note": "a leg can be priced twice: as the last leg of a group and again alone (C72_twice; never more: C72_at_most_twice); transfer_count 256 is stored as 0 and makes the call endless (C72_endless)"
  },
  {
   "property": "C73",
   "status": "proved",
   "theorems": [
    "Nigiri.Fares.C73_journey",
    "Nigiri.Fares.C73_added",
    "Nigiri.Fares.C73_rules",
    "Nigiri.Fares.C73_first",
    "Nigiri.Fares.C73_hypotheses",
    "Nigiri.Fares.C73_twice"
   ],
   "note": "as a set: a rule can be listed once per area of a stop (C73_twice)"
  },
  {
   "property": "C74",
   "status": "partial",
   "theorems": [
    "Nigiri.Fares.C74_timeframe_partial",
    "Nigiri.Fares.C74_hypotheses",
    "Nigiri.Fares.C74_west",
    "Nigiri.Fares.C74_overlap"
   ],
   "note": "only if the timezone is not west of UTC: C74_west; rules of the second of two overlapping groups are ignored: C74_overlap"
  },
  {
   "property": "C75",
   "status": "partial",
   "theorems": [
    "Nigiri.Alerts.C75_alerts_partial",
    "Nigiri.Alerts.C75_stable",
    "Nigiri.Alerts.Demo.C75_route_type_lost",
    "Nigiri.Alerts.Demo.C75_route_type_dropped",
    "Nigiri.Alerts.Demo.C75_grandparent",
    "Nigiri.Alerts.Demo.C75_combined_ignored",
    "Nigiri.Alerts.Demo.C75_dangling",
    "Nigiri.Alerts.Demo.C75_added_later"
   ],
   "note": "false in full: route types alone are never reported (C75_route_type_lost), further selectors are ignored (C75_combined_ignored), boarding areas two levels below a station are missed (C75_grandparent), a trip descriptor that throws leaves entries without alert which the next alert inherits (C75_dangling), alerts before the trip update of an additional trip are dropped (C75_added_later)"
  },
  {
   "property": "C76",
   "status": "partial",
   "theorems": [
    "Nigiri.Alerts.C76_same_service_partial",
    "Nigiri.Alerts.C76_after_feed_partial",
    "Nigiri.Alerts.Demo.C76_cancelled_reappears"
   ],
   "note": "an alert for a cancelled run without real-time instance brings it back into service (C76_cancelled_reappears)"
  },
  {
   "property": "C77",
   "status": "proved",
   "theorems": [
    "Nigiri.Shapes.C77_trip_distances",
    "Nigiri.Shapes.C77_shapes",
    "Nigiri.Shapes.C77_order_free"
   ],
   "note": ""
  },
  {
   "property": "C78",
   "status": "proved",
   "theorems": [
    "Nigiri.Shapes.C78_by_stops",
    "Nigiri.Shapes.C78_middle_stop",
    "Nigiri.Shapes.C78_by_dist",
    "Nigiri.Shapes.C78_by_dist_first"
   ],
   "note": ""
  },
  {
   "property": "C79",
   "status": "partial",
   "theorems": [
    "Nigiri.Shapes.Demo.C79_shared_distances",
    "Nigiri.Shapes.Demo.C79_unaligned",
    "Nigiri.Shapes.C79_part_of_shape",
    "Nigiri.Shapes.C79_no_shape",
    "Nigiri.Shapes.C79_legs_fit",
    "Nigiri.Shapes.C79_own_distances_partial"
   ],
   "note": "trips with the same stops and shape share the distances of the first of them (C79_shared_distances); trips of a loader that adds no shape entries (HRD) misalign all later feeds (C79_unaligned)"
  },
  {
   "property": "C80",
   "status": "proved",
   "theorems": [
    "Nigiri.Shapes.C80_boxes",
    "Nigiri.Shapes.C80_loads"
   ],
   "note": ""
  },
  {
   "property": "C81",
   "status": "proved",
   "theorems": [
    "Nigiri.Shapes.C81_polyline",
    "Nigiri.Shapes.C81_loaded"
   ],
   "note": "every section of the run must belong to a trip"
  },
  {
   "property": "C82",
   "status": "proved",
   "theorems": [
    "Nigiri.Seated.C82_sound",
    "Nigiri.Seated.C82_rules"
   ],
   "note": ""
  },
  {
   "property": "C83",
   "status": "partial",
   "theorems": [
    "Nigiri.Seated.C83_ends_partial",
    "Nigiri.Seated.C83_covered_partial",
    "Nigiri.Seated.C83_joined_partial",
    "Nigiri.Seated.C83_demo_ok",
    "Nigiri.Seated.C83_demo_consistent",
    "Nigiri.Seated.C83_demo_result",
    "Nigiri.Seated.C83_circle_lost",
    "Nigiri.Seated.C83_endless",
    "Nigiri.Seated.C83_frequency"
   ],
   "note": "proved for rules without circles and with one run per trip and service day; with circles trips are lost (C83_circle_lost) or the call never returns (C83_endless), with frequencies runs are lost (C83_frequency)"
  },
  {
   "property": "C84",
   "status": "partial",
   "theorems": [
    "Nigiri.Seated.C84_times_partial",
    "Nigiri.Seated.C84_unsorted"
   ],
   "note": "proved for consistent rules; otherwise trips are joined without regard to their times (C84_unsorted)"
  },
  {
   "property": "C85",
   "status": "partial",
   "theorems": [
    "Nigiri.Seated.C85_stops_partial",
    "Nigiri.Seated.C85_boarding_lost"
   ],
   "note": "proved for all stops but the first one of a joined trip: there permission and location of the arriving trip's last stop are used (C85_boarding_lost)"
  },
  {
   "property": "C86",
   "status": "proved",
   "theorems": [
    "Nigiri.Gpu.C86_roundtrip",
    "Nigiri.Gpu.C86_order",
    "Nigiri.Gpu.C86_model",
    "Nigiri.Gpu.C86_invalid",
    "Nigiri.Gpu.C86_updates",
    "Nigiri.Gpu.C86_improved",
    "Nigiri.Gpu.C86_any_order"
   ],
   "note": ""
  },
  {
   "property": "C87",
   "status": "partial",
   "theorems": [
    "Nigiri.Gpu.C87_ride_partial",
    "Nigiri.Gpu.C87_many_stops",
    "Nigiri.Gpu.C87_kinds",
    "Nigiri.Gpu.C87_unchecked",
    "Nigiri.Gpu.C87_transport_partial",
    "Nigiri.Gpu.C87_order_partial",
    "Nigiri.Gpu.C87_window"
   ],
   "note": "proved for routes with at most 2047 stops, transport counts accepted by the constructor's check, and days from 28 before to 35 after the base day; outside values wrap around (C87_many_stops, C87_unchecked, C87_window)"
  },
  {
   "property": "C88",
   "status": "proved",
   "theorems": [
    "Nigiri.Gpu.C88_best",
    "Nigiri.Gpu.C88_sequential"
   ],
   "note": ""
  },
  {
   "property": "C89",
   "status": "proved",
   "theorems": [
    "Nigiri.Gpu.C89_labels",
    "Nigiri.Gpu.C89_reported"
   ],
   "note": ""
  },
  {
   "property": "C90",
   "status": "proved",
   "theorems": [
    "Nigiri.Gpu.C90_optimal",
    "Nigiri.Gpu.C90_exact"
   ],
   "note": ""
  },
  {
   "property": "C91",
   "status": "proved",
   "theorems": [
    "Nigiri.Gpu.C91_deterministic",
    "Nigiri.Gpu.C91_cpu",
    "Nigiri.Gpu.C91_exists",
    "Nigiri.Gpu.C91_legs_race"
   ],
   "note": "which of several journeys with the same arrival and rides is kept does depend on the schedule (C91_legs_race)"
  },
  {
   "property": "C92",
   "status": "partial",
   "theorems": [
    "Nigiri.Gpu.C92_itinerary_partial",
    "Nigiri.Gpu.C92_long_walk_false"
   ],
   "note": "static footpaths; walks shorter than a day (needed: C92_long_walk_false) and at most 2048 stops per trip; the conversion of td footpaths on the host is not modelled"
  },
  {
   "property": "C93",
   "status": "proved",
   "theorems": [
    "Nigiri.Hrd.C93_days",
    "Nigiri.Hrd.C93_accepted",
    "Nigiri.Hrd.C93_every_day",
    "Nigiri.Hrd.C93_known"
   ],
   "note": "necessary and sufficient; set bits beyond 512 days are undefined behaviour and excluded"
  },
  {
   "property": "C94",
   "status": "partial",
   "theorems": [
    "Nigiri.Hrd.C94_sound",
    "Nigiri.Hrd.C94_disjoint",
    "Nigiri.Hrd.C94_complete_partial",
    "Nigiri.Hrd.C94_complete_only_if",
    "Nigiri.Hrd.C94_uniform",
    "Nigiri.Hrd.C94_growing",
    "Nigiri.Hrd.C94_lost_days_false"
   ],
   "note": "soundness, disjointness and the uniform case in full; completeness holds exactly for services in which a part begins at every section up to the last beginning (C94_complete_partial, C94_complete_only_if); otherwise days are lost (C94_lost_days_false)"
  },
  {
   "property": "C95",
   "status": "partial",
   "theorems": [
    "Nigiri.Hrd.C95_utc_partial",
    "Nigiri.Hrd.C95_unique",
    "Nigiri.Hrd.C95_defined",
    "Nigiri.Hrd.C95_injective",
    "Nigiri.Hrd.C95_first_minute_false",
    "Nigiri.Hrd.C95_last_date_false"
   ],
   "note": "the first existing local minute after the clock was set forward is treated as non-existing (C95_first_minute_false); the last date of the feed is not loaded (C95_last_date_false); 16 / 32 bit overflow of times not modelled"
  },
  {
   "property": "C96",
   "status": "proved",
   "theorems": [
    "Nigiri.Hrd.C96_round_trip",
    "Nigiri.Hrd.C96_existing",
    "Nigiri.Hrd.C96_inverse",
    "Nigiri.Hrd.C96_repeated"
   ],
   "note": "seasons that do not overlap and do not set the clock back"
  },
  {
   "property": "C97",
   "status": "partial",
   "theorems": [
    "Nigiri.Hrd.C97_track",
    "Nigiri.Hrd.C97_no_track",
    "Nigiri.Hrd.C97_stops_partial",
    "Nigiri.Hrd.C97_split_service_false"
   ],
   "note": "for services that are not split or have one train number and administration; false for other parts (C97_split_service_false: the section offset is added twice)"
  },
  {
   "property": "C98",
   "status": "partial",
   "theorems": [
    "Nigiri.Hrd.C98_timezone",
    "Nigiri.Hrd.C98_events",
    "Nigiri.Hrd.C98_service_partial"
   ],
   "note": "partial as C95"
  },
  {
   "property": "C99",
   "status": "proved",
   "theorems": [
    "Nigiri.Vdv.C99_pairing",
    "Nigiri.Vdv.C99_times",
    "Nigiri.Vdv.C99_monotone",
    "Nigiri.Vdv.C99_not_later",
    "Nigiri.Vdv.C99_repeat",
    "Nigiri.Vdv.C99_shape"
   ],
   "note": "reported stops are assigned first come first served (unique, C99_pairing)"
  },
  {
   "property": "C100",
   "status": "partial",
   "theorems": [
    "Nigiri.Vdv.C100_times_partial",
    "Nigiri.Vdv.C100_exact",
    "Nigiri.Vdv.C100_permissions_partial",
    "Nigiri.Vdv.C100_cancelled",
    "Nigiri.Vdv.C100_prediction_false",
    "Nigiri.Vdv.C100_alighting_false"
   ],
   "note": "times in full if the times given by the message are in order; a later described event without prediction lowers an earlier prediction (C100_prediction_false); alighting is lost at the first stop of the matched range if boarding is forbidden there (C100_alighting_false)"
  },
  {
   "property": "C101",
   "status": "partial",
   "theorems": [
    "Nigiri.Vdv.C101_supported",
    "Nigiri.Vdv.C101_best",
    "Nigiri.Vdv.C101_by_id",
    "Nigiri.Vdv.C101_exact_partial",
    "Nigiri.Vdv.C101_exact_false"
   ],
   "note": "completeness needs that the first reported stop is not also close to a later stop of the run; otherwise the run can be missed and a worse one matched (C101_exact_false); thresholds in exact arithmetic instead of double"
  },
  {
   "property": "C102",
   "status": "partial",
   "theorems": [
    "Nigiri.Vdv.C102_active",
    "Nigiri.Vdv.C102_one_instance",
    "Nigiri.Vdv.C102_frame",
    "Nigiri.Vdv.C102_update",
    "Nigiri.Vdv.C102_cancel_effect",
    "Nigiri.Vdv.C102_cancel_partial",
    "Nigiri.Vdv.C102_cancel_false"
   ],
   "note": "everything but cancellation in full; a cancellation does not reach the real-time transport of a run that was updated before (C102_cancel_false)"
  },
  {
   "property": "C103",
   "status": "proved",
   "theorems": [
    "Nigiri.Netex.C103_period",
    "Nigiri.Netex.C103_validity",
    "Nigiri.Netex.C103_demo"
   ],
   "note": ""
  },
  {
   "property": "C104",
   "status": "partial",
   "theorems": [
    "Nigiri.Netex.C104_day_type_partial",
    "Nigiri.Netex.C104_second_assignment",
    "Nigiri.Netex.C104_second_day_type",
    "Nigiri.Netex.C104_date"
   ],
   "note": "proved for one day type with one assignment by an operating period; only the first assignment of a day type and only the first day type of a journey count (C104_second_assignment, C104_second_day_type); an assignment by date makes every day an operating day (C104_date)"
  },
  {
   "property": "C105",
   "status": "proved",
   "theorems": [
    "Nigiri.Netex.C105_convert",
    "Nigiri.Netex.C105_runs",
    "Nigiri.Netex.C105_exact",
    "Nigiri.Netex.C105_cet_ok",
    "Nigiri.Netex.C105_demo"
   ],
   "note": "int16 arithmetic is not modelled; for local times that occur twice either occurrence may be taken"
  },
  {
   "property": "C106",
   "status": "proved",
   "theorems": [
    "Nigiri.Netex.C106_in_range",
    "Nigiri.Netex.C106_demo",
    "Nigiri.Netex.C106_sharp"
   ],
   "note": "longer journeys can set a negative day (C106_sharp): out-of-bounds write"
  },
  {
   "property": "C107",
   "status": "partial",
   "theorems": [
    "Nigiri.Netex.C107_given_partial",
    "Nigiri.Netex.C107_missing_arrival"
   ],
   "note": "given times are exact; a stop without arrival time is reached when the vehicle leaves the stop before (C107_missing_arrival)"
  },
  {
   "property": "C108",
   "status": "partial",
   "theorems": [
    "Nigiri.Netex.C108_written_partial",
    "Nigiri.Netex.C108_same_id",
    "Nigiri.Netex.C108_demo"
   ],
   "note": "proved for different identifiers; after a repeated identifier all later service journeys are recorded for the wrong trip (C108_same_id; builds with assertions abort)"
  },
  {
   "property": "C109",
   "status": "partial",
   "theorems": [
    "Nigiri.Netex.C109_alone",
    "Nigiri.Netex.C109_covered_partial",
    "Nigiri.Netex.C109_twice",
    "Nigiri.Netex.C109_demo_ok",
    "Nigiri.Netex.C109_demo_consistent",
    "Nigiri.Netex.C109_demo"
   ],
   "note": "proved: without meetings exactly once, with consistent meetings at least once; every last journey of a chain is loaded twice (C109_twice)"
  },
  {
   "property": "C110",
   "status": "partial",
   "theorems": [
    "Nigiri.Netex.C110_assignment",
    "Nigiri.Netex.C110_quay_partial",
    "Nigiri.Netex.C110_place",
    "Nigiri.Netex.C110_permissions",
    "Nigiri.Netex.C110_stop",
    "Nigiri.Netex.C110_demo"
   ],
   "note": "everything but the preference of the quay in full; a stop place of the file is preferred to a quay of a base file (C110_place)"
  },
  {
   "property": "C111",
   "status": "proved",
   "theorems": [
    "Nigiri.Rt.C111_run",
    "Nigiri.Rt.C111_message"
   ],
   "note": "per run for added trips too as long as no stop is reassigned (C111_run)"
  },
  {
   "property": "C112",
   "status": "partial",
   "theorems": [
    "Nigiri.Rt.C112_forgets_partial",
    "Nigiri.Rt.FeedDemo.C112_stale_delay_counterexample",
    "Nigiri.Rt.FeedDemo.C112_stale_stop_counterexample"
   ],
   "note": "proved for updates of the whole transport that mention its first departure; otherwise delays before the first mentioned stop are kept and push everything after them (C112_stale_delay_counterexample), skipped stops stay skipped (C112_stale_stop_counterexample)"
  },
  {
   "property": "C113",
   "status": "partial",
   "theorems": [
    "Nigiri.Rt.C113_added_trip_partial",
    "Nigiri.Rt.FeedDemo.C113_resent_counterexample",
    "Nigiri.Rt.FeedDemo.C113_skipped_counterexample"
   ],
   "note": "proved for non-decreasing times within 22 days of the base day and stops that are not reassigned; decreasing times are raised twice (C31_added_trip_counterexample); later messages about a reassigned stop are ignored (C113_resent_counterexample); a skipped stop stays skipped (C113_skipped_counterexample)"
  },
  {
   "property": "C114",
   "status": "partial",
   "theorems": [
    "Nigiri.Rt.FeedDemo.C114_deleted_counterexample",
    "Nigiri.Rt.FeedDemo.C114_uncounted_counterexample",
    "Nigiri.Rt.C114_new_trip",
    "Nigiri.Rt.C114_effect",
    "Nigiri.Rt.C114_counted_partial",
    "Nigiri.Rt.C114_counted_vehicles_partial",
    "Nigiri.Rt.C114_vehicles"
   ],
   "note": "effect and frame in full but for deleted entities, which are applied (C114_deleted_counterexample); counters: an added trip with unknown stops or too fast is counted nowhere (C114_uncounted_counterexample), one for several runs several times; ids changed by trip_properties: C115"
  },
  {
   "property": "C115",
   "status": "partial",
   "theorems": [
    "Nigiri.Rt.C115_stable_partial",
    "Nigiri.Rt.C115_distinct_partial",
    "Nigiri.Rt.C115_complete_partial",
    "Nigiri.Rt.C115_found_partial",
    "Nigiri.Rt.FeedDemo.C115_properties_counterexample"
   ],
   "note": "proved if trip_properties.trip_id is absent, empty or the trip id; otherwise every message creates another transport and the trips added later stand for transports of others (C115_properties_counterexample)"
  },
  {
   "property": "C116",
   "status": "proved",
   "theorems": [
    "Nigiri.GtfsStops.C116_footpaths",
    "Nigiri.GtfsStops.C116_transfer_time",
    "Nigiri.GtfsStops.C116_seated",
    "Nigiri.GtfsStops.C116_hierarchy",
    "Nigiri.GtfsStops.C116_types_counterexample"
   ],
   "note": "Types are taken modulo 256, type 5 and trip-specific rows become general footpaths, rows without time give 0 minutes (C116_types_counterexample)."
  },
  {
   "property": "C117",
   "status": "proved",
   "theorems": [
    "Nigiri.GtfsStops.C117_mirror",
    "Nigiri.GtfsStops.C117_given",
    "Nigiri.GtfsStops.C117_generated",
    "Nigiri.GtfsStops.C117_both",
    "Nigiri.GtfsStops.C117_equivalent",
    "Nigiri.GtfsStops.C117_durations",
    "Nigiri.GtfsStops.C117_loaded",
    "Nigiri.GtfsStops.C117_order_counterexample",
    "Nigiri.GtfsStops.C117_impossible_counterexample"
   ],
   "note": "The generated duration may depend on the order (C117_order_counterexample); a row \"not possible\" does not prevent generation (C117_impossible_counterexample)."
  },
  {
   "property": "C118",
   "status": "partial",
   "theorems": [
    "Nigiri.GtfsStops.C118_known",
    "Nigiri.GtfsStops.C118_children",
    "Nigiri.GtfsStops.C118_parent",
    "Nigiri.GtfsStops.C118_tree_partial",
    "Nigiri.GtfsStops.C118_repeated_counterexample",
    "Nigiri.GtfsStops.C118_same_name"
   ],
   "note": "With a repeated stop_id naming another parent the stop stays child of both (C118_repeated_counterexample)."
  },
  {
   "property": "C119",
   "status": "proved",
   "theorems": [
    "Nigiri.GtfsStops.C119_related",
    "Nigiri.GtfsStops.C119_ends",
    "Nigiri.GtfsStops.C119_family",
    "Nigiri.GtfsStops.C119_symmetry_counterexample"
   ],
   "note": "Relatedness is not symmetric (C119_symmetry_counterexample). The code inserts children into the set while iterating over it (undefined when the set grows); modelled as iteration over the old elements."
  },
  {
   "property": "C120",
   "status": "proved",
   "theorems": [
    "Nigiri.GtfsStops.C120_groups",
    "Nigiri.GtfsStops.C120_nearby"
   ],
   "note": "Geometry is a parameter."
  },
  {
   "property": "C121",
   "status": "partial",
   "theorems": [
    "Nigiri.Ontrip.C121_rejected",
    "Nigiri.Ontrip.C121_starts",
    "Nigiri.Ontrip.C121_at_stops",
    "Nigiri.Ontrip.C121_position_partial",
    "Nigiri.Ontrip.C121_position_counterexample",
    "Nigiri.Ontrip.C121_alight_counterexample"
   ],
   "note": "Positions wrap at 256 stops (C121_position_counterexample); stops where one may not get off are offered (C121_alight_counterexample). Durations up to 16 bits."
  },
  {
   "property": "C122",
   "status": "partial",
   "theorems": [
    "Nigiri.Ontrip.C122_first",
    "Nigiri.Ontrip.C122_last",
    "Nigiri.Ontrip.C122_legs",
    "Nigiri.Ontrip.C122_permitted_partial",
    "Nigiri.Ontrip.C122_waiting_counterexample"
   ],
   "note": "When one has to wait before the walk, the leg is placed at a time at which it is closed (C122_waiting_counterexample)."
  },
  {
   "property": "C123",
   "status": "partial",
   "theorems": [
    "Nigiri.Translations.C123_texts_partial",
    "Nigiri.Translations.C123_stable",
    "Nigiri.Translations.C123_table_counterexample",
    "Nigiri.Translations.C123_repeated_counterexample"
   ],
   "note": "Rows for booking_rules, location_groups, areas, networks, fares are not read although the loader asks for some of them (C123_table_counterexample); a repeated record keeps its first text (C123_repeated_counterexample)."
  },
  {
   "property": "C124",
   "status": "partial",
   "theorems": [
    "Nigiri.StopTimes.C124_regular_partial",
    "Nigiri.StopTimes.C124_ticketing",
    "Nigiri.StopTimes.C124_flexible_partial",
    "Nigiri.StopTimes.C124_others_unchanged",
    "Nigiri.StopTimes.C124_regular_example",
    "Nigiri.StopTimes.C124_sorts_example",
    "Nigiri.StopTimes.C124_ticketing_example",
    "Nigiri.StopTimes.C124_flex_counterexample",
    "Nigiri.StopTimes.C124_mixed_counterexample",
    "Nigiri.StopTimes.C124_large_number_counterexample",
    "Nigiri.StopTimes.C124_same_id_counterexample"
   ],
   "note": "Areas keep the order of the file while their windows are sorted (C124_flex_counterexample); trips with stops and areas are not put into order (C124_mixed_counterexample); numbers from 65535 on (C124_large_number_counterexample)."
  },
  {
   "property": "C125",
   "status": "proved",
   "theorems": [
    "Nigiri.Flex.C125_instants",
    "Nigiri.Flex.C125_once",
    "Nigiri.Flex.C125_rules",
    "Nigiri.Flex.C125_listed",
    "Nigiri.Flex.C125_range",
    "Nigiri.Flex.C125_example",
    "Nigiri.Flex.C125_previous_day_counterexample"
   ],
   "note": "Days must fit into 512 bits (InRange, C125_range). The selection is by service day: windows after midnight of the day before the timetable are not offered (C125_previous_day_counterexample)."
  },
  {
   "property": "C126",
   "status": "partial",
   "theorems": [
    "Nigiri.Flex.C126_outlines",
    "Nigiri.Flex.C126_names_partial",
    "Nigiri.Flex.C126_names_counterexample",
    "Nigiri.Flex.C126_example"
   ],
   "note": "A polygon whose coordinates cannot be read (e.g. whole numbers) leaves its name: all later areas get the wrong name (C126_names_counterexample)."
  },
  {
   "property": "C127",
   "status": "proved",
   "theorems": [
    "Nigiri.Flex.C127_group_stops",
    "Nigiri.Flex.C127_inverse",
    "Nigiri.Flex.C127_example"
   ],
   "note": "Two indices kept in step."
  },
  {
   "property": "C128",
   "status": "partial",
   "theorems": [
    "Nigiri.GtfsRoutes.C128_routes_partial",
    "Nigiri.GtfsRoutes.C128_agency_keys",
    "Nigiri.GtfsRoutes.C128_rows",
    "Nigiri.GtfsRoutes.C128_complete",
    "Nigiri.GtfsRoutes.C128_routes_example",
    "Nigiri.GtfsRoutes.C128_duplicate_counterexample",
    "Nigiri.GtfsRoutes.C128_unknown_counterexample",
    "Nigiri.GtfsRoutes.C128_single_counterexample"
   ],
   "note": "Needs distinct ids: a route_id given twice shifts the attributes of all later routes (C128_duplicate_counterexample). With fewer than two agencies in the file, routes of other agencies are given to the only one (C128_unknown_counterexample, C128_single_counterexample)."
  },
  {
   "property": "C129",
   "status": "partial",
   "theorems": [
    "Nigiri.GtfsRoutes.C129_class",
    "Nigiri.GtfsRoutes.C129_setters_partial",
    "Nigiri.GtfsRoutes.C129_text_color_counterexample",
    "Nigiri.GtfsRoutes.C129_unlisted",
    "Nigiri.GtfsRoutes.C129_class_range",
    "Nigiri.GtfsRoutes.C129_agency_kept",
    "Nigiri.GtfsRoutes.C129_no_change",
    "Nigiri.GtfsRoutes.C129_last_wins",
    "Nigiri.GtfsRoutes.C129_table"
   ],
   "note": "All setters except set_text_color, which overwrites the colour (C129_text_color_counterexample)."
  },
  {
   "property": "C130",
   "status": "proved",
   "theorems": [
    "Nigiri.GtfsTrips.C130_row",
    "Nigiri.GtfsTrips.C130_class",
    "Nigiri.GtfsTrips.C130_trips",
    "Nigiri.GtfsTrips.C130_blocks",
    "Nigiri.GtfsTrips.C130_frequencies",
    "Nigiri.GtfsTrips.C130_window",
    "Nigiri.GtfsTrips.C130_no_block",
    "Nigiri.GtfsTrips.C130_setters",
    "Nigiri.GtfsTrips.C130_script",
    "Nigiri.GtfsTrips.C130_example",
    "Nigiri.GtfsTrips.C130_headway_counterexample"
   ],
   "note": "Only the value -1 of headway_secs counts as unreadable: other negative headways become one minute (C130_headway_counterexample)."
  },
  {
   "property": "C131",
   "status": "partial",
   "theorems": [
    "Nigiri.Ticketing.C131_lookup",
    "Nigiri.Ticketing.C131_identifiers",
    "Nigiri.Ticketing.C131_links",
    "Nigiri.Ticketing.C131_set_links_partial",
    "Nigiri.Ticketing.C131_unknown_link",
    "Nigiri.Ticketing.C131_trips_partial",
    "Nigiri.Ticketing.C131_unsized_counterexample",
    "Nigiri.Ticketing.C131_lookup_example",
    "Nigiri.Ticketing.C131_unsorted_counterexample"
   ],
   "note": "Needs existing links (C131_unknown_link), agencies which are already sorted (C131_unsorted_counterexample) and bit vectors of the right size, which the loader never gives them (C131_unsized_counterexample)."
  },
  {
   "property": "C132",
   "status": "proved",
   "theorems": [
    "Nigiri.WriteTrips.C132_written",
    "Nigiri.WriteTrips.C132_no_throw",
    "Nigiri.WriteTrips.C132_keeps",
    "Nigiri.WriteTrips.C132_trip_ranges",
    "Nigiri.WriteTrips.C132_location_routes",
    "Nigiri.WriteTrips.C132_order",
    "Nigiri.WriteTrips.C132_stops",
    "Nigiri.WriteTrips.C132_example"
   ],
   "note": ""
  },
  {
   "property": "C133",
   "status": "partial",
   "theorems": [
    "Nigiri.Assistance.C133_days_partial",
    "Nigiri.Assistance.C133_good",
    "Nigiri.Assistance.C133_local_time",
    "Nigiri.Assistance.C133_counterexample",
    "Nigiri.Assistance.C133_example",
    "Nigiri.Assistance.C133_rules_partial",
    "Nigiri.Assistance.C133_rules_counterexample",
    "Nigiri.Assistance.C133_rules_example"
   ],
   "note": "Times: the service must start on the UTC day that is its local day (C133_counterexample). File: all opening hours must be valid (C133_rules_counterexample)."
  },
  {
   "property": "C134",
   "status": "partial",
   "theorems": [
    "Nigiri.FreqBlock.C134_plain",
    "Nigiri.FreqBlock.C134_departures_partial",
    "Nigiri.FreqBlock.C134_never_through",
    "Nigiri.FreqBlock.C134_counterexample"
   ],
   "note": "No departure is lost, none added; but runs never go through (C134_never_through: for every block)."
  },
  {
   "property": "C135",
   "status": "partial",
   "theorems": [
    "Nigiri.TdNet.C135_fifo",
    "Nigiri.TdNet.C135_constant",
    "Nigiri.TdNet.C135_search",
    "Nigiri.TdNet.C135_detour_counterexample"
   ],
   "note": "Backward search in full; forward search if waiting for another path never pays (always for lifts: constant duration when open); footpaths (stored with 9 bits) must be usable within 511 minutes. False otherwise: C135_detour_counterexample."
  },
  {
   "property": "C136",
   "status": "partial",
   "theorems": [
    "Nigiri.FeedNet.C136_rides",
    "Nigiri.FeedNet.C136_journeys",
    "Nigiri.FeedNet.C136_boarding",
    "Nigiri.FeedNet.C136_sound",
    "Nigiri.FeedNet.C136_exact_partial",
    "Nigiri.FeedNet.C136_overtake_counterexample"
   ],
   "note": "Rides, journeys, boarding and soundness for every feed (event times of a service must not decrease for soundness); the optimality needs that services with the same stops pass midnight at the same events, otherwise it is false: C136_overtake_counterexample. Without real-time transports."
  },
  {
   "property": "C137",
   "status": "partial",
   "theorems": [
    "Nigiri.FeedServices.C137_no_throw",
    "Nigiri.FeedServices.C137_import",
    "Nigiri.FeedServices.C137_rides",
    "Nigiri.FeedServices.C137_sound",
    "Nigiri.FeedServices.C137_exact_partial"
   ],
   "note": "Rides and soundness for every feed whose local times do not decrease along a run; the optimality needs that services with the same stops pass midnight at the same events (C136_overtake_counterexample). Without wheelchair assistance (C133), seated transfers (C82-C85) and real-time data."
  },
  {
   "property": "C138",
   "status": "partial",
   "theorems": [
    "Nigiri.FeedQuery.C138_lower_bounds",
    "Nigiri.FeedQuery.C138_sound",
    "Nigiri.FeedQuery.C138_optimal",
    "Nigiri.FeedQuery.C138_complete_partial",
    "Nigiri.FeedQuery.C138_point_complete_partial",
    "Nigiri.FeedQuery.C138_point_optimal"
   ],
   "note": "The composition of C22, C46, C136 and C137. Partial: completeness needs that services with the same stops pass UTC midnight at the same events (C136_overtake_counterexample shows that journeys are lost otherwise); assistance, continued block trips, real-time updates and the reconstruction are outside of this statement."
  },
  {
   "property": "C139",
   "status": "partial",
   "theorems": [
    "Nigiri.HrdParse.Ex.C139_index_unchecked",
    "Nigiri.HrdParse.C139_range",
    "Nigiri.HrdParse.C139_category",
    "Nigiri.HrdParse.C139_line",
    "Nigiri.HrdParse.C139_days",
    "Nigiri.HrdParse.C139_direction_partial",
    "Nigiri.HrdParse.C139_attributes",
    "Nigiri.HrdParse.C139_number",
    "Nigiri.HrdParse.C139_admin",
    "Nigiri.HrdParse.C139_rejected",
    "Nigiri.HrdParse.C139_stops"
   ],
   "note": "Partial: an index (`#n`) that is too large is not checked: C139_index_unchecked shows a write behind the sections; C139_direction_partial therefore assumes that this does not happen. The conversion of columns to numbers is a parameter; stations with number 0 (the value of a blank column) are excluded."
  },
  {
   "property": "C140",
   "status": "proved",
   "theorems": [
    "Nigiri.HrdParse.Ex.C140_last_service_false",
    "Nigiri.HrdParse.Ex.C140_leading_lines_false",
    "Nigiri.HrdParse.C140_services",
    "Nigiri.HrdParse.C140_invalid_line"
   ],
   "note": "The theorem includes that an exception in the last service leaves the function (it is outside of the `try` that skips all other services, C140_last_service_false); lines in front of the first head line are outside of the hypotheses and become lines of the first service (C140_leading_lines_false)."
  },
  {
   "property": "C141",
   "status": "partial",
   "theorems": [
    "Nigiri.HrdParse.Ex.C141_part_false",
    "Nigiri.HrdParse.Ex.C141_unknown_category_false",
    "Nigiri.HrdParse.Ex.C141_trailing_blank_false",
    "Nigiri.HrdParse.C141_name_partial"
   ],
   "note": "C141_name_partial: for a service whose first section has a known category and whose name has a second part. Otherwise false: a name without number ends with a blank (C141_trailing_blank_false), an unknown category gives class kOther but reads a null pointer for the name (C141_unknown_category_false), and the parts of a split service are named after the first section of the whole service (C141_part_false)."
  },
  {
   "property": "C142",
   "status": "partial",
   "theorems": [
    "Nigiri.RouteDays.C142_active_days",
    "Nigiri.RouteDays.C142_event_days_partial",
    "Nigiri.RouteDays.C142_search_days",
    "Nigiri.RouteDays.C142_last_days_false"
   ],
   "note": "C142_active_days (exact) and C142_search_days (the predicate used by the search theorems) hold without restriction for the 512 days; C142_event_days_partial: every event up to day 511 is on an active day. Missing and false: events behind the last bit of a bitfield are dropped by the shift (C142_last_days_false)."
  },
  {
   "property": "C143",
   "status": "partial",
   "theorems": [
    "Nigiri.HrdWrite.C143_attributes_partial",
    "Nigiri.HrdWrite.C143_direction_partial",
    "Nigiri.HrdWrite.C143_no_direction_partial",
    "Nigiri.HrdWrite.C143_class",
    "Nigiri.HrdWrite.C143_line",
    "Nigiri.HrdWrite.C143_operator",
    "Nigiri.HrdWrite.C143_attributes_lost",
    "Nigiri.HrdWrite.Ex.C143_lost_false",
    "Nigiri.HrdWrite.Ex.C143_attribute_days_false"
   ],
   "note": "From the lines of the file to what is shown, composed with C139: C143_class, C143_operator; C143_direction_partial and C143_no_direction_partial exclude services with an index that is too large (C139_index_unchecked); C143_attributes_partial needs a service with own data for some section: without it all attributes of the whole service are lost (C143_attributes_lost, C143_lost_false), and the traffic days of an attribute line are ignored (C143_attribute_days_false)."
  },
  {
   "property": "C144",
   "status": "partial",
   "theorems": [
    "Nigiri.Importance.C144_importance",
    "Nigiri.Importance.C144_max",
    "Nigiri.Importance.C144_child",
    "Nigiri.Importance.C144_other_false"
   ],
   "note": "C144_importance, C144_max, C144_child with the weights of the code's table. Partial: sums are exact in the model (the code adds floats: exact up to 2^24), and the table was written for a former list of classes: kOther, kFunicular and kAerialLift have weight 0, kRideSharing that of regional fast trains (C144_other_false)."
  },
  {
   "property": "C145",
   "status": "proved",
   "theorems": [
    "Nigiri.Metrics.C145_first",
    "Nigiri.Metrics.C145_last",
    "Nigiri.Metrics.C145_counts",
    "Nigiri.Metrics.C145_no_days"
   ],
   "note": "C145_first, C145_last, C145_counts; a feed in which nothing runs reports first day 65535 and last day 0 (C145_no_days). A trip with several vehicles on the same day counts that day once; flex trips count once per id and are not in the number of trips. The printed JSON is not modelled."
  },
  {
   "property": "C146",
   "status": "partial",
   "theorems": [
    "Nigiri.HrdStations.C146_equivalences_partial",
    "Nigiri.HrdStations.C146_footpaths_partial",
    "Nigiri.HrdStations.C146_stations",
    "Nigiri.HrdStations.C146_name",
    "Nigiri.HrdStations.C146_position",
    "Nigiri.HrdStations.C146_unnamed_false"
   ],
   "note": "C146_stations, C146_name, C146_position, C146_equivalences_partial, C146_footpaths_partial: for inputs in which the target of every footpath line has a line in the file of names. Without it false: C146_unnamed_false. The columns of the lines are parameters; that a duration over 255 minutes ends the import is part of the model."
  },
  {
   "property": "C147",
   "status": "proved",
   "theorems": [
    "Nigiri.HrdTracks.C147_track",
    "Nigiri.HrdTracks.C147_no_track",
    "Nigiri.HrdTracks.C147_locations",
    "Nigiri.HrdTracks.C147_children",
    "Nigiri.HrdTracks.C147_admin"
   ],
   "note": "C147_track, C147_no_track, C147_locations, C147_children, C147_admin; composes the file with C97 (resolve_track). The columns of a line are parameters; the ids of tracks are taken to be new."
  }
 ]
}