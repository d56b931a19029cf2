{
 "C01": {
  "status": "proved",
  "note": "delta clamp/round trip/monotonicity for all int values"
 },
 "C02": {
  "status": "proved",
  "note": "day/minute split, all offsets; the pre-base-day case of split_day_mam is stated explicitly"
 },
 "C03": {
  "status": "proved",
  "note": "bit-level packing for every in-range value; documented collisions stated as separate theorems"
 },
 "C04": {
  "status": "proved",
  "note": "shortest way around the clock and day direction"
 },
 "C05": {
  "status": "proved",
  "note": "set semantics; overlaps on empty intervals documented by a separate theorem"
 },
 "C06": {
  "status": "proved",
  "note": "any insertion sequence, any reflexive transitive dominance; transitivity is necessary (witness)"
 },
 "C07": {
  "status": "proved",
  "note": "refinement to a multiset priority queue for any operation sequence"
 },
 "C08": {
  "status": "proved",
  "note": "exactness and termination of the bucket-queue Dijkstra"
 },
 "C32": {
  "status": "proved",
  "note": "any history of store calls; hash set container trusted, 32-bit index overflow not modelled"
 },
 "C33": {
  "status": "proved",
  "note": "refinement to a plain map for any call sequence, including writes through the returned reference"
 },
 "C43": {
  "status": "partial",
  "note": "proved for chains of at most 21 links and total definedness; counterexample theorems show it fails on cyclic or deeper parent tables"
 },
 "C40": {
  "status": "partial",
  "note": "partial order for all journeys; characterisation for journeys of the same direction; counterexample theorem for zero-length backward journeys"
 },
 "C41": {
  "status": "partial",
  "note": "proved while values fit the result type; counterexample theorems for 8-bit wrap and for operator=="
 },
 "C28": {
  "status": "proved",
  "note": "flip_dir, sanitize_query, sanitize_via_stops, sanitize"
 },
 "C09": {
  "status": "partial",
  "note": "get_td_duration proved in both directions; for_each_footpath clamps at 511 minutes: proved below, counterexample theorem above"
 },
 "C10": {
  "status": "proved",
  "note": "calendar_to_bitfield incl. feed-end extension; date parsing library trusted"
 },
 "C11": {
  "status": "proved",
  "note": "merge_traffic_days over all services; counterexample theorem documents bits beyond the timetable end"
 },
 "C12": {
  "status": "proved",
  "note": "trips with >= 2 stops; single-stop case characterised"
 },
 "C14": {
  "status": "partial",
  "note": "generated departures are scheduled ones, complete if the headway divides the window; counterexample theorems for the missing last departure and inverted windows; several trips of a block: C134"
 },
 "C42": {
  "status": "partial",
  "note": "well-formed and blank fields; counterexample theorem: malformed text is not rejected"
 },
 "C13": {
  "status": "proved",
  "note": "all trips with at least two stops; the floating point rounding is abstracted by its monotonicity and range (IsInterp, met by exact rounding); a missing first arrival becomes 0 (stated)"
 },
 "C15": {
  "status": "proved",
  "note": "one run per service day, exact instants (equal frequency offsets, non-decreasing local times), always non-decreasing UTC times; the wrong instants for blocks with different frequency offsets are stated as a counterexample; noon offsets are an input"
 },
 "C16": {
  "status": "proved",
  "note": "any block, any number of trips, every day: partition, linkage and maximality"
 },
 "C17": {
  "status": "partial",
  "note": "order by minute of day at every event and FIFO for equal numbers of midnights proved for every insertion sequence; the full no-overtaking claim is false of the code (C17_overtake_counterexample)"
 },
 "C18": {
  "status": "proved",
  "note": "get_earliest_transport, both directions; the route must be sorted by minute of day (established by C17)"
 },
 "C19": {
  "status": "proved",
  "note": "labels and reported arrivals, both directions, range queries, real-time transports, static/time dependent footpaths, intermodal ends; no hypothesis on lower bounds or overtaking. Via stops and ping bounds are not part of this model"
 },
 "C20": {
  "status": "proved",
  "note": "for timetables whose routes do not overtake (Aligned) and FIFO footpaths, admissible lower bounds, start not a destination; counterexamples in DESIGN.md section 4 explain why these hypotheses are needed"
 },
 "C21": {
  "status": "proved",
  "note": "search with admissible lower bounds offers the same arrivals as with zero bounds"
 },
 "C23": {
  "status": "proved",
  "note": "exact characterisation of the rides of the search; class filter equals removing the routes. Combined block transports carry only the class of their first trip (finding 24)"
 },
 "C24": {
  "status": "proved",
  "note": "every ride behind a reported arrival boards/alights where allowed; wheelchair search equals ordinary search on the wheelchair permissions"
 },
 "C44": {
  "status": "proved",
  "note": "range query offers exactly what the independent searches offer"
 },
 "C22": {
  "status": "proved",
  "note": "build_lb_graph, update_lbs, the query's dijkstra and its propagation to child stops; admissible for every journey of at most 7200 minutes; the numbering condition is necessary (C22_order_counterexample)"
 },
 "C27": {
  "status": "proved",
  "note": "scheduled and real-time transports, constant and time-dependent offsets, every iteration order of the hash maps; counterexample theorems: extension of an interval may drop starts of other locations, infeasible offsets of real-time departures count as 511 minutes, constant offsets of exactly 511 minutes are dropped"
 },
 "C25": {
  "status": "proved",
  "note": "Interval estimation and the loop of the search driver, for every routing algorithm and clock. C25_cut_counterexample and C25_count_counterexample document where the code deviates from the informal expectation."
 },
 "C26": {
  "status": "proved",
  "note": "For every routing algorithm. C26_slow_direct_lost: slow direct connections are removed by the post processing."
 },
 "C46": {
  "status": "proved",
  "note": "RAPTOR (fixed lower bounds, no vias), get_starts with constant offsets and the search driver; legs of the journeys are not part of the model. Hypotheses: routes do not overtake; if the interval is extended on the side searched last, only one start location (finding 34: C27_extension_counterexample); reconstruction does not fail. C46_max_travel_counterexample: with a fixed start time the maximum travel time is not enforced."
 },
 "C30": {
  "status": "proved",
  "note": "trip updates: any run, any message, any previous state; vehicle positions and arbitrary histories for scheduled runs with an ordered schedule"
 },
 "C31": {
  "status": "proved",
  "note": "scheduled runs, times within +-8000 minutes of the base day (no 16-bit clamp); first/later trips of a block; counterexample theorems: updates with a rejected stop assignment are skipped together with the propagation, additional trips count the bound twice"
 },
 "C29": {
  "status": "proved",
  "note": "any history of cancellations, updates and added trips (trip matching not modelled, fewer than 2^31 bitfields). Counterexample theorems: a cancelled run which already had a real-time instance is only flagged and stays usable for routing; cancelling one trip of a block cancels all of it"
 },
 "C47": {
  "status": "proved",
  "note": "any feed history"
 },
 "C48": {
  "status": "proved",
  "note": "single updates and whole histories; C48_reassigned_counterexample: a skipped stop which is then moved to another track stays closed"
 },
 "C39": {
  "status": "proved",
  "note": "every query and hash map order; C39_intermediate_counterexample: walks over stops which are no destination are not considered (footpaths are expected to be closed); the floating point factor is abstract"
 },
 "C35": {
  "status": "proved",
  "note": "Rooted footpath graphs with unique durations below 256 minutes; parallel execution of the searches is independent and not modelled; counterexample theorems: directed graphs (loading fails), durations above 255 minutes wrap, duplicate footpaths are resolved arbitrarily"
 },
 "C49": {
  "status": "proved",
  "note": "any result of the closure"
 },
 "C50": {
  "status": "proved",
  "note": "add_links_to_and_between_children"
 },
 "C34": {
  "status": "proved",
  "note": "merge, find_duplicates, any sequence of searches; location equivalence (matches) is a parameter"
 },
 "C51": {
  "status": "partial",
  "note": "proved for single merges of comparable day sets; the full claim is false of the code: counterexample theorems for partial overlaps, proper supersets (extra days) and chains of three duplicates (trip lost)"
 },
 "C36": {
  "status": "proved",
  "note": "query/update over arbitrary histories of enqueue operations with values that fit the bit fields; counterexample for routes with more than 4096 trips"
 },
 "C37": {
  "status": "proved",
  "note": "for timetables whose trips are ordered at each stop (C37_overtake_counterexample shows that this is needed)"
 },
 "C38": {
  "status": "partial",
  "note": "false as stated: the engine ignores the limit of the query (C38_limit_counterexample); only the global limit is proved"
 },
 "C52": {
  "status": "partial",
  "note": "independence after reset_arrivals proved; false for a reused query state (C52_reuse_counterexample), proved when arrival times and distances are those of a new state"
 },
 "C53": {
  "status": "proved",
  "note": "end to end from preprocessing to results, any history of calls"
 },
 "C54": {
  "status": "proved",
  "note": "C54_optimal under Regular/QueryFit (Spec/TripBased.lean); necessity of conditions: C54_alight_counterexample, C54_same_start_counterexample, C54_last_mile_counterexample"
 },
 "C45": {
  "status": "proved",
  "note": "Soundness of the search with any number of vias, both directions, static and real-time vehicles, footpaths, last mile. The two conditions in the statement are necessary: C45_start_counterexample, C45_td_counterexample. Optimality with vias and ping bounds are not modelled."
 },
 "C55": {
  "status": "partial",
  "note": "unconditional for passengers without a wheelchair; for wheelchair queries only if no stop open to others is closed to wheelchairs: C55_wheelchair_false"
 },
 "C56": {
  "status": "partial",
  "note": "for wheelchair queries only if wheelchair permissions equal the ordinary ones: C56_wheelchair_false"
 },
 "C57": {
  "status": "partial",
  "note": "proved for default transfer time settings, static footpaths and vehicles not restricted by wheelchair/section flags; the full claim is false of the code: C57_wheelchair_ignored, C57_bicycle_ignored, C57_unadjusted_duration"
 },
 "C58": {
  "status": "proved",
  "note": "without via stops and time-dependent offsets; conditions in Spec/PingPong (start footpaths used, origin and destination not in walking distance, rides take time, no last walk across the end of the look-ahead)"
 },
 "C59": {
  "status": "partial",
  "note": "proved up to gaps in the service of more than a day (C59_complete_partial, C59_daily); the full claim is false of the code: C59_counterexample, C59_counterexample_interval"
 },
 "C60": {
  "status": "partial",
  "note": "proved for queries that use start footpaths and without a last walk across the end of the look-ahead; the full claim is false of the code: C60_counterexample_footpaths, C60_counterexample_walk"
 },
 "C61": {
  "status": "proved",
  "note": "time-dependent offsets are not used by the code; travel times include the transfer time at the stop"
 },
 "C62": {
  "status": "partial",
  "note": "proved: the excess is at most the duration of the last walk (C62_limit_partial); the full claim is false of the code: C62_limit_false, C62_fastest_false"
 },
 "C63": {
  "status": "proved",
  "note": ""
 },
 "C64": {
  "status": "partial",
  "note": "false with time-dependent walks: C64_td_walk"
 },
 "C65": {
  "status": "partial",
  "note": "C65_first_pair_only: a connection from the origin itself is missed if an earlier stop of the vehicle is near the origin; walks below 511 minutes, single location for exact matching"
 },
 "C66": {
  "status": "partial",
  "note": "C66_lost, C66_no_effect, C66_duplicate show where the full claim fails"
 },
 "C67": {
  "status": "partial",
  "note": "number, times and 'not the original' without conditions; validity without time-dependent walks and without requirements that restrict the vehicles (C57); C67_additional_service: other additional services are dropped as 'the original'"
 },
 "C68": {
  "status": "partial",
  "note": "without time-dependent walks; false with them: C68_td_walk (the walk is moved to a time at which the path may be closed); earliest: as C64, C65"
 },
 "C69": {
  "status": "proved",
  "note": "GTFS feeds; C69_hrd_false: HRD feeds store an offset that is read as minus one day; C69_api_needs_date: resolve without a start date finds nothing"
 },
 "C70": {
  "status": "partial",
  "note": "for a cancelled trip, origin only if it is the last and destination only if it is the first trip of the run: C70_first_stop_false, C70_last_stop_false"
 },
 "C71": {
  "status": "partial",
  "note": "UTC day without condition; local day only if no departure falls on the local day before its UTC day: C71_local_day_false"
 },
 "C72": {
  "status": "partial",
  "note": "a leg can be priced twice: as the last leg of a group and again alone (C72_twice; never more: C72_at_most_twice); transfer_count 256 is stored as 0 and makes the call endless (C72_endless)"
 },
 "C73": {
  "status": "proved",
  "note": "as a set: a rule can be listed once per area of a stop (C73_twice)"
 },
 "C74": {
  "status": "partial",
  "note": "only if the timezone is not west of UTC: C74_west; rules of the second of two overlapping groups are ignored: C74_overlap"
 },
 "C75": {
  "status": "partial",
  "note": "false in full: route types alone are never reported (C75_route_type_lost), further selectors are ignored (C75_combined_ignored), boarding areas two levels below a station are missed (C75_grandparent), a trip descriptor that throws leaves entries without alert which the next alert inherits (C75_dangling), alerts before the trip update of an additional trip are dropped (C75_added_later)"
 },
 "C76": {
  "status": "partial",
  "note": "an alert for a cancelled run without real-time instance brings it back into service (C76_cancelled_reappears)"
 },
 "C77": {
  "status": "proved",
  "note": ""
 },
 "C78": {
  "status": "proved",
  "note": ""
 },
 "C79": {
  "status": "partial",
  "note": "trips with the same stops and shape share the distances of the first of them (C79_shared_distances); trips of a loader that adds no shape entries (HRD) misalign all later feeds (C79_unaligned)"
 },
 "C80": {
  "status": "proved",
  "note": ""
 },
 "C81": {
  "status": "proved",
  "note": "every section of the run must belong to a trip"
 },
 "C82": {
  "status": "proved",
  "note": ""
 },
 "C83": {
  "status": "partial",
  "note": "proved for rules without circles and with one run per trip and service day; with circles trips are lost (C83_circle_lost) or the call never returns (C83_endless), with frequencies runs are lost (C83_frequency)"
 },
 "C84": {
  "status": "partial",
  "note": "proved for consistent rules; otherwise trips are joined without regard to their times (C84_unsorted)"
 },
 "C85": {
  "status": "partial",
  "note": "proved for all stops but the first one of a joined trip: there permission and location of the arriving trip's last stop are used (C85_boarding_lost)"
 },
 "C86": {
  "status": "proved",
  "note": ""
 },
 "C87": {
  "status": "partial",
  "note": "proved for routes with at most 2047 stops, transport counts accepted by the constructor's check, and days from 28 before to 35 after the base day; outside values wrap around (C87_many_stops, C87_unchecked, C87_window)"
 },
 "C88": {
  "status": "proved",
  "note": ""
 },
 "C89": {
  "status": "proved",
  "note": ""
 },
 "C90": {
  "status": "proved",
  "note": ""
 },
 "C91": {
  "status": "proved",
  "note": "which of several journeys with the same arrival and rides is kept does depend on the schedule (C91_legs_race)"
 },
 "C92": {
  "status": "partial",
  "note": "static footpaths; walks shorter than a day (needed: C92_long_walk_false) and at most 2048 stops per trip; the conversion of td footpaths on the host is not modelled"
 },
 "C93": {
  "status": "proved",
  "note": "necessary and sufficient; set bits beyond 512 days are undefined behaviour and excluded"
 },
 "C94": {
  "status": "partial",
  "note": "soundness, disjointness and the uniform case in full; completeness holds exactly for services in which a part begins at every section up to the last beginning (C94_complete_partial, C94_complete_only_if); otherwise days are lost (C94_lost_days_false)"
 },
 "C95": {
  "status": "partial",
  "note": "the first existing local minute after the clock was set forward is treated as non-existing (C95_first_minute_false); the last date of the feed is not loaded (C95_last_date_false); 16 / 32 bit overflow of times not modelled"
 },
 "C96": {
  "status": "proved",
  "note": "seasons that do not overlap and do not set the clock back"
 },
 "C97": {
  "status": "partial",
  "note": "for services that are not split or have one train number and administration; false for other parts (C97_split_service_false: the section offset is added twice)"
 },
 "C98": {
  "status": "partial",
  "note": "partial as C95"
 },
 "C99": {
  "status": "proved",
  "note": "reported stops are assigned first come first served (unique, C99_pairing)"
 },
 "C100": {
  "status": "partial",
  "note": "times in full if the times given by the message are in order; a later described event without prediction lowers an earlier prediction (C100_prediction_false); alighting is lost at the first stop of the matched range if boarding is forbidden there (C100_alighting_false)"
 },
 "C101": {
  "status": "partial",
  "note": "completeness needs that the first reported stop is not also close to a later stop of the run; otherwise the run can be missed and a worse one matched (C101_exact_false); thresholds in exact arithmetic instead of double"
 },
 "C102": {
  "status": "partial",
  "note": "everything but cancellation in full; a cancellation does not reach the real-time transport of a run that was updated before (C102_cancel_false)"
 },
 "C103": {
  "status": "proved",
  "note": ""
 },
 "C104": {
  "status": "partial",
  "note": "proved for one day type with one assignment by an operating period; only the first assignment of a day type and only the first day type of a journey count (C104_second_assignment, C104_second_day_type); an assignment by date makes every day an operating day (C104_date)"
 },
 "C105": {
  "status": "proved",
  "note": "int16 arithmetic is not modelled; for local times that occur twice either occurrence may be taken"
 },
 "C106": {
  "status": "proved",
  "note": "longer journeys can set a negative day (C106_sharp): out-of-bounds write"
 },
 "C107": {
  "status": "partial",
  "note": "given times are exact; a stop without arrival time is reached when the vehicle leaves the stop before (C107_missing_arrival)"
 },
 "C108": {
  "status": "partial",
  "note": "proved for different identifiers; after a repeated identifier all later service journeys are recorded for the wrong trip (C108_same_id; builds with assertions abort)"
 },
 "C109": {
  "status": "partial",
  "note": "proved: without meetings exactly once, with consistent meetings at least once; every last journey of a chain is loaded twice (C109_twice)"
 },
 "C110": {
  "status": "partial",
  "note": "everything but the preference of the quay in full; a stop place of the file is preferred to a quay of a base file (C110_place)"
 },
 "C111": {
  "status": "proved",
  "note": "per run for added trips too as long as no stop is reassigned (C111_run)"
 },
 "C112": {
  "status": "partial",
  "note": "proved for updates of the whole transport that mention its first departure; otherwise delays before the first mentioned stop are kept and push everything after them (C112_stale_delay_counterexample), skipped stops stay skipped (C112_stale_stop_counterexample)"
 },
 "C113": {
  "status": "partial",
  "note": "proved for non-decreasing times within 22 days of the base day and stops that are not reassigned; decreasing times are raised twice (C31_added_trip_counterexample); later messages about a reassigned stop are ignored (C113_resent_counterexample); a skipped stop stays skipped (C113_skipped_counterexample)"
 },
 "C114": {
  "status": "partial",
  "note": "effect and frame in full but for deleted entities, which are applied (C114_deleted_counterexample); counters: an added trip with unknown stops or too fast is counted nowhere (C114_uncounted_counterexample), one for several runs several times; ids changed by trip_properties: C115"
 },
 "C115": {
  "status": "partial",
  "note": "proved if trip_properties.trip_id is absent, empty or the trip id; otherwise every message creates another transport and the trips added later stand for transports of others (C115_properties_counterexample)"
 },
 "C116": {
  "status": "proved",
  "note": "Types are taken modulo 256, type 5 and trip-specific rows become general footpaths, rows without time give 0 minutes (C116_types_counterexample)."
 },
 "C117": {
  "status": "proved",
  "note": "The generated duration may depend on the order (C117_order_counterexample); a row \"not possible\" does not prevent generation (C117_impossible_counterexample)."
 },
 "C118": {
  "status": "partial",
  "note": "With a repeated stop_id naming another parent the stop stays child of both (C118_repeated_counterexample)."
 },
 "C119": {
  "status": "proved",
  "note": "Relatedness is not symmetric (C119_symmetry_counterexample). The code inserts children into the set while iterating over it (undefined when the set grows); modelled as iteration over the old elements."
 },
 "C120": {
  "status": "proved",
  "note": "Geometry is a parameter."
 },
 "C121": {
  "status": "partial",
  "note": "Positions wrap at 256 stops (C121_position_counterexample); stops where one may not get off are offered (C121_alight_counterexample). Durations up to 16 bits."
 },
 "C122": {
  "status": "partial",
  "note": "When one has to wait before the walk, the leg is placed at a time at which it is closed (C122_waiting_counterexample)."
 },
 "C123": {
  "status": "partial",
  "note": "Rows for booking_rules, location_groups, areas, networks, fares are not read although the loader asks for some of them (C123_table_counterexample); a repeated record keeps its first text (C123_repeated_counterexample)."
 },
 "C124": {
  "status": "partial",
  "note": "Areas keep the order of the file while their windows are sorted (C124_flex_counterexample); trips with stops and areas are not put into order (C124_mixed_counterexample); numbers from 65535 on (C124_large_number_counterexample)."
 },
 "C125": {
  "status": "proved",
  "note": "Days must fit into 512 bits (InRange, C125_range). The selection is by service day: windows after midnight of the day before the timetable are not offered (C125_previous_day_counterexample)."
 },
 "C126": {
  "status": "partial",
  "note": "A polygon whose coordinates cannot be read (e.g. whole numbers) leaves its name: all later areas get the wrong name (C126_names_counterexample)."
 },
 "C127": {
  "status": "proved",
  "note": "Two indices kept in step."
 },
 "C128": {
  "status": "partial",
  "note": "Needs distinct ids: a route_id given twice shifts the attributes of all later routes (C128_duplicate_counterexample). With fewer than two agencies in the file, routes of other agencies are given to the only one (C128_unknown_counterexample, C128_single_counterexample)."
 },
 "C129": {
  "status": "partial",
  "note": "All setters except set_text_color, which overwrites the colour (C129_text_color_counterexample)."
 },
 "C130": {
  "status": "proved",
  "note": "Only the value -1 of headway_secs counts as unreadable: other negative headways become one minute (C130_headway_counterexample)."
 },
 "C131": {
  "status": "partial",
  "note": "Needs existing links (C131_unknown_link), agencies which are already sorted (C131_unsorted_counterexample) and bit vectors of the right size, which the loader never gives them (C131_unsized_counterexample)."
 },
 "C132": {
  "status": "proved",
  "note": ""
 },
 "C133": {
  "status": "partial",
  "note": "Times: the service must start on the UTC day that is its local day (C133_counterexample). File: all opening hours must be valid (C133_rules_counterexample)."
 },
 "C134": {
  "status": "partial",
  "note": "No departure is lost, none added; but runs never go through (C134_never_through: for every block)."
 },
 "C135": {
  "status": "partial",
  "note": "Backward search in full; forward search if waiting for another path never pays (always for lifts: constant duration when open); footpaths (stored with 9 bits) must be usable within 511 minutes. False otherwise: C135_detour_counterexample."
 },
 "C136": {
  "status": "partial",
  "note": "Rides, journeys, boarding and soundness for every feed (event times of a service must not decrease for soundness); the optimality needs that services with the same stops pass midnight at the same events, otherwise it is false: C136_overtake_counterexample. Without real-time transports."
 },
 "C137": {
  "status": "partial",
  "note": "Rides and soundness for every feed whose local times do not decrease along a run; the optimality needs that services with the same stops pass midnight at the same events (C136_overtake_counterexample). Without wheelchair assistance (C133), seated transfers (C82-C85) and real-time data."
 },
 "C138": {
  "status": "partial",
  "note": "The composition of C22, C46, C136 and C137. Partial: completeness needs that services with the same stops pass UTC midnight at the same events (C136_overtake_counterexample shows that journeys are lost otherwise); assistance, continued block trips, real-time updates and the reconstruction are outside of this statement."
 },
 "C139": {
  "status": "partial",
  "note": "Partial: an index (`#n`) that is too large is not checked: C139_index_unchecked shows a write behind the sections; C139_direction_partial therefore assumes that this does not happen. The conversion of columns to numbers is a parameter; stations with number 0 (the value of a blank column) are excluded."
 },
 "C140": {
  "status": "proved",
  "note": "The theorem includes that an exception in the last service leaves the function (it is outside of the `try` that skips all other services, C140_last_service_false); lines in front of the first head line are outside of the hypotheses and become lines of the first service (C140_leading_lines_false)."
 },
 "C141": {
  "status": "partial",
  "note": "C141_name_partial: for a service whose first section has a known category and whose name has a second part. Otherwise false: a name without number ends with a blank (C141_trailing_blank_false), an unknown category gives class kOther but reads a null pointer for the name (C141_unknown_category_false), and the parts of a split service are named after the first section of the whole service (C141_part_false)."
 },
 "C142": {
  "status": "partial",
  "note": "C142_active_days (exact) and C142_search_days (the predicate used by the search theorems) hold without restriction for the 512 days; C142_event_days_partial: every event up to day 511 is on an active day. Missing and false: events behind the last bit of a bitfield are dropped by the shift (C142_last_days_false)."
 },
 "C143": {
  "status": "partial",
  "note": "From the lines of the file to what is shown, composed with C139: C143_class, C143_operator; C143_direction_partial and C143_no_direction_partial exclude services with an index that is too large (C139_index_unchecked); C143_attributes_partial needs a service with own data for some section: without it all attributes of the whole service are lost (C143_attributes_lost, C143_lost_false), and the traffic days of an attribute line are ignored (C143_attribute_days_false)."
 },
 "C144": {
  "status": "partial",
  "note": "C144_importance, C144_max, C144_child with the weights of the code's table. Partial: sums are exact in the model (the code adds floats: exact up to 2^24), and the table was written for a former list of classes: kOther, kFunicular and kAerialLift have weight 0, kRideSharing that of regional fast trains (C144_other_false)."
 },
 "C145": {
  "status": "proved",
  "note": "C145_first, C145_last, C145_counts; a feed in which nothing runs reports first day 65535 and last day 0 (C145_no_days). A trip with several vehicles on the same day counts that day once; flex trips count once per id and are not in the number of trips. The printed JSON is not modelled."
 },
 "C146": {
  "status": "partial",
  "note": "C146_stations, C146_name, C146_position, C146_equivalences_partial, C146_footpaths_partial: for inputs in which the target of every footpath line has a line in the file of names. Without it false: C146_unnamed_false. The columns of the lines are parameters; that a duration over 255 minutes ends the import is part of the model."
 },
 "C147": {
  "status": "proved",
  "note": "C147_track, C147_no_track, C147_locations, C147_children, C147_admin; composes the file with C97 (resolve_track). The columns of a line are parameters; the ids of tracks are taken to be new."
 }
}