{"id": "C01", "title": "Search-relative timestamps convert back losslessly and saturate, never wrap", "statement": "Converting an absolute minute timestamp to the 16-bit offset from a base day and back returns the same timestamp whenever the distance fits 16 bits; otherwise the offset saturates at the nearest representable bound. The conversion is monotone, so comparing offsets never inverts the order of two timestamps.", "quantifier": "every base day and every pair of absolute timestamps (unbounded)", "why_tests_cant": "the interesting inputs are the saturation boundaries of every base day; samples cannot rule out a wrap-around for some other base/timestamp pair", "anchors": ["include/nigiri/common/delta_t.h: clamp", "include/nigiri/common/delta_t.h: unix_to_delta", "include/nigiri/common/delta_t.h: delta_to_unix", "include/nigiri/common/delta_t.h: tt_to_delta"]}
{"id": "C02", "title": "Day/minute decomposition of timestamps is exact", "statement": "Splitting a timestamp into (day index, minute of day) and recombining gives the original timestamp, the minute lies in [0,1440), and the split of base-day + offset agrees with the split of the absolute time, also for negative offsets as long as the absolute minute is not before the timetable begin.", "quantifier": "every timetable begin day, base day, offset and timestamp", "why_tests_cant": "truncating division makes negative and boundary values the failure cases; there are infinitely many combinations", "anchors": ["include/nigiri/common/delta_t.h: split_day_mam", "include/nigiri/common/delta_t.h: tt_to_delta", "include/nigiri/timetable.h: day_idx_mam", "include/nigiri/timetable.h: to_unixtime", "include/nigiri/timetable.h: event_time", "include/nigiri/common/split_duration.h: split_time_mod", "include/nigiri/common/split_duration.h: time_mod"]}
{"id": "C03", "title": "Packed event times, footpaths and stops read back what was stored", "statement": "Event times (5-bit day, 11-bit minute), footpaths (23-bit target, 9-bit duration) and stops (28-bit location, 4 flags) packed in machine words return exactly the stored components for every value in the documented range; footpath durations above the maximum saturate to the maximum; out-of-range targets are rejected instead of being truncated.", "quantifier": "every component value in (and outside) the representable ranges", "why_tests_cant": "bit-field truncation shows only for particular values; the packed domain is 2^32", "anchors": ["include/nigiri/types.h: delta", "include/nigiri/footpath.h: footpath", "include/nigiri/stop.h: stop"]}
{"id": "C04", "title": "Minute-of-day distance is the shortest way around the clock", "statement": "For two minutes of the day a and b the reported distance is the smallest |a - b + 1440 k| over all integers k, and the reported day shift is the k (sign convention documented) that realises it, so a vehicle position just after midnight is matched to an event just before midnight.", "quantifier": "every pair of minutes in [0,1440)", "why_tests_cant": "a two-parameter domain with a wrap-around; the claim is about a minimum over all integers k", "anchors": ["src/common/mam_dist.cc: mam_dist"]}
{"id": "C05", "title": "Half-open interval operations agree with sets of points", "statement": "contains/overlaps/intersect/shift/size on intervals agree with the corresponding set operations on the points of the half-open ranges: a point lies in the intersection iff it lies in both, two non-empty intervals overlap iff they share a point.", "quantifier": "all pairs of intervals over the integers and all points, including empty and inverted ones", "why_tests_cant": "set equality over all points of all intervals", "anchors": ["include/nigiri/common/interval.h: interval::contains", "include/nigiri/common/interval.h: interval::overlaps", "include/nigiri/common/interval.h: interval::intersect", "include/nigiri/common/interval.h: interval::clamp", "include/nigiri/common/interval.h: interval::operator>>"]}
{"id": "C06", "title": "The Pareto set keeps exactly the non-dominated elements", "statement": "After any sequence of insertions no stored element is dominated by another stored one, every element ever inserted is dominated by (or equal in criteria to) a stored one, every stored element was inserted, and an insertion is rejected iff some currently stored element dominates it.", "quantifier": "all insertion sequences, for every reflexive transitive dominance relation", "why_tests_cant": "depends on the whole insertion history; the in-place compaction moves elements while scanning", "anchors": ["include/nigiri/routing/pareto_set.h: pareto_set::add", "include/nigiri/routing/pareto_set.h: pareto_set::add_not_optimal"]}
{"id": "C07", "title": "The bucket queue is a priority queue", "statement": "For any sequence of pushes and pops in which bucket numbers are below the configured number of buckets, pop returns an element with the smallest bucket number among those pushed and not yet popped, the size is right, and no element is lost or duplicated - also when a push goes below the most recently popped bucket.", "quantifier": "all operation sequences, element types and bucket functions", "why_tests_cant": "the cursor caching makes behaviour depend on the whole history of pushes and pops", "anchors": ["include/nigiri/common/dial.h: dial::push", "include/nigiri/common/dial.h: dial::pop", "include/nigiri/common/dial.h: dial::top", "include/nigiri/common/dial.h: dial::get_next_bucket"]}
{"id": "C08", "title": "Lower-bound Dijkstra computes exact shortest distances", "statement": "The distances computed on the lower-bound graph are exactly the minimum over all paths of start distance plus edge weights, for every node whose distance is below the configured maximum; other nodes keep the 'unreachable' value (or their initial start value); the loop terminates.", "quantifier": "all graphs, start sets, weights and maximum distances", "why_tests_cant": "a statement about the minimum over infinitely many paths in arbitrary graphs", "anchors": ["src/routing/dijkstra.cc: dijkstra", "include/nigiri/routing/dijkstra.h: label", "include/nigiri/routing/dijkstra.h: get_bucket"]}
{"id": "C09", "title": "Time-dependent footpaths: first feasible departure / last feasible arrival", "statement": "For a schedule of time-dependent walking options sorted by validity begin, the forward lookup at time t returns the duration (waiting included) of a departure at or after t in a usable option, and no usable option lets one depart earlier than the one returned; nothing is returned only if no usable option can be entered within the allowed waiting horizon. The backward lookup is the mirror image.", "quantifier": "all sorted schedules, all query times, both directions", "why_tests_cant": "depends on arbitrary schedules with closed segments; boundary behaviour at each switch time", "anchors": ["include/nigiri/td_footpath.h: get_td_duration", "include/nigiri/td_footpath.h: for_each_footpath"]}
{"id": "C10", "title": "GTFS calendar rows expand to exactly the matching weekdays", "statement": "A service defined by calendar.txt operates on a timetable day iff the day lies within the row's [start_date, end_date] (end extended to the timetable end if the row ends with the feed), within the timetable interval, and its weekday is enabled.", "quantifier": "all calendar rows, timetable intervals and days", "why_tests_cant": "every date/weekday/interval boundary combination", "anchors": ["src/loader/gtfs/services.cc: calendar_to_bitfield"]}
{"id": "C11", "title": "calendar_dates exceptions override the calendar", "statement": "The merged traffic days of a service contain a day iff the last exception for that day (in file order) adds it, or no exception mentions the day and the calendar row enables it; exceptions before the first timetable day or 512 or more days after it have no effect.", "quantifier": "all calendars and exception lists, all days", "why_tests_cant": "order-dependent override semantics over arbitrary lists", "anchors": ["src/loader/gtfs/services.cc: add_exception", "src/loader/gtfs/services.cc: merge_traffic_days"]}
{"id": "C12", "title": "Stop sequence numbers survive the compressed encoding", "statement": "Decoding the compact encoding of a trip's stop_sequence numbers yields the original numbers for every sequence of at least two stops.", "quantifier": "all sequences of stop sequence numbers", "why_tests_cant": "the special-cased encodings (0-, 1-, 10-based) must not collide with any literal sequence", "anchors": ["src/loader/gtfs/stop_seq_number_encoding.cc: encode_seq_numbers", "include/nigiri/loader/gtfs/stop_seq_number_encoding.h: stop_seq_number_range"]}
{"id": "C13", "title": "Missing stop times are interpolated monotonically between known ones", "statement": "Interpolation leaves given times unchanged, fills every missing time, and every filled time lies between the neighbouring known times, so a trip whose known times are non-decreasing has non-decreasing times afterwards.", "quantifier": "all trips and all patterns of missing times", "why_tests_cant": "patterns of gaps are unbounded; rounding of the interpolation step could break monotonicity", "anchors": ["src/loader/gtfs/trip.cc: trip::interpolate"]}
{"id": "C14", "title": "Frequency-based trips expand to exactly the scheduled departures", "statement": "A frequencies.txt window with a headway generates one departure at start, start+headway, ... strictly before the end, each with the template's relative stop times.", "quantifier": "all windows, headways and templates", "why_tests_cant": "boundary of the last departure and division by the headway for all values", "anchors": ["include/nigiri/loader/gtfs/trip.h: frequency::number_of_iterations", "include/nigiri/loader/gtfs/trip.h: frequency::get_iteration_start_time"]}
{"id": "C15", "title": "Local-time expansion preserves the absolute instants of every service day", "statement": "For every service day of a trip the expanded UTC transports contain exactly one run whose absolute event times equal local noon minus twelve hours plus the scheduled times, and no run is generated on other days.", "quantifier": "all trips, service-day sets and daylight-saving offset histories", "why_tests_cant": "depends on grouping days by UTC offset and on the traffic-day shift for negative/overflowing times", "anchors": ["include/nigiri/loader/gtfs/local_to_utc.h: expand_local_to_utc", "include/nigiri/loader/gtfs/local_to_utc.h: get_noon_offsets"]}
{"id": "C16", "title": "In-seat transfers: block trips are combined per day without loss or duplication", "statement": "Splitting the trips of a block into through-services assigns every (trip, operating day) to exactly one combined service, on that day's actual trip chain.", "quantifier": "all blocks, traffic day sets and trip times", "why_tests_cant": "iterative bitset subtraction over arbitrary overlapping day sets", "anchors": ["src/loader/gtfs/trip.cc: block::rule_services"]}
{"id": "C17", "title": "Trips of one route never overtake each other", "statement": "Whenever a trip is added to an existing route, then for any two trips of that route all their events (mod one day) have the same order at every stop, so the earliest departing trip is also the earliest arriving one.", "quantifier": "all sequences of insertions of trips", "why_tests_cant": "a global ordering invariant over the insertion history, with midnight wrap-around", "anchors": ["include/nigiri/loader/get_index.h: get_index", "src/loader/gtfs/load_timetable.cc: add_expanded_trip"]}
{"id": "C18", "title": "Boarding picks the earliest running trip of the route", "statement": "Given a time at a stop of a route, the boarding lookup returns a trip and day that is active, departs at or after the time, is boardable within the search window, and no active trip of the route departs earlier (but still after the time); it returns none only if no active departure lies in the window. Mirrored for backward search.", "quantifier": "all routes with non-overtaking trips, traffic-day sets, times, both directions", "why_tests_cant": "binary search plus wrap over days with multi-day trips: midnight/day-offset boundaries", "anchors": ["include/nigiri/routing/raptor/raptor.h: get_earliest_transport"]}
{"id": "C19", "title": "Every arrival time reported by the round-based search is realised by a real journey", "statement": "Every label (location, number of rides k, time) produced by the search corresponds to an actual feasible sequence of at most k rides of running trips, boarded and alighted where allowed, with transfer/walking times respected, starting no earlier than the requested start.", "quantifier": "all timetables, queries, start sets and numbers of rounds", "why_tests_cant": "soundness over all journeys of arbitrary timetables", "anchors": ["include/nigiri/routing/raptor/raptor.h: raptor::execute", "include/nigiri/routing/raptor/raptor.h: update_route", "include/nigiri/routing/raptor/raptor.h: update_transfers", "include/nigiri/routing/raptor/raptor.h: update_footpaths"]}
{"id": "C20", "title": "No feasible journey arrives earlier than the reported optimum", "statement": "In a timetable whose routes do not overtake (C17) and whose time-dependent footpaths are FIFO: for every feasible journey with at most k rides (k within the limit) that the query's filters allow and that arrives before the search horizon, the search reports an arrival at the destination with at most k rides that is not later. One-to-all searches have the same property for every location.", "quantifier": "all timetables, queries and feasible journeys", "why_tests_cant": "optimality quantifies over all journeys; pruning rules could cut the optimal one", "anchors": ["include/nigiri/routing/raptor/raptor.h: raptor::execute", "include/nigiri/routing/raptor/raptor.h: update_route", "include/nigiri/routing/raptor/raptor.h: update_transfers", "include/nigiri/routing/raptor/raptor.h: update_footpaths", "include/nigiri/routing/raptor/raptor.h: update_time_at_dest"]}
{"id": "C21", "title": "Destination and lower-bound pruning never change the result", "statement": "With admissible lower bounds the pruned search reports the same best arrival times at the destination as the unpruned search.", "quantifier": "all timetables, queries and admissible lower-bound functions", "why_tests_cant": "pruning correctness is a claim about all journeys that were cut", "anchors": ["include/nigiri/routing/raptor/raptor.h: update_route", "include/nigiri/routing/raptor/raptor.h: update_time_at_dest", "include/nigiri/routing/raptor/raptor.h: update_transfers", "include/nigiri/routing/raptor/raptor.h: update_footpaths"]}
{"id": "C22", "title": "Lower-bound graph weights never exceed the true travel time", "statement": "For each section of a trip between consecutive stops, each real-time section and each footpath, the lower-bound graph contains an edge that is at most as long as the true duration; the lower bound of a location computed for a query is at most the duration of any journey (up to 5 days) from there to the query's destination, provided stations are numbered before the stop areas they contain (three levels at most); a search with these bounds finds the same results as one without.", "quantifier": "all timetables and all journeys", "why_tests_cant": "admissibility over all journeys and all days", "anchors": ["include/nigiri/loader/build_lb_graph.h: build_lb_graph", "src/rt/rt_timetable.cc: update_lbs", "src/routing/dijkstra.cc: dijkstra", "include/nigiri/for_each_meta.h: for_each_meta"]}
{"id": "C23", "title": "Transport class and bike/car/wheelchair filters are honoured", "statement": "A search with allowed classes / required flags only rides trips (sections) permitted by the filter, and behaves exactly as the unfiltered search on the timetable with forbidden routes/sections removed.", "quantifier": "all timetables, masks and flags", "why_tests_cant": "must hold for each ride in each produced journey", "anchors": ["include/nigiri/routing/raptor/raptor.h: loop_routes", "include/nigiri/routing/raptor/raptor.h: update_route", "include/nigiri/routing/clasz_mask.h: is_allowed", "src/timetable.cc: register_route"]}
{"id": "C24", "title": "Boarding and alighting restrictions are honoured", "statement": "No journey boards at a stop where boarding is not allowed nor alights where alighting is not allowed, for the normal and the wheelchair profile.", "quantifier": "all timetables and journeys, both profiles and directions", "why_tests_cant": "quantifies over every ride of every journey", "anchors": ["include/nigiri/stop.h: can_start", "include/nigiri/stop.h: can_finish", "include/nigiri/routing/raptor/raptor.h: update_route"]}
{"id": "C25", "title": "Search interval extension only grows the interval and terminates", "statement": "Each extension of the search interval contains the previous interval, stays within the allowed maximum window and the timetable, and the extension loop stops.", "quantifier": "all query intervals, timetables and result histories", "why_tests_cant": "depends on the history of results and on the clamping of both ends", "anchors": ["include/nigiri/routing/interval_estimate.h: interval_estimator", "include/nigiri/routing/search.h: search::execute"]}
{"id": "C26", "title": "Returned journeys satisfy the query's limits", "statement": "All returned journeys start within the returned interval (for interval queries), take at most the allowed travel time, beat the direct connection and are mutually non-dominated.", "quantifier": "all queries and searches", "why_tests_cant": "post-condition over all result histories", "anchors": ["include/nigiri/routing/search.h: search::execute", "include/nigiri/routing/search.h: search_interval"]}
{"id": "C27", "title": "Start events cover every departure in the interval", "statement": "For an interval query, every generated start time belongs to a departure (backward search: arrival) at which one may board at a location matching the query's start, leaves the origin exactly in time for it and inside of the interval, or is the additional start at the end of the interval; and every such departure in the interval whose offset does not exceed the maximum is covered by a generated start at the same stop with the same time of leaving the origin, provided that the additional start is requested and every offset is usable there, or there is only one start location. For a fixed start time exactly one start per usable start location is generated. Start locations are exactly the matching locations with their shortest offset, destinations exactly the matching locations.", "quantifier": "all timetables, offsets and intervals", "why_tests_cant": "day-boundary arithmetic over all traffic days and intervals", "anchors": ["src/routing/start_times.cc: get_starts", "src/routing/start_times.cc: add_starts_in_interval", "src/routing/start_times.cc: add_start_times_at_stop", "src/routing/start_times.cc: collect_destinations"]}
{"id": "C28", "title": "Reversing a query twice is the identity and swaps the roles exactly once", "statement": "flip_dir exchanges starts/destinations, match modes and time-dependent offsets and reverses via stops; applying it twice restores the query.", "quantifier": "all queries", "why_tests_cant": "all field combinations", "anchors": ["src/routing/query.cc: query::flip_dir", "src/routing/query.cc: query::sanitize", "src/routing/query.cc: sanitize_via_stops"]}
{"id": "C29", "title": "Real-time updates touch exactly the addressed trip day", "statement": "Creating a real-time instance or cancelling a run deactivates exactly the addressed (trip, day) in the real-time view; every other (trip, day) keeps its activity and the static timetable is unchanged.", "quantifier": "all histories of real-time operations", "why_tests_cant": "copy-on-write of shared traffic-day sets: aliasing errors appear only for particular histories", "anchors": ["src/rt/rt_timetable.cc: rt_timetable::add_rt_transport", "src/rt/rt_timetable.cc: rt_timetable::cancel_run", "include/nigiri/rt/rt_timetable.h: is_transport_active"]}
{"id": "C30", "title": "Real-time stop times never run backwards", "statement": "After applying a trip update, the arrival/departure times along the run are non-decreasing, regardless of the delays or times in the message.", "quantifier": "all runs and update messages", "why_tests_cant": "adversarial messages with arbitrary delays in arbitrary order", "anchors": ["src/rt/gtfsrt_update.cc: update_run", "src/rt/gtfsrt_update.cc: update_event", "src/rt/gtfsrt_update.cc: update_delay"]}
{"id": "C31", "title": "Delays propagate to later stops until the next update", "statement": "For a scheduled run, an event without its own update takes over the delay of the closest preceding event with an update (subject only to not running backwards); events before the first update keep their published times; events behind the addressed trip are only pushed back as far as necessary. An update whose stop assignment is rejected suspends this at its stop (documented by a counterexample).", "quantifier": "all runs and update messages", "why_tests_cant": "all patterns of stop time updates", "anchors": ["src/rt/gtfsrt_update.cc: update_run", "src/rt/gtfsrt_update.cc: fallback_pred"]}
{"id": "C32", "title": "String interning is injective and stable", "statement": "Storing a string returns an index that reads back the string, equal strings always get the same index, different strings different ones, and lookups find exactly the stored strings.", "quantifier": "all histories of store/find operations", "why_tests_cant": "depends on all previously stored strings", "anchors": ["include/nigiri/string_store.h: string_store::store", "include/nigiri/string_store.h: string_store::find", "include/nigiri/string_store.h: string_store::get"]}
{"id": "C33", "title": "Cached lookups agree with the underlying map", "statement": "The memoising lookup returns exactly what the map lookup returns for each key, for every sequence of queries.", "quantifier": "all maps and query sequences", "why_tests_cant": "cache staleness depends on the query history", "anchors": ["include/nigiri/common/cached_lookup.h: cached_lookup"]}
{"id": "C34", "title": "Merging duplicate transports preserves the service", "statement": "Duplicate detection only merges transports with pairwise equivalent stops, the same first departure and a summed time difference below the number of stops; every transport running on a day before is on that day still running or replaced by one connected with it through duplicates; no transport runs on additional days; merged duplicates never both run on the same day afterwards.", "quantifier": "all timetables, all sequences of location pairs searched, all traffic-day sets", "why_tests_cant": "claims about all overlapping day sets (superset, subset, partial)", "anchors": ["src/loader/merge_duplicates.cc: merge", "src/loader/merge_duplicates.cc: find_duplicates", "src/loader/merge_duplicates.cc: get_delta"]}
{"id": "C35", "title": "Footpath closure yields shortest walking times within each component", "statement": "After preprocessing there is a footpath between two stops of a group of at least three connected stops iff the shortest chain of direct footpaths (each lasting at least the transfer times of its ends) is shorter than the configured limit, and it has the duration of that chain; two stops connected only with each other keep their direct footpaths; with walking speed adjustment durations are raised to the air-line walking time. The result is closed: walking on over a second footpath never beats a direct one.", "quantifier": "all footpath graphs in which stops reaching a common stop have a common origin (e.g. all symmetric ones), all transfer times, all limits up to 256 minutes", "why_tests_cant": "shortest path over all chains", "anchors": ["src/loader/build_footpaths.cc: connect_components", "src/loader/build_footpaths.cc: find_components", "src/loader/build_footpaths.cc: build_component_graph", "src/loader/build_footpaths.cc: process_2_node_component"]}
{"id": "C36", "title": "Trip-based search: reached labels filter exactly the dominated segments", "statement": "In trip-based routing the reached-structure reports a stop index such that enqueued segments are exactly those not covered by an earlier or equal trip with at most the same transfers; updates keep it antisymmetric and monotone.", "quantifier": "all histories of enqueue operations", "why_tests_cant": "depends on the whole enqueue history", "anchors": ["include/nigiri/routing/tb/reached.h: reached::query", "include/nigiri/routing/tb/reached.h: reached::update", "include/nigiri/routing/tb/queue.h: queue::enqueue"]}
{"id": "C37", "title": "Precomputed trip-based transfers are feasible", "statement": "Every transfer generated by preprocessing leads, on every day on which it is marked active, from an alighting to a boarding that is feasible with the walking/transfer time, on a target trip operating on the shifted day.", "quantifier": "all timetables", "why_tests_cant": "day-shift arithmetic over all bitsets", "anchors": ["src/routing/tb/preprocess.cc: preprocess"]}
{"id": "C38", "title": "Trip-based search honours the requested maximum number of transfers", "statement": "No journey returned by the trip-based engine uses more transfers than the query allows.", "quantifier": "all timetables and queries", "why_tests_cant": "must hold for all executions", "anchors": ["src/routing/tb/query_engine.cc: query_engine::execute"]}
{"id": "C39", "title": "Fastest direct connection equals the shortest walk", "statement": "The direct duration is the minimum over start offset (of a start stop or one of its equivalent or child stops) + footpaths, each leading to a destination stop and adjusted by the transfer time settings, + destination offset, below the maximum; times the configured factor; 'unreachable' if there is none. It is computed for every query without undefined behaviour.", "quantifier": "all queries and footpath graphs", "why_tests_cant": "minimum over all combinations", "anchors": ["src/routing/get_fastest_direct.cc: get_fastest_direct"]}
{"id": "C40", "title": "Journey domination is a partial order on (departure, arrival, transfers)", "statement": "Journey domination is reflexive and transitive, symmetric only for equal criteria, independent of search direction, and a dominated journey is no better in any criterion.", "quantifier": "all pairs/triples of journeys, both directions", "why_tests_cant": "order laws over all triples", "anchors": ["include/nigiri/routing/journey.h: journey::dominates"]}
{"id": "C41", "title": "Transfer time settings scale transfers monotonically", "statement": "Adjusted transfer times are never below the configured minimum, equal the original for default settings, and are monotone in the original time; two settings compare equal iff they adjust every transfer time equally.", "quantifier": "all settings and durations", "why_tests_cant": "all factor/minimum combinations", "anchors": ["include/nigiri/routing/transfer_time_settings.h: adjusted_transfer_time", "include/nigiri/routing/transfer_time_settings.h: transfer_time_settings::operator=="]}
{"id": "C42", "title": "Times written hh:mm(:ss) are parsed to the right minute", "statement": "Parsing the textual form of any time of service returns its minute value; malformed input is rejected with the invalid marker rather than producing a wrong time.", "quantifier": "all strings / all times", "why_tests_cant": "infinite input space of strings", "anchors": ["src/loader/gtfs/parse_time.cc: hhmm_to_min"]}
{"id": "C43", "title": "Root station lookup terminates and is idempotent", "statement": "Following parents from any location reaches a location without parent (or stops at a cycle guard), and all members of a station have the same root.", "quantifier": "all parent forests (including cyclic data)", "why_tests_cant": "arbitrary parent chains", "anchors": ["include/nigiri/timetable.h: locations::get_root_idx"]}
{"id": "C44", "title": "A range query finds for every start time what an independent search would find", "statement": "Processing start times from latest to earliest while keeping labels yields, for each start time, the same set of non-dominated (departure, arrival, transfers) as running each search independently.", "quantifier": "all timetables and sets of start times", "why_tests_cant": "self-pruning across runs depends on the history of all earlier runs", "anchors": ["include/nigiri/routing/raptor/raptor.h: next_start_time", "include/nigiri/routing/raptor/raptor.h: execute", "include/nigiri/routing/search.h: search_interval"]}
{"id": "C45", "title": "Via stops are visited in order with their minimum stays", "statement": "Every journey reported by a round based search with via stops visits all via stops in the given order and stays at each at least the requested minutes, provided that a start event at the first via stop was delayed by its stay and that no stay is requested at a location with time dependent footpaths; without these two conditions it is false of the code (counterexample theorems).", "quantifier": "all timetables, real-time data, queries with any number of via stops, both directions, all range queries", "why_tests_cant": "claims over all journeys", "anchors": ["include/nigiri/routing/raptor/raptor.h: update_transfers", "include/nigiri/routing/raptor/raptor.h: update_footpaths", "include/nigiri/routing/raptor/raptor.h: update_route"]}
{"id": "C46", "title": "A query returns exactly the best trips", "statement": "The whole search (search driver, start times, RAPTOR): every returned journey is a real trip from the origin (over a start location and its offset) to the destination with exactly the reported start time, arrival time and number of transfers; no trip that leaves no earlier, arrives no later and has no more transfers is better in any of the three; and every trip that leaves in the returned interval and respects the limits of the query (number of transfers, maximum travel time, faster than the direct connection) is matched by a returned journey that is at least as good in all three criteria, or by a trip that leaves after the returned interval. However often the interval was extended, and for fixed start times as well.", "quantifier": "all timetables without overtaking, all queries with constant offsets (with a single start location if the interval is extended on the side that is searched last), both directions, every number of extensions, every clock", "why_tests_cant": "an optimality claim over all journeys and over all histories of interval extensions", "anchors": ["include/nigiri/routing/search.h: execute, search_interval, add_start_labels, remove_ontrip_results", "include/nigiri/routing/raptor/raptor.h: next_start_time, add_start, execute, reset_arrivals", "src/routing/start_times.cc: get_starts"]}
{"id": "C47", "title": "Real-time runs are found at every stop they serve", "statement": "After any history of real-time messages every run with real-time data is listed exactly once at the location of each of its current stops (also after track changes and their reversal), and location lists contain existing runs only.", "quantifier": "all timetables, all histories of cancellations, trip updates and added trips", "why_tests_cant": "the index is maintained incrementally by three different code paths; a missing entry shows only for particular histories", "anchors": ["src/rt/rt_timetable.cc: rt_timetable::add_rt_transport", "src/rt/gtfsrt_update.cc: update_run", "include/nigiri/rt/rt_timetable.h: location_rt_transports_"]}
{"id": "C48", "title": "Track changes and skipped stops change nothing else", "statement": "A trip update keeps the number of stops of a run; a stop without update stays as it is; a skipped stop can neither be boarded nor alighted at; an update without skip and without assignment restores the scheduled stop; a stop only moves to a track of the scheduled stop and never gets more boarding or alighting rights than scheduled.", "quantifier": "all runs, all trip updates, all histories", "why_tests_cant": "claims about every stop after every history of messages", "anchors": ["src/rt/gtfsrt_update.cc: update_run"]}
{"id": "C49", "title": "Incoming and outgoing footpaths mirror each other", "statement": "After preprocessing, a footpath from a to b of d minutes is among the outgoing footpaths of a iff it is among the incoming footpaths of b, so forward and backward searches walk the same footpaths; both lists are sorted by duration.", "quantifier": "all results of the footpath closure, every sorting function", "why_tests_cant": "must hold for every network", "anchors": ["src/loader/build_footpaths.cc: connect_components", "src/loader/build_footpaths.cc: sort_footpaths"]}
{"id": "C50", "title": "Generated tracks inherit the footpaths of their station", "statement": "For every footpath between two stations, all combinations of the stations and their generated tracks get a footpath of the same duration; tracks of a station are linked with each other and the station by the station's transfer time; if all footpaths have an opposite one and all children are generated tracks this remains so.", "quantifier": "all station trees and footpath lists", "why_tests_cant": "all combinations of tracks", "anchors": ["src/loader/build_footpaths.cc: add_links_to_and_between_children"]}
{"id": "C51", "title": "Trips stay findable on their operating days after merging duplicates", "statement": "After duplicate detection each trip still has a running transport on exactly the days on which it had one before.", "quantifier": "all histories of merges and traffic-day sets", "why_tests_cant": "claims about all overlapping day sets (superset, subset, partial) and chains of merges", "anchors": ["src/loader/merge_duplicates.cc: merge"]}
{"id": "C52", "title": "Trip-based search results do not depend on earlier searches", "statement": "After a reset of the arrivals the trip-based engine reports what a new engine would report for the same calls, and a query state that was used for another query gives the same results as a new one.", "quantifier": "all timetables, queries and histories of calls before the reset or on the same state", "why_tests_cant": "depends on every possible history of previous calls", "anchors": ["include/nigiri/routing/tb/query_engine.h: query_state::reset", "include/nigiri/routing/tb/query_engine.h: query_engine::reset_arrivals", "src/routing/tb/query_engine.cc: query_engine::query_engine"]}
{"id": "C53", "title": "Trip-based results are journeys of the timetable", "statement": "Every arrival time and number of transfers kept by a trip-based search is realised by a journey of the timetable that starts at one of the start events and changes only where walking or transfer times allow it; more transfers never mean a later arrival.", "quantifier": "all timetables without overtaking, all queries and all sequences of start times", "why_tests_cant": "claims about all executions of preprocessing and query together", "anchors": ["src/routing/tb/query_engine.cc: query_engine::execute", "src/routing/tb/query_engine.cc: query_engine::add_start", "src/routing/tb/preprocess.cc: preprocess"]}
{"id": "C54", "title": "Trip-based search finds the earliest arrival for each number of transfers", "statement": "For every number of transfers the trip-based search reports an arrival not later than that of any journey of the timetable with at most that many transfers (below 14) from the start events since the last reset, for journeys of at most a day and arrivals before the given bounds; provided trips do not overtake, have distinct first departures per route and allow leaving at every stop, footpaths are transitively closed and symmetric, the lower bounds are admissible, stations within walking distance of a start are starts, and walking does not bring a passenger to a shorter last mile. Where these conditions fail, journeys can be lost (counterexamples).", "quantifier": "all timetables and queries with these properties, all histories of calls, all journeys", "why_tests_cant": "optimality over all journeys; transfers are pruned in preprocessing", "anchors": ["src/routing/tb/preprocess.cc: preprocess", "src/routing/tb/query_engine.cc: query_engine::execute"]}
{"id": "C55", "title": "Reconstructed journeys can be travelled", "statement": "If the reconstruction of a journey returns legs, a passenger can follow them: every leg is a ride with a vehicle that runs on that day, from a stop where boarding is allowed to a later stop where alighting is allowed with the timetable's times and the required flags, or a transfer, footpath or offset of the query with its duration; consecutive legs meet in place and time; the number of rides is that of the journey; the journey starts at a start of the query not before the start time and reaches the destination not after the reported arrival (mirrored for backward searches). For wheelchair queries this is false if a stop is open to others but closed to wheelchairs.", "quantifier": "all timetables with static footpaths, real-time transports, queries without via stops in both directions, all labels a search may have left behind", "why_tests_cant": "must hold for every timetable, query and history of labels", "anchors": ["src/routing/raptor/reconstruct.cc: reconstruct_journey_with_vias", "include/nigiri/routing/journey.h: journey::leg"]}
{"id": "C56", "title": "Every optimal journey can be reconstructed", "statement": "A journey reported by the search after processing a start time that is dominated neither by a journey of an earlier processed start time nor by another one of the same start time, and arrives within the time horizon, is reconstructed without an exception, if destination offsets take less than 511 minutes; with longer offsets the journey is lost. For wheelchair queries this needs stops whose wheelchair permissions equal the ordinary ones.", "quantifier": "all timetables without overtaking and with static footpaths, all queries without via stops, all range searches", "why_tests_cant": "reconstruction reads labels overwritten by later start times; all histories count", "anchors": ["src/routing/raptor/reconstruct.cc: reconstruct_journey_with_vias", "include/nigiri/routing/search.h: search::execute"]}
{"id": "C57", "title": "Footpath optimisation keeps journeys feasible", "statement": "Moving boarding and alighting stops along the vehicles of a reconstructed journey leaves an itinerary that a passenger can follow under the requirements of the query, with the same rides, that departs not earlier and arrives not later.", "quantifier": "all timetables, queries without via stops and itineraries", "why_tests_cant": "all combinations of itineraries, stops, footpaths and penalties", "anchors": ["src/routing/raptor/optimize_footpaths.cc: optimize_footpaths", "src/routing/raptor/optimize_footpaths.cc: optimize_transfers"]}
{"id": "C58", "title": "Ping-pong search returns only best journeys", "statement": "Every journey returned by a ping-pong query is a journey of the timetable, and no other journey from the origin to the destination has at most as many rides, departs no earlier and arrives no later, and is better in one of these; it departs in the interval that is reported as searched (and in the query's interval unless that may be extended), is faster than the direct connection and takes no longer than the maximal travel time. No result is as good as another one.", "quantifier": "all timetables without overtaking, forward and backward queries without via stops, all interval lengths and numbers of loop iterations", "why_tests_cant": "optimality against all journeys; the second search is pruned by the labels of the first and reuses its own labels and results over all iterations", "anchors": ["src/routing/raptor/pong.cc: pong", "include/nigiri/routing/raptor/raptor.h: raptor::fill_bounds", "include/nigiri/routing/raptor/raptor.h: raptor::within_bounds"]}
{"id": "C59", "title": "Ping-pong search misses no journey of the interval", "statement": "Every journey that departs in the interval reported by a ping-pong query, with the allowed number of rides and travel time, is matched by a returned journey that is as good or by a journey that departs after the interval. False after a gap of more than a day in the service (counterexample) and in the part of the reported interval behind the query's interval.", "quantifier": "all timetables without overtaking, all queries without via stops whose journeys can be reconstructed, all journeys", "why_tests_cant": "completeness over all journeys and start times", "anchors": ["src/routing/raptor/pong.cc: pong"]}
{"id": "C60", "title": "Ping-pong search does not throw", "statement": "A ping-pong query never ends with the exceptions 'no pong' or 'no pong progress': for every result of the first search the second search finds a journey with the same arrival and number of transfers, and the start time moves on. False if footpaths are not used at the origin of a station query, and if a walk to the destination crosses the end of the time the search looks at (counterexamples).", "quantifier": "all timetables without overtaking, all queries without via stops, all start times the loop visits", "why_tests_cant": "depends on two searches agreeing for every timetable and start time", "anchors": ["src/routing/raptor/pong.cc: pong"]}
{"id": "C61", "title": "One-to-all search reports the shortest travel times", "statement": "For every stop that can be reached from the start within the maximal travel time and with the allowed number of transfers, a one-to-all search returns the shortest travel time and the smallest number of rides with which it is possible; every reported travel time is realised by vehicles and walks of the timetable; more rides are listed only if they are faster; a stop without result cannot be reached in time.", "quantifier": "all timetables without overtaking, all stops, all start times (the base day is the nearest midnight), both directions, all limits up to 7200 minutes and 15 rides", "why_tests_cant": "optimality over all journeys of all timetables", "anchors": ["src/routing/one_to_all.cc: one_to_all, get_fastest_one_to_all_offsets, for_each_one_to_all_round_time, make_base", "include/nigiri/routing/raptor/raptor.h: execute"]}
{"id": "C62", "title": "One-to-all search reports nothing beyond the maximal travel time", "statement": "Stops that cannot be reached within the maximal travel time are not reported. False of the code: stops behind a footpath from a stop that is reached in time are reported with longer travel times, and among these the 'fastest' one is not the fastest. Proved: the excess is at most the last walk.", "quantifier": "all timetables, all stops, all start times", "why_tests_cant": "quantifies over all timetables and limits", "anchors": ["src/routing/one_to_all.cc: run_raptor, get_fastest_one_to_all_offsets", "include/nigiri/routing/raptor/raptor.h: update_transfers, update_footpaths"]}
{"id": "C63", "title": "Direct connections can be used", "statement": "Every journey that get_direct_journeys yields is a walk (or first mile) to a stop, a ride on one vehicle that runs on that day, whose class and whose sections satisfy the query, with boarding and alighting allowed, and a walk (or last mile); the times of its legs are those of the vehicle; it does not depart before (backward: arrive after) the given time. The sequence exists and its elements are determined.", "quantifier": "all timetables, queries, times, both directions, all orders in which the priority queue may return equal elements", "why_tests_cant": "quantifies over all timetables and queries, including time-dependent walks", "anchors": ["src/routing/direct.cc: get_direct_journeys, route_gen, rt_gen, lookup_access, lookup_offset, lookup_footpath, for_each_pair, sections_violate_constraints, assemble_legs"]}
{"id": "C64", "title": "Direct connections come in order", "statement": "get_direct_journeys yields journeys in order of their arrival (forward) or departure, latest first (backward).", "quantifier": "all timetables without overtaking, all queries without time-dependent walks (or with walks on which being later does not pay off), all times, both directions", "why_tests_cant": "order of all elements of a merge of many lazy sequences", "anchors": ["src/routing/direct.cc: get_direct_journeys, route_gen"]}
{"id": "C65", "title": "Direct connections are complete", "statement": "Every direct connection is yielded, or one with the same vehicle and stops that departs no earlier and arrives no later. Proved for the first pair of stops of a vehicle near origin and destination; false for the other pairs.", "quantifier": "all timetables, all queries without time-dependent walks, all times, vehicles and pairs of stops, both directions", "why_tests_cant": "quantifies over all connections of all timetables", "anchors": ["src/routing/direct.cc: get_direct_journeys, for_each_pair, collect_locations, lookup_access"]}
{"id": "C66", "title": "Slow direct connections are added to the results", "statement": "enrich_with_slow_direct adds direct connections without transfers that depart (arrive) in the search interval, none slower than the factor times the fastest of them, and misses none. The first part is proved; the last part only if no connection in the interval arrives after one that departs after the interval. In the normal search the added journeys are removed again.", "quantifier": "all timetables, queries, intervals, factors, both directions", "why_tests_cant": "quantifies over all timetables and intervals", "anchors": ["src/routing/direct.cc: enrich_with_slow_direct", "include/nigiri/routing/search.h: execute"]}
{"id": "C67", "title": "Alternatives for a leg fit into the journey", "statement": "get_leg_alternatives returns at most the given number of alternatives; each departs not before the arrival of the previous ride and arrives not after the departure of the next ride, is a direct connection from where the previous ride ends (or the origin) to where the next ride begins (or the destination), and does not use the original ride; the alternatives are the first ones with these properties.", "quantifier": "all timetables, journeys, legs, numbers of alternatives", "why_tests_cant": "quantifies over all journeys and timetables", "anchors": ["src/routing/leg_alternatives.cc: get_leg_alternatives, make_alternative_query", "src/routing/raptor/optimize_footpaths.cc: optimize_footpaths", "include/nigiri/rt/run.h: operator=="]}
{"id": "C68", "title": "Replacing rides by earlier ones keeps itineraries", "statement": "The last step of a forward pong search, which replaces a ride between two other rides by the earliest direct connection, turns itineraries into itineraries with the same first and last leg and the same number of rides, and finds a connection that arrives no later if there is one.", "quantifier": "all timetables, all itineraries, all orders of equal direct connections", "why_tests_cant": "quantifies over all itineraries", "anchors": ["src/routing/raptor/pong.cc: pong, get_earliest_alternative"]}
{"id": "C69", "title": "A trip descriptor finds the run it describes", "statement": "Looking up a trip of a GTFS feed by its id and a date finds exactly one run if the trip runs on that service date, leaving at the scheduled instant, and nothing otherwise; with a start time it finds the run exactly for those dates and times that denote the local departure of the trip. The lookup by id visits exactly the trips registered under the id.", "quantifier": "all feeds, timezones, trips, blocks, ids, dates and start times (also 24:00 and later)", "why_tests_cant": "quantifies over all trips, dates, UTC offsets and id tables", "anchors": ["include/nigiri/rt/gtfsrt_resolve_run.h: resolve_trip, resolve_static_trip_id, resolve_static", "src/rt/gtfsrt_resolve_run.cc: gtfsrt_resolve_run, split", "src/resolve.cc: resolve", "src/loader/gtfs/load_timetable.cc: trip_transport_ranges_, first_dep_offset_", "include/nigiri/loader/gtfs/local_to_utc.h: expand_local_to_utc", "src/loader/init_finish.cc: finalize"]}
{"id": "C70", "title": "Trips of a run, their first and last stops and their start", "statement": "for_each_trip reports the trips of a run in order with the stop ranges recorded by the loader; get_trip_start reports, at every stop of a trip, the service date and start time of the trip, and looking the trip up with them leads back to the run; get_first_trip_stop / get_last_trip_stop are the first / last served stop of the trip, or its origin / destination if it is cancelled.", "quantifier": "all blocks of trips, all stops, all sets of cancelled stops", "why_tests_cant": "quantifies over all blocks and all combinations of cancelled stops", "anchors": ["src/rt/frun.cc: get_trip_idx, get_trip_start, get_first_trip_stop, get_last_trip_stop, for_each_trip", "src/loader/gtfs/load_timetable.cc: trip_transport_ranges_"]}
{"id": "C71", "title": "The reference transport of a trip on a calendar day", "statement": "get_ref_transport returns the run of a trip with the given id that departs on the given calendar day (UTC or local), one that covers the most stops, and nothing only if there is none.", "quantifier": "all timetables, ids, days, timezones", "why_tests_cant": "quantifies over all timetables, UTC offsets and days", "anchors": ["src/lookup/get_transport.cc: get_ref_transport, for_each_schedule_transport"]}
{"id": "C72", "title": "Every transit leg of a journey is priced", "statement": "get_fares splits the transit legs of a journey into effective legs exactly where no join rule of the feed covers the change, and prices every effective leg: alone if no transfer rule covers the change into the next one, else in a transfer group formed by the first covering rule, as long as the rule admits; no leg is lost or invented; the call ends.", "quantifier": "all journeys, feeds, rule tables, networks, areas, time limits", "why_tests_cant": "quantifies over all journeys and all rule tables", "anchors": ["src/fares.cc: get_fares, join_legs, join, join_transfers, matches", "src/loader/gtfs/fares.cc: fare_transfer_rules"]}
{"id": "C73", "title": "The leg rules of an effective leg", "statement": "The leg rules reported for an effective leg are exactly the rules of the feed that apply to it (network, areas, timeframes, area sets; an empty field covers what no rule names, in feeds without priorities, and everything in feeds with them) with the highest priority among them; the first one has the default rider category and the lowest amount.", "quantifier": "all feeds, rules, legs", "why_tests_cant": "quantifies over all rule tables and legs", "anchors": ["src/fares.cc: match_leg_rule", "src/loader/gtfs/fares.cc: parse_fare_leg_rules"]}
{"id": "C74", "title": "Timeframes are those of the local time", "statement": "The timeframe group of a departure or arrival is the first group of the feed whose time of day and service day contain the local time at the stop; none if there is no such group.", "quantifier": "all feeds, timezones, times", "why_tests_cant": "quantifies over all UTC offsets and times", "anchors": ["src/fares.cc: match_timeframe"]}
{"id": "C75", "title": "Alerts are reported exactly where the feed says", "statement": "After any sequence of GTFS-RT messages with alerts and trip updates, get_alerts for a trip, its real-time run and a stop returns exactly the alerts of the feed with an informed entity selecting them (all given fields fit: trip, route and direction, agency and route type, stop or its station); every returned index is an alert of the feed; alerts keep their index.", "quantifier": "all message sequences, timetables, queries", "why_tests_cant": "quantifies over all histories of messages and all queries", "anchors": ["src/rt/gtfsrt_alert.cc: handle_alert", "include/nigiri/rt/service_alert.h: get_alerts", "src/rt/gtfsrt_update.cc: gtfsrt_update_msg"]}
{"id": "C76", "title": "Alerts do not change the service", "statement": "Processing alerts leaves every run offered with the same stops and times as before (an instance created to carry the alert has exactly the scheduled times and is listed at its stops), leaves existing real-time instances alone and adds no trips, even if a message is aborted.", "quantifier": "all alert messages after all trip update histories", "why_tests_cant": "quantifies over all histories and messages", "anchors": ["src/rt/gtfsrt_alert.cc: handle_alert", "src/rt/rt_timetable.cc: add_rt_transport"]}
{"id": "C77", "title": "shapes.txt is read as the feed means it", "statement": "Reading shapes.txt yields, for every shape id, its points in the order of shape_pt_sequence whatever the order of the rows (rows of different shapes may be interleaved), with the distances of the same points or none if no point has one; distances of a trip follow its stop times.", "quantifier": "all files (row lists), all permutations of rows", "why_tests_cant": "quantifies over all files and row orders", "anchors": ["src/loader/gtfs/shape.cc: parse_shapes", "src/loader/gtfs/stop_time.cc: read_stop_times", "src/loader/gtfs/trip.cc"]}
{"id": "C78", "title": "Stops are matched to shape points in order", "statement": "For every shape with at least as many points as the trip has stops, the matched points are strictly increasing, the first stop gets the first point and the last stop the last one, and the stop in the middle of the trip gets the closest of all points that leave one point for each other stop; matching by distance gives each stop the first remaining point at its distance or beyond, clamped.", "quantifier": "all shapes, stop sequences, metrics, distance values", "why_tests_cant": "quantifies over all geometries", "anchors": ["src/loader/gtfs/shape_prepare.cc: get_offsets_by_stops, get_offsets_by_shape_dist_traveled"]}
{"id": "C79", "title": "A trip's shape is the part of its own shape", "statement": "After loading a feed with shapes, get_shape for any trip and stop range returns exactly the consecutive points of the shape named by the trip from the matched point of the first stop to that of the last one; consecutive legs meet in a point; trips without (or with a too short) shape have none; nothing is accessed out of bounds.", "quantifier": "all feeds, trips, stop ranges", "why_tests_cant": "quantifies over all feeds and queries", "anchors": ["src/loader/gtfs/shape_prepare.cc: calculate_shape_offsets_and_bboxes", "include/nigiri/shapes_storage.h: shapes_storage::get_shape", "src/shapes_storage.cc"]}
{"id": "C80", "title": "Bounding boxes contain what they bound", "statement": "After loading a feed with shapes every route has a bounding box containing all of its stops and every shape point of all of its trips, and (when stored) per-segment boxes containing the stops and shape points of the segment; loading never fails for routes whose trips' stops are those of the route.", "quantifier": "all feeds and routes", "why_tests_cant": "quantifies over all feeds", "anchors": ["src/loader/gtfs/shape_prepare.cc: assign_bounding_boxes, process_task", "src/shapes_storage.cc: get_bounding_box"]}
{"id": "C81", "title": "The polyline of a leg", "statement": "For every run and every part of it with at least two stops, for_each_shape_point passes on at least two points, the first at the first stop and the last at the last stop, without immediate repetitions: the shape parts of the trips served (stop positions where there is no shape) in travel order.", "quantifier": "all runs (also clipped), stop ranges, shapes", "why_tests_cant": "quantifies over all runs and ranges", "anchors": ["src/rt/frun.cc: frun::for_each_shape_point"]}
{"id": "C82", "title": "Joined trips follow the stay-seated rules", "statement": "Every transport written for trips with stay-seated transfers consists of trips connected by rules of transfers.txt, in the order of the rules, at their own times shifted by whole days and with their stops, and runs only on days on which each of its trips runs (on the day of its part); each has at least one day. The rule lists of the trips are exactly the rows of the file.", "quantifier": "all feeds (trips, days, rules), all iteration orders of the hash maps", "why_tests_cant": "quantifies over all rule graphs, calendars and hash orders", "anchors": ["src/loader/gtfs/seated.cc: build_seated_trips", "include/nigiri/loader/gtfs/seated.h: expand_seated_trips", "src/loader/gtfs/load_timetable.cc"]}
{"id": "C83", "title": "No trip and no connection is lost", "statement": "The call ends; every trip with stay-seated rules is, on every day on which it runs, part of a written transport; and whenever a rule leads from one trip to another starting within two hours after the first one ends, both running, some transport runs through both.", "quantifier": "all feeds, all iteration orders of the hash maps", "why_tests_cant": "quantifies over all rule graphs, calendars and hash orders", "anchors": ["src/loader/gtfs/seated.cc: build_seated_trips", "include/nigiri/loader/gtfs/seated.h: expand_seated_trips", "src/loader/gtfs/load_timetable.cc"]}
{"id": "C84", "title": "Joined trips do not travel back in time", "statement": "The times of every written transport are sorted, and between consecutive trips it waits less than two hours.", "quantifier": "all feeds, all iteration orders of the hash maps", "why_tests_cant": "quantifies over all rule graphs, calendars and hash orders", "anchors": ["src/loader/gtfs/seated.cc: build_seated_trips", "include/nigiri/loader/gtfs/seated.h: expand_seated_trips", "src/loader/gtfs/load_timetable.cc"]}
{"id": "C85", "title": "Joined trips keep the stops of the trips", "statement": "Every stop of every joined trip is a stop of the transport with the location and boarding / alighting permission of its trip; the stop where trips are joined can be boarded if the departing trip allows it.", "quantifier": "all feeds", "why_tests_cant": "quantifies over all feeds", "anchors": ["src/loader/gtfs/seated.cc: build_seated_trips", "include/nigiri/loader/gtfs/seated.h: expand_seated_trips", "src/loader/gtfs/load_timetable.cc"]}
{"id": "C86", "title": "Packed labels on the GPU are lossless and ordered", "statement": "A time and a breadcrumb packed into one 64 bit word come back unchanged; words compare like (time in search direction, breadcrumb), the empty word is later than every time, and atomic minima leave the best word in the cell whatever the order of the updates is.", "quantifier": "all times, breadcrumbs, both directions, all orders of updates", "why_tests_cant": "quantifies over all words and all orders of concurrent updates", "anchors": ["include/nigiri/routing/gpu/device_times.h: device_times", "include/nigiri/routing/gpu/breadcrumb.h", "include/nigiri/routing/gpu/raptor_impl.cuh: raptor_impl", "src/routing/gpu/raptor.cu: gpu_raptor::execute"]}
{"id": "C87", "title": "Packed rides and transports are lossless", "statement": "Transport, boarding and alighting stop of a ride survive in a breadcrumb, start / scheduled / real-time are told apart, and the 32 bit keys of the boarding lookup compare like (day, transport) in search direction.", "quantifier": "all rides and transports", "why_tests_cant": "quantifies over all transports, days and stops", "anchors": ["include/nigiri/routing/gpu/device_times.h: device_times", "include/nigiri/routing/gpu/breadcrumb.h", "include/nigiri/routing/gpu/raptor_impl.cuh: raptor_impl", "src/routing/gpu/raptor.cu: gpu_raptor::execute"]}
{"id": "C88", "title": "The warp finds the best boarding for every stop", "statement": "The 32 lanes that scan a route in chunks write, for every stop, the arrival with the first run (day, transport, boarding stop) that can be boarded at an earlier stop and reached without a closed section in between - exactly the arrivals of a sequential scan, in both variants of the kernel.", "quantifier": "all routes of any length, labels, marks, section filters", "why_tests_cant": "quantifies over all routes, labels and lengths", "anchors": ["include/nigiri/routing/gpu/device_times.h: device_times", "include/nigiri/routing/gpu/breadcrumb.h", "include/nigiri/routing/gpu/raptor_impl.cuh: raptor_impl", "src/routing/gpu/raptor.cu: gpu_raptor::execute"]}
{"id": "C89", "title": "The search on the GPU is sound for every schedule", "statement": "Whatever the interleaving of the threads and however stale their plain loads are, every label and every reported arrival is realised by a journey from a start event with at most as many rides.", "quantifier": "all timetables, queries, schedules of all kernels", "why_tests_cant": "quantifies over all interleavings", "anchors": ["include/nigiri/routing/gpu/device_times.h: device_times", "include/nigiri/routing/gpu/breadcrumb.h", "include/nigiri/routing/gpu/raptor_impl.cuh: raptor_impl", "src/routing/gpu/raptor.cu: gpu_raptor::execute"]}
{"id": "C90", "title": "The search on the GPU is optimal for every schedule", "statement": "Whatever the interleaving, no journey within the horizon and the number of rides is better than everything the GPU reports: within the horizon of all start times it offers exactly what is possible.", "quantifier": "all timetables without overtaking, range queries, schedules of all kernels", "why_tests_cant": "quantifies over all interleavings", "anchors": ["include/nigiri/routing/gpu/device_times.h: device_times", "include/nigiri/routing/gpu/breadcrumb.h", "include/nigiri/routing/gpu/raptor_impl.cuh: raptor_impl", "src/routing/gpu/raptor.cu: gpu_raptor::execute"]}
{"id": "C91", "title": "CPU and GPU agree and the schedule does not matter", "statement": "Two executions on the GPU offer the same (rides, arrival) combinations, the same as the search on the CPU; there is an execution for every query.", "quantifier": "all timetables without overtaking, range queries, schedules of all kernels", "why_tests_cant": "quantifies over all pairs of interleavings", "anchors": ["include/nigiri/routing/gpu/device_times.h: device_times", "include/nigiri/routing/gpu/breadcrumb.h", "include/nigiri/routing/gpu/raptor_impl.cuh: raptor_impl", "src/routing/gpu/raptor.cu: gpu_raptor::execute"]}
{"id": "C92", "title": "Journeys reconstructed on the GPU can be travelled", "statement": "Whatever the interleaving of the threads: for every arrival reported by the GPU within the limit of the query and not dominated by another reported one, following the breadcrumbs succeeds (no `reconstruction failed`), and the legs are permitted rides with running vehicles, transfers and footpaths that fit together, begin at a start event of the query and arrive exactly at the reported time (with a last mile: the reported time is the arrival of the last ride plus the last mile).", "quantifier": "all timetables without overtaking, range queries, schedules of all kernels, reported pareto-optimal arrivals", "why_tests_cant": "quantifies over all interleavings and all timetables; a race between a label and its breadcrumb shows up only under particular schedules", "anchors": ["include/nigiri/routing/gpu/raptor_impl.cuh: reconstruct_journey, split", "src/routing/gpu/raptor.cu: execute (device journeys to host journeys)", "include/nigiri/routing/gpu/breadcrumb.h", "include/nigiri/routing/gpu/journey_pod.h"]}
{"id": "C93", "title": "HRD traffic day bitfields", "statement": "The hexadecimal traffic day string of an HRD feed yields exactly the days between its first and its last pair of adjacent set bits (`pre 11 days 11 post`), most significant bit first; strings of another form are rejected; bitfield number 0 and unknown numbers mean every day.", "quantifier": "all strings of bytes", "why_tests_cant": "the set of strings is unbounded; frames, leading and trailing zero digits and days next to the frame interact", "anchors": ["src/loader/hrd/stamm/bitfield.cc: hex_str_to_bitset", "src/loader/hrd/stamm/stamm.cc: resolve_bitfield"]}
{"id": "C94", "title": "Splitting HRD services at changes of the traffic days", "statement": "Every part service lies within the service, every section of it runs on all its days, and no two parts share a day; a service with uniform traffic days becomes one service; the parts serve every day of every section.", "quantifier": "all lists of section bitfields", "why_tests_cant": "the parts depend on all bitfields of a service together; tests check a few combinations", "anchors": ["include/nigiri/loader/hrd/service/expand_traffic_days.h: expand_traffic_days"]}
{"id": "C95", "title": "HRD services run at the UTC times of their local times", "statement": "For every local traffic day in the interval of the feed that overlaps the selected dates the loaded services contain exactly one UTC traffic day with times, such that every event takes place at the UTC time of its local time in the time zone of its stop; days with a non-existing local time or decreasing UTC times are dropped.", "quantifier": "all services, time zones with any number of seasons, intervals", "why_tests_cant": "clock changes, day changes by the UTC offset and the day offset of the timetable interact; must hold for all days", "anchors": ["include/nigiri/loader/hrd/service/expand_local_to_utc.h: to_utc, build_utc_time_seq", "include/nigiri/loader/hrd/stamm/timezone.h: local_mam_to_utc_mam, is_local_time_in_season", "src/loader/hrd/stamm/basic_info.cc: parse_interval"]}
{"id": "C96", "title": "Times of HRD feeds are shown as they were read", "statement": "A local time that the loader converted to UTC is displayed as the same local time; except in the repeated hour every UTC time is the one computed from its local time.", "quantifier": "all time zones with non-overlapping seasons, all times", "why_tests_cant": "holds only if two independently written functions agree at every boundary of every season", "anchors": ["include/nigiri/loader/hrd/stamm/timezone.h: local_mam_to_utc_mam", "include/nigiri/types.h: to_local_time_offsets"]}
{"id": "C97", "title": "Tracks and boarding permissions of HRD stops", "statement": "The stop of a loaded HRD service is the track of the first rule for station, train number and administration that applies at the local time and day of its departure (arrival at the last stop), the station if there is none; boarding and alighting as in the feed.", "quantifier": "all services, rules, days", "why_tests_cant": "rules, days past midnight and sections combine without bound", "anchors": ["src/loader/hrd/stamm/stamm.cc: resolve_track", "include/nigiri/loader/hrd/service/expand_local_to_utc.h: build_stop_seq"]}
{"id": "C98", "title": "From an HRD service to the timetable", "statement": "A service with one traffic day bitfield is loaded on UTC day u with given times and stops iff for one of its repetitions and one of its local traffic days these are the UTC times of its events, each in the time zone that the table assigns to its stop.", "quantifier": "all services, repetitions, time zone tables, intervals", "why_tests_cant": "composition of splitting, repetitions, time zones and conversion for every day", "anchors": ["include/nigiri/loader/hrd/service/read_services.h: parse_services (expand_service)", "include/nigiri/loader/hrd/service/expand_repetitions.h", "include/nigiri/loader/hrd/service/ref_service.h: local_times, get_stop_timezones", "src/loader/hrd/stamm/stamm.cc: get_tz"]}
{"id": "C99", "title": "VDV/SIRI updates keep the times of a run consistent", "statement": "After an update message the times of a run that is not cancelled never decrease along the run; each event has the least of the times that the message gives to it and to the later events (prediction, else scheduled time plus last delay, else the previous time); no event is later than the message says; repeating a message changes nothing.", "quantifier": "all runs, stop ranges, messages with any number of stops, previous times", "why_tests_cant": "the outcome depends on which reported stops fit, in which order, and on all later events; every message after every history must leave consistent times", "anchors": ["src/rt/vdv_aus.cc: updater::update_run, monotonize, update_event", "include/nigiri/rt/rt_timetable.h: update_time"]}
{"id": "C100", "title": "Predictions and permissions of VDV/SIRI messages reach the run", "statement": "A predicted time of a reported stop becomes the time of the event; boarding and alighting become what the message says; a run with at most one served stop is cancelled and no other one.", "quantifier": "all runs and messages", "why_tests_cant": "combinations of predictions, missing predictions, pass-through, cancelled stops and partial stop ranges are unbounded", "anchors": ["src/rt/vdv_aus.cc: updater::update_run, handle_first_last_cancelation, monotonize"]}
{"id": "C101", "title": "Matching VDV/SIRI runs with the timetable", "statement": "A run matched by its stops operates on that day and a fixed share of the reported stops are stops of the run at their scheduled times up to 15 minutes (best run: over 50 %, incomplete messages 70 %; others at least 97.5 % of that); a run identified by its id is the only match; a run described exactly is matched.", "quantifier": "all timetables, messages, sort functions that satisfy the contract of std::sort", "why_tests_cant": "candidates from all routes at all equivalent stops compete; errors around midnight and day offsets only show for special combinations", "anchors": ["src/rt/vdv_aus.cc: updater::match_run, candidate, vdv_stop::get_event", "include/nigiri/common/mam_dist.h: mam_dist"]}
{"id": "C102", "title": "Histories of VDV/SIRI messages", "statement": "The runs of an id are those matched by the first complete message since the id was last forgotten, else by the first message; a message changes the runs it is about and nothing else; each static run has at most one real-time transport and is then not active itself; a cancellation removes the run.", "quantifier": "all histories of messages and clean-ups", "why_tests_cant": "the effect of a message depends on all previous messages with the same id", "anchors": ["src/rt/vdv_aus.cc: updater::process_vdv_run, updater::clean_up, updater::update_run", "src/rt/rt_timetable.cc: add_rt_transport, cancel_run"]}
{"id": "C103", "title": "Operating periods of NeTEx files", "statement": "An operating period or availability condition contains exactly the days between its dates whose character in ValidDayBits is not 0, as far as they are in the timetable; one with too few characters is rejected; a service journey with an availability condition runs on exactly its days.", "quantifier": "all periods, day bit strings and timetable intervals", "why_tests_cant": "offsets between the start of the period and the start of the timetable, both ends cut off, 512 day limit", "anchors": ["src/loader/netex/load_timetable.cc: get_operating_periods, get_service_journeys"]}
{"id": "C104", "title": "Day types of NeTEx files", "statement": "A service journey with day types runs on exactly the days on which one of its day types is assigned (by operating period or date).", "quantifier": "all files", "why_tests_cant": "combinations of several assignments and day types", "anchors": ["src/loader/netex/load_timetable.cc: get_day_type_assignments, get_service_journeys"]}
{"id": "C105", "title": "Local times of NeTEx service journeys", "statement": "A service journey has exactly one run for every operating day whose trip touches the selected range, on the UTC day of its first departure, at the UTC times of its local times: the time at which clocks show it, for skipped times with the offset before the change, never decreasing.", "quantifier": "all time zones, service journeys, traffic days and timetable intervals", "why_tests_cant": "the time zone lookup is cached between events and days, so the result could depend on everything converted before; clock changes affect single events of single days", "anchors": ["src/loader/netex/load_timetable.cc: expand_local_to_utc"]}
{"id": "C106", "title": "NeTEx import sets no day outside of the timetable", "statement": "For service journeys of less than five calendar days the expansion never accesses a day before the first or after the last day of the timetable.", "quantifier": "all time zones (less than a day from UTC), service journeys and timetables of at most 512 days", "why_tests_cant": "only the extreme days of the extreme journeys are affected", "anchors": ["src/loader/netex/load_timetable.cc: expand_local_to_utc"]}
{"id": "C107", "title": "Given and missing times in NeTEx files", "statement": "The arrival and departure times of a stop are the given ones; a stop with one time only arrives and departs at this time.", "quantifier": "all service journeys", "why_tests_cant": "any subset of the times can be missing", "anchors": ["src/loader/netex/load_timetable.cc: parse_time, expand_local_to_utc"]}
{"id": "C108", "title": "Transports of NeTEx files belong to the right trips", "statement": "Each transport is recorded for the trips of the service journeys it runs through, at the stops of these, and each section shows the destination of its first stop.", "quantifier": "all lists of service journeys and chains of them", "why_tests_cant": "indices of several parallel arrays must stay aligned for all journeys that are registered", "anchors": ["src/loader/netex/load_timetable.cc: load_timetable (add_to_tt, write trips)", "include/nigiri/string_store.h: store"]}
{"id": "C109", "title": "Every run of a NeTEx service journey is loaded once", "statement": "Every run of every service journey is in exactly one transport, alone or joined by stay-seated meetings.", "quantifier": "all service journeys and meetings", "why_tests_cant": "depends on the whole graph of meetings", "anchors": ["src/loader/netex/load_timetable.cc: load_timetable (seated trips)", "src/loader/gtfs/seated.cc: build_seated_trips"]}
{"id": "C110", "title": "Stops and permissions of NeTEx journey patterns", "statement": "The stop of a stop point is the one of its last usable assignment, the quay if it is known and otherwise the stop place; boarding and alighting are forbidden exactly where the file says so.", "quantifier": "all assignments, files and base files", "why_tests_cant": "order and origin of the assignments matter", "anchors": ["src/loader/netex/load_timetable.cc: get_stop_assignments, get_journey_patterns, stop_seq"]}
{"id": "C111", "title": "Re-sending a real-time message changes nothing", "statement": "A feed message of cancellations and trip updates of scheduled trips which names no run twice can be received a second time without any effect: all times, stops, cancellations, instance lookups and active days stay as they are.", "quantifier": "all timetables with non-decreasing scheduled times, histories of messages and messages", "why_tests_cant": "every update reads the state which the first copy of it wrote (delays, skipped stops, assigned stops, registrations)", "anchors": ["src/rt/gtfsrt_update.cc: update_run, update_event, update_delay", "src/rt/rt_timetable.cc: cancel_run"]}
{"id": "C112", "title": "The latest real-time message determines the times", "statement": "After a trip update the times of a run are determined by this update and the schedule, whatever has been received before.", "quantifier": "all histories and updates", "why_tests_cant": "depends on the whole history", "anchors": ["src/rt/gtfsrt_update.cc: update_run"]}
{"id": "C113", "title": "Added trips run as announced", "statement": "A trip added by a real-time message becomes one new transport at the announced stops in their order (skipped ones closed), with the announced boarding permissions and at the announced times; an event without a time has the last one announced before it.", "quantifier": "all messages, states of the real-time timetable and static timetables", "why_tests_cant": "any subset of the times can be missing, any stop skipped or repeated", "anchors": ["src/rt/gtfsrt_update.cc: add_rt_trip, update_run, update_event, update_delay", "src/rt/rt_timetable.cc: add_rt_transport"]}
{"id": "C114", "title": "Each feed entity does what it means, and is counted once", "statement": "A message of trip updates cancels, updates and adds exactly the runs its entities stand for, in their order; alerts, deleted, incomplete and unsupported entities change no run; vehicle positions change only their runs; each entity is counted in exactly one counter.", "quantifier": "all messages, all ways to resolve trip descriptors, all states", "why_tests_cant": "combinations of present and missing fields", "anchors": ["src/rt/gtfsrt_update.cc: gtfsrt_update_msg, handle_vehicle_position, add_rt_trip"]}
{"id": "C115", "title": "Ids of added trips", "statement": "The id of an added trip stands for one real-time transport forever, different trips never share one, every added transport can be found under its id, and re-sending creates none.", "quantifier": "all histories of messages of all feeds", "why_tests_cant": "two growing arrays must stay aligned over all messages", "anchors": ["src/rt/gtfsrt_resolve_run.cc: resolve_rt", "src/rt/rt_timetable.cc: add_rt_transport", "src/rt/gtfsrt_update.cc: add_rt_trip, gtfsrt_update_msg"]}
{"id": "C116", "title": "transfers.txt is applied as written", "statement": "For every transfers.txt: between two known stops the footpath has the time of the first row for this pair; the transfer time of a stop is the smallest time of its rows to itself (default without one); stay-seated transfers are exactly the rows of type 4 with two trips, in order; the hierarchy is not touched.", "quantifier": "all stop files, all sequences of rows, all times and types", "why_tests_cant": "files are arbitrary sequences with repeated pairs; a test sees a handful", "anchors": ["src/loader/gtfs/stop.cc:read_transfers", "include/nigiri/footpath.h:footpath"]}
{"id": "C117", "title": "Footpaths of a GTFS timetable go both ways and mirror each other", "statement": "Whatever the iteration order of the hash map: outgoing and incoming footpaths agree with the same durations, one per pair; a footpath of transfers.txt has its own duration, else the one in the other direction counts, else the walking time if one of the stops is related to the other and at most 511 minutes away; there is a footpath back for each footpath; equivalences are the related stops within 511 minutes.", "quantifier": "all stop and transfer files, all geometries, all iteration orders", "why_tests_cant": "depends on hash order and on combinations of explicit and generated footpaths", "anchors": ["src/loader/gtfs/stop.cc:read_stops"]}
{"id": "C118", "title": "The hierarchy of stops is the one of stops.txt", "statement": "The loaded stops are those with a row (no entrances, no generic nodes) and the parents named there; children are the stops which name it as parent; the parent is the one named last; parents and children are converse to each other if no stop has two rows; equally named stops are found.", "quantifier": "all stop files, in any order of rows (parents before or after children)", "why_tests_cant": "rows come in any order, with repetitions and forward references", "anchors": ["src/loader/gtfs/stop.cc:read_stops"]}
{"id": "C119", "title": "Related stops (metas) are well defined", "statement": "For every hierarchy (loops included), every iteration order of the work list and every geometry: the search ends within as many rounds as there are stops, and the result is exactly the set of stops reached over parents and children from the stop, equally named and close stops, restricted to 500 m (2 km for direct parent and children), with their children; a stop is related to itself, its children, and a parent within 2 km with its children.", "quantifier": "all stop files, geometries, hash orders", "why_tests_cant": "hash order and arbitrary hierarchies, including cyclic ones", "anchors": ["src/loader/gtfs/stop.cc:stop::get_metas"]}
{"id": "C120", "title": "Stop groups and links between sources", "statement": "The equivalent stops of a stop group are its stops, their children and grandchildren (only for groups at (0,0) and known stops). Linking nearby stations adds footpaths exactly between locations of different sources (no dummies) within the radius, in both arrays, never faster than either transfer time; locations less than 100 m apart become equivalent.", "quantifier": "all group files, all sets of locations", "why_tests_cant": "combinations of sources, dummies and positions", "anchors": ["src/loader/gtfs/stop_group.cc:add_stop_groups", "src/loader/link_nearby_stations.cc:link_nearby_stations"]}
{"id": "C121", "title": "Continuing a journey from inside a train", "statement": "For every train, stop and query: the position must be an inner or the last stop; the query then starts at the arrival there, keeps its earlier starts and gets one start per later stop with the time until arrival plus transfer time; the search then has the traveller at exactly the stops where the train calls, at the earliest time at which they can have changed; the number of a start is the position of the stop.", "quantifier": "all trains (also calling twice at a stop), times, transfer times, match modes, iteration orders", "why_tests_cant": "any train, any position; combination with the start times of the search", "anchors": ["src/routing/ontrip_train.cc:generate_ontrip_train_query", "src/routing/start_times.cc:get_starts"]}
{"id": "C122", "title": "Time-dependent walks of a journey are those of the schedule", "statement": "For every journey: only the first and the last leg are changed; they get the duration of the entry in force, the first keeps its departure, the last its arrival; each is a walk the schedule permits at that time.", "quantifier": "all journeys, all schedules", "why_tests_cant": "schedules are arbitrary sequences of validity periods", "anchors": ["src/routing/raptor/specify_td_offsets.cc:specify_td_offsets", "include/nigiri/td_footpath.h:get_td_duration"]}
{"id": "C123", "title": "Texts are shown in the preferred language", "statement": "For every translations.txt and any sequence of calls: each field of each record is shown in the first preferred language in which there is a text (a translation by record, else by text; the original text is in the language of the feed), else in the language of the feed; registered texts do not change.", "quantifier": "all files, all histories of calls, all lists of languages, all orders of an unstable sort", "why_tests_cant": "any combination of rows by record and by text, caching across calls", "anchors": ["src/loader/gtfs/translations.cc:translator::get", "src/loader/gtfs/translations.cc:read_translations", "src/timetable.cc:timetable::translate"]}
{"id": "C124", "title": "Every trip gets its stop times", "statement": "For every stop_times.txt, whatever the order of its rows: each trip with stops has, in the order of stop_sequence (the order of the file where that is ordered), exactly the calls listed for it whose stop is known, each with stop, boarding and alighting, times, distance and headsign of the same row; times are interpolated iff one is missing. Each trip with areas has exactly the areas listed for it with the time windows and booking rules of the same row.", "quantifier": "all files (any interleaving of trips), all lists of trips, all unstable sorts", "why_tests_cant": "any interleaving of rows, any order of the numbers, sort without stability", "anchors": ["src/loader/gtfs/stop_time.cc:read_stop_times", "src/loader/gtfs/load_timetable.cc", "include/nigiri/common/sort_by.h:sort_by"]}
{"id": "C125", "title": "Flexible trips are offered on their service days", "statement": "For every set of flexible trips, calendars and time zones with changes of clocks: the times at which a trip can be used are exactly its windows on its service days, converted to UTC; no service day is offered twice; each transport has the areas and booking rules of its trip; at each area and group exactly those transports are listed that serve it, each once.", "quantifier": "all trips, services, UTC offsets, iteration orders of the hash map", "why_tests_cant": "all calendars and offsets; grouping by offset in a hash map", "anchors": ["src/loader/gtfs/flex.cc:expand_flex_trip"]}
{"id": "C126", "title": "Areas have the outline and name of the file", "statement": "For every locations.geojson: the areas are the polygons that can be read, in the order of the file, each with its id, outline, holes, name and description; an id refers to its first polygon.", "quantifier": "all files", "why_tests_cant": "any mixture of readable and unreadable features", "anchors": ["src/loader/gtfs/flex.cc:parse_flex_areas"]}
{"id": "C127", "title": "Stops of groups and groups of stops", "statement": "For every location_group_stops.txt: the stops of a group are those listed in rows with known ids, in order; a group lists a stop iff the stop lists the group.", "quantifier": "all files", "why_tests_cant": "any order and repetition of rows", "anchors": ["src/loader/gtfs/flex.cc:parse_location_group_stops"]}
{"id": "C128", "title": "Routes keep their attributes", "statement": "For every agency.txt and routes.txt without ambiguous ids and every user script: each route the scripts keep is found by its id, and the timetable stores under its number the attributes of its own row as changed by the script, with the provider of its own agency; routes of one agency share the provider, routes of different agencies do not; rejected routes and routes of rejected agencies are not found; providers of earlier feeds do not change.", "quantifier": "all files, scripts, earlier feeds", "why_tests_cant": "any mixture of known, unknown, rejected agencies and of kept and rejected routes", "anchors": ["src/loader/gtfs/route.cc:read_routes", "src/loader/gtfs/agency.cc:read_agencies", "src/loader/register.cc:register_route", "src/loader/register.cc:register_agency"]}
{"id": "C129", "title": "Scripts change what they name", "statement": "For every sequence of setter calls of a user script on a route: each setter changes exactly the attribute it names to the given value, a class is set to a route type of that class, agency and ids never change, later calls win.", "quantifier": "all attributes, values, sequences of calls", "why_tests_cant": "every order of calls", "anchors": ["src/loader/register.cc:route::set_clasz", "src/loader/register.cc:route::set_text_color", "src/loader/gtfs/route.cc:to_clasz"]}
{"id": "C130", "title": "Trips and their frequencies are those of the feed", "statement": "For every trips.txt, user script and timetable loaded so far: the trips of the feed are those of the rows with known service and route which the script does not reject, in the order of the file; number, route, id, names, direction, class, bike/car/wheelchair/reservation flags, shape and service of each are those of its row as changed by the script; each trip is listed at its own route and block and nowhere else; an id refers to its first row; earlier trips do not change. For every frequencies.txt a trip gets exactly the windows of the readable rows with its id, in order.", "quantifier": "all files, scripts, class defaults, earlier feeds", "why_tests_cant": "any mixture of kept and skipped rows, repeated ids and blocks", "anchors": ["src/loader/gtfs/trip.cc:read_trips", "src/loader/gtfs/trip.cc:read_frequencies", "src/loader/register.cc:register_trip"]}
{"id": "C131", "title": "Ticketing data belongs to what it names", "statement": "In a finished timetable an agency id of a feed is found iff the feed has such an agency. For every feed of the ticketing extension: each stop gets the identifiers of the rows that name it, each agency, route and trip gets the link or identifier it names and no other changes, whatever the iteration order of the hash maps; tickets are unavailable for exactly the trips and stops marked so.", "quantifier": "all timetables, files, iteration orders", "why_tests_cant": "binary search in any sorted order; any mixture of known and unknown ids", "anchors": ["src/timetable.cc:get_provider_idx", "src/loader/gtfs/ticketing.cc"]}
{"id": "C132", "title": "Every trip of the feed runs in the timetable", "statement": "After the import there is exactly one transport for every expanded trip or joined service of the feed, and what is read for it (class, stops, departures and arrivals at every stop, days, time zone offset, and for each section trip, agency, headsign and flags) is that service; what was in the timetable stays. The runs of a trip are exactly the transports it is part of, with its stops in them; the routes of a location are exactly those that stop there, once each; the transports of a route are in order of their times of day at every stop; joined trips keep boarding and alighting rules of each trip.", "quantifier": "all feeds, services, timetables before, iteration orders of the hash map", "why_tests_cant": "grouping, insertion in the middle of a route, interleaved time arrays, per-section vectors", "anchors": ["src/loader/gtfs/load_timetable.cc:add_expanded_trip", "include/nigiri/loader/gtfs/local_to_utc.h:get_stop_seq", "src/timetable.cc:register_route", "src/timetable.cc:add_transport", "include/nigiri/timetable.h:event_mam", "src/rt/frun.cc:run_stop"]}
{"id": "C133", "title": "Wheelchair boarding depends on assistance at the time of the train", "statement": "For every service and every file of assistance times: on each of its days exactly one of the services it is expanded to runs, with the same times and trips; a passenger with a wheelchair may board (alight) at a stop iff the feed allows it and the station near it has assistance at the local time of the departure (arrival).", "quantifier": "all services, days, opening hours, stations", "why_tests_cant": "services crossing midnight in UTC, files with invalid rows", "anchors": ["include/nigiri/loader/gtfs/local_to_utc.h:expand_assistance", "src/loader/assistance.cc:read_assistance", "include/nigiri/loader/assistance.h:is_available"]}
{"id": "C134", "title": "Frequency trips of a block", "statement": "For every list of trips run one after the other by one vehicle: if none has frequencies they run as one service at their own times; if they run by frequency, every trip has exactly the departures of its windows; and if all of them have the same headways, each run goes through to the next trip so that passengers can stay on board.", "quantifier": "all lists of trips, windows, headways", "why_tests_cant": "no test combines block_id with frequencies.txt", "anchors": ["include/nigiri/loader/gtfs/local_to_utc.h:headways_match", "include/nigiri/loader/gtfs/local_to_utc.h:stays_sorted", "include/nigiri/loader/gtfs/local_to_utc.h:expand_frequencies"]}
{"id": "C135", "title": "Searching with time-dependent walks", "statement": "For every timetable with time-dependent footpaths and last miles: being at a stop earlier never means reaching the other end of a walk later, in both directions; therefore the search finds the best journeys with time-dependent walks, too.", "quantifier": "all schedules of footpaths, networks, queries, both directions", "why_tests_cant": "the order of arrivals at a stop matters, tests use one vehicle", "anchors": ["include/nigiri/routing/raptor/raptor.h:update_td_offsets", "include/nigiri/routing/raptor/raptor.h:update_intermodal_footpaths", "include/nigiri/td_footpath.h:get_td_duration", "include/nigiri/td_footpath.h:for_each_footpath"]}
{"id": "C136", "title": "From the services of a feed to the journeys", "statement": "After an import, a journey search finds journeys with the services of the feed and nothing else: what can be ridden in the timetable is exactly what can be ridden with the services (same stops, times, days, classes, boarding permissions and flags), boarding takes the earliest trip that can be caught, everything reported is a journey with services of the feed, and within the horizon of the query every such journey is matched by one that is reported.", "quantifier": "all feeds, services, orders of the services and of the hash map, queries, both directions", "why_tests_cant": "the loader and the search are tested separately, on a few feeds; agreement must hold for every feed and every query", "anchors": ["src/loader/gtfs/load_timetable.cc:load_timetable", "src/timetable.cc:register_route", "include/nigiri/timetable.h:event_mam", "include/nigiri/routing/raptor/raptor.h:get_earliest_transport", "include/nigiri/routing/raptor/raptor.h:update_route"]}
{"id": "C137", "title": "From the trips of a GTFS feed at their local times to the journeys", "statement": "The journeys found by the search are exactly journeys with the trips of the feed: a ride can be found iff a trip (or several of a block, one after the other) makes it on a day of its service, leaving at the local time of the feed on that day (frequency departures included), converted with the UTC offset of that day.", "quantifier": "all feeds of trips, blocks and frequencies, service days, UTC offsets (daylight saving), queries, both directions", "why_tests_cant": "import and search are tested separately with a few trips; the composition must be right for every feed, day and query", "anchors": ["include/nigiri/loader/gtfs/local_to_utc.h:expand_trip", "include/nigiri/loader/gtfs/local_to_utc.h:expand_local_to_utc", "src/loader/gtfs/load_timetable.cc:load_timetable", "include/nigiri/routing/raptor/raptor.h:raptor"]}
{"id": "C138", "title": "A query on an imported GTFS feed returns exactly the best trips with the trips of the feed", "statement": "Import a GTFS feed (trips with stop times at local times, frequencies, service days, time zone offsets) and run a query of the interval or fixed-time search with RAPTOR: every returned journey is a trip a traveller can take with the trips of the feed at their local times on their service days; no such trip is better (leaves no earlier, arrives no later, has no more rides) than a returned one; and every such trip that leaves in the returned interval, within the limits of the query, is matched by a returned journey, unless a better one leaves after the interval. The lower bounds that prune the search are those computed from the same imported timetable.", "quantifier": "every feed, time zone offsets, days, query, clock and number of interval extensions, both directions", "why_tests_cant": "it joins the import, the lower bounds, the start times, RAPTOR and the search driver; a test fixes one small feed and one query", "anchors": ["include/nigiri/loader/gtfs/local_to_utc.h: expand_trip", "src/loader/gtfs/load_timetable.cc: add_trip", "include/nigiri/routing/search.h: search::execute", "include/nigiri/routing/raptor/raptor.h: raptor"]}
{"id": "C139", "title": "The lines of an HRD service apply to the sections they name", "statement": "When a service of an HRD file is read, the range of each of its lines goes from the stop to the stop that its columns name (an index; a station: its first visit; a station and a number: that visit; a station and a time: the first departure, the last arrival at that time; nothing: the whole service); category, line, direction and traffic days of a section are those of the last line for the whole service, if there is one, else of the last line that covers the section; its attributes are those of all lines that cover it; its train number and administration are the last ones given at a stop up to it. A line that names no stop makes the service be rejected.", "quantifier": "all services: stops, lines of every kind in any order, all column layouts", "why_tests_cant": "services can visit a station many times and lines overlap without bound; tests check the printed result of a few services", "anchors": ["src/loader/hrd/service/service.cc: service::service", "src/loader/hrd/service/service.cc: range", "src/loader/hrd/service/service.cc: parse_range", "src/loader/hrd/service/service.cc: parse_sections"]}
{"id": "C140", "title": "Every service of an HRD file is loaded with its own lines", "statement": "A file that consists of comments and of services (a line *Z, *T or *K followed by the lines of the service) is read as exactly these services in this order, each with exactly its own stop, traffic day, category, attribute, line and direction lines; loaded are those that begin with *Z and have a category, traffic days and two stops. A line of another form makes the import fail.", "quantifier": "all files: any number and order of services and lines", "why_tests_cant": "the grouping depends on every line before; test files hold a handful of services", "anchors": ["include/nigiri/loader/hrd/service/read_services.h: parse_services", "src/loader/hrd/service/service.cc: specification::read_line", "src/loader/hrd/service/service.cc: specification::valid"]}
{"id": "C141", "title": "Names of HRD services", "statement": "The name of a loaded HRD service is made from the category (or the provider) and the train number (or the line) of the service by the output rule of its category, separated by one blank.", "quantifier": "all services, categories, output rules", "why_tests_cant": "the rule has 256 values and the inputs come from the section or the whole service", "anchors": ["src/loader/hrd/service/service.cc: service::display_name", "src/loader/hrd/service/service_builder.cc: service_builder::add_service"]}
{"id": "C142", "title": "Active days of a route", "statement": "A route is reported active on exactly the days of the timetable on which one of its vehicles is on its way: the vehicle starts on this day, or it started on an earlier traffic day and still has an event on or after this day. So a search that skips the inactive days of a route skips no event of the timetable.", "quantifier": "all routes, traffic days, event times (also trips over many days), all days", "why_tests_cant": "the days are a union of shifted bit sets over all vehicles of a route; a wrong shift only shows for particular combinations of traffic day, trip length and query day", "anchors": ["src/loader/init_finish.cc: rebuild_route_traffic_days", "include/nigiri/timetable.h: is_route_active"]}
{"id": "C143", "title": "Attributes, direction, class and operator of imported HRD services", "statement": "Each section of a vehicle imported from an HRD service shows the attributes of the attribute lines that cover this section of the service (on the days given with them), the direction and the class of the lines in force there, and the vehicle belongs to the administration in force on its first section - also for a vehicle that is imported for a part of the sections.", "quantifier": "all services (stops, lines, ranges), all parts of a service, all sections", "why_tests_cant": "data of the whole service and of single sections are combined and stored in one of three forms; tests print single services", "anchors": ["src/loader/hrd/service/service_builder.cc: service_builder::write_services", "src/loader/hrd/service/service_builder.cc: service_builder::add_service", "src/rt/frun.cc: run_stop::get_attribute_combination", "src/rt/frun.cc: run_stop::direction", "src/rt/frun.cc: run_stop::get_clasz"]}
{"id": "C144", "title": "Importance of stations", "statement": "The importance of a station is the number of departures in the timetable (vehicles times traffic days) weighted by transport class, summed over all stops that belong to it; the maximum by which it is normalised is the largest importance of any station.", "quantifier": "all timetables: locations, parents, routes, vehicles, traffic days", "why_tests_cant": "a sum over the whole timetable, with a maximum kept along the way", "anchors": ["src/loader/init_finish.cc: assign_importance"]}
{"id": "C145", "title": "Metrics of the feeds", "statement": "The metrics of a timetable give for each feed the number of its locations and trips, the first and the last day on which a trip or flex trip of the feed runs, and the number of transport days: the sum over its trips of the days on which the trip runs.", "quantifier": "all timetables: feeds, locations, trip ids, transports with any traffic days, flex trips", "why_tests_cant": "counts and extreme days are accumulated over the whole timetable with initial values that have to be neutral; tests check one small timetable", "anchors": ["src/timetable_metrics.cc: get_metrics", "include/nigiri/timetable_metrics.h: timetable_metrics"]}
{"id": "C146", "title": "Stations of an HRD timetable", "statement": "Exactly the stations named in the file of names or of coordinates are imported, each with the name and the position of its last line; the stations equivalent to a station are the known ones declared for it (in version 5.20.26 without those whose footpath line carries F); there is a footpath between two known stations iff a line gives one, and it takes the shortest duration given, but not less than the transfer times of its stations.", "quantifier": "all contents of the three station files: repeated lines, lines for unknown stations, any order", "why_tests_cant": "the outcome depends on the repetition and the order of lines in three files; tests read one small set of files", "anchors": ["src/loader/hrd/stamm/station.cc: parse_stations, parse_station_names, parse_station_coordinates, parse_equivilant_stations, parse_footpaths", "include/nigiri/loader/hrd/stamm/station.h: hrd_location"]}
{"id": "C147", "title": "Tracks of an HRD timetable", "statement": "A stop of a service gets the track of the first line of the track file for its station, train number and administration that applies at its time and on its day, and the station itself if there is none; the import adds exactly one location per station and track name of the file, each a child of its station once, and leaves the other locations; every administration of the file has a provider.", "quantifier": "all track files (any order and repetition of lines, unknown stations and administrations), all stops, times and days", "why_tests_cant": "the rules of a key, the tracks and the providers are built up over the whole file in maps; tests use one file", "anchors": ["src/loader/hrd/stamm/track.cc: parse_track_rules", "src/loader/hrd/stamm/stamm.cc: resolve_provider, resolve_track", "src/loader/register.cc: register_location"]}
