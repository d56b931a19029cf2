# Formal model of motis-project/nigiri in Lean 4 - design

## 1. Approach and layout

`/repo` (C++) is read as text; nothing is built or run.  The Lean project in
`lean/` has, per area, three kinds of modules:

* `Verif/Model/*.lean`  - the code, function by function, as total computable
  functions; every definition cites the file and lines it models.
* `Verif/Proofs/*.lean` - helper lemmas and invariants.
* `Verif/Props/*.lean`  - the property theorems only, with the small
  specification they are stated against and a non-vacuity `example` for each.

Integers: unbounded `Int`/`Nat`, except where the property is about
saturation, truncation or packing (C01-C03, C36/C37), where the width is explicit.
C++ `/` and `%` on signed values are `Int.tdiv`/`Int.tmod`.  Undefined
behaviour, `assert`/`utl::verify` failures and exceptions are a distinct
`Option`/`Except` outcome where the property concerns them.

## 2. Plan per property

| id | what is modelled | how it is proved |
|----|------------------|------------------|
| C01 | `clamp`, `unix_to_delta`, `tt_to_delta`, `delta_to_unix` on `Int` with explicit int16 bounds | case split + `omega` |
| C02 | `split_day_mam`, `split_time_mod`, `day_idx_mam`, `to_unixtime` with truncating division | `omega`, `Int.tdiv` lemmas |
| C03 | bit-field layouts of `delta`, `footpath`, `stop` on `Nat` words | arithmetic of `/`,`%` by powers of two |
| C04 | `mam_dist` | case split; minimality over all integers k by `omega` |
| C05 | `interval` operations | set extensionality by `omega` |
| C06 | `pareto_set::add`, `add_not_optimal` with index-based in-place compaction on lists | loop invariant, then induction over op list |
| C07 | `dial` with bucket array, cursor and size | refinement to a multiset, induction over op list |
| C08 | `dijkstra` loop over the `dial` model with explicit termination | label-setting invariants |
| C09 | `get_td_duration` both directions on lists | induction over the list |
| C10/C11 | `calendar_to_bitfield`, `add_exception`, `merge_traffic_days` as day predicates | induction over the exception list |
| C12 | encoder and decoder iterator | case analysis of the three special encodings |
| C13 | `trip::interpolate` including the integer/rounding step | induction over gaps |
| C14 | `frequency` | division lemmas |
| C15 | `expand_local_to_utc`'s grouping of days by offset | per-day pointwise argument |
| C16 | `block::rule_services` as worklist over bitsets | invariant: remaining + emitted = original, per day |
| C17 | `get_index` and the insertion loop | invariant by induction over insertions |
| C18 | `get_earliest_transport` | linear scan spec, using the non-overtaking order |
| C19-C24 | `raptor` rounds (routes, transfers, footpaths, pruning, filters) | invariants over rounds: soundness w.r.t. an inductive journey relation; optimality by induction over journeys |
| C25/C26 | `interval_estimator`, `search::execute` loop and result filter | invariants, measure |
| C27 | `get_start_times` | membership characterisation, sortedness |
| C28 | `flip_dir`, `sanitize` | structural |
| C29 | `rt_timetable` bitfield copy-on-write state machine | invariant over op list |
| C30/C31 | `update_run` on event lists | induction over stops |
| C32/C33 | state machines of `string_store`, `cached_lookup` | refinement over op lists |
| C34 | `merge` case analysis on day sets | pointwise; the partial-overlap branch is suspected to violate the property |
| C35 | component processing by Dijkstra/Floyd | reuse of C08 |
| C36-C38 | `reached`, `queue`, `transfer`, `query_engine::execute` | invariants over op lists |
| C39 | `get_fastest_direct` | reuse of C07/C08 |
| C40/C41 | `journey::dominates`, `adjusted_transfer_time`, `operator==` | `omega`, counterexamples where false |
| C42 | `hhmm_to_min` character loop | induction over strings |
| C43 | `get_root_idx` | fuel argument |
| C44 | RAPTOR label reuse across start times | extension of the C19/C20 invariants over the list of start times |
| C45 | RAPTOR with the via dimension of the labels, any number of vias (`Model/RaptorVia`, `Spec/Via`) | invariant per label (location, number of vias seen) w.r.t. an inductive journey relation with via progress |
| C46 | search driver (`search::execute`, interval extension, result filter) over the RAPTOR model with `get_starts` | composition of C20/C25/C26/C27; invariant over the extension loop |
| C47/C48 | `rt_timetable` location/transport incidence, `update_run` stop changes | invariants over op lists |
| C49/C50 | `build_footpaths` in/out lists, `add_links_to_and_between_children` | membership characterisation |
| C51 | trip index rewriting in `merge_duplicates` | pointwise; counterexamples for the overlap branches |
| C52-C54 | trip-based preprocessing and query engine | soundness: journey relation; completeness: invariant over reached/queue histories plus correctness of transfer reduction |
| C55-C56 | `reconstruct_journey_with_vias<_, 0>` on top of the RAPTOR model | soundness: every leg found satisfies a plain specification of itineraries; completeness: the label of an undominated journey is explained by labels of the previous round (invariant over rounds and earlier start times) |
| C57 | `optimize_footpaths` without via stops, abstract penalty | invariants of the loops over stops and offsets; counterexamples for the ignored requirements |
| C58–C60 | `pong`: both searches (RAPTOR with the bounds of `fill_bounds`/`within_bounds`), loop, result handling; without via stops | duality of forward and backward search, exactness of the bounded second search, loop invariant "results are optimal"; counterexamples |
| C61, C62 | `one_to_all.cc` on top of the RAPTOR model (no destination, zero lower bounds) | label invariant "a later round improves on every label within the limit", with C19/C20 for labels; counterexamples |
| C63 - C66 | `direct.cc`: generators, access lookup, priority queue as a relation (equal elements in any order), slow direct | membership in the generators; sortedness of each generator and of the merge; counterexamples |
| C67, C68 | `leg_alternatives.cc`, last step of `pong.cc`, with the model of `optimize_footpaths` | timing of the optimisation without conditions, direct connections stay direct connections, itineraries leg by leg; counterexamples |
| C69 - C71 | `gtfsrt_resolve_run.*`, `resolve.cc`, `get_transport.cc`, trip walks of `frun.cc`, id table and trip ranges of the loader | exact characterisation of one iteration, binary search over the sorted table, composition with C15 (expansion) and C03 (packing); blocks as flattened sections; counterexamples |
| C72 - C74 | `src/fares.cc` (all of `get_fares`), the tables of `loader/gtfs/fares.cc` it reads | separate spec (spans, `Applies`, `Contains`); loop invariants over suffixes; termination by fuel, non-termination for a transfer count 0; counterexamples |
| C75, C76 | `handle_alert`, `get_alerts`, the entity loop of `gtfsrt_update_msg`; texts as one value, trip lookup as a result (C69) | table entries as one relation, invariant over messages with monotone lookups; separate spec `Selects`; `SameService` is transitive and holds per entity; counterexamples |
| C77–C81 | `parse_shapes`, offset matching by position and by distance, tasks, boxes, `add_trip_shape_offsets`, `get_shape`, `for_each_shape_point`; positions as integer pairs with an abstract distance, distances as integers | sorted insertion gives a permutation-independent result; bounds threaded through the matching recursion; bisection = first element not below; store entries aligned with trips by an invariant over tasks; box folds; run walk of C70 reused; counterexamples for sharing and alignment |
| C82–C85 | `build_seated_trips` with all four parts (component search, entries, DFS, update of the days), reading of the rules; iteration order of the hash maps is an arbitrary choice in every step; times are integers (16 bits in the program) | invariants of the component search (days of the component shifted are days of each member), DFS chains satisfy `Describes`, main loop invariant; for consistent feeds: closedness of the component, rank argument for the end, each iteration removes a day; counterexamples by evaluation, endless DFS by induction |
| C86–C91 | `gpu_raptor` / `raptor_impl`: packed words (bit operations on 64 bit naturals), breadcrumbs, `pack_et`, warp scan with shuffles; every kernel of `execute` as a pool of thread programs over cells with atomic minima, executions are all interleavings with weak loads (any value between the present one and that at launch). Not modelled: CUDA itself, the task lists of the lookup phase, td footpath lookup on the device (its result is the same function as on the CPU), memory transfers | bit lemmas by arithmetic; segmented prefix minima by products over windows; invariants over `Exec` (writes are justified when they happen, justifications survive lower values), then the arguments of C19/C20 for any final memory of each kernel; races by two explicit schedules |
| C92 | `reconstruct_journey` (device: decoding breadcrumbs, recovery of the traffic day from the label, transfer and footpath legs) and the conversion to host journeys | invariant over all executions: every label is explained by a ride from the labels of the round before plus a walk, or a better destination label exists (`LabOk`); then induction over the rounds, using that a Pareto-optimal arrival is never beaten; the recovered day is unique as walks are shorter than a day |
| C93 | `hex_str_to_bitset` bit by bit, `resolve_bitfield` | exact characterisation (iff): induction over the bits before the start, after the start, and over the downward scan for the end |
| C94 | `expand_traffic_days` (split, consume_and_remove, loop with early return, `verify`) | invariant of the loop (parts sound, disjoint, consumed = union); completeness: a decomposition is recovered section by section |
| C95 | `to_utc`, `build_utc_time_seq`, `local_mam_to_utc_mam` | two-pass conversion equals the UTC time of the local time; iff between bits of the output and local days by induction over the days and the map updates |
| C96 | `local_mam_to_utc_mam` and `to_local_time_offsets` | seasons are disjoint in local and in UTC time, hence both searches find the same one |
| C97 | `resolve_track`, `build_stop_seq` | direct, with the indices of the flattened event list |
| C98 | `expand_service`: composition of C94 (uniform), repetitions, C95; `get_tz` | composition; `get_tz` = greatest key not above |
| C99 | `update_run`, `monotonize` on the arrays of the real-time transport | loop invariant over stops and cursor against a declarative pairing; suffix minimum by downward induction |
| C100 | same, `handle_first_last_cancelation` | corollaries of the loop invariant; two counterexamples |
| C101 | `match_run` (hits, candidates, scores, selection) | each candidate's score is bounded by its supporting stops; exact runs reach the maximum; `mam_dist` = distance of the absolute times |
| C102 | `process_vdv_run`, `clean_up`, on the real-time timetable of C29 | induction over the history: memory = first complete message, invariant `Inv` of C29, frame |
| C103 | `get_operating_periods` | the day loop by induction on the number of days |
| C104 | `get_day_type_assignments`, `.traffic_days_` | maps with `emplace` semantics = first entry; three counterexamples |
| C105 | `expand_local_to_utc` with the cached `to_utc`; time zone = changes, `get_info` as in the C++ standard | cache invariant (an interval of the zone); induction over days; running maximum |
| C106 | same | bounds on the UTC day from the overlap test |
| C107 | `parse_time` and C105 | direct; counterexample |
| C108 | end of `add_to_tt`, writing of trips | induction over the journeys with aligned arrays; induction over the chain |
| C109 | seated part with the model of `build_seated_trips` (C82–C85) | C83 for joined journeys, direct for the others |
| C110 | `get_stop_assignments`, `get_stop`, `stop_seq` | overwrite semantics = last entry |
| C111 | `update_run` and message processing (Model/RtUpdate, RtTimetable) | the loop is a sequence of pieces each of which is idempotent and kept by the later ones; messages as lists of atoms with a frame argument |
| C112 | same | the fold over the events forgets its start after the first event; two counterexamples |
| C113 | `add_rt_trip` + `update_run` for additional runs | loop invariant: times written so far = last announced, delay 0 |
| C114 | `gtfsrt_update_msg`, `handle_vehicle_position` (Model/RtMessage) | refinement to the entities of C29 (`meant`); induction over the entities; frame by the invariant of C29 |
| C115 | `additional_trips_` (`ids_`, `transports_`), `resolve_rt` | invariant: both arrays have the same length, ids distinct, transports injective and complete |
| C116 | read_transfers as fold over rows (Model/GtfsStops) | snoc induction; Props/GtfsStops |
| C117 | three passes over the stops in any order, add_if_not_exists | every pass as "set if absent" events on pairs, mirror invariant; Props/GtfsFootpaths |
| C118 | readRow fold | snoc induction; Props/GtfsStops |
| C119 | work list as inductive relation with any choice of the next element | soundness + closure invariant, pigeonhole for termination; Props/GtfsFootpaths |
| C120 | groupRow, linkNearby folds | induction; Props/GtfsFootpaths |
| C121 | the loop with conversions to 16 and 8 bits (Model/Ontrip) | induction; combined with C27; Props/Ontrip |
| C122 | refineFirst, refineLast, specify (Model/Ontrip) | C09 for the schedules; Props/Ontrip |
| C123 | rows to map, get with cache, register, translate (Model/Translations) | invariant over the history of calls; Props/Translations |
| C124 | rows to trips with the cached lookup, sorting by a permutation (Model/StopTimes) | invariant over the rows; permutations; Props/StopTimes |
| C125 | day loop, hash map by offset, transports, listing (Model/Flex) | invariant over days and trips; Props/Flex |
| C126 | features with exceptions (Model/Flex) | induction over the features; Props/Flex |
| C127 | the row loop (Model/Flex) | induction over the rows; Props/Flex |
| C128 | read_agencies, read_routes, register_* with the interning of ids (Model/GtfsRoutes) | invariant over the rows of both files; Props/GtfsRoutes |
| C129 | setters, to_clasz table (Model/GtfsRoutes) | cases; Props/GtfsRoutes |
| C130 | read_trips, register_trip, blocks, read_frequencies (Model/GtfsTrips) | closed forms by induction over the rows; Props/GtfsTrips |
| C131 | get_provider_idx, ticketing.cc (Model/Ticketing) | binary search, induction over the rows; Props/Ticketing |
| C132 | add_expanded_trip, "Write Trips", register_route, readers (Model/WriteTrips) | loop invariant with monotone read-back; C17 for the order; Props/WriteTrips |
| C133 | expand_assistance, read_assistance (Model/Assistance) | days: map invariant; times: closed form of the loop over pairs, link to C15; Props/Assistance |
| C134 | expand_frequencies for several trips (Model/FreqBlock) | membership characterisation of the consumer calls; Props/FreqBlock |
| C135 | time-dependent walks as fields fps / endTd of the network (Model/TdNet) | FIFO from C09, in the range of the times of the search; exactness by C20; Props/TdNet |
| C136 | view of the written timetable (Model/WriteTrips) as the network of the search (Model/FeedNet) | C132 gives each service one transport and conversely, C132_order gives the order C18 needs, C19/C20 carry over; Props/FeedNet |
| C137 | composition of frequency expansion (Model/FreqBlock), expansion to UTC (Model/LocalToUtc) and import (Model/WriteTrips) in Model/FeedServices | C134, C15, C132, C136 composed; Props/FeedServices |
| C138 | FeedNet + FeedServices + Search + RaptorAlgo + LbGraph | C138_lower_bounds: TtOk and Agrees of the imported routes, then C46_lower_bounds; setup_of: `EndToEnd.Setup` of the imported network; trip_gtfs: trips of a traveller = trips with the rides of the feed; C46 carried over |
| C139 | HrdParse (`range`, `parse_range`, `parse_sections`, `service::service`), columns as parameters | `findNth`/`findIdx?` against the specification of visits; every `parse_range` is a fold per section (`parseRange_own`) and keeps the other members (`parseRange_keep`); composed along the constructor |
| C140 | HrdParse (`read_line`, `parse_services`), lines as lists of characters | induction on the groups of the file, `Collected` invariant per line |
| C141 | HrdParse (`display_name`) | bits of the output rule, case analysis; counterexamples |
| C142 | RouteDays (`rebuild_route_traffic_days`, `is_route_active` on 512 stored bits) | induction over the folds of shifts; the largest offset is that of an event; agreement with `routeActive` of the RAPTOR model |
| C143 | HrdWrite (`section_attributes_`, `section_providers_`, `section_directions_`, route classes and their readers), on the result of HrdParse | invariant "no section or all sections" along the constructor, case analysis over the three stored forms, composed with C139 |
| C144 | Importance (`assign_importance`), sums exact | invariant of the loop over the locations (sum over the locations so far; maximum attained), exchange of sums over classes and vehicles |
| C145 | Metrics (`get_metrics`) | every feed is a fold over its day sets (`DaysInv`), min/max of folds, membership in the day sets |
| C146 | HRD stations (`station.cc`) | folds over the lines of the three files: invariants of id, name, position, equivalences, footpaths (`FootInv`), minimum of the durations |
| C147 | HRD track file (`parse_track_rules`, `resolve_provider`) | one invariant over the lines read (`Inv`): rules = filterMap of the lines, lookups only grow |

## 3. Trusted base

* Lean 4.33.0 kernel; the axioms `propext`, `Classical.choice`, `Quot.sound` at most.
* The faithfulness of the transcription (citations at each definition).
* Not modelled: memory safety, floating point (except where stated), protobuf/CSV/zip
  parsing, cista serialization, GPU code, threads, logging, time-zone database.

(The final status of each property is in `MANIFEST.json`; deviations and findings are
recorded in section 4 as the model grows.)

## 4. Findings

What the model shows about the code.  A theorem name means that the deviation is proved as a
counterexample in the model; the others come from reading.

**Timetable construction**

1. `local_to_utc.h` `headways_match` looks inverted and compares only the first headway.
2. `merge_duplicates`: with partially overlapping days the remaining days of `a` are given to the
   trips of `b` (`C51_overlap*`); a strict superset gives days to the subset's trips
   (`C51_superset*`); three chained duplicates leave a trip referring to a disabled transport (`C51_chain*`).
3. `find_components` on a directed footpath graph: exception for one-node components
   (`C35_directed_counterexample`), out-of-bounds access in other cases.
4. Sequence numbers of a single-stop trip cannot be decoded (`C12_single*`).
5. `expand_local_to_utc` uses `offsets_.back()` for the first departure (`C15_offset_counterexample`).
6. `frequency` rounds down: last departure missing; an inverted window wraps (C14 counterexamples).
7. `delta::operator<` is not chronological; `interval::overlaps` is true for an empty interval inside
   another one; shape index collisions; uint8 wrap of transfer times (counterexamples in `Props/Packing`,
   `Props/Interval`, `Props/Misc`).
8. `get_root_idx` does not terminate on parent cycles (C43).
9. Exceptions after the end of the timetable (C11); malformed times are not rejected (C42);
   `interpolate` turns a missing first arrival into 0.
10. `get_index` compares only minutes of the day, so trips of a route can overtake
    (`C17_overtake_counterexample`).
11. `rule_services` chains block trips without checking arrival <= next departure; a block-combined
    transport uses only the class of its first trip for class filters.
12. `build_footpaths`: duplicates are resolved arbitrarily (`C35_duplicate_counterexample`); durations
    above 255 wrap to 8 bits (`C35_wrap_counterexample`); the limit is strict; two-node components
    ignore the limit.
13. `string_store` assignment operators lack a return.
14. Lower bound propagation to grandchildren depends on index order (`C22_order_counterexample`); the
    graph is built for the default profile only while the search indexes by profile.

**Search (RAPTOR and driver)**

15. `pareto_set::add` early return needs a transitive domination relation (C06/C40 counterexamples);
    zero-length backward journeys.
16. `transfer_time_settings::operator==` (`C41_equality_counterexample`).
17. Time-dependent footpaths use the earliest departure, not the earliest arrival (non-FIFO);
    `for_each_footpath` clamps them at 511 minutes (C09).
18. `start_times.cc`: deduplication compares `starts.back()` across stops (`C27_extension_counterexample`);
    real-time starts ignore infeasible offsets (`C27_rt_infeasible_counterexample`); a constant offset of
    511 minutes counts as infeasible (`C27_511_counterexample`).
19. Slow direct journeys are erased (`C26_slow_direct_lost`); on-trip queries do not enforce
    `max_travel_time` (`C46_max_travel_counterexample`).
20. `interval_estimator` rounding (`C25_cut_counterexample`); `n_results_in_interval` counts journeys that
    are removed later (`C25_count_counterexample`).
21. The lower bound horizon is inclusive at 7200 minutes and the route scan stops at unreachable stops:
    journeys over stops more than five days from the destination can be lost (hence the `Near` hypothesis).
22. `get_fastest_direct` expands the match mode of the start but not of the destination; walks over
    non-destination stops are not considered (`C39_intermediate_counterexample`).
23. Destination offsets above 7200 minutes index the bucket queue out of bounds; non-zero offsets with
    station match modes make the bounds inadmissible; `search` computes bounds before `sanitize()`.
24. `update_intermodal_footpaths` overwrites under `<=`; `update_td_offsets` ignores `target_v == Vias`;
    the stay at a via start is added only for the exact location and only to fixed offsets while `is_via` uses
    equivalent locations (`C45_start_counterexample`); a time dependent footpath from a via stop is evaluated
    before the stay (`C45_td_counterexample`).

**Real time**

25. `update_run` skips times and propagation of a stop whose assignment is rejected
    (`C31_rejected_stop_counterexample`); additional trips count the lower bound twice
    (`C31_added_trip_counterexample`); skipped stops re-assigned to a track stay closed
    (`C48_reassigned_counterexample`).
26. Routing ignores `rt_transport_is_cancelled_` (`C29_cancelled_instance_counterexample`); cancelling one
    trip of a block cancels the whole transport (`C29_block_counterexample`).
27. Delays of 32768 minutes and more wrap; `update_lbs` pushes duplicates.

**Trip-based routing**

28. `max_transfers`, class, bike, car and wheelchair filters, vias and transfer time settings are ignored
    (`C38_limit_counterexample`).
29. Transfer reduction labels stops where alighting is not allowed (`C54_alight_counterexample`); labels
    stops reached on foot although the last mile is only taken from the alighting stop
    (`C54_last_mile_counterexample`); uses profile 0 for the target trip.
30. Line-based pruning compares first departures only (`C54_same_start_counterexample`); overtaking trips
    yield infeasible transfers (`C37_overtake_counterexample`); more than 4096 trips per route collide
    (`C36_bitfield_counterexample`).
31. `query_state` is not reset between queries (`C52_reuse_counterexample`).
32. Waits above one day are dropped, the first boarding looks at two days only; the u-turn exclusion needs
    the query's starts to be closed under walking (hence `QueryFit`).

**Journey reconstruction**

33. Journeys whose last mile takes 511 minutes or more are reported by the search but cannot be
    reconstructed, because `leg` durations pass through 9-bit footpaths; `search::execute` logs and drops
    them (`C56_long_offset`).
34. `optimize_footpaths` checks `in_allowed()`/`out_allowed()` without the wheelchair bits and does not look at
    section flags: it may move a transfer to where a wheelchair or bicycle cannot be used
    (`C57_wheelchair_ignored`, `C57_bicycle_ignored`).
35. `optimize_transfers` stores the footpath with its unadjusted duration (`C57_unadjusted_duration`), uses static
    footpaths where time-dependent ones exist, and computes the initial penalty with `leg_from.from_` and
    `leg_to.to_` (the far ends of the rides) instead of the ends of the walk.  The initial and final
    optimisation adjust a duration that is already adjusted.
36. `transfer_time_settings::operator==` is true for any two settings with equal `default_`, so any two non-default
    settings compare equal; it also compares its own `additional_time_` with itself.
37. Time-dependent footpaths are evaluated in search direction at the arrival time during reconstruction (the
    search evaluates them at the departure from the other end); adjusted by the transfer time settings although the
    search does not adjust them (not modelled).
38. A station query whose start offset has a non-zero duration and whose journey begins with a walk cannot be
    reconstructed (the check is start time + walk = label).
39. Ping-pong: with `use_start_footpaths_ = false` (the default) and a station as origin the second search ends on
    footpaths at the origin that the first never uses; the exception "no pong" follows (`C60_counterexample_footpaths`).
40. Ping-pong: a walk to the destination across `worst_time_at_dest` is kept by the first search while a journey with
    fewer rides that arrives between is pruned; "no pong" is thrown (`C60_counterexample_walk`).
41. Ping-pong: if nothing arrives within the look-ahead before a later departure, the loop jumps over journeys that
    depart between and arrive after the look-ahead (`C59_counterexample`).
42. Ping-pong: without extension the reported interval ends at the last start time, possibly behind the query's
    interval, where no journeys are kept (`C59_counterexample_interval`).
43. Ping-pong: the filter of the first search's results by `is_dominated` never removes anything (their departure is
    later than that of all results so far; shown inside `Cfg.Base.turn`).
44. Ping-pong with a single start time instead of an interval: the backward query starts a minute early
    (`to_ - 1`), and without extension all results are erased because the interval is empty.
45. One-to-all: `update_transfers`/`update_footpaths` write a label before the test against `time_at_dest_`, so stops behind a
    footpath are reported although the travel time exceeds `max_travel_time_` (`C62_limit_false`, contrary to the comment in
    `one_to_all.cc:42-44`), and `get_fastest_one_to_all_offsets` may return a slower way than known (`C62_fastest_false`).
    Its duration is negative for backward searches (`demo3_rounds`).
46. Direct connections: only the first pair of stops of a vehicle near origin and destination is tried; a connection from a later
    stop is missed if the first one cannot be used in time (`C65_first_pair_only`).
47. Direct connections with time-dependent last miles are not in order of their arrival (`C64_td_walk`).
48. `slow_direct` has no effect in the normal search: `search.h:335-336` removes all journeys that are not marked as
    reconstructed, and `direct.cc` does not set the mark (`C66_no_effect`).  In `pong`, a journey that was also found by the search
    is listed twice, because the two differ in the mark (`C66_duplicate`).
49. `enrich_with_slow_direct` stops at the first connection that departs after the interval, although connections are ordered by
    arrival: slower connections in the interval are lost (`C66_lost`).
50. `rt::run::operator==` ignores the real-time transport: an additional service (not in the static timetable) is not offered as
    an alternative to another one with the same stop indices (`C67_additional_service`).
51. `get_earliest_alternative` moves the first walk to the arrival of the previous ride, where a time-dependent path may be closed
    (`C68_td_walk`).
52. `reconstruct.cc:437-439, 507-509` calls `stop::out_allowed(is_wheelchair)`; `stop` has no overload for `bool`, so the one for a
    profile index is called with 1 (foot) and the ordinary permission is checked for wheelchair queries.  The reconstructed
    journey may alight where wheelchairs cannot (`C55_wheelchair_false`), or reconstruction throws (`C56_wheelchair_false`).
53. HRD transports store the raw `delta{0, 0}` as first departure offset (`service_builder.cc:225`), which `to_offset()` reads as
    one day earlier and UTC-12: trip lookups by date miss by one day (`C69_hrd_false`).
54. `nigiri::resolve` without a start date uses 1970-01-01 as the date: scheduled trips are never found (`C69_api_needs_date`).
55. `get_first_trip_stop` / `get_last_trip_stop` of a cancelled trip inside a block return its last / first stop
    (`C70_first_stop_false`, `C70_last_stop_false`).
56. `get_ref_transport` with local days truncates towards zero: evening departures west of Greenwich are assigned to the next local
    day (`C71_local_day_false`).
57. `match_timeframe` takes the local date of the first UTC midnight as day 0 of the service: west of UTC that is the day before, every
    service day is shifted by one (`C74_west`).
58. `fare_transfer_rules.txt` with `transfer_count` 256: the check for 0 comes before the cast to `int8`, `join_transfers` then loops
    forever, appending to the result (`C72_endless`).
59. `join_transfers` prices the last leg of a transfer group again if legs follow: alone if no rule leads on (`C72_twice`).
60. `match_leg_rule` lists a rule several times if a stop has several areas (`C73_twice`), and only the first of several overlapping
    timeframe groups is considered (`C74_overlap`).
61. `get_alerts` never reads `route_type_`: alerts for a route type are stored and never shown; `resize` to the current type drops
    those of larger types (`C75_route_type_lost`, `C75_route_type_dropped`).
62. An informed entity with several selectors is reduced to the most specific one: route R of another agency or another route type is
    reported for R (`C75_combined_ignored`). A station's alert is not reported two levels below (`C75_grandparent`).
63. A trip descriptor without trip id and start time in an alert throws outside of the `try` of `gtfsrt_update_msg`: the rest of the
    message is lost, and entries pushed before belong to the next alert (`C75_dangling`).
64. An alert for a cancelled trip ("does not operate") calls `add_rt_transport`: the trip is offered again with its scheduled times
    (`C76_cancelled_reappears`); the same in `vdv_aus.cc:766-776`.
65. `shape_prepare.cc` `stop_seq_dist` orders tasks by stop sequence only: a trip with the stops and shape of an earlier trip but other
    `shape_dist_traveled` values gets the points of the earlier one (`C79_shared_distances`).
66. `shapes_storage::trip_offset_indices_` is indexed by trip, but the HRD loader adds no entries: after an HRD timetable all trips of a
    later GTFS feed get the shapes of other trips; only an assertion checks the alignment (`C79_unaligned`).
67. `seated.cc` part 2: rules in a circle (also A→B, B→A where B→A is impossible by time): no trip is an entry of the component, nothing
    is written, and part 4 still clears the days: all trips of the circle disappear from the timetable (`C83_circle_lost`); with a third
    trip leading into the circle part 3 never ends and consumes all memory (`C83_endless`).
68. `seated.cc` `get_representative` finds one element per trip: with frequencies.txt several runs of a trip can be in a component, all but
    one of them are lost and runs are joined with runs that left before (`C83_frequency`).
69. `seated.cc` part 3 follows every rule inside of a component without `is_valid_dwell_time`: transports with decreasing times, only an
    assertion and a log line notice it (`C84_unsorted`).
70. `seated.cc:230-232` drops the first stop of a joined trip: passengers can not board there if the arriving trip's last stop has pickup
    type 1 (common in feeds), unlike for blocks (`C85_boarding_lost`).
71. GPU `make_transport_payload` masks stop indices to 11 bits without a check: from 2048 stops on, breadcrumbs name wrong stops (`C87_many_stops`).
72. GPU `pack_et`: days are stored relative to base-28 in 6 bits without a check: a trip that started more than 28 days before the base day wraps around (`C87_window`; unreachable for events below 28 days).
73. GPU `time_at_dest_[max_transfers + 1]`, used in the last round, is never lowered by arrivals (`update_time_at_dest` stops at `max_transfers`): no pruning by the best arrival in the last round (no effect on results).
74. GPU `relax_fp_target` reads `best_` before writing the breadcrumb: with equal arrivals the legs of the journey depend on the schedule (`C91_legs_race`).
75. GPU `reconstruct_journey` recovers the traffic day of a ride from the label *after* the walk (latest day not after it): with a walk or last mile of a day or longer the ride of a later day is returned and the legs do not fit (`C92_long_walk_false`).
76. GPU labels that are dominated (an earlier arrival at a destination was found by another thread or a later start time) may have breadcrumb chains through labels that were overwritten since; only undominated ones are guaranteed to be followable. The host logs "should not happen" and drops failures.
77. `expand_traffic_days` returns at the first section without remaining days: a service running on day 1 on sections 0–1 and on day 2 on section 2 loses section 2 (`C94_lost_days_false`); `return` should be `continue`, and `split` should be repeated while days remain.
78. `local_mam_to_utc_mam` treats the first existing local minute after the change to daylight saving time (03:00) as invalid (`>` instead of `>=`): services with an event at exactly 03:00 on that day are dropped (`C95_first_minute_false`).
79. `parse_interval` (HRD) makes the inclusive last date of the feed the exclusive end: nothing is loaded for the last day (`C95_last_date_false`).
80. `build_stop_seq` indexes `s.sections(store)` (which already starts at the first section of the part) with an index that includes that offset: wrong train number / administration for track rules, or a read beyond the end, for split services (`C97_split_service_false`).
81. `stamm::get_tz` evaluates `std::prev(begin())` for a stop number below all entries of the time zone table (the `verify` in front of it does not cover that case).
82. VDV/SIRI: `process_vdv_run` calls `rtt.cancel_run(r)` with the stored run, whose `rt_` is always invalid: after an update of the run its real-time transport is not marked cancelled and stays routable (`C102_cancel_false`).
83. VDV/SIRI: `monotonize` lowers a prediction to the previous or scheduled time of a later stop which the message describes without a prediction (`C100_prediction_false`).
84. VDV/SIRI: `handle_first_last_cancelation` treats the first stop of the matched range as the first stop of the run: forbidding boarding there also removes alighting (`C100_alighting_false`).
85. VDV/SIRI: `match_run` fixes the first stop of a candidate by the first hit and ignores earlier stops of the run afterwards, even hits of the same reported stop: an exactly described run can be missed (`C101_exact_false`).
86. SIRI SX: `communication_period_` of an alert gets the validity period and `impact_period_` the publication window (vdv_aus.cc, by reading; not modelled).
87. NeTEx: only the first `DayTypeAssignment` of a day type and the first day type of a service journey are used; an assignment by `Date` (without `OperatingPeriodRef`) is looked up with an empty reference and means every day (`C104_second_assignment`, `C104_second_day_type`, `C104_date`).
88. NeTEx: a stop without arrival time gets the time 0, which is then raised to the departure of the stop before: passengers arrive before they can (`C107_missing_arrival`).
89. NeTEx: a service journey that is the target of a stay-seated meeting and has none itself is added both alone and as part of the joined transport (`C109_twice`): `load_timetable.cc:1667` tests only `seated_out`.
90. NeTEx: a repeated `ServiceJourney` id misaligns `sj_ids` with `sj_trips` and `sj_utc_trips` (only asserted): all later journeys are recorded for the wrong trip (`C108_same_id`).
91. NeTEx: `expand_local_to_utc` sets a negative day for journeys of five or more calendar days that start before 00:00 UTC (`C106_sharp`).
92. NeTEx: `line.category_->category_idx_` is dereferenced right after a test for null (`load_timetable.cc:1448, 1453`, by reading).
93. GTFS-RT: a trip update never resets what earlier updates changed before the first stop it mentions: a first departure that was announced half an hour late and never mentioned again keeps the whole run half an hour late although every later message says `on time` (`C112_stale_delay_counterexample`); the same for skipped stops (`C112_stale_stop_counterexample`).
94. GTFS-RT: the id of an added trip is looked up as `trip_properties.trip_id` but stored as `trip.trip_id`; if they differ each message creates another transport, and since `ids_` stores an id once while `transports_` grows each time, all trips of the feed added afterwards are resolved to transports of other trips (`C115_properties_counterexample`).
95. GTFS-RT: entities with `is_deleted` are applied like any other (`C114_deleted_counterexample`).
96. GTFS-RT: an added trip with an unknown stop or too fast is neither success nor failure in the statistics (`C114_uncounted_counterexample`).
97. GTFS-RT: repeated messages of an added trip compare its stops with the assigned ones, so updates of a reassigned stop are dropped (`C113_resent_counterexample`), and a skipped stop is never restored (`C113_skipped_counterexample`).
98. C116: GTFS transfers of type 3 (not possible) are skipped, the proximity footpath is generated all the same (C117_impossible_counterexample); rows of type 0/1 without min_transfer_time give footpaths (transfer times) of 0 minutes; type 5 rows and trip-specific rows become general footpaths; a negative time becomes up to 511 minutes (C116_types_counterexample).
99. C118: a repeated stop_id with another parent stays child of the first parent (C118_repeated_counterexample); by reading: the equal_names key (a view into name_) dangles when the row is repeated with another name.
100. C119: by reading, get_metas inserts children into an ankerl set while iterating over it: the iterators are pointers into a vector which may be reallocated.
101. C117: by reading, a stop rejected by the user script keeps an invalid location index, which is then used to index parents, children and footpaths.
102. C121: mode ids of on-trip starts wrap at 256 stops (C121_position_counterexample); stops without alighting are offered as starts (C121_alight_counterexample).
103. C122: specify_td_offsets uses the raw duration of the entry and drops the waiting time, but keeps the departure (arrival): the leg is shown at a time when the walk is not possible (C122_waiting_counterexample).
104. C123: parse_table lacks "booking_rules" and "location_groups" (and tables of fares, areas, networks): the translations the loader asks for with kBookingRules, kLocationGroups are never found (C123_table_counterexample). A record that occurs twice keeps the text of its first occurrence (C123_repeated_counterexample).
105. C124: load_timetable.cc sorts stop_seq_, event_times_, flex_time_windows_, distances and headsigns by stop_sequence but not flex_stops_: time windows belong to the wrong areas when a file is not ordered (C124_flex_counterexample).
106. C126: parse_flex_areas appends name and description before the coordinates are read; boost::json `as_double` throws for whole numbers; then names of all later areas are shifted by one (C126_names_counterexample).
107. C125: expand_flex_trip selects service days within the date range, not windows: windows after 24:00 of the day before the first day are missing (C125_previous_day_counterexample).
108. C128: register_route interns the id (`ids_.store`) but appends all attribute vectors: after a duplicate route_id every later route shows the attributes of another row (C128_duplicate_counterexample).
109. C128: read_routes uses `agencies.begin()->second` whenever the map has one entry, also if that entry was created for an unknown agency or the row names another agency (C128_unknown_counterexample, C128_single_counterexample).
110. C129: route::set_text_color writes color_.color_ (C129_text_color_counterexample). (Not reachable from Lua: agency::set_fare_url writes url_, route::set_url writes long_name_.)
111. C130: read_frequencies accepts negative headways other than -1 as one minute (C130_headway_counterexample).
112. C131: load_ticketing calls get_provider_idx while the feed is loaded, before finalize sorts provider_id_to_idx_: agencies whose id string is older than that of a preceding agency of the feed are not found (C131_unsorted_counterexample).
113. C131: tt.trip_ticketing_unavailable_ and locations_.ticketing_unavailable_ are never resized before `set` (C131_unsized_counterexample; relies on cista bitvec::set not growing).
114. C131 (outside of the model): read_ticketing_deep_links returns a hash_map keyed by string_views into `load(kTicketingDeeplinks)`, a temporary closed at the end of the full expression; load_ticketing then looks ids up in it: use after free (zip) or after unmap (directory).
115. C131: a deep link that does not exist, or one of an agency the script rejected, aborts the import (C131_unknown_link).
116. C133: expand_assistance adds first_dep_offset_ although the day it starts from is already the UTC traffic day and the UTC times are relative to it: for services whose UTC day is not the local day (first departure between 00:00 and 01:00 in Central Europe, evenings in America) assistance is looked up one day off (C133_counterexample).
117. C133: read_assistance adds no rule for a row whose opening hours cannot be parsed, but does add its position: all later stations get the opening hours of the next valid row, the last ones access out of range (C133_rules_counterexample).
118. C134: headways_match returns inside its zip loop with `a.headway_ != b.headway_`, starting with the first trip compared to itself: it is false for any two or more trips with frequencies. The joint expansion of expand_frequencies is dead code; the trips of a block that run by frequency are always separate services and passengers have to change (C134_never_through). If it were alive, expand_local_to_utc would use the offset of the last trip for the first departure (offsets_.back()).
119. C135: get_td_duration takes the first departure, not the earliest arrival. If a shorter path opens later (lift instead of a detour), someone who reaches the stop earlier arrives later, and the forward search, which keeps only the earliest arrival at a stop, misses the best journey (C135_detour_counterexample: it reports the next day). The backward search does not have the problem.
120. C136: overtaking across midnight reaches the result: with a service 20:00-00:10 and one 21:00-23:55 with the same stops, the loader makes one route and the search from 19:50 reports 00:10 only (C136_overtake_counterexample, end to end).
121. `range::get_index` (HRD) returns an index `#n` of the file unchecked; `parse_range` then writes behind `sections_` and the direction reads behind `stops_` (C139_index_unchecked).
122. `parse_services` (HRD): a service that cannot be built is skipped with a log message, but the last service of every file is built outside of the `try`: the same error there aborts the import (C140_last_service_false).
123. `service::display_name` dereferences the category pointer, which `resolve_category` leaves null for a code that is not in the category file, although `add_service` handles this case (C141_unknown_category_false); parts of a split service get the name of the first section of the whole service (C141_part_false); names without number end with a blank (C141_trailing_blank_false).
124. `rebuild_route_traffic_days` shifts traffic days out of the 512 bits of a `bitfield`: events after day 511 of a trip that starts on one of the last days are on a day on which the route counts as inactive (C142_last_days_false).
125. `write_services` (HRD) clears the attributes of a service whose lines are all given for the whole service and whose stops have no own train number: the third branch of the case distinction (service_builder.cc:156) should use `begin_to_end_info_` (C143_attributes_lost, C143_lost_false).
126. The traffic days of an HRD attribute line are parsed and never used: the attribute is shown on all days (C143_attribute_days_false).
127. The table `prio` of `assign_importance` has 13 entries for 16 classes and their comments name a former list: "RegionalFast" is applied to kRideSharing, "Other" to kODM, and kFunicular, kAerialLift and kOther have importance 0 (C144_other_false); with no departures at all `max_importance_` is 0 and the weights in optimize_footpaths become NaN.
128. `loader/hrd/stamm/station.cc: parse_station_coordinates` creates a station with `id_` 0 if it has no line in the file of names; `parse_footpaths` stores a footpath to it under `to.id_`, i.e. station 0, and `stations.at(0)` throws at the end of the import (`C146_unnamed_false`)
129. `loader/hrd/stamm/stamm.cc: resolve_provider` creates missing providers with `src_ = source_idx_t{0}` instead of the source that is being loaded; and `stations` with `id_` 0 (only in the coordinates file) reach `get_tz(0)`, where `std::prev(begin)` is undefined
