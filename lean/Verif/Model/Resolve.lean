import Verif.Model.LocalToUtc
import Verif.Model.Packing
/-!
# Looking up the run of a trip

Model of `include/nigiri/rt/gtfsrt_resolve_run.h:20-145` and `src/rt/gtfsrt_resolve_run.cc`
(`resolve_trip`, `resolve_static_trip_id`, `resolve_static_route`, the static part of
`gtfsrt_resolve_run`), `src/resolve.cc`, `src/lookup/get_transport.cc`, the sort of the trip id table
(`src/loader/init_finish.cc:203-213`), the part of `src/loader/gtfs/load_timetable.cc:415-470` that
records which stops of which transport belong to a trip, and the functions of `src/rt/frun.cc` that
walk along the trips of a run (`get_trip_idx`, `get_trip_start`, `get_first_trip_stop`,
`get_last_trip_stop`, `for_each_trip`).

Simplifications: dates are day numbers counted from the first internal timetable day
(`tt.internal_interval_days().from_`), minutes are unbounded integers (`int16` in the code; the packed
offset `delta` is modelled with its bit widths), `merged_trips_[...].at(0)` is the trip itself (one trip
per merged trip for the GTFS loader), the real-time part of `gtfsrt_resolve_run` is in `RtTimetable`.
-/

namespace Nigiri.Resolve
open LocalToUtc (UtcTrip)

/-- What the lookup reads of a transport: `transport_first_dep_offset_`, `event_mam(t, i, kDep)`,
traffic days, `transport_to_trip_section_` (resolved to the trip), number of stops. -/
structure Transport where
  off : Delta
  dep : Nat → Int
  days : Bitfield
  sections : List Nat
  numStops : Nat

/-- `transport_range_t`: a transport and the stops `[from, to)` of it. -/
structure Range where
  t : Nat
  fr : Nat
  to : Nat
deriving DecidableEq, Repr

/-- `(source, trip id)`, compared as a tuple; written as one list: the source followed by the bytes. -/
abbrev TripId := List Nat

/-- The tables of the timetable used here. -/
structure TT where
  transport : Nat → Transport
  ranges : Nat → List Range          -- `trip_transport_ranges_`
  ids : List (TripId × Nat)          -- `trip_id_to_idx_`, `trip_id_src_`, `trip_id_strings_`
  routeTrips : TripId → Option (List Nat)  -- `route_ids_[src].ids_.find`, `route_id_trips_`
  direction : Nat → Bool             -- `trip_direction_id_`

/-- `run` without the real-time part. -/
structure Run where
  t : Nat
  day : Nat
  fr : Nat
  to : Nat
deriving DecidableEq, Repr

/-- `is_transport_active`, `timetable.h:147-149`: bits outside the 512 of a bitfield are unset. -/
def isActive (tr : Transport) (day : Nat) : Bool := decide (day < kMaxDays) && tr.days day

/-- `split`, `gtfsrt_resolve_run.cc:10-14`: C++ division truncates. -/
def split (i : Int) : Int × Int := (i.tdiv 1440, i.tmod 1440)

/-- One iteration of `resolve_trip`, `gtfsrt_resolve_run.h:27-62`. `date` is `start_date` or `today`. -/
def resolveRange (tt : TT) (date : Int) (time : Option Int) (x : Range) : Option Run :=
  let tr := tt.transport x.t
  let (firstDepOffset, tzOffset) := tr.off.toOffset
  let staticDep := tr.dep x.fr + firstDepOffset * 1440 + tzOffset
  let (depDay, depTime) := split staticDep
  let skip := match time with
    | some s => decide (depTime ≠ (split s).2)
    | none => false
  if skip then none
  else
    let o := match time with
      | some s => depDay - (split s).1
      | none => 0
    let day := date + firstDepOffset - o
    if day > kMaxDays ∨ day < 0 then none
    else if isActive tr day.toNat then some ⟨x.t, day.toNat, x.fr, x.to⟩
    else none

/-- `resolve_trip` with a callback that never stops, `gtfsrt_resolve_run.h:20-64`: the reported runs. -/
def resolveTrip (tt : TT) (date : Int) (time : Option Int) (trip : Nat) : List Run :=
  (tt.ranges trip).filterMap (resolveRange tt date time)

/-- Lexicographic comparison of tuples and of `string_view`s. -/
def lexLt : List Nat → List Nat → Bool
  | [], [] => false
  | [], _ :: _ => true
  | _ :: _, [] => false
  | a :: as, b :: bs => decide (a < b) || (decide (a = b) && lexLt as bs)

/-- `std::lower_bound` over the positions `[first, first + len)` (libstdc++ `__lower_bound`); `p i` is
the comparison of element `i` with the sought value. -/
def lowerBound (p : Nat → Bool) (first len : Nat) : Nat :=
  if len = 0 then first
  else
    let half := len / 2
    if p (first + half) then lowerBound p (first + half + 1) (len - half - 1)
    else lowerBound p first half
termination_by len

/-- The entries of the id table with the given id: `lower_bound`, then as long as the id matches,
`gtfsrt_resolve_run.h:74-89` and `get_transport.cc:17-36`. -/
def tripsOf (tt : TT) (id : TripId) : List Nat :=
  let lb := lowerBound (fun i => match tt.ids[i]? with | some e => lexLt e.1 id | none => false)
    0 tt.ids.length
  ((tt.ids.drop lb).takeWhile fun e => e.1 == id).map (·.2)

/-- `resolve_static_trip_id` with a callback that never stops, `gtfsrt_resolve_run.h:66-90`. -/
def resolveTripId (tt : TT) (date : Int) (time : Option Int) (id : TripId) : List Run :=
  (tripsOf tt id).flatMap (resolveTrip tt date time)

/-- A trip descriptor with parsed dates: `td.trip_id()` or `td.route_id()` and `td.direction_id()`. -/
structure Descriptor where
  tripId : Option TripId := none
  route : Option TripId := none
  dir : Option Nat := none
  date : Option Int := none
  time : Option Int := none

/-- One trip of `resolve_static` with the callback of `gtfsrt_resolve_run.cc:21-31`: the callback stops
the loop over the transports of the trip. -/
def lfStep (tt : TT) (date : Int) (time : Option Int) (acc : Option (Run × Nat)) (trip : Nat) : Option (Run × Nat) :=
  match (resolveTrip tt date time trip).head? with
  | some r => some (r, trip)
  | none => acc

/-- `resolve_static`, `gtfsrt_resolve_run.cc:16-31`: `kBreak` returns from `resolve_trip` only; the loop
over the trips goes on, so a later trip with the same id overwrites the result. -/
def lastFirst (tt : TT) (date : Int) (time : Option Int) (trips : List Nat) : Option (Run × Nat) :=
  trips.foldl (lfStep tt date time) none

/-- The static part of `gtfsrt_resolve_run`, `gtfsrt_resolve_run.h:92-145` (with `resolve_static_route`),
`gtfsrt_resolve_run.cc:16-31`.
`none` = the `utl_verify` of line 137 throws, `some none` = no run found. -/
def resolve (tt : TT) (today : Int) (td : Descriptor) : Option (Option (Run × Nat)) :=
  let date := td.date.getD today
  match td.tripId with
  | some id => some (lastFirst tt date td.time (tripsOf tt id))
  | none => match td.route, td.dir, td.time, td.date with
    | some r, some dir, some time, some date => match tt.routeTrips r with
      | none => some none
      | some trips => some (lastFirst tt date (some time)
          (trips.filter fun t => tt.direction t == decide ((if dir = 0 then 0 else 1) ≠ 0)))
    | _, _, _, _ => none

/-- `nigiri::resolve`, `src/resolve.cc:9-29`: `today` is `date::sys_days{}` = 1970-01-01, written
`epoch` here (its day number relative to the first timetable day). -/
def resolveApi (tt : TT) (epoch : Int) (id : TripId) (date time : Option Int) : Option (Run × Nat) :=
  (resolve tt epoch { tripId := some id, date := date, time := time }).join

/-! ## `get_ref_transport` -/

/-- `for_each_schedule_transport`, `get_transport.cc:11-63`. `noon t` is the UTC offset at noon of `day`
in the timezone of the transport's first provider (used if `gtfs_local_day`). The day index is an
`uint16`: a negative day is out of range of the bitset. -/
def scheduleTransports (tt : TT) (id : TripId) (day : Int) (gtfsLocalDay : Bool) (noon : Nat → Int) : List Run :=
  (tripsOf tt id).flatMap fun trip => (tt.ranges trip).filterMap fun x =>
    let tr := tt.transport x.t
    let tz := if gtfsLocalDay then noon x.t else 0
    let dayOffset := (tr.dep x.fr + tz).tdiv 1440
    let tDay := toUnsigned 16 (day - dayOffset)
    if isActive tr tDay then some ⟨x.t, tDay, x.fr, x.to⟩ else none

/-- `get_ref_transport`, `get_transport.cc:66-80`: the first one with the largest stop range. -/
def refTransport (tt : TT) (id : TripId) (day : Int) (gtfsLocalDay : Bool) (noon : Nat → Int) : Option Run :=
  (scheduleTransports tt id day gtfsLocalDay noon).foldl (fun acc r => match acc with
    | none => some r
    | some b => if r.to - r.fr > b.to - b.fr then some r else some b) none

/-! ## The id table and the trip ranges -/

/-- Insert into the sorted table. -/
def insertId (e : TripId × Nat) : List (TripId × Nat) → List (TripId × Nat)
  | [] => [e]
  | x :: xs => if lexLt e.1 x.1 then e :: x :: xs else x :: insertId e xs

/-- `std::sort` of `trip_id_to_idx_`, `init_finish.cc:203-213`, as an insertion sort (which of several
entries with the same id comes first is unspecified in the code). -/
def sortIds (l : List (TripId × Nat)) : List (TripId × Nat) := l.foldr insertId []

/-- A service of `load_timetable.cc:415`: the trips of the block (index, number of stops) and the
expanded UTC trip. -/
structure Service where
  trips : List (Nat × Nat)
  utc : UtcTrip

/-- `prev_end` before trip `i` of the block, `load_timetable.cc:420-429`: consecutive trips share a
stop. -/
def blockRanges : Nat → List (Nat × Nat) → List (Nat × Nat × Nat)
  | _, [] => []
  | prevEnd, (trip, n) :: r => (trip, prevEnd, prevEnd + n) :: blockRanges (prevEnd + n - 1) r

/-- `external_trip_ids`, `load_timetable.cc:434-457`: one entry if there is one trip, otherwise one per
section. -/
def blockSections (trips : List (Nat × Nat)) : List Nat :=
  match trips with
  | [(trip, _)] => [trip]
  | _ => trips.flatMap fun x => List.replicate (x.2 - 1) x.1

/-- Number of stops of the block. -/
def blockStops (trips : List (Nat × Nat)) : Nat := (trips.map fun x => x.2 - 1).sum + 1

/-- `add_transport`, `load_timetable.cc:460-473`, and the ranges of lines 423-428, of one service;
departures are the even positions of the UTC times (`load_timetable.cc:478-490`). -/
def addService (t : Nat) (s : Service) (tt : TT) : TT :=
  { tt with
    transport := fun i => if i = t then
      { off := Delta.ofOffset s.utc.firstDepOffset s.utc.tzOffset
        dep := fun k => s.utc.utcTimes.getD (2 * k) 0
        days := s.utc.days
        sections := blockSections s.trips
        numStops := blockStops s.trips } else tt.transport i
    ranges := fun trip => tt.ranges trip ++
      ((blockRanges 0 s.trips).filter fun x => x.1 == trip).map fun x => ⟨t, x.2.1, x.2.2⟩ }

/-- All services of the feed, transports numbered from `t`. -/
def addServices : Nat → List Service → TT → TT
  | _, [], tt => tt
  | t, s :: ss, tt => addServices (t + 1) ss (addService t s tt)

/-! ## Walking along a run -/

inductive EvType | arr | dep
deriving DecidableEq, Repr

/-- `run_stop::get_trip_idx`, `frun.cc:262-270`, with `section_idx`, `frun.cc:375-378`; `none` = `at()`
out of range (throws). -/
def tripAt (tr : Transport) (stop : Nat) (ev : EvType) : Option Nat :=
  if tr.sections.length = 1 then tr.sections[0]?
  else match ev with
    | .dep => tr.sections[stop]?
    | .arr => if stop = 0 then none else tr.sections[stop - 1]?

/-- The backward walk, `frun.cc:75-78` and `frun.cc:153-155`. -/
def walkBack (tr : Transport) (trip : Nat) : Nat → Nat
  | 0 => 0
  | s + 1 => if tripAt tr (s + 1) .arr = some trip then walkBack tr trip s else s + 1

/-- `get_trip_start` of a scheduled run, `frun.cc:70-98`: service date and start time. -/
def tripStart (tt : TT) (r : Run) (stop : Nat) (ev : EvType) : Option (Int × Int) :=
  let tr := tt.transport r.t
  match tripAt tr stop ev with
  | none => none
  | some trip =>
    let first := walkBack tr trip stop
    let (firstDepOffset, tzOffset) := tr.off.toOffset
    let staticDep := tr.dep first + firstDepOffset * 1440 + tzOffset
    some ((r.day : Int) - firstDepOffset, staticDep)

/-- Forward over cancelled stops, `frun.cc:158-163`. -/
def skipCancelledFwd (tr : Transport) (size : Nat) (cancelled : Nat → Bool) (trip : Nat) : Nat → Nat → Nat
  | 0, s => s
  | fuel + 1, s =>
    if s + 1 < size ∧ cancelled s = true ∧ tripAt tr s .dep = some trip then
      skipCancelledFwd tr size cancelled trip fuel (s + 1)
    else s

/-- `get_first_trip_stop` of a scheduled run, `frun.cc:147-167`. -/
def firstTripStop (tr : Transport) (cancelled : Nat → Bool) (stop : Nat) (ev : EvType) : Option Nat :=
  match tripAt tr stop ev with
  | none => none
  | some trip =>
    let origin := walkBack tr trip stop
    let copy := skipCancelledFwd tr tr.numStops cancelled trip tr.numStops origin
    some (if copy + 1 < tr.numStops then copy else origin)

/-- The forward walk of `get_last_trip_stop`, `frun.cc:187-190`. -/
def walkFwd (tr : Transport) (size trip : Nat) : Nat → Nat → Nat
  | 0, s => s
  | fuel + 1, s =>
    if s + 1 < size ∧ tripAt tr s .arr = some trip then walkFwd tr size trip fuel (s + 1) else s

/-- Backward over cancelled stops, `frun.cc:199-203`. -/
def skipCancelledBwd (tr : Transport) (cancelled : Nat → Bool) (trip : Nat) : Nat → Nat
  | 0 => 0
  | s + 1 =>
    if cancelled (s + 1) = true ∧ tripAt tr (s + 1) .arr = some trip then skipCancelledBwd tr cancelled trip s
    else s + 1

/-- `get_last_trip_stop` of a scheduled run, `frun.cc:179-207`. -/
def lastTripStop (tr : Transport) (cancelled : Nat → Bool) (stop : Nat) (ev : EvType) : Option Nat :=
  match tripAt tr stop ev with
  | none => none
  | some trip =>
    let dest := if stop + 1 = tr.numStops then stop
      else
        let c := walkFwd tr tr.numStops trip tr.numStops (stop + 1)
        if tripAt tr c .arr ≠ some trip then c - 1 else c
    let copy := skipCancelledBwd tr cancelled trip dest
    some (if copy = 0 then dest else copy)

/-- The loop of `for_each_trip`, `frun.cc:663-680`: `cur` is `curr_trip_idx` with `curr_from`, the list
the section starts still to visit. The trip is `none` if `get_trip_idx` throws. -/
def tripLoop (tr : Transport) (to : Nat) : Option Nat → Nat → List Nat → List (Option Nat × Nat × Nat)
  | cur, curFrom, [] => [(cur, curFrom, to)]
  | cur, curFrom, i :: is =>
    let trip := tripAt tr i .dep
    if trip = cur then tripLoop tr to cur curFrom is
    else if i ≠ 0 then (cur, curFrom, i + 1) :: tripLoop tr to trip i is
    else tripLoop tr to trip i is

/-- `for_each_trip` of a scheduled run whose stop range ends at `to`, `frun.cc:655-680`. -/
def forEachTrip (tr : Transport) (to : Nat) : List (Option Nat × Nat × Nat) :=
  tripLoop tr to none 0 (List.range (to - 1))

end Nigiri.Resolve
