import Verif.Model.Time

/-!
# Real-time trip updates on one run

Model of the part of `src/rt/gtfsrt_update.cc` which changes the stop times and stops of a single
real-time transport: `update_delay`, `update_event`, `fallback_pred`, `update_run`,
`handle_vehicle_position`.

The arrays `rt_transport_stop_times_[r.rt_]` and `rt_transport_location_seq_[r.rt_]` are the two
lists of `St`.  An event is addressed by its index in the array of stop times, which is
departure 0, arrival 1, departure 1, arrival 2, ... (`rt_timetable.h:70-78`): `evIdx`.
Times are minutes since 1970 (`unixtime_t`, treated as unbounded), stop times are `delta_t` minutes
relative to the base day with the 16-bit clamp explicit, delays are 16-bit (`wrap16`).
Change notifications (`dispatch_*`) are not modelled.
-/

namespace Nigiri.Rt

/-- `stop.h:12-93`: a stop of a transport, unpacked. -/
structure Stop where
  /-- `location_idx()` -/
  loc : Nat
  /-- `in_allowed()` -/
  inA : Bool
  /-- `out_allowed()` -/
  outA : Bool
  /-- `in_allowed_wheelchair()` -/
  inW : Bool
  /-- `out_allowed_wheelchair()` -/
  outW : Bool
  deriving DecidableEq, Repr

/-- `stop::is_cancelled`, `stop.h:40-42`. -/
def Stop.cancelled (s : Stop) : Bool := !s.inA && !s.outA

/-- GTFS-RT `StopTimeEvent`: optional `delay` and optional absolute `time`, both in seconds. -/
structure Ev where
  /-- `delay()` -/
  delay : Option Int
  /-- `time()` -/
  time : Option Int
  deriving DecidableEq, Repr

/-- GTFS-RT `StopTimeUpdate`. -/
structure StopUpd where
  /-- `stop_sequence` -/
  seq : Option Nat
  /-- `stop_id` -/
  stopId : Option String
  /-- `stop_time_properties.assigned_stop_id` -/
  assigned : Option String
  /-- `schedule_relationship == SKIPPED` -/
  skipped : Bool
  /-- `arrival` -/
  arr : Option Ev
  /-- `departure` -/
  dep : Option Ev
  deriving DecidableEq, Repr

/-- What `update_run` reads from the static timetable and the run. -/
structure Ctx where
  /-- `r.is_scheduled()` -/
  scheduled : Bool
  /-- `rtt.base_day_` in days since 1970 -/
  base : Int
  /-- `tt.event_time(r.t_, ...)` by event index, only meaningful if scheduled -/
  static : Nat → Int
  /-- `location_seq`, `gtfsrt_update.cc:333-336` -/
  locSeq : List Stop
  /-- the decoded `seq_numbers`, `gtfsrt_update.cc:337-346` (decoding: `Model/SeqNumbers.lean`) -/
  seqs : List Nat
  /-- `r.stop_range_.from_` -/
  first : Nat
  /-- `tt.locations_.ids_` -/
  locId : Nat → String
  /-- `tt.locations_.location_id_to_idx_.find({id, src})` -/
  lookup : String → Option Nat
  /-- `tt.locations_.equivalences_` -/
  equiv : Nat → List Nat

/-- The mutable arrays of the real-time transport; `newLocs` are the locations at which it has to be
registered because of a track change (`gtfsrt_update.cc:424-427`), in order. -/
structure St where
  /-- `rtt.rt_transport_stop_times_[r.rt_]` -/
  times : List Int
  /-- `rtt.rt_transport_location_seq_[r.rt_]` -/
  stops : List Stop
  /-- new stop locations -/
  newLocs : List Nat
  deriving DecidableEq, Repr

/-- `delay_propagation`, `gtfsrt_update.cc:102-105`. -/
structure Prop' where
  /-- `pred_time_` -/
  time : Int
  /-- `pred_delay_` -/
  delay : Int
  deriving DecidableEq, Repr

/-- Conversion of a 32/64-bit minute count to `duration_t` (16 bit, two's complement). -/
def wrap16 (x : Int) : Int := (x + 32768) % 65536 - 32768

/-- `ev_idx = stop_idx * 2 - (ev_type == kArr ? 1 : 0)`, `rt_timetable.h:74,140`. -/
def evIdx (stop : Nat) (arr : Bool) : Nat := if arr then 2 * stop - 1 else 2 * stop

/-- `rt_timetable::unix_event_time`, `rt_timetable.h:131-136`. -/
def evTime (c : Ctx) (st : St) (e : Nat) : Int := dayToUnix c.base + st.times.getD e 0

/-- `rt_timetable::update_time`, `rt_timetable.h:70-80`. -/
def updateTime (c : Ctx) (st : St) (e : Nat) (t : Int) : St :=
  { st with times := st.times.set e (unixToDelta c.base t) }

/-- `update_delay`, `gtfsrt_update.cc:112-130`.  `min.value()` of an empty optional throws; it does
not happen: the only call without `min` is for scheduled runs (modelled as 0). -/
def updateDelay (c : Ctx) (st : St) (e : Nat) (delay : Int) (min : Option Int) : St × Prop' :=
  let static := if c.scheduled then c.static e else min.getD 0
  let new := match min with
    | some m => max m (static + delay)
    | none => static + delay
  let st' := updateTime c st e new
  (st', ⟨evTime c st' e, delay⟩)

/-- `duration_cast` of seconds to minutes: truncation towards zero. -/
def toMinutes (s : Int) : Int := s.tdiv 60

/-- `update_event`, `gtfsrt_update.cc:132-160`.  Its only callers pass a `pred_time`. -/
def updateEvent (c : Ctx) (st : St) (e : Nat) (ev : Ev) (pred : Int) : St × Prop' :=
  if ev.delay.isSome && c.scheduled then
    updateDelay c st e (wrap16 (toMinutes (ev.delay.getD 0))) (some pred)
  else
    let new := toMinutes (ev.time.getD 0)
    let static := if c.scheduled then c.static e else new
    let bounded := max pred new
    (updateTime c st e bounded, ⟨bounded, wrap16 (bounded - static)⟩)

/-- `fallback_pred(rtt, r, pred, stop_idx, kDep)`, called for an arrival
(`gtfsrt_update.cc:162-173,452`). -/
def fallbackArr (c : Ctx) (st : St) (pred : Option Prop') (stop : Nat) : Int :=
  match pred with
  | some p => p.time
  | none => if stop = 0 then 0 else evTime c st (evIdx (stop - 1) false)

/-- `fallback_pred(rtt, r, pred, stop_idx, kArr)`, called for a departure
(`gtfsrt_update.cc:162-173,474`). -/
def fallbackDep (c : Ctx) (st : St) (pred : Option Prop') (stop : Nat) : Int :=
  match pred with
  | some p => p.time
  | none => if stop = 0 then 0 else evTime c st (evIdx stop true)

/-- `has_arrival() && (arrival().has_delay() || arrival().has_time())`. -/
def Ev.has (o : Option Ev) : Bool :=
  match o with
  | some ev => ev.delay.isSome || ev.time.isSome
  | none => false

/-- `next_matches`, `gtfsrt_update.cc:367-374`. -/
def matchesAt (c : Ctx) (u : StopUpd) (p : Nat × Nat) : Bool :=
  (c.scheduled && u.seq == some p.1) ||
    (u.stopId.isSome && u.stopId == some (c.locId ((c.locSeq.getD p.2 ⟨0, false, false, false, false⟩).loc)))

/-- The `while` loop of `gtfsrt_update.cc:361-389` at the stops `ps` (sequence number, stop index;
current stop first): drop updates which match no stop from here on; does the first remaining one
match here?  Its inner loop stops at the first matching stop, so `matches` is set iff the update
matches the current stop. -/
def align (c : Ctx) (ps : List (Nat × Nat)) : List StopUpd → Bool × List StopUpd
  | [] => (false, [])
  | u :: us =>
    if ps.any (matchesAt c u) then
      ((match ps with | p :: _ => matchesAt c u p | [] => false), u :: us)
    else align c ps us

/-- The stop change part of a matching update, `gtfsrt_update.cc:391-446`; `none` is `continue`. -/
def applyStop (c : Ctx) (st : St) (stop : Nat) (u : StopUpd) : Option St :=
  let orig := c.locSeq.getD stop ⟨0, false, false, false, false⟩
  let stp := st.stops.getD stop ⟨0, false, false, false, false⟩
  if u.skipped then
    some { st with stops := st.stops.set stop ⟨stp.loc, false, false, false, false⟩ }
  else if u.assigned.isSome || (u.stopId.isSome && u.stopId != some (c.locId orig.loc)) then
    match c.lookup (u.assigned.getD (u.stopId.getD "")) with
    | none => none
    | some l =>
      if (c.equiv orig.loc).contains l then
        some { st with stops := st.stops.set stop { stp with loc := l }, newLocs := st.newLocs ++ [l] }
      else none
  else some { st with stops := st.stops.set stop orig }

/-- Arrival part, `gtfsrt_update.cc:448-458`. `mu` is the update matching this stop, if any. -/
def stepArr (c : Ctx) (stop : Nat) (mu : Option StopUpd) (s : St × Option Prop') : St × Option Prop' :=
  if stop ≠ c.first then
    match mu.bind (fun u => if Ev.has u.arr then u.arr else none) with
    | some ev =>
      let r := updateEvent c s.1 (evIdx stop true) ev (fallbackArr c s.1 s.2 stop)
      (r.1, some r.2)
    | none =>
      match s.2 with
      | some p =>
        let r := updateDelay c s.1 (evIdx stop true) p.delay (some p.time)
        (r.1, some r.2)
      | none => s
  else s

/-- Departure part, `gtfsrt_update.cc:460-481`. -/
def stepDep (c : Ctx) (stop : Nat) (mu : Option StopUpd) (s : St × Option Prop') : St × Option Prop' :=
  match mu.bind (fun u => if stop = 0 && Ev.has u.arr && u.dep.isNone then u.arr else none) with
  | some ev =>
    let r := updateEvent c s.1 (evIdx stop false) ev 0
    (r.1, some r.2)
  | none =>
    if stop ≠ c.locSeq.length - 1 then
      match mu.bind (fun u => if Ev.has u.dep then u.dep else none) with
      | some ev =>
        let r := updateEvent c s.1 (evIdx stop false) ev (fallbackDep c s.1 s.2 stop)
        (r.1, some r.2)
      | none =>
        match s.2 with
        | some p =>
          let r := updateDelay c s.1 (evIdx stop false) p.delay (some p.time)
          (r.1, some r.2)
        | none => s
    else s

/-- The main loop, `gtfsrt_update.cc:358-486`, over the remaining (sequence number, stop index). -/
def runLoop (c : Ctx) : List (Nat × Nat) → List StopUpd → St × Option Prop' → St × Option Prop'
  | [], _, s => s
  | p :: ps, us, s =>
    match align c (p :: ps) us with
    | (true, u :: us') =>
      match applyStop c s.1 p.2 u with
      | none => runLoop c ps (u :: us') s
      | some st => runLoop c ps us' (stepDep c p.2 (some u) (stepArr c p.2 (some u) (st, s.2)))
    | (_, us') => runLoop c ps us' (stepDep c p.2 none (stepArr c p.2 none s))

/-- The pass over all stop times at the end, `gtfsrt_update.cc:488-505`. -/
def monoPass (prev : Int) : List Int → List Int
  | [] => []
  | x :: xs => let y := if x < prev then prev else x; y :: monoPass y xs

/-- The initial `pred`, `gtfsrt_update.cc:348-353`. -/
def initPred (c : Ctx) (st : St) : Option Prop' :=
  if c.scheduled && decide (0 < c.first) then some ⟨evTime c st (evIdx c.first true), 0⟩ else none

/-- The stops visited by the loop with their sequence numbers (`stop_idx` starts at the begin of the
run's stop range; an additional run has the range starting at 0), `gtfsrt_update.cc:354-358`. -/
def visits (c : Ctx) : List (Nat × Nat) :=
  c.seqs.zip (List.range' (if c.scheduled then c.first else 0) c.seqs.length)

/-- `update_run` without the creation of the real-time transport, `gtfsrt_update.cc:331-512`: the new
arrays and whether the run is cancelled because at most one stop is left. -/
def updateRun (c : Ctx) (us : List StopUpd) (st : St) : St × Bool :=
  let s := (runLoop c (visits c) us (st, initPred c st)).1
  let s := { s with times := monoPass deltaMin s.times }
  (s, decide ((s.stops.filter (fun x => !x.cancelled)).length ≤ 1))

/-- Stops after the vehicle, `gtfsrt_update.cc:577-585`: `utl::pairwise` over the stops from
`stop` on, `n` steps. -/
def vpAfter (c : Ctx) (delay : Int) (stop : Nat) : Nat → St → St
  | 0, st => st
  | n + 1, st =>
    let st := (updateDelay c st (evIdx stop false) delay none).1
    let st := (updateDelay c st (evIdx (stop + 1) true) delay none).1
    vpAfter c delay (stop + 1) n st

/-- Stops before the vehicle, `gtfsrt_update.cc:587-609`, walking backwards from `curr` = the
argument. -/
def vpBefore (c : Ctx) (delay : Int) : Nat → St → St
  | 0, st => st
  | prev + 1, st =>
    if evTime c st (evIdx (prev + 1) true) < evTime c st (evIdx prev false) then
      let st := (updateDelay c st (evIdx prev false) delay none).1
      if prev ≠ 0 ∧ evTime c st (evIdx prev false) < evTime c st (evIdx prev true) then
        vpBefore c delay prev (updateDelay c st (evIdx prev true) delay none).1
      else st
    else st

/-- `handle_vehicle_position` after the vehicle has been matched to stop `at_`
(`gtfsrt_update.cc:561-609`); `ts` is the time stamp in minutes.  `frun::from_t` makes the stop range
the whole transport (`n` stops). -/
def vehiclePosition (c : Ctx) (n at_ : Nat) (ts : Int) (st : St) : St :=
  let ref := if at_ = 0 then c.static (evIdx at_ false) else c.static (evIdx at_ true)
  let delay := wrap16 (ts - ref)
  let st := if at_ ≠ 0 then (updateDelay c st (evIdx at_ true) delay none).1 else st
  let st := vpAfter c delay at_ (n - 1 - at_) st
  vpBefore c delay at_ st

end Nigiri.Rt
