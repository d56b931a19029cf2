import Verif.Model.RtTimetable

/-!
# Feed messages

Model of `gtfsrt_update_msg` and `handle_vehicle_position`'s message part in `src/rt/gtfsrt_update.cc` (which
entities are applied, counted or ignored), of `add_rt_trip` with its order of checks, and of the ids under which
added trips are looked up and stored.

What a trip descriptor resolves to in the static timetable (`resolve_static`, `gtfsrt_resolve_run`) is given by
`Env` (see `Model/Resolve.lean`); alerts change no run (`Model/Alerts.lean`) and are left out here; logging and
tracing are left out.  The distance of two stops enters only through the predicate `tooFast`, the distance of a
vehicle to a stop through `near`.
-/

namespace Nigiri.Rt

/-- `TripDescriptor.ScheduleRelationship`. -/
inductive Rel
  | scheduled | added | unscheduled | canceled | replacement | duplicated | deleted | new
  deriving DecidableEq, Repr

/-- `is_added`, `gtfsrt_update.cc:175-178`. -/
def Rel.isAdded (r : Rel) : Bool := r == .added || r == .new

/-- `TripDescriptor`: the fields which are present. -/
structure Descr where
  tripId : Option String := none
  routeId : Option String := none
  direction : Option Nat := none
  startDate : Option String := none
  startTime : Option String := none
  rel : Option Rel := none
  deriving DecidableEq, Repr

/-- `TripUpdate`. -/
structure TripUpd where
  trip : Option Descr
  /-- `trip_properties().trip_id()` if both are present -/
  propsId : Option String := none
  us : List StopUpd

/-- `VehiclePosition`: has a position?, trip, time stamp in seconds, and whether a location is near it. -/
structure Vehicle where
  hasPosition : Bool
  trip : Option Descr
  ts : Option Int
  near : Nat → Bool

/-- `FeedEntity`. -/
structure FeedEntity where
  deleted : Bool := false
  alert : Bool := false
  vehicle : Option Vehicle := none
  upd : Option TripUpd := none

/-- What the message handling needs to know about the static timetable and the source of the feed. -/
structure Env where
  tt : Tt
  src : Nat
  /-- `resolve_static` with a callback that never stops; `none` = exception -/
  resolve : Descr → Option (List Resolved)
  /-- the static part of `gtfsrt_resolve_run`; `none` = exception -/
  resolveOne : Descr → Option (Option Resolved)
  /-- travel between two locations in so many minutes is implausibly fast, `gtfsrt_update.cc:223-227` -/
  tooFast : Nat → Nat → Int → Bool
  /-- boarding and alighting at a stop of an added trip, `gtfsrt_update.cc:239-253` -/
  inOut : StopUpd → Bool × Bool

/-- `statistics`, `gtfsrt_update.h:19-50`: the counters of trip updates and vehicle positions. -/
structure Stats where
  success : Nat := 0
  fail : Nat := 0
  deleted : Nat := 0
  alerts : Nat := 0
  noTripId : Nat := 0
  noTripUpdate : Nat := 0
  withoutTrip : Nat := 0
  resolveError : Nat := 0
  unsupportedRel : Nat := 0
  vehicles : Nat := 0
  noVehicle : Nat := 0
  noPosition : Nat := 0
  vehicleNoTrip : Nat := 0
  vehicleNoTripId : Nat := 0
  notAtStop : Nat := 0
  deriving DecidableEq, Repr

/-- Result of the first part of `add_rt_trip`. -/
inductive NewTrip
  /-- an exception is thrown -/
  | fail
  /-- `return false` -/
  | reject
  | ok (stops : List Stop)

/-- The time of a stop of an added trip, `gtfsrt_update.cc:203-213`: departure before arrival; `none` = exception. -/
def stopTime (u : StopUpd) : Option Int :=
  match u.dep.bind Ev.time with
  | some t => some (toMinutes t)
  | none => (u.arr.bind Ev.time).map toMinutes

/-- The test of the speed, `gtfsrt_update.cc:223-236`; `last` is `last_pos` (as location) with `last_time`. -/
def Env.fast (env : Env) (last : Option (Nat × Int)) (l : Nat) (t : Int) : Bool :=
  match last with
  | some (l', t') => decide (t' ≠ 0) && env.tooFast l l' (t - t')
  | none => false

/-- The loop over the stops of an added trip, `gtfsrt_update.cc:199-256`; `last` is `last_pos` (as location) with
`last_time`, `acc` are the stops so far.  `last_time` 0 means that there is no stop before
(`last_time != unixtime_t{}`). -/
def newTripLoop (env : Env) : Option (Nat × Int) → List Stop → List StopUpd → NewTrip
  | _, acc, [] => if 1 < acc.length then .ok acc else .fail
  | last, acc, u :: us =>
    match stopTime u with
    | none => .fail
    | some t =>
      match u.stopId with
      | none => .fail
      | some id =>
        match env.tt.lookup env.src id with
        | none => .reject
        | some l =>
          if env.fast last l t then .reject
          else newTripLoop env (some (l, t)) (acc ++ [⟨l, (env.inOut u).1, (env.inOut u).2, false, false⟩]) us

/-- `add_rt_trip` for an added trip: its stops, `gtfsrt_update.cc:191-259`. -/
def newTrip (env : Env) (us : List StopUpd) : NewTrip := newTripLoop env none [] us

/-- The id under which an added trip is looked up, `gtfsrt_update.cc:760-767,793`. -/
def TripUpd.lookupId (u : TripUpd) (d : Descr) : String :=
  match u.propsId with
  | some s => if s = "" then d.tripId.getD "" else s
  | none => d.tripId.getD ""

/-- The id under which a new added trip is stored, `gtfsrt_update.cc:265-275`. -/
def storeId (d : Descr) : String := d.tripId.getD ""

/-- An added trip, `gtfsrt_update.cc:789-799` with `update_run`: the new timetable and whether the entity counts as
success (`some true`), as neither (`some false`: `return false`) or as failure (`none`: exception). -/
def addTrip (env : Env) (r : Rtt) (look store : String) (us : List StopUpd) : Rtt × Option Bool :=
  let run := resolveRt r ⟨none, none, 0, []⟩ look env.src
  match run.rt with
  | some rt =>
    let r := { r with transports := r.transports.modify rt (fun x => { x with cancelled := false }) }
    (updateExisting env.tt r env.src run rt us, some true)
  | none =>
    match newTrip env us with
    | .fail => (r, none)
    | .reject => (r, some false)
    | .ok ss =>
      let (r, rt) := addRtTransport env.tt r env.src none ss (List.replicate (2 * ss.length - 2) 0) store
      (updateExisting env.tt r env.src { run with rt := some rt } rt us, some true)

/-- Is the descriptor good enough without a trip id?  `gtfsrt_update.cc:714-724`. -/
def Descr.identifiable (d : Descr) : Bool :=
  d.tripId.isSome ||
    ((d.rel == some .scheduled || d.rel == some .canceled) && d.startDate.isSome && d.startTime.isSome &&
      d.routeId.isSome && d.direction.isSome)

/-- A trip update which passed the checks, `gtfsrt_update.cc:758-830`. -/
def applyTrip (env : Env) (s : Rtt × Stats) (u : TripUpd) (d : Descr) (rel : Rel) : Rtt × Stats :=
  match env.resolve d with
  | none => (s.1, { s.2 with fail := s.2.fail + 1 })
  | some runs =>
    if rel.isAdded then
      if runs.isEmpty then
        match addTrip env s.1 (u.lookupId d) (storeId d) u.us with
        | (r, some true) => (r, { s.2 with success := s.2.success + 1 })
        | (r, some false) => (r, s.2)
        | (r, none) => (r, { s.2 with fail := s.2.fail + 1 })
      else (s.1, { s.2 with fail := s.2.fail + 1 })
    else
      let r := if rel = .canceled
        then runs.foldl (fun r x => cancelRun env.tt r (resolveRt r x.run "" env.src)) s.1
        else runs.foldl (processRun env.tt env.src u.us) s.1
      (r, if runs.isEmpty then { s.2 with resolveError := s.2.resolveError + 1 }
        else { s.2 with success := s.2.success + runs.length })

/-- A trip update entity, `gtfsrt_update.cc:696-830`. -/
def tripEntity (env : Env) (s : Rtt × Stats) (upd : Option TripUpd) : Rtt × Stats :=
  match upd with
  | none => (s.1, { s.2 with noTripUpdate := s.2.noTripUpdate + 1 })
  | some u =>
    match u.trip with
    | none => (s.1, { s.2 with withoutTrip := s.2.withoutTrip + 1 })
    | some d =>
      if d.identifiable then
        let rel := d.rel.getD .scheduled
        if rel = .duplicated ∧ u.propsId = none then (s.1, { s.2 with noTripId := s.2.noTripId + 1 })
        else if rel ≠ .scheduled ∧ rel ≠ .canceled ∧ rel.isAdded = false then
          (s.1, { s.2 with unsupportedRel := s.2.unsupportedRel + 1 })
        else applyTrip env s u d rel
      else (s.1, { s.2 with noTripId := s.2.noTripId + 1 })

/-- The instance of a run, created if there is none: `gtfsrt_update.cc:533-536`. -/
def instanceOf (env : Env) (r : Rtt) (x : Resolved) : Rtt × Nat :=
  match r.byStatic.lookup x.t with
  | some rt => (r, rt)
  | none => addRtTransport env.tt r env.src (some x.t) [] [] ""

/-- Write the arrays of one run back. -/
def putRun (r : Rtt) (rt : Nat) (f : RtTransport → St) : Rtt :=
  { r with transports := r.transports.modify rt (fun x => { x with times := (f x).times, stops := (f x).stops }) }

/-- `handle_vehicle_position`, `gtfsrt_update.cc:515-620`; `now` is the time stamp of the message in seconds. -/
def vehicleUpdate (env : Env) (now : Int) (s : Rtt × Stats) (v : Vehicle) (d : Descr) : Rtt × Stats :=
  match env.resolveOne d with
  | none => (s.1, { s.2 with fail := s.2.fail + 1 })
  | some none => s
  | some (some x) =>
    let (r, rt) := instanceOf env s.1 x
    let stops := env.tt.stops x.t.1
    match stops.findIdx? (fun p => v.near p.loc) with
    | none => (r, { s.2 with notAtStop := s.2.notAtStop + 1 })
    | some at_ =>
      (putRun r rt (fun y => vehiclePosition (ctxOf env.tt r env.src ⟨some x.t, some rt, x.first, x.seqs⟩ rt)
          stops.length at_ (toMinutes (v.ts.getD now)) ⟨y.times, y.stops, []⟩),
        { s.2 with success := s.2.success + 1 })

/-- A vehicle entity, `gtfsrt_update.cc:667-694`. -/
def vehicleEntity (env : Env) (now : Int) (s : Rtt × Stats) (vehicle : Option Vehicle) : Rtt × Stats :=
  let st := { s.2 with vehicles := s.2.vehicles + 1 }
  match vehicle with
  | none => (s.1, { st with noVehicle := st.noVehicle + 1 })
  | some v =>
    if v.hasPosition then
      match v.trip with
      | none => (s.1, { st with vehicleNoTrip := st.vehicleNoTrip + 1 })
      | some d =>
        if d.tripId.isSome then vehicleUpdate env now (s.1, st) v d
        else (s.1, { st with vehicleNoTripId := st.vehicleNoTripId + 1 })
    else (s.1, { st with noPosition := st.noPosition + 1 })

/-- One entity, `gtfsrt_update.cc:647-831`. -/
def feedEntity (env : Env) (now : Int) (useVehicles : Bool) (s : Rtt × Stats) (e : FeedEntity) : Rtt × Stats :=
  let st := if e.deleted then { s.2 with deleted := s.2.deleted + 1 } else s.2
  if e.alert then (s.1, { st with alerts := st.alerts + 1 })
  else if useVehicles then vehicleEntity env now (s.1, st) e.vehicle
  else tripEntity env (s.1, st) e.upd

/-- `gtfsrt_update_msg` of a message with a header, `gtfsrt_update.cc:622-834`. -/
def feedMessage (env : Env) (now : Int) (useVehicles : Bool) (es : List FeedEntity) (r : Rtt) : Rtt × Stats :=
  es.foldl (feedEntity env now useVehicles) (r, {})

end Nigiri.Rt
