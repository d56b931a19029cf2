import Verif.Model.RtUpdate
import Verif.Model.StringStore

/-!
# The real-time timetable

Model of `include/nigiri/rt/rt_timetable.h`, `src/rt/rt_timetable.cc` (`add_rt_transport`, `cancel_run`),
`src/rt/create_rt_timetable.cc`, `resolve_rt` of `src/rt/gtfsrt_resolve_run.cc` and the message loop of
`src/rt/gtfsrt_update.cc` for trip updates.

The static timetable is a read-only argument (`timetable const&` in every signature).  A bitfield is
its membership test.  Matching a trip descriptor to static runs (`resolve_static`) is not modelled: a
message carries the runs it resolves to.  The arrays indexed by `rt_transport_idx_t` are
one list of records.  Names, lines, directions, service classes, tracks and alerts are left out.
-/

namespace Nigiri.Rt

/-- Bitfield of traffic days as its `test` function. -/
abbrev Bits := Nat → Bool

/-- `set(day, false)`. -/
def Bits.clear (b : Bits) (d : Nat) : Bits := fun x => if x = d then false else b x

/-- The static timetable as far as it is read. -/
structure Tt where
  /-- `bitfields_` -/
  bitfields : List Bits
  /-- `transport_traffic_days_` -/
  trafficDays : List Nat
  /-- `route_location_seq_[transport_route_[t]]` -/
  stops : Nat → List Stop
  /-- `event_time({t, day}, ...)` by event index -/
  eventTime : Nat → Nat → Nat → Int
  /-- `locations_.ids_` -/
  locId : Nat → String
  /-- `locations_.location_id_to_idx_` for a source -/
  lookup : Nat → String → Option Nat
  /-- `locations_.equivalences_` -/
  equiv : Nat → List Nat

/-- One entry of the arrays indexed by `rt_transport_idx_t`. -/
structure RtTransport where
  /-- `rt_transport_static_transport_`: the static (transport, day), `none` for an additional trip -/
  static : Option (Nat × Nat)
  /-- `rt_transport_src_` -/
  src : Nat
  /-- `rt_transport_stop_times_` -/
  times : List Int
  /-- `rt_transport_location_seq_` -/
  stops : List Stop
  /-- `rt_transport_is_cancelled_` -/
  cancelled : Bool
  deriving DecidableEq, Repr

/-- `rt_timetable`, `rt_timetable.h:48-299`. -/
structure Rtt where
  /-- `base_day_` -/
  base : Int
  /-- `transport_traffic_days_` -/
  trafficDays : List Nat
  /-- `bitfields_` -/
  bitfields : List Bits
  /-- `static_trip_lookup_` (a hash map whose keys are only added with `emplace`) -/
  byStatic : List ((Nat × Nat) × Nat)
  /-- `additional_trips_[src].ids_` -/
  addIds : Nat → StringStore String
  /-- `additional_trips_[src].transports_` -/
  addTransports : Nat → List Nat
  /-- the arrays indexed by `rt_transport_idx_t` -/
  transports : List RtTransport
  /-- `location_rt_transports_` -/
  locRt : Nat → List Nat

/-- `kRtBitfieldFlag`, `rt_timetable.h:24`. -/
def rtFlag : Nat := 0x80000000

/-- `create_rt_timetable`, `create_rt_timetable.cc:11-44`. -/
def create (tt : Tt) (base : Int) : Rtt where
  base := base
  trafficDays := tt.trafficDays
  bitfields := []
  byStatic := []
  addIds := fun _ => {}
  addTransports := fun _ => []
  transports := []
  locRt := fun _ => []

/-- `rt_timetable::traffic_days`, `rt_timetable.h:197-201`; the 32-bit mask `~kRtBitfieldFlag` is
`rtFlag - 1`. -/
def trafficDaysOf (tt : Tt) (r : Rtt) (i : Nat) : Bits :=
  if i &&& rtFlag ≠ 0 then r.bitfields.getD (i &&& (rtFlag - 1)) (fun _ => false)
  else tt.bitfields.getD i (fun _ => false)

/-- `rt_timetable::rt_bitfield_idx`, `rt_timetable.h:203-206`. -/
def rtBitfieldIdx (r : Rtt) : Nat := (r.bitfields.length - 1) ||| rtFlag

/-- `rt_timetable::is_transport_active`, `rt_timetable.h:208-210`. -/
def isActive (tt : Tt) (r : Rtt) (t d : Nat) : Bool := trafficDaysOf tt r (r.trafficDays.getD t 0) d

/-- Clear a day of a transport: `rt_timetable.cc:31-33` and `rt_timetable.cc:332-334`. -/
def deactivate (tt : Tt) (r : Rtt) (t d : Nat) : Rtt :=
  let bf := trafficDaysOf tt r (r.trafficDays.getD t 0)
  let r := { r with bitfields := r.bitfields ++ [Bits.clear bf d] }
  { r with trafficDays := r.trafficDays.set t (rtBitfieldIdx r) }

/-- `location_rt_transports_[l].push_back(rt_t)` unless it is the last entry, `rt_timetable.cc:55-60`. -/
def pushLast (m : Nat → List Nat) (l rt : Nat) : Nat → List Nat :=
  if (m l).getLast? = some rt then m else fun x => if x = l then m l ++ [rt] else m x

/-- The same unless it is any entry, `gtfsrt_update.cc:424-427`. -/
def pushNew (m : Nat → List Nat) (l rt : Nat) : Nat → List Nat :=
  if (m l).contains rt then m else fun x => if x = l then m l ++ [rt] else m x

/-- Stop times of a new real-time transport without given times, `rt_timetable.cc:62-79` (with
`offset = 0`, the only value used). -/
def copyTimes (tt : Tt) (base : Int) (t d : Nat) (len : Nat) : List Int :=
  (List.range (2 * len - 2)).map fun e =>
    if e < 2 * (tt.stops t).length - 2 then unixToDelta base (tt.eventTime t d e) else 0

/-- `rt_timetable::add_rt_transport`, `rt_timetable.cc:12-165`. -/
def addRtTransport (tt : Tt) (r : Rtt) (src : Nat) (t : Option (Nat × Nat)) (stops : List Stop)
    (times : List Int) (newId : String) : Rtt × Nat :=
  let rt := r.transports.length
  let seq := match t with
    | some (t, _) => if stops.isEmpty then tt.stops t else stops
    | none => stops
  let tms := match t with
    | some (t, d) => if times.isEmpty then copyTimes tt r.base t d seq.length else times
    | none => times
  let r1 := match t with
    | some (t, d) =>
      if newId = "" then
        { (deactivate tt r t d) with
          byStatic := if (r.byStatic.lookup (t, d)).isSome then r.byStatic else r.byStatic ++ [((t, d), rt)] }
      else { r with
        addIds := fun s => if s = src then ((r.addIds src).store newId).1 else r.addIds s
        addTransports := fun s => if s = src then r.addTransports src ++ [rt] else r.addTransports s }
    | none => { r with
        addIds := fun s => if s = src then ((r.addIds src).store newId).1 else r.addIds s
        addTransports := fun s => if s = src then r.addTransports src ++ [rt] else r.addTransports s }
  let st := if newId = "" then t else none
  ({ r1 with
      transports := r1.transports ++ [⟨st, src, tms, seq, false⟩]
      locRt := seq.foldl (fun m s => pushLast m s.loc rt) r1.locRt }, rt)

/-- `rt::run` with its stop range reduced to its begin and the sequence numbers of its trip. -/
structure Run where
  /-- `t_` -/
  t : Option (Nat × Nat)
  /-- `rt_` -/
  rt : Option Nat
  /-- `stop_range_.from_` -/
  first : Nat
  /-- decoded sequence numbers (one per stop of the range) -/
  seqs : List Nat

/-- `rt_timetable::cancel_run`, `rt_timetable.cc:327-343`. -/
def cancelRun (tt : Tt) (r : Rtt) (run : Run) : Rtt :=
  let r := match run.rt with
    | some rt => { r with transports := r.transports.modify rt (fun x => { x with cancelled := true }) }
    | none => r
  match run.t with
  | some (t, d) => deactivate tt r t d
  | none => r

/-- `resolve_rt`, `gtfsrt_resolve_run.cc:33-57`. -/
def resolveRt (r : Rtt) (run : Run) (id : String) (src : Nat) : Run :=
  match run.t with
  | some td => { run with rt := match r.byStatic.lookup td with | some rt => some rt | none => run.rt }
  | none =>
    match (r.addIds src).find id with
    | some i => { run with rt := (r.addTransports src)[i]? }
    | none => run

/-- The context of `update_run` for a run with real-time transport `rt` (`gtfsrt_update.cc:331-357`).
`location_seq` of an additional trip is the real-time one. -/
def ctxOf (tt : Tt) (r : Rtt) (src : Nat) (run : Run) (rt : Nat) : Ctx where
  scheduled := run.t.isSome
  base := r.base
  static := fun e => match run.t with | some (t, d) => tt.eventTime t d e | none => 0
  locSeq := match run.t with
    | some (t, _) => tt.stops t
    | none => ((r.transports[rt]?).map (·.stops)).getD []
  seqs := match run.t with
    | some _ => run.seqs
    | none => List.range (((r.transports[rt]?).map (·.stops)).getD []).length
  first := run.first
  locId := tt.locId
  lookup := tt.lookup src
  equiv := tt.equiv

/-- `update_run` on an existing real-time transport (`gtfsrt_update.cc:331-512`): write the arrays
back, register new stop locations, cancel if at most one stop is left. -/
def updateExisting (tt : Tt) (r : Rtt) (src : Nat) (run : Run) (rt : Nat) (us : List StopUpd) : Rtt :=
  match r.transports[rt]? with
  | none => r
  | some x =>
    let res := updateRun (ctxOf tt r src run rt) us ⟨x.times, x.stops, []⟩
    let r := { r with
      transports := r.transports.set rt { x with times := res.1.times, stops := res.1.stops }
      locRt := res.1.newLocs.foldl (fun m l => pushNew m l rt) r.locRt }
    if res.2 then cancelRun tt r { run with rt := some rt } else r

/-- Stops of a new trip, `add_rt_trip`, `gtfsrt_update.cc:191-259`: each update needs an absolute
time and a known stop.  `plausible` stands for the test of the travel speed (floating point); `none` =
message rejected or exception, nothing has been changed so far.  Pickup/drop-off types are taken as
given in `inOut`. -/
def newStops (tt : Tt) (src : Nat) (plausible : List StopUpd → Bool) (inOut : StopUpd → Bool × Bool)
    (us : List StopUpd) : Option (List Stop) :=
  if plausible us && us.all (fun u =>
      ((u.dep.bind Ev.time).isSome || (u.arr.bind Ev.time).isSome) && u.stopId.isSome) then
    match us.mapM (fun u => (tt.lookup src (u.stopId.getD "")).map fun l =>
        (⟨l, (inOut u).1, (inOut u).2, false, false⟩ : Stop)) with
    | some ss => if 1 < ss.length then some ss else none
    | none => none
  else none

/-- A run found by `resolve_static`: static transport and day, begin of the stop range, sequence
numbers of the trip. -/
structure Resolved where
  /-- `t_` -/
  t : Nat × Nat
  /-- `stop_range_.from_` -/
  first : Nat
  /-- decoded sequence numbers -/
  seqs : List Nat

/-- `run r` handed to the callback, `gtfsrt_update.cc:771`. -/
def Resolved.run (x : Resolved) : Run := ⟨some x.t, none, x.first, x.seqs⟩

/-- A trip update of a feed message, with what `resolve_static` finds for it. -/
inductive Entity where
  /-- `CANCELED` (the resolved runs) -/
  | cancel (src : Nat) (runs : List Resolved)
  /-- `SCHEDULED` -/
  | update (src : Nat) (runs : List Resolved) (us : List StopUpd)
  /-- `ADDED`/`NEW` with a trip id which resolves to no static run -/
  | added (src : Nat) (id : String) (plausible : List StopUpd → Bool) (inOut : StopUpd → Bool × Bool)
      (us : List StopUpd)

/-- `update_run` for a resolved run, `gtfsrt_update.cc:313-330`. -/
def processRun (tt : Tt) (src : Nat) (us : List StopUpd) (r : Rtt) (x : Resolved) : Rtt :=
  let run := resolveRt r x.run "" src
  match run.rt with
  | some rt =>
    let r := { r with transports := r.transports.modify rt (fun x => { x with cancelled := false }) }
    updateExisting tt r src run rt us
  | none =>
    let (r, rt) := addRtTransport tt r src run.t [] [] ""
    updateExisting tt r src { run with rt := some rt } rt us

/-- One entity of `gtfsrt_update_msg`, `gtfsrt_update.cc:758-806`. -/
def process (tt : Tt) (r : Rtt) : Entity → Rtt
  | .cancel src runs => runs.foldl (fun r x => cancelRun tt r (resolveRt r x.run "" src)) r
  | .update src runs us => runs.foldl (processRun tt src us) r
  | .added src id plausible inOut us =>
    let run := resolveRt r ⟨none, none, 0, []⟩ id src
    match run.rt with
    | some rt =>
      let r := { r with transports := r.transports.modify rt (fun x => { x with cancelled := false }) }
      updateExisting tt r src run rt us
    | none =>
      match newStops tt src plausible inOut us with
      | none => r
      | some ss =>
        let (r, rt) := addRtTransport tt r src none ss (List.replicate (2 * ss.length - 2) 0) id
        updateExisting tt r src { run with rt := some rt } rt us

/-- A feed history applied to a new real-time timetable. -/
def processAll (tt : Tt) (base : Int) (es : List Entity) : Rtt := es.foldl (process tt) (create tt base)

end Nigiri.Rt
