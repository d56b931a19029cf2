import Verif.Model.RtTimetable

/-!
# VDV AUS and SIRI ET real-time messages

Model of `src/rt/vdv_aus.cc` (class `vdv_aus::updater`, `include/nigiri/rt/vdv_aus.h`): matching of a
reported run against the static timetable (`match_run`), the update of one run (`update_run`,
`handle_first_last_cancelation`, `monotonize`) and the bookkeeping across messages
(`process_vdv_run`, `clean_up`).

The XML document is a list of messages whose fields have already been read (`resolve_stops`,
`resolve_run_id` are not modelled).  Times are minutes since 1970 (`unixtime_t`, unbounded), stored times are
16-bit minutes relative to the base day with the clamp explicit, delays are 16 bit.  Tracks, statistics,
change notifications and alerts are left out.
-/

namespace Nigiri.Vdv

open Nigiri.Rt

/-- `updater::vdv_stop`, `vdv_aus.h:74-89` (without ids and tracks). -/
structure VStop where
  /-- `l_`, `none` if the stop could not be resolved -/
  loc : Option Nat
  /-- `dep_`: scheduled departure -/
  dep : Option Int
  /-- `arr_`: scheduled arrival -/
  arr : Option Int
  /-- `rt_dep_`: predicted departure -/
  rtDep : Option Int
  /-- `rt_arr_`: predicted arrival -/
  rtArr : Option Int
  /-- `in_forbidden_` -/
  inForbidden : Bool := false
  /-- `out_forbidden_` -/
  outForbidden : Bool := false
  /-- `passing_through_` -/
  passing : Bool := false
  /-- `arr_canceled_` -/
  arrCanceled : Bool := false
  /-- `dep_canceled_` -/
  depCanceled : Bool := false
  deriving DecidableEq, Repr

/-- What `update_run` reads of the timetable and the run. -/
structure Ctx where
  /-- `rtt.base_day_` -/
  base : Int
  /-- `rs.scheduled_time(et)` by event index: static event times (matched runs are scheduled runs) -/
  sched : Nat → Int
  /-- `rs.get_scheduled_stop()` -/
  schedStop : Nat → Stop
  /-- `matches(tt, kEquivalent, a, b)`, `for_each_meta.h:48-69` -/
  same : Nat → Nat → Bool
  /-- `fr.stop_range_.from_` -/
  first : Nat
  /-- `fr.stop_range_.to_` -/
  last : Nat

/-- The arrays of the real-time transport. -/
structure St where
  /-- `rtt.rt_transport_stop_times_[fr.rt_]` -/
  times : List Int
  /-- `rtt.rt_transport_location_seq_[fr.rt_]` -/
  stops : List Stop
  deriving DecidableEq, Repr

/-- The empty entry read outside of the range. -/
def noStop : Stop := ⟨0, false, false, false, false⟩

/-- `kExactMatchScore`, `vdv_aus.cc:31`. -/
def exactScore : Nat := 230

/-- `kAllowedTimeDiscrepancy`, `vdv_aus.cc:35-41`: the largest error whose square is below the score of
an exact match. -/
def allowedDiscrepancy : Nat := 15

/-- `std::abs((vdv_time - rs.scheduled_time(et)).count()) <= kAllowedTimeDiscrepancy`, with a time
present, `vdv_aus.cc:551-554,566-570`. -/
def timeFits (c : Ctx) (t : Option Int) (e : Nat) : Bool :=
  match t with
  | some t => (t - c.sched e).natAbs ≤ allowedDiscrepancy
  | none => false

/-- Condition of `matched_arr`, `vdv_aus.cc:551-554`. -/
def arrFits (c : Ctx) (i : Nat) (v : VStop) : Bool := i != 0 && timeFits c v.arr (evIdx i true)

/-- Condition of `matched_dep`, `vdv_aus.cc:566-570`. -/
def depFits (c : Ctx) (i : Nat) (v : VStop) : Bool := i + 1 != c.last && timeFits c v.dep (evIdx i false)

/-- `l_ != invalid && matches(...)`, and one of the two events matched: `vdv_aus.cc:548-550,582`. -/
def stopFits (c : Ctx) (loc i : Nat) (v : VStop) : Bool :=
  (match v.loc with | some l => c.same loc l | none => false) && (arrFits c i v || depFits c i v)

/-- The inner loop `vdv_aus.cc:547-605`: the first reported stop from the cursor on which matches, and
the reported stops behind it (the new cursor).  The loop body changes nothing before the matching stop. -/
def scan (c : Ctx) (loc i : Nat) : List VStop → Option (VStop × List VStop)
  | [] => none
  | v :: vs => if stopFits c loc i v then some (v, vs) else scan c loc i vs

/-- `rt_timetable::update_time`, `rt_timetable.h:67-76`. -/
def setTime (c : Ctx) (s : St) (e : Nat) (t : Int) : St :=
  { s with times := s.times.set e (unixToDelta c.base t) }

/-- `update_event` with delay propagation, `vdv_aus.cc:455-470`; the delay is stored as
`optional<duration_t>`. -/
def updateEvent (c : Ctx) (e : Nat) (t : Option Int) (s : St × Option Int) : St × Option Int :=
  match t with
  | some t => (setTime c s.1 e t, some (wrap16 (t - c.sched e)))
  | none => s

/-- `propagate_delay`, `vdv_aus.cc:521-529`. -/
def propagate (c : Ctx) (e : Nat) (s : St) (d : Int) : St := setTime c s e (c.sched e + d)

/-- The new stop value, `vdv_aus.cc:583-597`. -/
def newStop (sched : Stop) (loc : Nat) (v : VStop) : Stop :=
  let inUpd := !v.inForbidden && !v.passing && !v.depCanceled
  let outUpd := !v.outForbidden && !v.passing && !v.arrCanceled
  ⟨loc, inUpd, outUpd, sched.inW && inUpd, sched.outW && outUpd⟩

/-- The body of the inner loop for a matching stop, `vdv_aus.cc:551-602`. -/
def applyMatch (c : Ctx) (i : Nat) (v : VStop) (s : St × Option Int) : St × Option Int :=
  let s := if arrFits c i v then updateEvent c (evIdx i true) v.rtArr s else s
  let s := if depFits c i v then updateEvent c (evIdx i false) v.rtDep s else s
  ({ s.1 with stops := s.1.stops.set i (newStop (c.schedStop i) (s.1.stops.getD i noStop).loc v) }, s.2)

/-- Delay propagation at one stop, `vdv_aus.cc:611-618`. -/
def propagateStop (c : Ctx) (i : Nat) (matchedArr matchedDep : Bool) (s : St × Option Int) : St × Option Int :=
  match s.2 with
  | some d =>
    let st := if i != 0 && !matchedArr then propagate c (evIdx i true) s.1 d else s.1
    let st := if i + 1 != c.last && !matchedDep then propagate c (evIdx i false) st d else st
    (st, some d)
  | none => s

/-- One stop of the run, `vdv_aus.cc:542-619`. State: arrays, delay, reported stops from the cursor. -/
def stepStop (c : Ctx) (s : (St × Option Int) × List VStop) (i : Nat) : (St × Option Int) × List VStop :=
  match scan c (s.1.1.stops.getD i noStop).loc i s.2 with
  | some (v, rest) => (propagateStop c i (arrFits c i v) (depFits c i v) (applyMatch c i v s.1), rest)
  | none => (propagateStop c i false false s.1, s.2)

/-- The loop over the stops of the run, `vdv_aus.cc:542`. -/
def assignLoop (c : Ctx) (vs : List VStop) (s : St) : (St × Option Int) × List VStop :=
  ((List.range (c.last - c.first)).map (c.first + ·)).foldl (stepStop c) ((s, none), vs)

/-- `cancel_stop`, `vdv_aus.cc:491-494`. -/
def cancelStop (stops : List Stop) (i : Nat) : List Stop :=
  stops.set i ⟨(stops.getD i noStop).loc, false, false, false, false⟩

/-- `handle_first_last_cancelation`, `vdv_aus.cc:490-505`. -/
def firstLast (c : Ctx) (stops : List Stop) : List Stop :=
  let stops := if !(stops.getD c.first noStop).inA then cancelStop stops c.first else stops
  if !(stops.getD (c.last - 1) noStop).outA then cancelStop stops (c.last - 1) else stops

/-- `n_not_cancelled_stops`, `vdv_aus.cc:629-631`. -/
def notCancelled (stops : List Stop) : Nat := (stops.filter (fun s => !s.cancelled)).length

/-- One event of `monotonize`, `vdv_aus.cc:479-482`/`483-486`.  `ub` is `upper_bound`, `none` its initial
value `unixtime_t::max()`. -/
def monoEvent (c : Ctx) (e : Nat) (s : St × Option Int) : St × Option Int :=
  let t := dayToUnix c.base + s.1.times.getD e 0
  let ub := match s.2 with | some u => min t u | none => t
  (setTime c s.1 e ub, some ub)

/-- One stop of `monotonize`, `vdv_aus.cc:477-487`. -/
def monoStop (c : Ctx) (n : Nat) (s : St × Option Int) (i : Nat) : St × Option Int :=
  let s := if i + 1 ≠ n then monoEvent c (evIdx i false) s else s
  if i ≠ 0 then monoEvent c (evIdx i true) s else s

/-- `monotonize`, `vdv_aus.cc:472-488`; `n = fr.size()` is the number of stops of the transport. -/
def monotonize (c : Ctx) (s : St) : St :=
  ((List.range s.stops.length).reverse.foldl (monoStop c s.stops.length) (s, none)).1

/-- `update_run` on the real-time transport, `vdv_aus.cc:519-638`: new arrays and whether the run gets
cancelled. -/
def updateRun (c : Ctx) (vs : List VStop) (s : St) : St × Bool :=
  let s := (assignLoop c vs s).1.1
  let s := { s with stops := firstLast c s.stops }
  if notCancelled s.stops ≤ 1 then (s, true) else (monotonize c s, false)

/-! ## Several messages -/

/-- A matched run: `run{t, stop_range}`, its `rt_` is invalid (`vdv_aus.cc:319-328,382-388`). -/
structure VRun where
  /-- `t_` -/
  t : Nat × Nat
  /-- `stop_range_.from_` -/
  first : Nat
  /-- `stop_range_.to_` -/
  last : Nat
  deriving DecidableEq, Repr

/-- The context of `update_run` for a run. -/
def ctxOf (tt : Tt) (same : Nat → Nat → Bool) (base : Int) (x : VRun) : Ctx where
  base := base
  sched := tt.eventTime x.t.1 x.t.2
  schedStop := fun i => (tt.stops x.t.1).getD i noStop
  same := same
  first := x.first
  last := x.last

/-- `update_run` on an existing real-time transport. -/
def updateExisting (tt : Tt) (same : Nat → Nat → Bool) (r : Rtt) (x : VRun) (vs : List VStop) (rt : Nat) : Rtt :=
  match r.transports[rt]? with
  | none => r
  | some y =>
    let res := updateRun (ctxOf tt same r.base x) vs ⟨y.times, y.stops⟩
    let r := { r with transports := r.transports.set rt { y with times := res.1.times, stops := res.1.stops } }
    if res.2 then cancelRun tt r ⟨some x.t, some rt, x.first, []⟩ else r

/-- `updater::update_run`, `vdv_aus.cc:507-639`: `frun` looks the real-time transport up
(`frun.cc:550-559`). -/
def updateRunRtt (tt : Tt) (src : Nat) (same : Nat → Nat → Bool) (vs : List VStop) (r : Rtt) (x : VRun) : Rtt :=
  match r.byStatic.lookup x.t with
  | some rt =>
    updateExisting tt same
      { r with transports := r.transports.modify rt (fun y => { y with cancelled := false }) } x vs rt
  | none =>
    let p := addRtTransport tt r src (some x.t) [] [] ""
    updateExisting tt same p.1 x vs p.2

/-- A run of a message (`IstFahrt`, `EstimatedVehicleJourney`). -/
structure Msg where
  /-- `resolve_run_id(...)->full_` -/
  id : Option String
  /-- `Komplettfahrt` / `IsCompleteStopSequence` -/
  complete : Bool
  /-- `FaelltAus` / `Cancellation` -/
  cancelled : Bool
  /-- `resolve_stops` -/
  stops : List VStop
  deriving DecidableEq, Repr

/-- `updater::match` without the access time, `vdv_aus.h:115-121`. -/
structure Match where
  /-- `only_saw_incomplete_` -/
  onlyIncomplete : Bool
  /-- `runs_` -/
  runs : List VRun
  deriving DecidableEq, Repr

/-- State of the updater (`matches_`) and of the real-time timetable. -/
structure State where
  /-- `matches_` -/
  ms : String → Option Match
  /-- the real-time timetable -/
  rtt : Rtt

/-- `matches_[id] = m`. -/
def setMatch (ms : String → Option Match) (id : String) (m : Match) : String → Option Match :=
  fun x => if x = id then some m else ms x

/-- The matching part of `process_vdv_run`, `vdv_aus.cc:710-729`; `mr` is `match_run`. -/
def matchStep (mr : Msg → List VRun) (ms : String → Option Match) (id : String) (m : Msg) :
    String → Option Match :=
  match ms id with
  | none => setMatch ms id ⟨!m.complete, mr m⟩
  | some old => if m.complete && old.onlyIncomplete then setMatch ms id ⟨false, mr m⟩ else ms

/-- `updater::process_vdv_run`, `vdv_aus.cc:685-748`. -/
def processRun (tt : Tt) (src : Nat) (same : Nat → Nat → Bool) (mr : Msg → List VRun) (s : State) (m : Msg) :
    State :=
  match m.id with
  | none => s
  | some id =>
    if m.stops.isEmpty then s
    else
      let ms := matchStep mr s.ms id m
      let runs := ((ms id).map (·.runs)).getD []
      ⟨ms, runs.foldl (fun r x =>
        if m.cancelled then cancelRun tt r ⟨some x.t, none, x.first, []⟩
        else updateRunRtt tt src same m.stops r x) s.rtt⟩

/-- What happens to an updater: a reported run, or `clean_up` (`vdv_aus.cc:872-880`), which forgets the
matches not accessed for long (`drop`). -/
inductive Event where
  /-- `process_vdv_run` -/
  | run (m : Msg)
  /-- `clean_up` -/
  | cleanup (drop : String → Bool)

/-- One event. -/
def step (tt : Tt) (src : Nat) (same : Nat → Nat → Bool) (mr : Msg → List VRun) (s : State) : Event → State
  | .run m => processRun tt src same mr s m
  | .cleanup drop => { s with ms := fun x => if drop x then none else s.ms x }

/-- A history. -/
def history (tt : Tt) (src : Nat) (same : Nat → Nat → Bool) (mr : Msg → List VRun) (s : State)
    (es : List Event) : State := es.foldl (step tt src same mr) s

end Nigiri.Vdv
