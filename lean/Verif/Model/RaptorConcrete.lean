import Verif.Model.Raptor
/-!
# From the timetable and the query to the search problem

Model of the parts of `raptor<SearchDir, Rt, Vias, SearchMode>` that read the timetable
(`include/nigiri/routing/raptor/raptor.h`): event times, boarding lookup (`get_earliest_transport`),
boarding/alighting restrictions (`include/nigiri/stop.h:50-75`), class and flag filters
(raptor.h:496-560 and `src/timetable.cc:122-162`), footpaths.  The result is the `Problem` of
`Verif.Model.Raptor` in oriented time, for both directions.
-/

namespace Nigiri.Raptor

inductive Dir
  | fwd
  | bwd
deriving DecidableEq, Repr

/-- `dir(1)`, raptor.h:34-45. -/
def Dir.sgn : Dir → Int
  | .fwd => 1
  | .bwd => -1

/-- `i` comes before `j` in search order (stops along a vehicle, transports in the iteration order of
`get_begin_it`, raptor.h:1494-1512). -/
def Dir.before (d : Dir) (i j : Nat) : Prop := match d with | .fwd => i < j | .bwd => j < i

/-- `stop`, `include/nigiri/stop.h:11-40`: location and the four access bits. -/
structure StopData where
  loc : Loc
  inAllowed : Bool
  outAllowed : Bool
  inWheelchair : Bool
  outWheelchair : Bool
deriving DecidableEq, Repr

/-- `can_start`, `stop.h:52-59`. -/
def StopData.canStart (s : StopData) : Dir → Bool → Bool
  | .fwd, w => if w then s.inWheelchair else s.inAllowed
  | .bwd, w => if w then s.outWheelchair else s.outAllowed

/-- `can_finish`, `stop.h:61-68`. -/
def StopData.canFinish (s : StopData) : Dir → Bool → Bool
  | .fwd, w => if w then s.outWheelchair else s.outAllowed
  | .bwd, w => if w then s.inWheelchair else s.inAllowed

/-- The flags of the sections of a route for one `route_flag` as stored by `register_route`,
`src/timetable.cc:138-155`: `route_flags_[f][2 r]`, `route_flags_[f][2 r + 1]` and
`route_flags_per_section_[f][r]`. -/
structure FlagData where
  all : Bool
  some : Bool
  sections : List Bool
deriving DecidableEq, Repr

/-- `register_route`'s `apply_filter`, `src/timetable.cc:138-155`. -/
def registerFlag (sec : List Bool) : FlagData :=
  let n := sec.countP id
  let all := decide (n = sec.length) && decide (sec.length ≠ 0)
  let some := decide (n ≠ 0)
  { all := all, some := some, sections := if some && !all then sec else [] }

/-- `loop_routes`'s `apply_filter`, raptor.h:509-523: is the route to be scanned, and with a check of
the sections? -/
def loopFilter (required : Bool) (f : FlagData) : Bool × Bool :=
  if !required then (true, false)
  else if f.all then (true, false)
  else if f.some then (true, true) else (false, false)

/-- `is_allowed`, `clasz_mask.h:24-27`. -/
def claszAllowed (mask clasz : Nat) : Bool := mask.testBit clasz

/-- A route of the timetable.  Transports are numbered from 0 in route order; event times are minutes
after the start of the transport's day (`delta`, never negative). -/
structure RouteData where
  stops : List StopData
  nTr : Nat
  arr : Nat → Nat → Nat
  dep : Nat → Nat → Nat
  /-- `is_transport_active(t, day)` -/
  days : Nat → Int → Bool
  /-- `route_clasz_` -/
  clasz : Nat
  /-- the flags of the sections for each flag kind, as handed to `register_route`: no entry, one entry for
  all sections (`load_timetable.cc:255-275`), or one per section -/
  secFlags : List (List Bool)

/-- What `register_route` stores. -/
def RouteData.flags (r : RouteData) : List FlagData := r.secFlags.map registerFlag

/-- A real-time transport: times relative to the base day of the search. -/
structure RtData where
  stops : List StopData
  arr : Nat → Int
  dep : Nat → Int
  clasz : Nat
  secFlags : List (List Bool)

/-- The flags of a real-time transport, copied from the route (`src/rt/rt_timetable.cc:96-140`). -/
def RtData.flags (r : RtData) : List FlagData := r.secFlags.map registerFlag

/-- What the search reads from the timetable and the query. -/
structure Net where
  nLoc : Nat
  routes : List RouteData
  rts : List RtData
  /-- `base_` -/
  base : Int
  wheelchair : Bool
  claszMask : Nat
  /-- required flags, in the order of `RouteData.secFlags` -/
  required : List Bool
  /-- adjusted transfer times and footpaths in search direction -/
  transfer : Loc → Int
  fps : Loc → Int → List (Loc × Int)
  intermodal : Bool
  endDist : Loc → Option Int
  endTd : Loc → Int → Option Int
  endLoc : Loc
  isDest : Loc → Bool
  lb : Loc → Option Int

/-- `std::numeric_limits<std::int16_t>::min()` / `max()` in oriented time (see `Verif.Model.Raptor`). -/
def Dir.lo : Dir → Int
  | .fwd => -32768
  | .bwd => -32767

def Dir.hi : Dir → Int
  | .fwd => 32767
  | .bwd => 32768

/-- `clamp` in oriented time. -/
def Dir.clamp (d : Dir) (x : Int) : Int := max d.lo (min d.hi x)

/-- Index in the timetable's stop sequence of the `i`-th stop in search order, raptor.h:1171-1174. -/
def stopIdx (d : Dir) (n i : Nat) : Nat := match d with | .fwd => i | .bwd => n - 1 - i

/-- Section leading to the `i`-th stop in search order, raptor.h:1183-1186. -/
def secIdx (d : Dir) (n i : Nat) : Nat := match d with | .fwd => stopIdx d n i - 1 | .bwd => stopIdx d n i

/-- The flag filters of a route: scanned at all, and which flags need a check per section. -/
def filterPairs (required : List Bool) (flags : List FlagData) : List (Bool × Bool) :=
  List.zipWith loopFilter required flags

/-- Class and flag filter of `loop_routes`, raptor.h:496-545. -/
def routeAllowed (mask clasz : Nat) (required : List Bool) (flags : List FlagData) : Bool :=
  claszAllowed mask clasz && (filterPairs required flags).all (·.1)

/-- Does section `x` pass the section filters that are switched on, raptor.h:1183-1209? -/
def sectionOk (required : List Bool) (flags : List FlagData) (x : Nat) : Bool :=
  (List.zipWith (fun req f => if (loopFilter req f).2 then f.sections.getD x false else true) required flags).all id

/-- The stops of a vehicle in search order. -/
def searchStops (d : Dir) (w : Bool) (required : List Bool) (flags : List FlagData) (stops : List StopData) : List Stop :=
  let n := stops.length
  (List.range n).map fun i =>
    let s := stops.getD (stopIdx d n i) ⟨0, false, false, false, false⟩
    { loc := s.loc, canBoard := s.canStart d w, canAlight := s.canFinish d w, secOk := sectionOk required flags (secIdx d n i) }

/-- Is the route active on a day (`route_traffic_days_`)?  `rebuild_route_traffic_days`,
`src/loader/init_finish.cc:168-198`: the union of the days of the transports shifted by
0, ..., their largest day offset. -/
def maxDayDelta (r : RouteData) (t : Nat) : Nat :=
  (List.range r.stops.length).foldl (fun m s =>
    let m := if s ≠ 0 then max m (r.arr t s / 1440) else m
    if s + 1 ≠ r.stops.length then max m (r.dep t s / 1440) else m) 0

def routeActive (r : RouteData) (day : Int) : Bool :=
  (List.range r.nTr).any fun t => (List.range (maxDayDelta r t + 1)).any fun d => r.days t (day - d)

/-- Result of looking through the events of one day. -/
inductive DayRes
  | stop
  | found (r : Run)
  | next

/-- The inner loop of `get_earliest_transport`, raptor.h:1394-1437, over the transports `ts` (in
iteration order): `ev t` is the boarding event of transport `t`, `first` is `i == 0`, `lim` is
`time_at_dest_[k] - lb` in oriented time. -/
def scanDay (d : Dir) (base : Int) (ev : Nat → Nat) (active : Nat → Int → Bool) (first : Bool) (day mam lim : Int) :
    List Nat → DayRes
  | [] => .next
  | t :: ts =>
    let m : Int := ((ev t % 1440 : Nat) : Int)
    if ¬ d.clamp (d.sgn * ((day - base) * 1440 + m)) ≤ lim then .stop
    else if first = true ∧ ¬ d.sgn * mam ≤ d.sgn * m then scanDay d base ev active first day mam lim ts
    else if active t (day - ((ev t / 1440 : Nat) : Int)) then .found (t, day - ((ev t / 1440 : Nat) : Int))
    else scanDay d base ev active first day mam lim ts

/-- The range of events of a day, raptor.h:1363-1369, 1384-1390: on the first day from the first event
that is not before the label (`linear_lb`). -/
def dayEvents (d : Dir) (ev : Nat → Nat) (first : Bool) (mam : Int) (order : List Nat) : List Nat :=
  if first then order.dropWhile fun t => d.sgn * ((ev t % 1440 : Nat) : Int) < d.sgn * mam else order

/-- The loop over the days, raptor.h:1377-1440; `is` are the remaining day offsets. -/
def scanDays (d : Dir) (base : Int) (ev : Nat → Nat) (active : Nat → Int → Bool) (routeAct : Int → Bool)
    (day0 mam lim : Int) (order : List Nat) : List Nat → Option Run
  | [] => none
  | i :: is =>
    let day := day0 + d.sgn * (i : Int)
    if !routeAct day then scanDays d base ev active routeAct day0 mam lim order is
    else match scanDay d base ev active (i == 0) day mam lim (dayEvents d ev (i == 0) mam order) with
      | .stop => none
      | .found r => some r
      | .next => scanDays d base ev active routeAct day0 mam lim order is

/-- Iteration order of the transports: `get_begin_it`/`get_end_it`, raptor.h:1494-1512. -/
def trOrder (d : Dir) (n : Nat) : List Nat := match d with | .fwd => List.range n | .bwd => (List.range n).reverse

/-- `kMaxTravelTime / days{1} + 1`, raptor.h:1375. -/
def nDays : Nat := 7200 / 1440 + 1

/-- Boarding and alighting events of a transport in the search direction. -/
def RouteData.evBoard (r : RouteData) (d : Dir) (t i : Nat) : Nat := match d with
  | .fwd => r.dep t i
  | .bwd => r.arr t (r.stops.length - 1 - i)

def RouteData.evAlight (r : RouteData) (d : Dir) (t i : Nat) : Nat := match d with
  | .fwd => r.arr t i
  | .bwd => r.dep t (r.stops.length - 1 - i)

/-- `get_earliest_transport`, raptor.h:1357-1442, with `split`, raptor.h:1480-1482.  Simplification:
day indices are unbounded integers, so the split is a floor division (equal to the code's truncating
division for times after the first internal day, see C02). -/
def getEarliest (d : Dir) (base : Int) (r : RouteData) (i : Nat) (p lim : Int) : Option Run :=
  let T := base * 1440 + d.sgn * p
  scanDays d base (fun t => r.evBoard d t i) r.days (routeActive r) (T / 1440) (T % 1440) lim (trOrder d r.nTr) (List.range nDays)

/-- Oriented time of an event: `time_at_stop` / `to_delta` before clamping, raptor.h:1452-1471. -/
def evTime (d : Dir) (base day : Int) (ev : Nat) : Int := d.sgn * ((day - base) * 1440 + ev)

/-- A route as seen by the search. -/
def mkRoute (d : Dir) (N : Net) (r : RouteData) : Route where
  stops := searchStops d N.wheelchair N.required r.flags r.stops
  allowed := routeAllowed N.claszMask r.clasz N.required r.flags
  active := fun tr => tr.1 < r.nTr ∧ r.days tr.1 tr.2 = true
  board := fun tr i => evTime d N.base tr.2 (r.evBoard d tr.1 i)
  alight := fun tr i => evTime d N.base tr.2 (r.evAlight d tr.1 i)
  et := getEarliest d N.base r

/-- A real-time transport as seen by the search. -/
def mkRt (d : Dir) (N : Net) (r : RtData) : RtTransport where
  stops := searchStops d N.wheelchair N.required r.flags r.stops
  allowed := routeAllowed N.claszMask r.clasz N.required r.flags
  board := fun i => match d with | .fwd => r.dep i | .bwd => - r.arr (r.stops.length - 1 - i)
  alight := fun i => match d with | .fwd => r.arr i | .bwd => - r.dep (r.stops.length - 1 - i)

/-- The search problem of a timetable and query in a direction. -/
def mkProblem (d : Dir) (N : Net) : Problem where
  lo := d.lo
  hi := d.hi
  nLoc := N.nLoc
  routes := N.routes.map (mkRoute d N)
  rts := N.rts.map (mkRt d N)
  transfer := N.transfer
  fps := N.fps
  intermodal := N.intermodal
  endDist := N.endDist
  endTd := N.endTd
  endLoc := N.endLoc
  isDest := N.isDest
  lb := N.lb

end Nigiri.Raptor
