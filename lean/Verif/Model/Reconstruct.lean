import Verif.Model.RaptorConcrete
/-!
# Journey reconstruction

Model of `reconstruct_journey_with_vias<SearchDir, Vias = 0>`, `src/routing/raptor/reconstruct.cc`: the legs of
a journey are found backwards from the destination by looking, for every label, for a vehicle that explains
it.  Oriented time and stops in search order as in `Verif.Model.Raptor`; the result is turned into plain times
and travel order by `present`.

Not modelled: via stops, time-dependent footpaths and offsets (`is_td_footpath`, reconstruct.cc:96-131,
357-384, 690-722, 761-786).  Simplifications: `location_routes_[l]` / `location_rt_transports_[l]` are searched
in the order of the indices; `static_cast<delta_t>` (reconstruct.cc:592-597) does not wrap around.
`optimize_footpaths` (called at the end, reconstruct.cc:869) is `Verif.Model.OptimizeFootpaths`.
-/

namespace Nigiri.Raptor

/-- A vehicle on a day: a trip of a route (index, transport, day) or a real-time transport. -/
inductive Vehicle
  | trip (route t : Nat) (day : Int)
  | rt (i : Nat)
deriving DecidableEq, Repr

/-- `journey::leg::uses_`, `include/nigiri/routing/journey.h:25-43`: a ride between two stop indices, a footpath
or transfer, the first or last mile. -/
inductive Uses
  | ride (v : Vehicle) (fr to : Nat)
  | foot (w : Int)
  | offset (w : Int)
deriving DecidableEq, Repr

/-- `journey::leg`, journey.h:43-80; times are relative to the base day. -/
structure Leg where
  fr : Loc
  to : Loc
  dep : Int
  arr : Int
  uses : Uses
deriving DecidableEq, Repr

/-- The arguments of the constructor of `journey::leg` in search order and oriented time, journey.h:46-57. -/
inductive OUses
  | ride (v : Vehicle) (n i j : Nat)
  | foot (w : Int)
  | offset (w : Int)
deriving DecidableEq, Repr

structure OLeg where
  a : Loc
  b : Loc
  ta : Int
  tb : Int
  uses : OUses
deriving DecidableEq, Repr

/-- What reconstruction reads beside the search problem. -/
structure RcQuery where
  /-- `footpaths_in_` (forward) / `footpaths_out_` (backward) with adjusted durations -/
  fpsIn : Loc → List (Loc × Int)
  /-- the trips of a route that alight at a stop exactly at a time, reconstruct.cc:327-396 -/
  catchable : Nat → Nat → Int → List Run
  /-- may one leave a vehicle of a route / a real-time transport at the `j`-th stop in search order, as
  reconstruction asks (reconstruct.cc:437-439, 507-509)? -/
  exitRoute : Nat → Nat → Bool
  exitRt : Nat → Nat → Bool
  /-- order of iteration over the stops of a vehicle with `n` stops -/
  order : Nat → List Nat
  /-- `q.destination_`: the locations matching the target (`for_each_meta`) and the duration -/
  dests : List (List Loc × Int)
  /-- `q.start_`: likewise (`matches`) -/
  offs : List (List Loc × Int)
  /-- `is_journey_start`, reconstruct.cc:22-28 -/
  isStart : Loc → Bool
  /-- `q.start_match_mode_ == kIntermodal` -/
  startIntermodal : Bool
  /-- `holds_alternative<unixtime_t>(q.start_time_)` -/
  ontrip : Bool
  /-- `get_special_station(kStart)` -/
  startLoc : Loc

/-- The loop of `find_start_in_prev_round`, reconstruct.cc:236-297: the stop before `j` (in search order) at
which the label of the previous round allows to board. -/
def findStart (P : Problem) (rk : Loc → Int) (stops : List Stop) (board : Nat → Int) : Nat → Option Nat
  | 0 => none
  | j + 1 =>
    match stops[j + 1]?, stops[j]? with
    | some f, some s =>
      if f.secOk = false then none
      else if s.canBoard = true ∧ rk s.loc ≤ P.clamp (board j) then some j
      else findStart P rk stops board j
    | _, _ => none

/-- `find_start_in_prev_round`, reconstruct.cc:183-303. -/
def rideLeg (P : Problem) (rk : Loc → Int) (v : Vehicle) (stops : List Stop) (board alight : Nat → Int) (l : Loc) (j : Nat) : Option OLeg :=
  match findStart P rk stops board j with
  | none => none
  | some i => match stops[i]? with
    | none => none
    | some s => some ⟨s.loc, l, P.clamp (board i), alight j, .ride v stops.length i j⟩

/-- May one alight at stop `j` at `l` (in search order)?  reconstruct.cc:436-439, 506-509. -/
def alightsAt (exit : Nat → Bool) (stops : List Stop) (l : Loc) (j : Nat) : Bool :=
  match stops[j]? with
  | none => false
  | some s => decide (s.loc = l) && decide (j ≠ 0) && exit j

/-- `get_transport` for one real-time transport, reconstruct.cc:405-470. -/
def rtInto (P : Problem) (Q : RcQuery) (rk : Loc → Int) (l : Loc) (T : Int) (x : Nat) (r : RtTransport) : Option OLeg :=
  if r.allowed = false then none
  else (Q.order r.stops.length).findSome? fun j =>
    if alightsAt (Q.exitRt x) r.stops l j = true ∧ r.alight j ≤ T then rideLeg P rk (.rt x) r.stops r.board r.alight l j else none

/-- `get_transport` for one route with `get_route_transport`, reconstruct.cc:327-396, 473-522. -/
def routeInto (P : Problem) (Q : RcQuery) (rk : Loc → Int) (l : Loc) (T : Int) (x : Nat) (r : Route) : Option OLeg :=
  if r.allowed = false then none
  else (Q.order r.stops.length).findSome? fun j =>
    if alightsAt (Q.exitRoute x) r.stops l j = true then
      (Q.catchable x j T).findSome? fun tr => rideLeg P rk (.trip x tr.1 tr.2) r.stops (r.board tr) (r.alight tr) l j
    else none

/-- `get_transport`, reconstruct.cc:398-523. -/
def rideInto (P : Problem) (Q : RcQuery) (rk : Loc → Int) (l : Loc) (T : Int) : Option OLeg :=
  match P.rts.zipIdx.findSome? fun (r, x) => rtInto P Q rk l T x r with
  | some leg => some leg
  | none => P.routes.zipIdx.findSome? fun (r, x) => routeInto P Q rk l T x r

/-- `check_fp`, reconstruct.cc:525-653: walking from `m` to `l` in `w` minutes, after a ride to `m`. -/
def checkFp (P : Problem) (Q : RcQuery) (rk : Loc → Int) (l : Loc) (curr : Int) (m : Loc) (w : Int) (u : OUses) : Option (OLeg × OLeg) :=
  (rideInto P Q rk m (curr - w)).map fun ride => (⟨m, l, curr - w, curr, u⟩, ride)

/-- `footpath::kMaxDuration`. -/
def kMaxFootpath : Int := 511

/-- `find_dest_leg`, reconstruct.cc:655-688: the last matching location wins. -/
def destLeg (P : Problem) (Q : RcQuery) (rk : Loc → Int) (l : Loc) (curr : Int) (o : List Loc × Int) : Option (OLeg × OLeg) :=
  if kMaxFootpath ≤ o.2 then none
  else o.1.foldl (fun acc m => match checkFp P Q rk l curr m o.2 (.offset o.2) with | some x => some x | none => acc) none

/-- `get_legs`, reconstruct.cc:691-801; `last` is `k == j.transfers_ + 1`. -/
def getLegs (P : Problem) (Q : RcQuery) (R : Nat → Loc → Int) (last : Bool) (k : Nat) (l : Loc) : Option (OLeg × OLeg) :=
  let curr := R k l
  let rk := R (k - 1)
  if P.intermodal = true ∧ last = true then Q.dests.findSome? fun o => destLeg P Q rk l curr o
  else
    let w := if last = true then 0 else P.transfer l
    match checkFp P Q rk l curr l w (.foot w) with
    | some x => some x
    | none => (Q.fpsIn l).findSome? fun fp => checkFp P Q rk l curr fp.1 fp.2 (.foot fp.2)

/-- `find_start_footpath`, reconstruct.cc:30-161: `none` = exception, `some []` = no footpath needed. -/
def startLeg (P : Problem) (Q : RcQuery) (r0 : Loc → Int) (s : Int) (l : Loc) (ta : Int) : Option (List OLeg) :=
  if Q.startIntermodal = true then
    Q.offs.findSome? fun o =>
      if o.1.contains l = true ∧ s ≤ ta - o.2 then some [⟨Q.startLoc, l, ta - o.2, ta, .offset o.2⟩] else none
  else if Q.isStart l = true ∧ s ≤ ta then some []
  else (Q.fpsIn l).findSome? fun fp =>
    if Q.isStart fp.1 = true ∧ r0 l ≠ P.hi ∧ (if Q.ontrip = true then s + fp.2 ≤ r0 l else s + fp.2 = r0 l)
    then some [⟨fp.1, l, s, r0 l, .foot fp.2⟩] else none

/-- The footpath of a round, unless it is the zero minute one at the end, reconstruct.cc:809-815. -/
def keepFp (last : Bool) (fp : OLeg) : List OLeg :=
  if last = true ∧ fp.a = fp.b ∧ fp.ta = fp.tb then [] else [fp]

/-- The loop over the rounds and the start, reconstruct.cc:803-822: the legs from the destination (at `l`) back
to the start.  `ta` is the time at which the leg found before begins. -/
def legsBack (P : Problem) (Q : RcQuery) (R : Nat → Loc → Int) (s : Int) (K : Nat) : Nat → Loc → Int → Option (List OLeg)
  | 0, l, ta => startLeg P Q (R 0) s l ta
  | k + 1, l, _ =>
    match getLegs P Q R (decide (k + 1 = K)) (k + 1) l with
    | none => none
    | some (fp, ride) => (legsBack P Q R s K k ride.a ride.ta).map fun rest => keepFp (decide (k + 1 = K)) fp ++ ride :: rest

/-- The legs of a journey with `K` rides to `dest` that starts at `s`, in the order in which they are found. -/
def reconstructLegs (P : Problem) (Q : RcQuery) (R : Nat → Loc → Int) (s : Int) (K : Nat) (dest : Loc) : Option (List OLeg) :=
  legsBack P Q R s K K dest 0

/-- The constructor of `journey::leg` (journey.h:46-57) and of `run_enter_exit` (journey.h:27-31). -/
def OLeg.plain (d : Dir) (x : OLeg) : Leg :=
  let u := match x.uses with
    | .ride v n i j => .ride v (min (stopIdx d n i) (stopIdx d n j)) (max (stopIdx d n i) (stopIdx d n j))
    | .foot w => .foot w
    | .offset w => .offset w
  match d with
  | .fwd => ⟨x.a, x.b, x.ta, x.tb, u⟩
  | .bwd => ⟨x.b, x.a, -x.tb, -x.ta, u⟩

/-- Footpaths begin at the arrival of the previous leg, reconstruct.cc:826-858.  (The last mile, if any, already
does.) -/
def shiftWalk (prev : Leg) (x : Leg) : Leg :=
  match x.uses with
  | .foot _ => { x with dep := prev.arr, arr := x.arr - (x.dep - prev.arr) }
  | _ => x

def shiftWalks : Leg → List Leg → List Leg
  | _, [] => []
  | prev, x :: xs => shiftWalk prev x :: shiftWalks (shiftWalk prev x) xs

/-- The journey as presented, reconstruct.cc:824-858. -/
def present (d : Dir) (legs : List OLeg) : List Leg :=
  match d with
  | .fwd => (legs.map (OLeg.plain .fwd)).reverse
  | .bwd => match legs.map (OLeg.plain .bwd) with
    | [] => []
    | x :: xs => x :: shiftWalks x xs

/-! ## From the timetable and query -/

/-- The trips that alight at the `i`-th stop in search order at (oriented) time `T`, reconstruct.cc:332-352,
387-390, with `split_day_mam` as floor division (see `getEarliest`). -/
def catchRuns (d : Dir) (base : Int) (r : RouteData) (i : Nat) (T : Int) : List Run :=
  let X := base * 1440 + d.sgn * T
  (List.range r.nTr).filterMap fun t =>
    let ev := r.evAlight d t i
    if ((ev % 1440 : Nat) : Int) = X % 1440 ∧ r.days t (X / 1440 - ((ev / 1440 : Nat) : Int)) = true then
      some (t, X / 1440 - ((ev / 1440 : Nat) : Int))
    else none

/-- The query data of the reconstruction. -/
structure RcData where
  fpsIn : Loc → List (Loc × Int)
  dests : List (List Loc × Int)
  offs : List (List Loc × Int)
  isStart : Loc → Bool
  startIntermodal : Bool
  ontrip : Bool
  startLoc : Loc

/-- `stop::out_allowed(is_wheelchair)` (forward) / `in_allowed(is_wheelchair)` (backward), reconstruct.cc:437-439,
507-509.  `stop` (stop.h:38-49) has no overload for `bool`: the one for a profile index is called, `true` becomes
profile 1 (foot), which is not `kWheelchairProfile` (2, types.h:204-207).  So the ordinary permission is checked for
wheelchair queries, too. -/
def exitAt (d : Dir) (stops : List StopData) (j : Nat) : Bool :=
  (stops.getD (stopIdx d stops.length j) ⟨0, false, false, false, false⟩).canFinish d false

def mkRc (d : Dir) (N : Net) (Q : RcData) : RcQuery where
  fpsIn := Q.fpsIn
  catchable := fun x j T => match N.routes[x]? with
    | none => []
    | some r => catchRuns d N.base r j T
  exitRoute := fun x j => match N.routes[x]? with
    | none => false
    | some r => exitAt d r.stops j
  exitRt := fun x j => match N.rts[x]? with
    | none => false
    | some r => exitAt d r.stops j
  order := fun n => match d with | .fwd => List.range n | .bwd => (List.range n).reverse
  dests := Q.dests
  offs := Q.offs
  isStart := Q.isStart
  startIntermodal := Q.startIntermodal
  ontrip := Q.ontrip
  startLoc := Q.startLoc

/-- `reconstruct_journey`: the legs of the journey (destination, rides, start time) or `none` if an exception is
thrown. -/
def reconstruct (d : Dir) (N : Net) (Q : RcData) (R : Nat → Loc → Int) (s : Int) (K : Nat) (dest : Loc) : Option (List Leg) :=
  (reconstructLegs (mkProblem d N) (mkRc d N Q) R s K dest).map (present d)

end Nigiri.Raptor
