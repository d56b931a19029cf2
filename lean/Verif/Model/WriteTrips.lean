import Verif.Model.RouteInsert
/-!
# Writing the trips of a GTFS feed to the timetable

Model of `get_stop_seq`, `include/nigiri/loader/gtfs/local_to_utc.h:245-274`, of `add_expanded_trip` and
"Write Trips", `src/loader/gtfs/load_timetable.cc:252-313, 386-505`, of `register_bitfield`,
`register_route`, `finish_route`, `register_merged_trip`, `add_transport`, `src/timetable.cc:116-216`, and
of the readers `event_mam`, `include/nigiri/timetable.h:166-177`, and `run_stop`,
`src/rt/frun.cc:265-290, 330-345, 395-412, 455-475`.

Simplifications: bitfields are elements of any type `B`; the vectors which `add_transport` appends to
together are one list of records, and so are those of `register_route` (except for the flags); event
times are minutes (their encoding as `delta` is C03), indices are unbounded; routes with two classes
do not occur here.  The iteration order of `route_services` is arbitrary: `writeAll` takes any list.
-/

namespace Nigiri.WriteTrips

/-- `stop`, `include/nigiri/stop.h`. -/
structure Stop where
  loc : Nat
  inA : Bool
  outA : Bool
  inW : Bool
  outW : Bool
deriving DecidableEq

/-- The fields of `trip` used here, `include/nigiri/loader/gtfs/trip.h:80-130`. -/
structure Trip where
  stops : List Stop
  flag : Nat → Bool
  clasz : Option Nat
  route : Nat
  tripIdx : Nat
  headsign : Nat
  stopHeadsigns : List Nat

/-- `trip_data`, the class of each route (`to_clasz(route_id_type_[r])`) and `route_id_provider_`. -/
structure Feed where
  trip : Nat → Trip
  claszOf : Nat → Nat
  provider : Nat → Nat

/-- `utc_trip`, `local_to_utc.h:28-35`. -/
structure UtcTrip (B : Type) where
  firstDep : Int
  tz : Int
  trips : List Nat
  times : List Nat
  days : B
  stopSeq : List Stop

/-- `kNumRouteFlags`, `include/nigiri/types.h:417-423`. -/
def numFlags : Nat := 4

/-- The stop at which a passenger stays seated, `local_to_utc.h:259-265`. -/
def join (last first : Stop) : Stop := ⟨last.loc, first.inA, last.outA, first.inW, last.outW⟩

/-- One iteration for a following trip, `local_to_utc.h:256-271`. -/
def appendTrip (acc : List Stop) (stops : List Stop) : List Stop :=
  match acc.getLast?, stops with
  | some l, f :: r => acc.dropLast ++ join l f :: r
  | _, _ => acc ++ stops

/-- `get_stop_seq`, `local_to_utc.h:245-274`; `none` is the exception. -/
def getStopSeq {B : Type} (f : Feed) (s : UtcTrip B) : Option (List Stop) :=
  if s.stopSeq ≠ [] then some s.stopSeq
  else match s.trips with
    | [t] => if (f.trip t).stops.length > 1 then some (f.trip t).stops else none
    | ts => some (ts.foldl (fun acc t => appendTrip acc (f.trip t).stops) [])

/-- `apply_flag_seq`, `load_timetable.cc:255-275`. -/
def flagSeq (f : Feed) (flag : Nat) : List Nat → List Bool
  | [t] => [(f.trip t).flag flag]
  | ts => ts.flatMap fun t => List.replicate ((f.trip t).stops.length - 1) ((f.trip t).flag flag)

/-- `route_key_t`, `route_key.h:7-11`. -/
structure Key where
  clasz : Nat
  stops : List Stop
  flags : List (List Bool)
deriving DecidableEq

/-- `load_timetable.cc:277-292`. -/
def keyOf {B : Type} (f : Feed) (s : UtcTrip B) : Option Key :=
  (getStopSeq f s).map fun stops =>
    let front := f.trip (s.trips.headD 0)
    ⟨front.clasz.getD (f.claszOf front.route), stops, (List.range numFlags).map fun g => flagSeq f g s.trips⟩

/-- `load_timetable.cc:294-302`. -/
def addService {B : Type} : List (List (UtcTrip B)) → UtcTrip B → List (List (UtcTrip B))
  | [], s => [[s]]
  | r :: rs, s => match RouteInsert.getIndex (r.map fun x => x.times) s.times with
    | some idx => (r.take idx ++ s :: r.drop idx) :: rs
    | none => r :: addService rs s

/-- `route_services`, `load_timetable.cc:243-247`. -/
abbrev Groups (B : Type) := List (Key × List (List (UtcTrip B)))

/-- `load_timetable.cc:290-311`. -/
def insertAt {B : Type} (k : Key) (s : UtcTrip B) : Groups B → Groups B
  | [] => [(k, [[s]])]
  | (k', rs) :: g => if k' = k then (k', addService rs s) :: g else (k', rs) :: insertAt k s g

/-- All calls of `add_expanded_trip`, in the order of the calls. -/
def addAll {B : Type} (f : Feed) : Groups B → List (UtcTrip B) → Option (Groups B)
  | g, [] => some g
  | g, s :: ss => match keyOf f s with
    | none => none
    | some k => addAll f (insertAt k s g) ss

/-! ### The timetable -/

/-- An element of `trip_transport_ranges_`. -/
structure Range where
  transport : Nat
  from_ : Nat
  to_ : Nat
deriving DecidableEq

/-- `timetable::transport`, `include/nigiri/timetable.h:105-113`. -/
structure Transport where
  bits : Nat
  route : Nat
  firstDep : Int × Int
  trips : List Nat
  providers : List Nat
  directions : List Nat
deriving DecidableEq

/-- `route_transport_ranges_` (`none` is `invalid()`), `route_location_seq_`, `route_clasz_`. -/
structure Route where
  first : Nat
  last : Option Nat
  seq : List Stop
  clasz : Nat
deriving DecidableEq

/-- `route_flags_[f]` and `route_flags_per_section_[f]`. -/
structure FlagData where
  bits : List Bool
  sections : List (List Bool)
deriving DecidableEq

/-- The timetable, `bitfield_indices` and `location_routes`. -/
structure Tt (B : Type) where
  routes : List Route
  flags : Nat → FlagData
  transports : List Transport
  merged : List (List Nat)
  bitfields : List B
  bitIdx : List (B × Nat)
  ranges : Nat → List Range
  stopTimes : List Nat
  stopTimeRanges : List (Nat × Nat)
  locRoutes : Nat → List Nat

/-- `apply_filter`, `src/timetable.cc:138-155`, of one flag. -/
def applyFilter (idx : Nat) (v : List Bool) (d : FlagData) : FlagData :=
  let set := (v.filter id).length
  let all := decide (set = v.length) && decide (v.length ≠ 0)
  let some' := decide (set ≠ 0)
  let bits := ((d.bits ++ [false, false]).set (idx * 2) all).set (idx * 2 + 1) some'
  let sections := (d.sections ++ List.replicate (idx + 1 - d.sections.length) []).take (idx + 1)
  ⟨bits, if some' && !all then sections.modify idx (· ++ v) else sections⟩

/-- `register_route`, `src/timetable.cc:122-162`. -/
def registerRoute {B : Type} (k : Key) (w : Tt B) : Tt B :=
  { w with
    routes := w.routes ++ [⟨w.transports.length, none, k.stops, k.clasz⟩]
    flags := fun g => if g < numFlags then applyFilter w.routes.length (k.flags.getD g []) (w.flags g) else w.flags g }

/-- `finish_route`, `src/timetable.cc:164-167`. -/
def finishRoute {B : Type} (w : Tt B) : Tt B :=
  { w with routes := w.routes.modify (w.routes.length - 1) fun r => { r with last := some w.transports.length } }

/-- One stop of `load_timetable.cc:409-414`. -/
def locStep (r : Nat) (m : Nat → List Nat) (s : Stop) : Nat → List Nat := fun l =>
  if l = s.loc then (if (m l).getLast? = some r then m l else m l ++ [r]) else m l

/-- State of the loop over the trips of a service. -/
structure Acc (B : Type) where
  tt : Tt B
  prevEnd : Nat
  trips : List Nat
  providers : List Nat
  directions : List Nat

/-- One trip of a service, `load_timetable.cc:421-457`. -/
def tripStep {B : Type} (f : Feed) (single : Bool) (a : Acc B) (t : Nat) : Acc B :=
  let trp := f.trip t
  let end_ := a.prevEnd + trp.stops.length
  let merged := a.tt.merged.length
  let tt : Tt B := { a.tt with
    ranges := fun x => if x = trp.tripIdx then a.tt.ranges x ++ [⟨a.tt.transports.length, a.prevEnd, end_⟩] else a.tt.ranges x
    merged := a.tt.merged ++ [[trp.tripIdx]] }
  let p := f.provider trp.route
  if single then
    ⟨tt, end_ - 1, a.trips ++ [merged], a.providers ++ [p],
      if trp.stopHeadsigns = [] ∧ trp.headsign ≠ 0 then a.directions ++ [trp.headsign] else a.directions ++ trp.stopHeadsigns⟩
  else
    let n := trp.stops.length - 1
    ⟨tt, end_ - 1, a.trips ++ List.replicate n merged, a.providers ++ List.replicate n p,
      a.directions ++ (List.range n).map fun i => if trp.stopHeadsigns = [] then trp.headsign else trp.stopHeadsigns.getD i 0⟩

/-- `utl::get_or_create(bitfield_indices, days, register_bitfield)`, `load_timetable.cc:462-464`. -/
def bitfieldOf {B : Type} [DecidableEq B] (b : B) (w : Tt B) : Nat × Tt B :=
  match w.bitIdx.lookup b with
  | some i => (i, w)
  | none => (w.bitfields.length, { w with bitfields := w.bitfields ++ [b], bitIdx := w.bitIdx ++ [(b, w.bitfields.length)] })

/-- One service of a route, `load_timetable.cc:416-471`. -/
def serviceStep {B : Type} [DecidableEq B] (f : Feed) (r : Nat) (w : Tt B) (s : UtcTrip B) : Tt B :=
  let a := s.trips.foldl (tripStep f (s.trips.length == 1)) ⟨w, 0, [], [], []⟩
  let (i, tt) := bitfieldOf s.days a.tt
  { tt with transports := tt.transports ++ [⟨i, r, (s.firstDep, s.tz), a.trips, a.providers, a.directions⟩] }

/-- The event times of a route, `load_timetable.cc:475-486`. -/
def routeTimes {B : Type} (n : Nat) (services : List (UtcTrip B)) : List Nat :=
  (List.range (n - 1)).flatMap fun i =>
    services.map (fun s => s.times.getD (i * 2) 0) ++ services.map (fun s => s.times.getD ((i + 1) * 2 - 1) 0)

/-- `load_timetable.cc:475-490`. -/
def writeTimes {B : Type} (n : Nat) (services : List (UtcTrip B)) (w : Tt B) : Tt B :=
  { w with
    stopTimes := w.stopTimes ++ routeTimes n services
    stopTimeRanges := w.stopTimeRanges ++ [(w.stopTimes.length, w.stopTimes.length + (routeTimes n services).length)] }

/-- One route, `load_timetable.cc:405-490`. -/
def routeStep {B : Type} [DecidableEq B] (f : Feed) (k : Key) (w : Tt B) (services : List (UtcTrip B)) : Tt B :=
  let r := w.routes.length
  let w1 := registerRoute k w
  let w2 := { w1 with locRoutes := k.stops.foldl (locStep r) w1.locRoutes }
  writeTimes k.stops.length services (finishRoute (services.foldl (serviceStep f r) w2))

/-- All routes, `load_timetable.cc:402-493`. -/
def writeAll {B : Type} [DecidableEq B] (f : Feed) (gs : Groups B) (w : Tt B) : Tt B :=
  gs.foldl (fun w g => g.2.foldl (routeStep f g.1) w) w

/-! ### Reading -/

/-- `event_mam`, `include/nigiri/timetable.h:166-177`. -/
def eventMam {B : Type} (w : Tt B) (r t stop : Nat) (arr : Bool) : Option Nat :=
  match w.routes[r]?, w.stopTimeRanges[r]? with
  | some rt, some (from_, _) =>
    match rt.last with
    | none => none
    | some last => w.stopTimes[from_ + (last - rt.first) * (stop * 2 - if arr then 1 else 0) + (t - rt.first)]?
  | _, _ => none

/-- A vector with one entry for all sections, or one for each, `src/rt/frun.cc:268-271`. -/
def section_ {α : Type} (l : List α) (i : Nat) : Option α := if l.length = 1 then l[0]? else l[i]?

/-- `run_stop::direction`, `src/rt/frun.cc:395-412`: `some none` if the name of the last stop is shown. -/
def direction (l : List Nat) (i : Nat) : Option (Option Nat) :=
  if l = [] then some none else (section_ l i).map fun d => if d = 0 then none else some d

/-- A flag on a section of a route, `src/rt/frun.cc:455-475`. -/
def readFlag (d : FlagData) (r i : Nat) : Option Bool :=
  match d.bits[r * 2]?, d.bits[r * 2 + 1]? with
  | some true, _ => some true
  | some false, some false => some false
  | some false, some true => (d.sections[r]?).bind (section_ · i)
  | _, _ => none

end Nigiri.WriteTrips
