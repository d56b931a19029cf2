import Verif.Model.StopTimes
import Verif.Model.LocalToUtc
/-!
# Flexible trips (GTFS Flex)

Model of `src/loader/gtfs/flex.cc`.

Simplifications: durations are unbounded integers (`int16` minutes in the code); days are counted from the first
internal timetable day; setting a bit outside of the bitfield (undefined behaviour) changes nothing; coordinates are
integers; the r-tree is left out; names are already translated.
-/

namespace Nigiri.Flex

open StopTimes (FlexStop Window)
open LocalToUtc (setBit)

/-- The members of `trip` which `expand_flex_trip` reads, `trip.h:100-132`. -/
structure FTrip where
  /-- `trip_idx_` -/
  idx : Nat
  stops : List FlexStop
  windows : List Window
  /-- `service_` -/
  service : Bitfield

/-- An entry of the vectors `flex_transport_*`, `timetable.h`. -/
structure Transport where
  days : Bitfield
  windows : List (Int × Int)
  pickupRules : List (Option Nat)
  dropOffRules : List (Option Nat)
  stopSeq : Nat
  trip : Nat

/-- `flex_stop_seq_` (which is also the key set of `stop_seq_map_t`), the transports, `flex_area_transports_` and
`location_group_transports_`. -/
structure Tt where
  seqs : List (List FlexStop)
  transports : List Transport
  listed : FlexStop → List Nat

/-- Number of internal days, UTC offset per day, selected days `[selFrom, selTo)`. -/
structure Env where
  nDays : Nat
  noonOffset : Nat → Int
  selFrom : Int
  selTo : Int

/-- `selection.contains(day)` and `service_->test(day)`, `flex.cc:298-306`. -/
def active (e : Env) (t : FTrip) (g : Nat) : Bool :=
  decide (e.selFrom ≤ g) && decide ((g : Int) < e.selTo) && t.service g

/-- `flex_time_windows_.front().start_`. -/
def firstStart (t : FTrip) : Int := match t.windows with
  | [] => 0
  | w :: _ => w.start

/-- `std::floor(first - tz_offset / 1440)`, `flex.cc:309-314`. -/
def dayOffset (t : FTrip) (tz : Int) : Int := (firstStart t - tz) / 1440

/-- `hash_map<duration_t, bitfield>`. -/
abbrev DayMap := List (Int × Bitfield)

/-- `bitfield::set` for an index that may be out of range. -/
def setDay (b : Bitfield) (d : Int) : Bitfield := if 0 ≤ d ∧ d < kMaxDays then setBit b d.toNat else b

/-- `utc_time_traffic_days[tz_offset].set(d)`, `flex.cc:318-319`. -/
def record : DayMap → Int → Int → DayMap
  | [], tz, d => [(tz, setDay Bitfield.empty d)]
  | (k, b) :: m, tz, d => if k = tz then (k, setDay b d) :: m else (k, b) :: record m tz d

/-- One day, `flex.cc:298-319`. -/
def dayStep (e : Env) (t : FTrip) (m : DayMap) (g : Nat) : DayMap :=
  if active e t g then record m (e.noonOffset g) ((g : Int) + dayOffset t (e.noonOffset g)) else m

/-- The loop over the days, `flex.cc:295-320`. -/
def dayMap (e : Env) (t : FTrip) : DayMap := (List.range e.nDays).foldl (dayStep e t) []

/-- `utl::get_or_create`, `flex.cc:287-292`. -/
def seqIdx (seqs : List (List FlexStop)) (s : List FlexStop) : Nat := seqs.findIdx (fun x => x == s)

/-- `flex.cc:287-292`. -/
def withSeq (seqs : List (List FlexStop)) (s : List FlexStop) : List (List FlexStop) :=
  if s ∈ seqs then seqs else seqs ++ [s]

/-- `transports.empty() || transports.back() != idx`, `flex.cc:348-360`. -/
def pushNew (l : List Nat) (x : Nat) : List Nat := if l.getLast? = some x then l else l ++ [x]

/-- The transport is listed at one area or group, `flex.cc:349-360`. -/
def listAt (x : Nat) (listed : FlexStop → List Nat) (f : FlexStop) : FlexStop → List Nat :=
  fun g => if g = f then pushNew (listed g) x else listed g

/-- The transport for one UTC offset, `flex.cc:330-346`. -/
def transportOf (t : FTrip) (sq : Nat) (x : Int × Bitfield) : Transport :=
  { days := x.2
    windows := t.windows.map fun w =>
      (w.start - x.1 - dayOffset t x.1 * 1440, w.stop - x.1 - dayOffset t x.1 * 1440)
    pickupRules := t.windows.map (fun w => w.pickupRule)
    dropOffRules := t.windows.map (fun w => w.dropOffRule)
    stopSeq := sq
    trip := t.idx }

/-- `flex.cc:322-362`. -/
def addTransport (t : FTrip) (sq : Nat) (s : Tt) (x : Int × Bitfield) : Tt :=
  { s with
    transports := s.transports ++ [transportOf t sq x]
    listed := t.stops.foldl (listAt s.transports.length) s.listed }

/-- `expand_flex_trip`, `flex.cc:277-364`; `ord` = the order in which the hash map is iterated. -/
def expandTrip (e : Env) (ord : DayMap → DayMap) (s : Tt) (t : FTrip) : Tt :=
  if t.windows = [] then s
  else (ord (dayMap e t)).foldl (addTransport t (seqIdx (withSeq s.seqs t.stops) t.stops))
    { s with seqs := withSeq s.seqs t.stops }

/-- The loop over the trips, `load_timetable.cc:516-522`. -/
def expandAll (e : Env) (ord : DayMap → DayMap) (trips : List FTrip) : Tt :=
  trips.foldl (expandTrip e ord) ⟨[], [], fun _ => []⟩

/-! ### Areas -/

/-- A feature of locations.geojson; `none` = `at`, `as_string`, … throws. `coords`: the rings. -/
structure Feature where
  id : Option String
  typ : Option String
  name : Nat
  desc : Nat
  coords : Option (List (List (Int × Int)))

/-- The vectors `flex_area_*`, `timetable.h`, and the map from ids to areas. -/
structure Areas where
  names : List Nat
  descs : List Nat
  outers : List (List (Int × Int))
  inners : List (List (List (Int × Int)))
  ids : List String
  map : List (String × Nat)
deriving DecidableEq, Repr

/-- `map.emplace`. -/
def emplace (m : List (String × Nat)) (id : String) (x : Nat) : List (String × Nat) :=
  if m.any (fun y => y.1 == id) then m else m ++ [(id, x)]

/-- One feature, `flex.cc:41-102`: an exception leaves what has been written. -/
def readFeature (s : Areas) (f : Feature) : Areas := match f.id, f.typ with
  | some id, some typ =>
    if typ ≠ "Polygon" then s
    else match f.coords with
      | some (outer :: inner) =>
        { names := s.names ++ [f.name], descs := s.descs ++ [f.desc], outers := s.outers ++ [outer],
          inners := s.inners ++ [inner], ids := s.ids ++ [id], map := emplace s.map id s.outers.length }
      | _ => { s with names := s.names ++ [f.name], descs := s.descs ++ [f.desc] }
  | _, _ => s

/-- `parse_flex_areas`, `flex.cc:19-105`. -/
def readAreas (fs : List Feature) : Areas := fs.foldl readFeature ⟨[], [], [], [], [], []⟩

/-! ### Location groups -/

/-- `location_group_locations_`, `location_location_groups_`. -/
structure Groups where
  locations : Nat → List Nat
  groups : Nat → List Nat

/-- One row, `flex.cc:138-165`; `find` looks the ids up. -/
def readGroupStop (group stop : String → Option Nat) (s : Groups) (r : String × String) : Groups :=
  match group r.1, stop r.2 with
  | some g, some l =>
    ⟨fun x => if x = g then s.locations x ++ [l] else s.locations x,
     fun x => if x = l then s.groups x ++ [g] else s.groups x⟩
  | _, _ => s

/-- `parse_location_group_stops`, `flex.cc:129-166`. -/
def readGroupStops (group stop : String → Option Nat) (rows : List (String × String)) : Groups :=
  rows.foldl (readGroupStop group stop) ⟨fun _ => [], fun _ => []⟩

end Nigiri.Flex
