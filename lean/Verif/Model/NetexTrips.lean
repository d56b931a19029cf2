import Verif.Model.Netex
import Verif.Model.Seated
/-!
# NeTEx import: registration and writing of trips

Model of the end of `add_to_tt` (`src/loader/netex/load_timetable.cc:1515-1555`), the stay-seated part
(`load_timetable.cc:1641-1711`) and the part of "Write Trips" that says which service journey a
transport belongs to (`load_timetable.cc:1731-1771`).

Not modelled: registration of stops, lines, routes and operators, user scripts (which can drop journeys),
attributes (same code as directions), route keys and the order of transports in routes (same code as the
GTFS loader, see `Model/RouteInsert.lean`).
-/

namespace Nigiri.Netex

/-- What is known about a service journey when it is registered: identifier, `trip_idx`, `trip_direction_` of
the destination display of each stop, the stop sequence, the result of `expand_local_to_utc`. -/
structure Sj where
  id : Nat
  trip : Nat
  dests : List Nat
  stops : List Seated.Stop
  entries : List (Key × Bitfield)

/-- `utc_trip`, `include/nigiri/loader/netex/utc_trip.h`. -/
structure UtcTrip where
  key : Key
  days : Bitfield
  stops : List Seated.Stop
  trips : List Nat
  dirs : List Nat

/-- `sj_ids`, `sj_trips`, `sj_utc_trips`, `load_timetable.cc:1325-1328`. -/
structure Reg where
  ids : List Nat := []
  trips : List Nat := []
  utc : List (List UtcTrip) := []

/-- `trip_direction`, `load_timetable.cc:1515-1533`: one element if all are equal, otherwise all but the
last. -/
def compress (dests : List Nat) : List Nat :=
  if dests.all (fun x => decide (x = dests.headD 0)) then [dests.headD 0] else dests.dropLast

/-- `string_store::store`, `string_store.h:80-91`: the index of the string, which is added if it is new. -/
def storeId (ids : List Nat) (id : Nat) : List Nat × Nat :=
  match ids.findIdx? (fun x => decide (x = id)) with
  | some i => (ids, i)
  | none => (ids ++ [id], ids.length)

/-- The loop over the expansion, `load_timetable.cc:1541-1554`: the directions are moved into the first
element, the others get an empty list. -/
def utcTrips (idx : Nat) (stops : List Seated.Stop) : List Nat → List (Key × Bitfield) → List UtcTrip
  | _, [] => []
  | dirs, (k, b) :: r => ⟨k, b, stops, [idx], dirs⟩ :: utcTrips idx stops [] r

/-- `load_timetable.cc:1515-1554`. (The two `assert`s that compare the index with the sizes are not part of
a release build.) -/
def register (st : Reg) (sj : Sj) : Reg :=
  let s := storeId st.ids sj.id
  { ids := s.1, trips := st.trips ++ [sj.trip], utc := st.utc ++ [utcTrips s.2 sj.stops (compress sj.dests) sj.entries] }

def registerAll (sjs : List Sj) : Reg := sjs.foldl register {}

/-- What is written for one transport: the ranges of the trips and the section directions. -/
structure Written where
  ranges : List (Nat × Nat × Nat) := []
  dirs : List Nat := []
  prevEnd : Nat := 0

/-- The directions of one trip of a joined transport, `load_timetable.cc:1758-1763`; `none` = `at` throws. -/
def sectionDirs (dirs : List Nat) (n : Nat) : Option (List Nat) :=
  (List.range n).mapM fun i => if dirs.length = 1 then dirs[0]? else dirs[i]?

/-- One service journey of a transport, `load_timetable.cc:1731-1771`; `none` = access out of bounds or an
exception. -/
def writeStep (r : Reg) (single : Bool) (w : Written) (idx : Nat) : Option Written :=
  match (r.utc[idx]?).bind (·.head?), r.trips[idx]? with
  | some trp, some trip =>
    let e := w.prevEnd + trp.stops.length
    if single then some ⟨w.ranges ++ [(trip, w.prevEnd, e)], w.dirs ++ trp.dirs, e - 1⟩
    else (sectionDirs trp.dirs (trp.stops.length - 1)).map fun d =>
      ⟨w.ranges ++ [(trip, w.prevEnd, e)], w.dirs ++ d, e - 1⟩
  | _, _ => none

def writeLoop (r : Reg) (single : Bool) : Written → List Nat → Option Written
  | w, [] => some w
  | w, i :: l => (writeStep r single w i).bind fun w' => writeLoop r single w' l

/-- `load_timetable.cc:1724-1772` for a transport that runs through the service journeys `trips`. -/
def writeTrip (r : Reg) (trips : List Nat) : Option Written :=
  writeLoop r (decide (trips.length = 1)) {} trips

/-- How the directions of a transport are read, `frun.cc` `run_stop::direction`: one for the whole
transport or one per section. -/
def directionOf (dirs : List Nat) (i : Nat) : Option Nat := if dirs.length = 1 then dirs[0]? else dirs[i]?

/-! ### Stay-seated meetings -/

/-- An element of `sj_utc_trips[i]` as `build_seated_trips` sees it. -/
structure Run where
  times : List Int
  stops : List Seated.Stop
  days : Bitfield

/-- `js[i]` are the `utc_trip`s of service journey `i`; `meets i` are the targets of its journey meetings,
`none` if it is not a key of `global_journey_meetings`. -/
structure Feed where
  js : List (List Run)
  meets : Nat → Option (List Nat)

/-- `seated_out`, `load_timetable.cc:1660-1663`. -/
def Feed.out (f : Feed) (i : Nat) : List Nat := (f.meets i).getD []
/-- `seated_in`, `load_timetable.cc:1664`. -/
def Feed.in' (f : Feed) (i : Nat) : List Nat := (List.range f.js.length).filter fun a => decide (i ∈ f.out a)

/-- The transports added in the loop, `load_timetable.cc:1656-1670`. -/
def Feed.alone (f : Feed) : List Seated.Transport :=
  (List.range f.js.length).flatMap fun i => match f.meets i with
    | some _ => []
    | none => (f.js.getD i []).map fun r => ⟨[i], r.times, r.stops, r.days⟩

/-- The service journeys with a meeting and their `utc_trip`s, `load_timetable.cc:1672-1699`. (The code numbers
these service journeys from 0; the model keeps their index.) -/
def Feed.input (f : Feed) : Seated.Input where
  sIn := f.in'
  sOut := f.out
  vs := (List.range f.js.length).flatMap fun i =>
    if f.out i = [] ∧ f.in' i = [] then [] else (f.js.getD i []).map fun r => ⟨i, i, r.times, r.stops, r.days⟩

/-- All transports given to `add_expanded_trip`, `load_timetable.cc:1641-1711`. -/
def Feed.transports (f : Feed) (c : Nat → Seated.Choice) (fuel : Nat) : Option (List Seated.Transport) :=
  (Seated.build f.input c fuel).map (f.alone ++ ·)

end Nigiri.Netex
