import Verif.Model.Calendar
/-!
# Local time to UTC expansion

Model of `expand_local_to_utc`, `include/nigiri/loader/gtfs/local_to_utc.h:128-235`.

Simplifications: durations are unbounded integers (`int16` minutes in the code), days are counted
from the first internal timetable day, `hash_map` is an association list with `emplace` semantics,
the trips that the first loop removes (fewer than two events or still requiring interpolation) are
already removed.  A dereference of the end iterator (`prev_it`) is the result `none`.
-/

namespace Nigiri.LocalToUtc

/-- `stop_events`: arrival and departure in local minutes, `include/nigiri/loader/gtfs/trip.h`. -/
structure Ev where
  arr : Int
  dep : Int
deriving DecidableEq, Repr

/-- A trip of `frequency_expanded_trip` with its frequency offset, `local_to_utc.h:21-30`. -/
structure FTrip where
  events : List Ev
  offset : Int
deriving DecidableEq, Repr

/-- `conversion_key`, `local_to_utc.h:122-126`: UTC day offset of the first departure and UTC offset. -/
structure Key where
  dayOffset : Int
  tz : Int
deriving DecidableEq, Repr

/-- The data the loop reads: number of timetable days, traffic days, UTC offset per day, selected
days `[selFrom, selTo)`. -/
structure Env where
  nDays : Nat
  traffic : Bitfield
  noonOffset : Nat → Int
  selFrom : Int
  selTo : Int

/-- `first_dep_time`, `local_to_utc.h:163-165` (note: offset of the *last* trip). -/
def firstDep (trips : List FTrip) : Int :=
  match trips.head?, trips.getLast? with
  | some f, some l => (match f.events.head? with | some e => e.dep | none => 0) - l.offset
  | _, _ => 0

/-- `last_arr_time`, `local_to_utc.h:166-168`. -/
def lastArr (trips : List FTrip) : Int :=
  match trips.getLast? with
  | some l => (match l.events.getLast? with | some e => e.arr | none => 0) - l.offset
  | _ => 0

/-- `selection.overlaps(service_days)`, `local_to_utc.h:178-181` with `interval.h` `overlaps`. -/
def inSelection (e : Env) (trips : List FTrip) (g : Nat) : Bool :=
  let from' := (g : Int) + (firstDep trips).tdiv 1440
  let to' := (g : Int) + (lastArr trips).tdiv 1440 + 1
  decide (e.selFrom < to') && decide (from' < e.selTo)

/-- The key of local day `g`, `local_to_utc.h:189-201`. -/
def keyOf (e : Env) (trips : List FTrip) (g : Nat) : Key :=
  let tz := e.noonOffset g
  { dayOffset := (firstDep trips - tz) / 1440, tz := tz }

/-- `hash_map<conversion_key, bitfield>`. -/
abbrev KeyMap := List (Key × Bitfield)

/-- `bitfield::set(i)`. -/
def setBit (b : Bitfield) (i : Nat) : Bitfield := fun j => if j = i then true else b j

/-- Set bit `i` in the entry of `k` (`->second.set`). -/
def setIn (k : Key) (i : Nat) : KeyMap → KeyMap
  | [] => []
  | (k', b) :: m => if k' = k then (k', setBit b i) :: m else (k', b) :: setIn k i m

/-- `emplace(key, bitfield{})`. -/
def emplace (k : Key) (m : KeyMap) : KeyMap :=
  if m.any (fun x => x.1 = k) then m else m ++ [(k, fun _ => false)]

/-- Loop state: map, `prev_key`, and the key `prev_it` points to (`none` = `end()`). -/
structure St where
  map : KeyMap
  prevKey : Key
  prevIt : Option Key

/-- One iteration, `local_to_utc.h:174-210`. -/
def step (e : Env) (trips : List FTrip) (st : St) (g : Nat) : Option St :=
  if !inSelection e trips g then some st
  else if !e.traffic g then some st
  else
    let key := keyOf e trips g
    let d : Int := (g : Int) + key.dayOffset
    if d < 0 ∨ d ≥ kMaxDays then some st
    else if key = st.prevKey then
      match st.prevIt with
      | none => none
      | some k => some { st with map := setIn k d.toNat st.map }
    else some { map := setIn key d.toNat (emplace key st.map), prevKey := key, prevIt := some key }

/-- The loop over the days. -/
def loop (e : Env) (trips : List FTrip) : St → List Nat → Option St
  | st, [] => some st
  | st, g :: gs => match step e trips st g with
    | none => none
    | some st' => loop e trips st' gs

/-- Departure/arrival events between consecutive stops, `utl::pairwise`, `local_to_utc.h:219-224`. -/
def pairTimes : List Ev → List Int
  | a :: b :: r => a.dep :: b.arr :: pairTimes (b :: r)
  | _ => []

/-- The local event times of the combined trips, frequency offsets applied. -/
def localTimes (trips : List FTrip) : List Int :=
  trips.flatMap fun t => (pairTimes t.events).map (· - t.offset)

/-- The running maximum, `local_to_utc.h:227-231`. -/
def runMax : Int → List Int → List Int
  | _, [] => []
  | p, x :: r => max p x :: runMax (max p x) r

/-- `build_time_string`, `local_to_utc.h:212-234`. -/
def buildTimes (trips : List FTrip) (k : Key) : List Int :=
  runMax 0 ((localTimes trips).map fun t => t - k.tz - k.dayOffset * 1440)

/-- `utc_trip`: the fields used here. -/
structure UtcTrip where
  firstDepOffset : Int
  tzOffset : Int
  utcTimes : List Int
  days : Bitfield

/-- `expand_local_to_utc`, `local_to_utc.h:128-244`. -/
def expand (e : Env) (trips : List FTrip) : Option (List UtcTrip) :=
  if trips.isEmpty then some []
  else (loop e trips { map := [], prevKey := ⟨2, -1⟩, prevIt := none } (List.range e.nDays)).map fun st =>
    st.map.map fun (k, b) =>
      { firstDepOffset := k.dayOffset, tzOffset := k.tz, utcTimes := buildTimes trips k, days := b }

end Nigiri.LocalToUtc
