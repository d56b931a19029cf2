import Verif.Model.GtfsRoutes
import Verif.Model.Frequency

/-!
# Trips of a GTFS feed

Models `read_trips` (`src/loader/gtfs/trip.cc:205-375`), `read_frequencies` (`trip.cc:377-440`), `register_trip`
(`src/loader/register.cc:791-818`) and the setters of `loader::trip` (`register.cc:383-452`).

Simplifications: texts are strings (property C123); the bits of `trip_direction_id_` are a function; the source of a
trip, its debug information, its empty transport range and the ticketing columns (property C131) are left out; a trip
registered here has the single id of its row (`trip_ids_` of a trip starts with one id); `trip_route_type` is a
number if the column has one. The resize of `trip_direction_id_` (always large enough) is left out.
-/

namespace Nigiri.GtfsTrips

open GtfsRoutes (emplace RouteEntry Attrs RouteIds)

/-- The flags of a trip, `kNumRouteFlags` (`types.h`). -/
structure Flags where
  bikes : Bool
  cars : Bool
  wheelchair : Bool
  reservationNotRequired : Bool
  deriving Repr, DecidableEq

/-- A row of `trips.txt`, `trip.cc:218-237`. -/
structure TripRow where
  id : String
  route : String
  service : String
  headsign : String
  shortName : String
  direction : String
  block : String
  shape : String
  bikes : Nat
  cars : Nat
  wheelchair : Nat
  pickup : Nat
  routeType : Option Nat
  deriving Repr, DecidableEq

/-- `loader::trip` as handed to the script, `trip.cc:323-338`. -/
structure Obj where
  id : String
  headsign : String
  shortName : String
  displayName : String
  direction : Bool
  route : Nat
  flags : Flags
  deriving Repr, DecidableEq

/-- `gtfs::trip` (`trip.h`), the fields set by `read_trips`; `block` is the key of its block. -/
structure Trip where
  route : Nat
  service : Nat
  block : Option String
  id : String
  headsign : String
  shortName : String
  direction : Bool
  shape : Option Nat
  flags : Flags
  tripIdx : Nat
  clasz : Option Nat
  frequency : Option (List (Frequency.Freq × Bool))
  deriving Repr, DecidableEq

/-- Trips of the timetable. -/
structure Tt where
  routeTrips : List (List Nat)
  direction : Nat → Bool
  tripRoute : List Nat
  idStrings : List String
  idToIdx : List (Nat × Nat)
  shortNames : List String
  displayNames : List String
  ids : List (List Nat)

/-- What `read_trips` is given: services, routes, shapes, the attributes of the routes of the feed and the defaults
of the classes. -/
structure Env where
  services : String → Option Nat
  routes : String → Option RouteEntry
  shapes : String → Option Nat
  attrs : List Attrs
  bikes : Nat → Bool
  cars : Nat → Bool
  reservationNotRequired : Nat → Bool

/-- The class of a trip: `trip_route_type`, else the type of the route, `trip.cc:267-280`. -/
def claszOf (a : Attrs) (r : TripRow) : Nat :=
  match r.routeType with
  | some t => GtfsRoutes.clasz t
  | none => GtfsRoutes.clasz a.typ

/-- `bikes_allowed`, `cars_allowed`: 1 yes, 2 no, else the default, `trip.cc:282-294`. -/
def allowed (dflt : Bool) (x : Nat) : Bool := if x = 1 then true else if x = 2 then false else dflt

/-- `trip.cc:282-308`. -/
def flagsOf (e : Env) (a : Attrs) (r : TripRow) : Flags where
  bikes := allowed (e.bikes (claszOf a r)) r.bikes
  cars := allowed (e.cars (claszOf a r)) r.cars
  wheelchair := decide (r.wheelchair = 1)
  reservationNotRequired :=
    if r.pickup = 2 ∨ r.pickup > 3 then false else e.reservationNotRequired (claszOf a r)

/-- The first text which is not empty, `trip.cc:313-322`. -/
def displayName (a : Attrs) (r : TripRow) : String :=
  match [a.shortName, r.shortName, a.longName].find? (fun s => s != "") with
  | some s => s
  | none => ""

/-- `trip.cc:324-338`. -/
def objOf (e : Env) (a : Attrs) (k : Nat) (r : TripRow) : Obj :=
  ⟨r.id, r.headsign, r.shortName, displayName a r, decide (r.direction = "1"), k, flagsOf e a r⟩

/-- The setters a script has for a trip, `register.cc:609-633`. -/
inductive SetTrip where
  | headsign (x : String)
  | shortName (x : String)
  | displayName (x : String)
  | bikes (x : Bool)
  | cars (x : Bool)
  | wheelchair (x : Bool)
  | compulsoryReservation (x : Bool)
  deriving Repr, DecidableEq

/-- `trip::set_…`, `register.cc:383-452`. -/
def SetTrip.apply (o : Obj) : SetTrip → Obj
  | .headsign x => { o with headsign := x }
  | .shortName x => { o with shortName := x }
  | .displayName x => { o with displayName := x }
  | .bikes x => { o with flags := { o.flags with bikes := x } }
  | .cars x => { o with flags := { o.flags with cars := x } }
  | .wheelchair x => { o with flags := { o.flags with wheelchair := x } }
  | .compulsoryReservation x => { o with flags := { o.flags with reservationNotRequired := !x } }

/-- `process_trip`, `register.cc:646-663, 702-707`. -/
structure Script where
  calls : Obj → List SetTrip
  rejects : Obj → Bool

/-- What is left of the object. -/
def Script.run (s : Script) (o : Obj) : Option Obj :=
  if s.rejects o then none else some ((s.calls o).foldl SetTrip.apply o)

/-- `register_trip`, `register.cc:791-818`. -/
def registerTrip (tt : Tt) (o : Obj) : Tt × Nat :=
  let t := tt.ids.length
  let i := tt.idStrings.length
  ({ routeTrips := tt.routeTrips.modify o.route (fun l => l ++ [t])
     direction := fun x => if x = t then o.direction else tt.direction x
     tripRoute := tt.tripRoute ++ [o.route]
     idStrings := tt.idStrings ++ [o.id]
     idToIdx := tt.idToIdx ++ [(i, t)]
     shortNames := tt.shortNames ++ [o.shortName]
     displayNames := tt.displayNames ++ [o.displayName]
     ids := tt.ids ++ [[i]] }, t)

/-- `trip_data` (`trip.h`) and the timetable. -/
structure State where
  tt : Tt
  data : List Trip
  trips : List (String × Nat)
  blocks : List (String × List Nat)

/-- `utl::cstr::trim`: spaces at both ends. -/
def trim (s : String) : String :=
  String.ofList ((s.toList.dropWhile (fun c => c == ' ')).reverse.dropWhile (fun c => c == ' ')).reverse

/-- `get_or_create(blocks, key)` and `blk->trips_.emplace_back`, `trip.cc:346-350, 364-366`. -/
def addToBlock (m : List (String × List Nat)) (key : String) (t : Nat) : List (String × List Nat) :=
  if (m.lookup key).isSome then m.map fun b => if b.1 = key then (b.1, b.2 ++ [t]) else b else m ++ [(key, [t])]

/-- `trip.cc:346-350`: `nullptr` without `block_id`. -/
def blockOf (r : TripRow) : Option String := if trim r.block = "" then none else some (trim r.block)

/-- What is stored for a row the script keeps, `trip.cc:352-367`. The short name is the one of the row. -/
def addTrip (e : Env) (s : State) (r : TripRow) (svc : Nat) (o : Obj) : State :=
  let i := s.data.length
  let reg := registerTrip s.tt o
  { tt := reg.1
    data := s.data ++ [⟨o.route, svc, blockOf r, r.id, o.headsign, r.shortName, o.direction, e.shapes r.shape, o.flags,
      reg.2, r.routeType.map GtfsRoutes.clasz, none⟩]
    trips := emplace s.trips r.id i
    blocks := match blockOf r with
      | some b => addToBlock s.blocks b i
      | none => s.blocks }

/-- One row of `trips.txt`, `trip.cc:247-368`; `attrs` is read out of range if the route has none (property C128:
there are attributes for each route). -/
def tripStep (e : Env) (script : Script) (s : State) (r : TripRow) : State :=
  match e.services r.service with
  | none => s
  | some svc =>
    match e.routes r.route with
    | none => s
    | some k =>
      match e.attrs[k.idx]? with
      | none => s
      | some a =>
        match script.run (objOf e a k.idx r) with
        | none => s
        | some o => addTrip e s r svc o

/-- `read_trips`, `trip.cc:205-371`. -/
def readTrips (e : Env) (script : Script) (tt : Tt) (rows : List TripRow) : State :=
  rows.foldl (tripStep e script) ⟨tt, [], [], []⟩

/-! ## frequencies.txt -/

/-- A row of `frequencies.txt`; the headway as parsed (−1 if it cannot be read), `trip.cc:382-388`. -/
structure FreqRow where
  trip : String
  start : Int
  stop : Int
  headway : Int
  exact : String
  deriving Repr, DecidableEq

/-- What is appended to the frequencies of the trip, `trip.cc:421-438`. -/
def freqOf (r : FreqRow) : Frequency.Freq × Bool :=
  (⟨r.start, r.stop, Frequency.headwayMinutes r.headway⟩, decide (r.exact = "1"))

/-- `frequencies->emplace_back`, `trip.cc:424-438`. -/
def addFreq (x : Frequency.Freq × Bool) (t : Trip) : Trip :=
  { t with frequency := some (t.frequency.getD [] ++ [x]) }

/-- One row, `trip.cc:398-439`. -/
def freqStep (trips : List (String × Nat)) (data : List Trip) (r : FreqRow) : List Trip :=
  match trips.lookup (trim r.trip) with
  | none => data
  | some i => if r.headway = -1 then data else data.modify i (addFreq (freqOf r))

/-- `read_frequencies`, `trip.cc:377-440`. -/
def readFrequencies (trips : List (String × Nat)) (data : List Trip) (rows : List FreqRow) : List Trip :=
  rows.foldl (freqStep trips) data

end Nigiri.GtfsTrips
