import Verif.Model.StringStore

/-!
# Agencies and routes of a GTFS feed, and what user scripts may change

Models `read_agencies` (`src/loader/gtfs/agency.cc:11-58`), `read_routes` and `to_clasz`
(`src/loader/gtfs/route.cc:19-236`), `register_agency`, `register_route` and the setters and getters of
`loader::route` (`src/loader/register.cc:235-345, 635-655, 720-790`).

Simplifications: a text in several languages is the text itself (`translator::get`: property C123); colours are
numbers; the ids of a source are a `StringStore`, all attribute vectors of `route_ids` (which are appended together)
are one list of records, and category and ticketing link, which are constants here, are left out; `agency_map_t` and
`route_map_t` are association lists without duplicate keys; a user script is a function from the object to
the changed object, or `none` where it returns `false`; ids of scripts cannot be changed (there is no setter).
-/

namespace Nigiri.GtfsRoutes

/-- A row of `agency.txt`, `agency.cc:20-28`. -/
structure AgencyRow where
  id : String
  name : String
  url : String
  fareUrl : String
  tz : String
  deriving Repr, DecidableEq

/-- A row of `routes.txt`, `route.cc:150-163`. -/
structure RouteRow where
  id : String
  agency : String
  shortName : String
  longName : String
  url : String
  typ : Nat
  color : Nat
  textColor : Nat
  network : String
  link : String
  deriving Repr, DecidableEq

/-- `provider` as stored in the timetable, `register.cc:720-729`. -/
structure Provider where
  id : String
  name : String
  url : String
  fareUrl : String
  tz : String
  deriving Repr, DecidableEq

/-- The attributes of a route in `timetable::route_ids_`, `register.cc:775-789`. -/
structure Attrs where
  shortName : String
  longName : String
  url : String
  typ : Nat
  color : Nat
  textColor : Nat
  agency : Nat
  deriving Repr, DecidableEq

/-- `timetable::route_ids_[src]`. -/
structure RouteIds where
  ids : StringStore String := {}
  attrs : List Attrs := []
  trips : List (List Nat) := []

/-- `gtfs::route`, `route.h:45-51`. -/
structure RouteEntry where
  idx : Nat
  network : String
  link : String
  deriving Repr, DecidableEq

/-- `hash_map::emplace`: an existing key keeps its value. -/
def emplace {β : Type} (m : List (String × β)) (k : String) (v : β) : List (String × β) :=
  if (m.lookup k).isSome then m else m ++ [(k, v)]

/-! ## Agencies -/

/-- The object handed to the script, `agency.cc:36-46`. -/
def agencyOf (defaultTz : String) (a : AgencyRow) : Provider :=
  ⟨a.id, a.name, a.url, a.fareUrl, if a.tz = "" then defaultTz else a.tz⟩

/-- `register_agency`, `register.cc:720-729`. -/
def registerAgency (ps : List Provider) (p : Provider) : List Provider × Nat := (ps ++ [p], ps.length)

/-- Providers of the timetable and `agency_map_t`; `none` is `provider_idx_t::invalid()`. -/
structure Agencies where
  providers : List Provider
  map : List (String × Option Nat)

/-- One row of `agency.txt`, `agency.cc:35-56`. -/
def agencyStep (defaultTz : String) (script : Provider → Option Provider) (s : Agencies) (a : AgencyRow) :
    Agencies :=
  match script (agencyOf defaultTz a) with
  | some p =>
    let r := registerAgency s.providers p
    ⟨r.1, emplace s.map a.id (some r.2)⟩
  | none => ⟨s.providers, emplace s.map a.id none⟩

/-- `read_agencies`, `agency.cc:11-58`, for a timetable which has the providers `ps` of earlier feeds. -/
def readAgencies (defaultTz : String) (script : Provider → Option Provider) (ps : List Provider)
    (rows : List AgencyRow) : Agencies :=
  rows.foldl (agencyStep defaultTz script) ⟨ps, []⟩

/-! ## Routes -/

/-- The agency registered for an unknown `agency_id`, `route.cc:184-195`. -/
def unknownAgency (defaultTz id : String) : Provider :=
  ⟨if id = "" then "UKN" else id, "", "", "", defaultTz⟩

/-- `utl::get_or_create(agencies, id, register)`, `route.cc:179-196`. -/
def getOrCreate (defaultTz : String) (s : Agencies) (id : String) : Agencies × Option Nat :=
  match s.map.lookup id with
  | some a => (s, a)
  | none =>
    let r := registerAgency s.providers (unknownAgency defaultTz id)
    (⟨r.1, s.map ++ [(id, some r.2)]⟩, some r.2)

/-- The agency of a route: the only one if there is just one, `route.cc:176-196`. -/
def pickAgency (defaultTz : String) (s : Agencies) (id : String) : Agencies × Option Nat :=
  match s.map with
  | [(_, a)] => (s, a)
  | _ => getOrCreate defaultTz s id

/-- The object handed to the script, `route.cc:202-218`. -/
def attrsOf (r : RouteRow) (a : Nat) : Attrs :=
  ⟨r.shortName, r.longName, r.url, r.typ, r.color, r.textColor, a⟩

/-- `register_route`, `register.cc:775-789`. -/
def registerRoute (rs : RouteIds) (id : String) (x : Attrs) : RouteIds × Nat :=
  let r := rs.ids.store id
  (⟨r.1, rs.attrs ++ [x], rs.trips ++ [[]]⟩, r.2)

/-- State of the import of `routes.txt`. -/
structure RState where
  agencies : Agencies
  routeIds : RouteIds
  map : List (String × RouteEntry)

/-- One row of `routes.txt`, `route.cc:175-230`. -/
def routeStep (defaultTz : String) (script : String → Attrs → Option Attrs) (s : RState) (r : RouteRow) : RState :=
  let p := pickAgency defaultTz s.agencies r.agency
  match p.2 with
  | none => { s with agencies := p.1 }
  | some a =>
    match script r.id (attrsOf r a) with
    | none => { s with agencies := p.1 }
    | some x =>
      let k := registerRoute s.routeIds r.id x
      ⟨p.1, k.1, emplace s.map r.id ⟨k.2, r.network, r.link⟩⟩

/-- `read_routes`, `route.cc:134-236`. -/
def readRoutes (defaultTz : String) (script : String → Attrs → Option Attrs) (ags : Agencies) (rows : List RouteRow) :
    RState :=
  rows.foldl (routeStep defaultTz script) ⟨ags, {}, []⟩

/-! ## Transport classes and the interface of scripts -/

/-- Route types of one class, as listed in the switch of `to_clasz`, `route.cc:23-119`. The number of a class is its
value in `enum class clasz` (`types.h`). -/
def clasz (t : Nat) : Nat :=
  if t = 0 then 9 else if t = 1 then 8 else if t = 2 then 6 else if t = 3 then 10 else if t = 4 then 11
  else if t = 5 then 13 else if t = 6 then 14 else if t = 7 then 13 else if t = 11 then 10 else if t = 12 then 15
  else if t = 100 then 6 else if t = 101 then 1 else if t = 102 then 2 else if t = 103 then 6
  else if t = 104 then 2 else if t = 105 then 4 else if 106 ≤ t ∧ t ≤ 108 then 6 else if t = 109 then 7
  else if 110 ≤ t ∧ t ≤ 113 then 6 else if t = 114 then 2 else if t = 115 then 6 else if t = 116 then 13
  else if t = 117 then 6
  else if 200 ≤ t ∧ t ≤ 202 then 3 else if 203 ≤ t ∧ t ≤ 204 then 10 else if 205 ≤ t ∧ t ≤ 207 then 3
  else if t = 208 then 10 else if t = 209 then 3
  else if 400 ≤ t ∧ t ≤ 402 then 8 else if 403 ≤ t ∧ t ≤ 404 then 7 else if t = 405 then 15
  else if 700 ≤ t ∧ t ≤ 714 then 10 else if t = 715 then 12 else if t = 716 then 10 else if t = 800 then 10
  else if 900 ≤ t ∧ t ≤ 906 then 9 else if t = 1000 then 11 else if t = 1100 then 0 else if t = 1200 then 11
  else if 1300 ≤ t ∧ t ≤ 1302 then 14 else if t = 1303 then 15 else if t = 1304 then 14 else if t = 1305 then 15
  else if 1306 ≤ t ∧ t ≤ 1307 then 14 else if t = 1400 then 13
  else if 1500 ≤ t ∧ t ≤ 1507 then 12 else if t = 1551 then 5 else if t = 1700 then 15 else if t = 1702 then 15
  -- `route.cc:121-131`
  else if 1000 ≤ t ∧ t < 1100 then 11 else if 1100 ≤ t ∧ t < 1200 then 0 else if 1200 ≤ t ∧ t < 1300 then 11
  else 15

/-- `route::set_clasz`, `register.cc:323-343`. -/
def typeOfClasz (c : Nat) : Nat :=
  match c with
  | 0 => 1100 | 1 => 101 | 2 => 102 | 3 => 200 | 4 => 105 | 5 => 1551 | 6 => 103 | 7 => 109 | 8 => 402 | 9 => 900
  | 10 => 700 | 11 => 1000 | 12 => 1500 | 13 => 1400 | 14 => 1300 | _ => 1700

/-- The setters a script has for a route, `register.cc:589-607`. -/
inductive SetRoute where
  | shortName (x : String)
  | longName (x : String)
  | routeType (x : Nat)
  | clasz (c : Nat)
  | color (x : Nat)
  | textColor (x : Nat)
  deriving Repr, DecidableEq

/-- `route::set_…`, `register.cc:270-343`. `set_text_color` writes `color_.color_`, as the code does. -/
def SetRoute.apply (a : Attrs) : SetRoute → Attrs
  | .shortName x => { a with shortName := x }
  | .longName x => { a with longName := x }
  | .routeType x => { a with typ := x }
  | .clasz c => { a with typ := typeOfClasz c }
  | .color x => { a with color := x }
  | .textColor x => { a with color := x }

/-- What a call of `process_route` in Lua leads to, `register.cc:646-663`: the setters it calls, and whether it
returns `false`; an error after these calls, another result and no result keep the object. -/
structure Script where
  calls : Attrs → List SetRoute
  rejects : Attrs → Bool

/-- `process_route` (`register.cc:646-663, 695-700`). -/
def Script.run (s : Script) (a : Attrs) : Option Attrs :=
  if s.rejects a then none else some ((s.calls a).foldl SetRoute.apply a)

end Nigiri.GtfsRoutes
