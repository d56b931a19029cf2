/-!
# HRD stations

Model of `src/loader/hrd/stamm/station.cc`.  Simplified: the columns of a line are parameters of the
line (numbers, names and positions already read; unreadable and comment lines left out); hash maps and
sets are functions and lists of which only the members matter; durations are not negative.
-/

namespace Nigiri.HrdStations

/-- `hrd_location`, `station.h:17-25`. `foot`: `footpaths_out_`. -/
structure St where
  id : Nat := 0
  name : String := ""
  pos : Option (Int × Int) := none
  equivalent : List Nat := []
  foot : Nat → Option Nat := fun _ => none

/-- `hash_map<eva_number, hrd_location>`. -/
abbrev Map : Type := Nat → Option St

/-- `stations[eva]` changed (created if missing). -/
def put (m : Map) (e : Nat) (f : St → St) : Map := fun x => if x = e then some (f ((m e).getD {})) else m x

/-- The member at an iterator changed. -/
def modify (m : Map) (e : Nat) (f : St → St) : Map := fun x => if x = e then (m e).map f else m x

/-- `parse_station_names`, `station.cc:15-40`. -/
def parseNames (m : Map) (lines : List (Nat × String)) : Map :=
  lines.foldl (fun m l => put m l.1 fun s => { s with name := l.2, id := l.1 }) m

/-- `parse_station_coordinates`, `station.cc:42-60`. -/
def parseCoords (m : Map) (lines : List (Nat × Int × Int)) : Map :=
  lines.foldl (fun m l => put m l.1 fun s => { s with pos := some l.2 }) m

/-- A line of the file of equivalent stations and footpaths.  Tokens: `none` for a mark (beginning with
H, B, V, S or F), otherwise the number.  `f`: "F" in column 23. -/
inductive MetaLine
  | equiv (eva : Nat) (tokens : List (Option Nat))
  | foot (from' to' duration : Nat) (f : Bool)
deriving Repr, DecidableEq

/-- The numbers of the tokens that are not 0, `station.cc:86-101`. -/
def plain (tokens : List (Option Nat)) : List Nat := tokens.filterMap fun t => t.filter (· ≠ 0)

/-- `parse_equivilant_stations`, `station.cc:62-110`. -/
def parseEquivalent (m : Map) (lines : List MetaLine) : Map :=
  lines.foldl (fun m l => match l with
    | .equiv eva tokens => modify m eva fun s => { s with equivalent := s.equivalent ++ plain tokens }
    | .foot .. => m) m

/-- `add_footpath`, `station.cc:117-125`. -/
def addFoot (f : Nat → Option Nat) (to' d : Nat) : Nat → Option Nat :=
  fun x => if x = to' then some (match f to' with | some y => min y d | none => d) else f x

/-- One line of `parse_footpaths`, `station.cc:127-171`; `none`: exception. -/
def footStep (is26 : Bool) (m : Map) (l : MetaLine) : Option Map :=
  match l with
  | .equiv .. => some m
  | .foot from' to' d f =>
    match m from', m to' with
    | some _, some t =>
      if d > 255 then none
      else some (modify m from' fun s =>
        { s with foot := addFoot s.foot t.id d
                 equivalent := if is26 && f then s.equivalent.filter (· ≠ t.id) else s.equivalent })
    | _, _ => some m

/-- `parse_footpaths`. -/
def parseFootpaths (is26 : Bool) (m : Map) (lines : List MetaLine) : Option Map := lines.foldlM (footStep is26) m

/-- `transfer_time`, `station.cc:199`. -/
def transferTime (eva : Nat) : Nat := if eva < 1000000 then 2 else 5

/-- The map after all files, `station.cc:189-194`; `none`: exception. -/
def readStations (is26 : Bool) (names : List (Nat × String)) (coords : List (Nat × Int × Int))
    (metas : List MetaLine) : Option Map :=
  parseFootpaths is26 (parseEquivalent (parseCoords (parseNames (fun _ => none) names) coords) metas) metas

/-- The equivalences stored for a station, `station.cc:210-216`. -/
def equivalences (m : Map) (e : Nat) : List Nat :=
  match m e with
  | none => []
  | some s => s.equivalent.filter fun x => (m x).isSome

/-- The footpath from station `e` to `t`, `station.cc:218-228`; outer `none`: `stations.at` throws. -/
def footpath (m : Map) (e t : Nat) : Option (Option Nat) :=
  match (m e).bind fun s => s.foot t with
  | none => some none
  | some d => match m t with
    | none => none
    | some _ => some (some (max (max (transferTime e) (transferTime t)) d))

end Nigiri.HrdStations
