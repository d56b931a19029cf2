import Verif.Model.Hrd
/-!
# HRD tracks: the file of the track rules

Model of `parse_track_rules` (`src/loader/hrd/stamm/track.cc`) and `stamm::resolve_provider`
(`src/loader/hrd/stamm/stamm.cc:91-110`).  Simplified: the columns of a line are parameters; a
location is represented by what makes it a track (its station and its name), the copied rest is left
out; the id of a new track is taken to be new (it begins with "T:", those of the stations are
numbers), the script hook accepts it unchanged.
-/

namespace Nigiri.HrdTracks

open Hrd

/-- A line of the file, `track.cc:30-40`.  `mam`: after `hhmm_to_min`, -1 if there is no time. -/
structure Line where
  eva : Nat
  trainNum : Nat
  admin : String
  mam : Int
  bitfield : Nat
  track : String
deriving Repr, DecidableEq

/-- The parts of `stamm`, `tracks` and the timetable that are read and written.  `admins`:
`providers_` (the newest entry first); `providers`: names of the providers of the timetable; `locs`: for
each location, station and name if it is a generated track; `known`: `rack_locations_`. -/
structure St where
  admins : List (String × Nat)
  providers : List String
  locs : List (Option (Nat × String))
  children : Nat → List Nat
  known : List ((Nat × String) × Nat) := []
  rules : TrackKey → List TrackRule := fun _ => []

/-- Lookup in `providers_`. -/
def St.adminOf (s : St) (a : String) : Option Nat := (s.admins.find? fun x => x.1 = a).map (·.2)

/-- Lookup in `rack_locations_`. -/
def St.trackOf (s : St) (p : Nat) (n : String) : Option Nat := (s.known.find? fun x => x.1 = (p, n)).map (·.2)

/-- `stamm::resolve_provider`, `stamm.cc:91-110`. -/
def resolveProvider (s : St) (a : String) : St × Nat :=
  match s.adminOf a with
  | some i => (s, i)
  | none =>
    ({ s with providers := s.providers ++ [a], admins := (a, s.providers.length) :: s.admins }, s.providers.length)

/-- `get_or_create` of the track, `track.cc:46-59`. -/
def getTrack (s : St) (p : Nat) (n : String) : St × Nat :=
  match s.trackOf p n with
  | some t => (s, t)
  | none =>
    ({ s with
        locs := s.locs ++ [some (p, n)]
        known := ((p, n), s.locs.length) :: s.known
        children := fun x => if x = p then s.children x ++ [s.locs.length] else s.children x }, s.locs.length)

/-- One line, `track.cc:21-64`. -/
def step (locationOf : Nat → Option Nat) (s : St) (l : Line) : St :=
  let r := resolveProvider s l.admin
  match locationOf l.eva with
  | none => r.1
  | some p =>
    let t := getTrack r.1 p l.track
    { t.1 with rules := fun k =>
        if k = ⟨p, l.trainNum, r.2⟩ then t.1.rules k ++ [⟨l.bitfield, t.2, l.mam⟩] else t.1.rules k }

/-- `parse_track_rules`. -/
def parse (locationOf : Nat → Option Nat) (s : St) (lines : List Line) : St := lines.foldl (step locationOf) s

end Nigiri.HrdTracks
