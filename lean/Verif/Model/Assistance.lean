import Verif.Model.WriteTrips
import Verif.Model.LocalToUtc
/-!
# Assistance for wheelchair users

Model of `expand_assistance`, `include/nigiri/loader/gtfs/local_to_utc.h:277-334`, and of
`assistance_times`, `include/nigiri/loader/assistance.h:18-37`, `src/loader/assistance.cc:14-43`.

Simplifications: a trip without a valid stop sequence gives `none` even if it has no day of service; days are
counted from the first internal day of the timetable, times are minutes without bound; the radius search is a
parameter; opening hours are a predicate on local minutes; the hash map is an association list in order of
insertion, and its iteration order is that order (the results are a set).
-/

namespace Nigiri.Assistance
open WriteTrips (Stop UtcTrip Feed getStopSeq)

/-- The loop over pairs of stops of one day, `local_to_utc.h:291-318`; `base + time` is the time looked up. -/
def markPairs (avail : Nat → Int → Bool) (base : Int) : List Stop → List Nat → List Stop
  | a :: b :: r, dep :: arr :: ts =>
    { a with inW := a.inW && avail a.loc (base + dep) } ::
      markPairs avail base ({ b with outW := b.outW && avail b.loc (base + arr) } :: r) ts
  | l, _ => l

/-- `day + offset` in minutes, `local_to_utc.h:286-297`. -/
def lookupBase (s : UtcTrip Bitfield) (day : Nat) : Int := (day : Int) * 1440 + (s.firstDep * 1440 + s.tz)

/-- The stops on day `day`. -/
def stopsOn (avail : Nat → Int → Bool) (s : UtcTrip Bitfield) (stops : List Stop) (day : Nat) : List Stop :=
  markPairs avail (lookupBase s day) stops s.times

abbrev Map := List (List Stop × Bitfield)

/-- `assistance_traffic_days`, `prev_key`, `prev_it` (`none` is `end()`). -/
structure St where
  map : Map
  prevKey : List Stop
  prevIt : Option (List Stop)

/-- `->second.set(day)`. -/
def setIn (k : List Stop) (d : Nat) : Map → Map
  | [] => []
  | (k', b) :: m => if k' = k then (k', LocalToUtc.setBit b d) :: m else (k', b) :: setIn k d m

/-- `emplace(stop_seq, bitfield{})`. -/
def emplace (k : List Stop) (m : Map) : Map := if m.any (fun x => x.1 = k) then m else m ++ [(k, fun _ => false)]

/-- One day, `local_to_utc.h:286-325`. -/
def step (key : Nat → List Stop) (st : St) (d : Nat) : Option St :=
  if key d = st.prevKey then
    match st.prevIt with
    | none => none
    | some k => some { st with map := setIn k d st.map }
  else some { map := setIn (key d) d (emplace (key d) st.map), prevKey := key d, prevIt := some (key d) }

/-- `for_each_set_bit`, `local_to_utc.h:286`. -/
def loop (key : Nat → List Stop) : St → List Nat → Option St
  | st, [] => some st
  | st, d :: ds => match step key st d with
    | none => none
    | some st' => loop key st' ds

/-- `expand_assistance`, `local_to_utc.h:277-334`. -/
def expand (avail : Nat → Int → Bool) (f : Feed) (s : UtcTrip Bitfield) : Option (List (UtcTrip Bitfield)) :=
  match getStopSeq f s with
  | none => none
  | some stops =>
    (loop (stopsOn avail s stops) ⟨[], [], none⟩ ((List.range kMaxDays).filter s.days)).map fun st =>
      st.map.map fun (k, b) => { s with days := b, stopSeq := k }

/-- A row of the file: position and opening hours (`none`: cannot be parsed). -/
structure Row (P : Type) where
  pos : P
  rule : Option (Int → Bool)

/-- `assistance_times`. -/
structure Times (P : Type) where
  pos : List P
  rules : List (Int → Bool)

/-- `read_assistance`, `assistance.cc:14-43`. -/
def read {P : Type} (rows : List (Row P)) : Times P :=
  rows.foldl (fun a r => ⟨a.pos ++ [r.pos], match r.rule with | some x => a.rules ++ [x] | none => a.rules⟩) ⟨[], []⟩

/-- `is_available`, `assistance.h:19-28`; `near l` is the first station in the radius. Outer `none`: the access
`rules_[a]` is out of range. -/
def isAvailable {P : Type} (a : Times P) (near : Nat → Option Nat) (l : Nat) (t : Int) : Option Bool :=
  match near l with
  | none => some false
  | some i => (a.rules[i]?).map fun r => r t

end Nigiri.Assistance
