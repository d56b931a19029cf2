/-!
# Assignment of trips to routes

Model of `get_index`, `include/nigiri/loader/get_index.h:8-33`, and of the insertion loop of
`add_expanded_trip`, `src/loader/gtfs/load_timetable.cc:291-310` (for one route key, i.e. for trips
with the same stop sequence, class and flags, hence the same number of events).

A trip is its list of UTC event times in minutes (`utc_times_`, non-negative by `C15_monotone`).
-/

namespace Nigiri.RouteInsert

abbrev Times := List Nat

/-- Minute of day of event `i` (`.at(i) % 1440`; equal lengths make the access valid). -/
def mam (t : Times) (i : Nat) : Nat := t.getD i 0 % 1440

/-- `std::lower_bound` with the comparison of the first departures, `get_index.h:11-17`.  On a range
that is sorted by the first departure (an invariant, see `C17_sorted`) it is the length of the prefix
of smaller elements. -/
def lowerBound (route : List Times) (s : Times) : Nat :=
  (route.takeWhile fun a => mam a 0 < mam s 0).length

/-- `get_index`, `get_index.h:8-33`. -/
def getIndex (route : List Times) (s : Times) : Option Nat :=
  let index := lowerBound route s
  let bad := (List.range s.length).any fun i =>
    (decide (index > 0) && decide (mam s i < mam (route.getD (index - 1) []) i)) ||
    (decide (index < route.length) && decide (mam s i > mam (route.getD index []) i))
  if bad then none else some index

/-- `r.insert(next(begin(r), idx), s)`. -/
def insertAt (route : List Times) (idx : Nat) (s : Times) : List Times :=
  route.take idx ++ s :: route.drop idx

/-- The loop over the routes of the key, `load_timetable.cc:293-301`: first route that accepts,
otherwise a new route. -/
def addTrip : List (List Times) → Times → List (List Times)
  | [], s => [[s]]
  | r :: rs, s => match getIndex r s with
    | some idx => insertAt r idx s :: rs
    | none => r :: addTrip rs s

/-- All trips of one key in the order in which they are added. -/
def addAll (trips : List Times) : List (List Times) := trips.foldl addTrip []

end Nigiri.RouteInsert
