import Verif.Model.Calendar
/-!
# Metrics of the feeds of a timetable

Model of `get_metrics` (`src/timetable_metrics.cc:19-66`).
-/

namespace Nigiri.Metrics

/-- What the function reads.  `locSrc`: source of each location (`none`: invalid); `ids`: source and trip
of each entry of `trip_id_to_idx_`; `ranges`: transports of a trip; `days`: traffic days of a transport;
`flex`: trip and traffic days of each flex transport; `tripIds`: the sources of the ids of a trip. -/
structure Input where
  locSrc : List (Option Nat)
  ids : List (Nat × Nat)
  ranges : Nat → List Nat
  days : Nat → Bitfield
  flex : List (Nat × Bitfield)
  tripIds : Nat → List Nat

/-- `timetable_metrics::feed`, `timetable_metrics.h`. -/
structure Feed where
  first : Nat := 65535
  last : Nat := 0
  locations : Nat := 0
  trips : Nat := 0
  transportDays : Nat := 0
deriving Repr, DecidableEq

/-- `transport_day_metrics`, timetable_metrics.cc:20-29: first day, last day, number of days. -/
def dayMetric (b : Bitfield) : Nat × Nat × Nat :=
  ((List.range kMaxDays).filter b).foldl (fun m d => (min m.1 d, max m.2.1 d, m.2.2 + 1)) (65535, 0, 0)

/-- The union at timetable_metrics.cc:45-48. -/
def tripDays (x : Input) (trip : Nat) : Bitfield :=
  (x.ranges trip).foldl (fun b t d => b d || x.days t d) Bitfield.empty

/-- `m.feeds_[src]` changed. -/
def upd (m : Nat → Feed) (src : Nat) (f : Feed → Feed) : Nat → Feed := fun s => if s = src then f (m s) else m s

/-- timetable_metrics.cc:51-53 and `:61-63`. -/
def addDays (t : Nat × Nat × Nat) (f : Feed) : Feed :=
  { f with first := min f.first t.1, last := max f.last t.2.1, transportDays := f.transportDays + t.2.2 }

/-- The loop over the locations, timetable_metrics.cc:34-39. -/
def locLoop (m : Nat → Feed) (l : List (Option Nat)) : Nat → Feed :=
  l.foldl (fun m s => match s with
    | none => m
    | some s => upd m s fun f => { f with locations := f.locations + 1 }) m

/-- The loop over the trips, timetable_metrics.cc:43-54. -/
def tripLoop (x : Input) (m : Nat → Feed) (l : List (Nat × Nat)) : Nat → Feed :=
  l.foldl (fun m e => upd m e.1 fun f => addDays (dayMetric (tripDays x e.2)) { f with trips := f.trips + 1 }) m

/-- The loop over the flex transports, timetable_metrics.cc:57-66. -/
def flexLoop (x : Input) (m : Nat → Feed) (l : List (Nat × Bitfield)) : Nat → Feed :=
  l.foldl (fun m e => (x.tripIds e.1).foldl (fun m src => upd m src (addDays (dayMetric e.2))) m) m

/-- `get_metrics`. -/
def getMetrics (x : Input) : Nat → Feed := flexLoop x (tripLoop x (locLoop (fun _ => {}) x.locSrc) x.ids) x.flex

end Nigiri.Metrics
