import Verif.Model.RaptorConcrete
/-!
# Specification: rides and journeys in a timetable

Direction independent description of what a passenger may do, in plain minutes relative to the base day
of the query.  Nothing here refers to the search.
-/

namespace Nigiri.Raptor

/-- Boarding is allowed at the stop (for passengers with a wheelchair: with a wheelchair). -/
def MayBoard (wheelchair : Bool) (s : StopData) : Prop :=
  if wheelchair = true then s.inWheelchair = true else s.inAllowed = true

def MayAlight (wheelchair : Bool) (s : StopData) : Prop :=
  if wheelchair = true then s.outWheelchair = true else s.outAllowed = true

/-- Section `x` has the flag: a single entry counts for all sections. -/
def FlagOn (sec : List Bool) (x : Nat) : Prop := sec.getD (if sec.length = 1 then 0 else x) false = true

/-- All required flags are set on section `x`. -/
def SectionPermitted (required : List Bool) (secFlags : List (List Bool)) (x : Nat) : Prop :=
  ∀ (f : Nat) (sec : List Bool), required[f]? = some true → secFlags[f]? = some sec → FlagOn sec x

/-- A ride with one vehicle from `x`, departing at `tdep`, to `y`, arriving at `tarr`: its class is
allowed, boarding and alighting are allowed, and every section in between has the required flags. -/
def VehicleRide (N : Net) (stops : List StopData) (clasz : Nat) (secFlags : List (List Bool)) (dep arr : Nat → Int)
    (x : Loc) (tdep : Int) (y : Loc) (tarr : Int) : Prop :=
  N.claszMask.testBit clasz = true ∧
  ∃ (i j : Nat) (si sj : StopData), i < j ∧ stops[i]? = some si ∧ stops[j]? = some sj ∧ si.loc = x ∧ sj.loc = y ∧
    MayBoard N.wheelchair si ∧ MayAlight N.wheelchair sj ∧
    (∀ s, i ≤ s → s < j → SectionPermitted N.required secFlags s) ∧ tdep = dep i ∧ tarr = arr j

/-- A ride with a scheduled trip on one of its days of operation or with a real-time transport. -/
def NetRide (N : Net) (x : Loc) (tdep : Int) (y : Loc) (tarr : Int) : Prop :=
  (∃ r ∈ N.routes, ∃ (t : Nat) (day : Int), t < r.nTr ∧ r.days t day = true ∧
    VehicleRide N r.stops r.clasz r.secFlags (fun i => (day - N.base) * 1440 + r.dep t i)
      (fun i => (day - N.base) * 1440 + r.arr t i) x tdep y tarr) ∨
  (∃ r ∈ N.rts, VehicleRide N r.stops r.clasz r.secFlags r.dep r.arr x tdep y tarr)

/-- Forward search: ready at `l` at `t`, ride to `m`, alight at `a`.  Backward search (times negated): due at
`l` at `-t`, a ride that arrives there in time and departs from `m` at `-a`. -/
def RideDir (d : Dir) (N : Net) (l : Loc) (t : Int) (m : Loc) (a : Int) : Prop :=
  match d with
  | .fwd => ∃ dep, t ≤ dep ∧ NetRide N l dep m a
  | .bwd => ∃ arr, arr ≤ -t ∧ NetRide N m (-a) l arr

/-- Changing: transfer time at the station or a footpath. -/
def Walk (N : Net) (m : Loc) (a : Int) (l' : Loc) (t' : Int) : Prop :=
  (l' = m ∧ t' = a + N.transfer m) ∨ ∃ w, (l', w) ∈ N.fps m a ∧ t' = a + w

/-- Reaching the destination after alighting at `m` at `a`: being there, a footpath to it, or the last
mile. -/
def Arrive (N : Net) (m : Loc) (a A : Int) : Prop :=
  if N.intermodal = true then ∃ w, (N.endDist m = some w ∨ N.endTd m a = some w) ∧ A = a + w
  else (N.isDest m = true ∧ A = a) ∨ ∃ l' w, N.isDest l' = true ∧ (l', w) ∈ N.fps m a ∧ A = a + w

/-- A journey with `n` rides from `l`, not before `t`, that reaches the destination at `A`. -/
inductive Journey (d : Dir) (N : Net) : Nat → Loc → Int → Int → Prop
  | last {l t m a A} : RideDir d N l t m a → Arrive N m a A → Journey d N 1 l t A
  | more {n l t m a l' t' A} : RideDir d N l t m a → Walk N m a l' t' → Journey d N n l' t' A → Journey d N (n + 1) l t A

/-- Being at `l` at time `t` after `k` rides, starting from one of `starts`.  At a destination station no
transfer time is needed; the end point of an intermodal query is reached by the last mile. -/
inductive Reach (d : Dir) (N : Net) (starts : List (Loc × Int)) : Nat → Loc → Int → Prop
  | start {l t} : (l, t) ∈ starts → Reach d N starts 0 l t
  | walk {k l t m a l' t'} : Reach d N starts k l t → RideDir d N l t m a → Walk N m a l' t' → Reach d N starts (k + 1) l' t'
  | dest {k l t m a} : Reach d N starts k l t → RideDir d N l t m a → N.intermodal = false → N.isDest m = true →
      Reach d N starts (k + 1) m a
  | lastMile {k l t m a w} : Reach d N starts k l t → RideDir d N l t m a → N.intermodal = true →
      (N.endDist m = some w ∨ N.endTd m a = some w) → Reach d N starts (k + 1) N.endLoc (a + w)

/-- After alighting at `m` at `a` the destination can be reached at `A`. -/
def Onward (d : Dir) (N : Net) (m : Loc) (a A : Int) : Prop :=
  Arrive N m a A ∨ ∃ n l' t', Walk N m a l' t' ∧ Journey d N n l' t' A

/-- The lower bounds of the query are admissible for journeys between `T0` and `W`: never more than the time
a journey to the destination still takes. -/
structure LbOk (d : Dir) (N : Net) (T0 W : Int) : Prop where
  nonneg : ∀ l x, N.lb l = some x → 0 ≤ x
  dest : N.intermodal = false → ∀ l, N.isDest l = true → N.lb l = some 0
  journey : ∀ n l t A, T0 ≤ t → Journey d N n l t A → A ≤ W → ∃ x, N.lb l = some x ∧ t + x ≤ A
  onward : ∀ m a A, T0 ≤ a → Onward d N m a A → A ≤ W → ∃ x, N.lb m = some x ∧ a + x ≤ A
  /-- along a vehicle, in search direction, stops before one from which the destination can be reached have a bound -/
  route : ∀ r ∈ N.routes, ∀ (i j : Nat) (si sj : StopData), d.before i j →
    r.stops[i]? = some si → r.stops[j]? = some sj → ∀ a A, T0 ≤ a → Onward d N sj.loc a A → A ≤ W → N.lb si.loc ≠ none
  rt : ∀ r ∈ N.rts, ∀ (i j : Nat) (si sj : StopData), d.before i j →
    r.stops[i]? = some si → r.stops[j]? = some sj → ∀ a A, T0 ≤ a → Onward d N sj.loc a A → A ≤ W → N.lb si.loc ≠ none

/-- The latest arrival of interest: not after the given bound and at most 7200 minutes after the start. -/
def Start.horizon (q : Start) : Int := min q.worst (q.time + 7200)

/-- A range query: start times in the order in which they are processed, each with its start events and
latest arrival of interest. -/
structure RangeQuery (d : Dir) (N : Net) (qs : List Start) : Prop where
  desc : qs.Pairwise fun q q' => q'.time ≤ q.time ∧ q'.worst ≤ q.worst
  each : ∀ q ∈ qs, d.lo < q.time ∧ q.time ≤ q.worst ∧ q.worst < d.hi ∧
    (∀ x ∈ q.starts, q.time ≤ x.2 ∧ x.2 ≤ d.hi ∧ N.isDest x.1 = false)

/-- Times along a trip do not decrease. -/
def TimesOk (n : Nat) (dep arr : Nat → Int) : Prop :=
  (∀ s, s + 1 < n → dep s ≤ arr (s + 1)) ∧ (∀ s, 0 < s → s + 1 < n → arr s ≤ dep s)

/-- The flag lists have one of the forms accepted by `register_route`. -/
def FlagsOk (n : Nat) (required : List Bool) (secFlags : List (List Bool)) : Prop :=
  secFlags.length = required.length ∧ ∀ sec ∈ secFlags, sec.length = 0 ∨ sec.length = 1 ∨ sec.length + 1 = n

/-- The trips of a route are in the same order at every event and pass midnight at the same events. -/
structure Aligned (r : RouteData) : Prop where
  dep : ∀ t t', t < t' → t' < r.nTr → ∀ s, s + 1 < r.stops.length → r.dep t s % 1440 ≤ r.dep t' s % 1440
  arr : ∀ t t', t < t' → t' < r.nTr → ∀ s, 0 < s → s < r.stops.length → r.arr t s % 1440 ≤ r.arr t' s % 1440
  depDay : ∀ t t', t < r.nTr → t' < r.nTr → ∀ s, s + 1 < r.stops.length → r.dep t s / 1440 = r.dep t' s / 1440
  arrDay : ∀ t t', t < r.nTr → t' < r.nTr → ∀ s, 0 < s → s < r.stops.length → r.arr t s / 1440 = r.arr t' s / 1440

/-- Sanity of a timetable and query. -/
structure NetOk (N : Net) : Prop where
  times : ∀ r ∈ N.routes, ∀ t, t < r.nTr → TimesOk r.stops.length (fun i => (r.dep t i : Int)) (fun i => (r.arr t i : Int))
  rtTimes : ∀ r ∈ N.rts, TimesOk r.stops.length r.dep r.arr
  flags : ∀ r ∈ N.routes, FlagsOk r.stops.length N.required r.secFlags
  rtFlags : ∀ r ∈ N.rts, FlagsOk r.stops.length N.required r.secFlags
  transfer : ∀ l, 0 ≤ N.transfer l
  fps : ∀ l t l' w, (l', w) ∈ N.fps l t → 0 ≤ w
  endDist : ∀ l w, N.endDist l = some w → 0 ≤ w
  endTd : ∀ l t w, N.endTd l t = some w → 0 ≤ w
  locs : ∀ r ∈ N.routes, ∀ s ∈ r.stops, s.loc < N.nLoc
  rtLocs : ∀ r ∈ N.rts, ∀ s ∈ r.stops, s.loc < N.nLoc
  destLocs : ∀ l, N.isDest l = true → l < N.nLoc
  endDest : N.intermodal = true → ∀ l, N.isDest l = true ↔ l = N.endLoc
  endStop : N.intermodal = true → (∀ r ∈ N.routes, ∀ s ∈ r.stops, s.loc ≠ N.endLoc) ∧ (∀ r ∈ N.rts, ∀ s ∈ r.stops, s.loc ≠ N.endLoc)
  endFps : N.intermodal = true → ∀ l t w, (N.endLoc, w) ∉ N.fps l t

/-- Routes do not overtake, and starting a walk earlier does not make it arrive later (walks that wait for
more than the maximal travel time excepted). -/
structure NetFifo (N : Net) : Prop where
  aligned : ∀ r ∈ N.routes, Aligned r
  fps : ∀ l a a' l' w, -32768 < a' → a' ≤ a → a + w ≤ a' + 7200 → (l', w) ∈ N.fps l a → ∃ w', (l', w') ∈ N.fps l a' ∧ a' + w' ≤ a + w
  endTd : ∀ l a a' w, -32768 < a' → a' ≤ a → a + w ≤ a' + 7200 → N.endTd l a = some w → ∃ w', N.endTd l a' = some w' ∧ a' + w' ≤ a + w

end Nigiri.Raptor
