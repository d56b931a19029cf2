import Verif.Spec.Network
import Verif.Props.WriteTrips
/-!
# Specification: journeys with the services of a feed

`E` gives the footpaths, the destinations and the parameters of the query; its routes are not used.
-/

namespace Nigiri.FeedNet

open Raptor hiding Stop Route FlagData
open WriteTrips

/-- Passengers may board, passengers with a wheelchair with it. -/
def MayGetOn (wheelchair : Bool) (s : Stop) : Prop := if wheelchair = true then s.inW = true else s.inA = true
def MayGetOff (wheelchair : Bool) (s : Stop) : Prop := if wheelchair = true then s.outW = true else s.outA = true

/-- A ride with service `s` of the feed on `day`, from its stop `i` to its stop `j`: the class of the service is
allowed, the trip of every section in between has the required flags. -/
structure ServiceRide {B : Type} (f : Feed) (E : Net) (s : UtcTrip B) (day : Int) (x : Loc) (tdep : Int) (y : Loc) (tarr : Int)
    (st : List Stop) (i j : Nat) (si sj : Stop) (dep arr : Nat) : Prop where
  stops : getStopSeq f s = some st
  lt : i < j
  from_ : st[i]? = some si
  to_ : st[j]? = some sj
  board : si.loc = x ∧ MayGetOn E.wheelchair si
  alight : sj.loc = y ∧ MayGetOff E.wheelchair sj
  clasz : E.claszMask.testBit (classOf f s) = true
  flags : ∀ (k : Nat) (sec : Nat × Nat), i ≤ k → k < j → (sections f s.trips)[k]? = some sec → ∀ g : Nat, E.required[g]? = some true → (f.trip sec.1).flag g = true
  dep : s.times[2 * i]? = some dep ∧ tdep = (day - E.base) * 1440 + dep
  arr : s.times[2 * j - 1]? = some arr ∧ tarr = (day - E.base) * 1440 + arr

/-- A ride with a service of the feed on one of its days. -/
def FeedRide {B : Type} (f : Feed) (ss : List (UtcTrip B)) (active : B → Int → Bool) (E : Net) (x : Loc) (tdep : Int) (y : Loc)
    (tarr : Int) : Prop :=
  ∃ s ∈ ss, ∃ day, active s.days day = true ∧ ∃ st i j si sj dep arr, ServiceRide f E s day x tdep y tarr st i j si sj dep arr

/-- As `Raptor.RideDir`, for any kind of ride (from, departure, to, arrival). -/
def RideBy (d : Dir) (ride : Loc → Int → Loc → Int → Prop) (l : Loc) (t : Int) (m : Loc) (a : Int) : Prop :=
  match d with
  | .fwd => ∃ dep, t ≤ dep ∧ ride l dep m a
  | .bwd => ∃ arr, arr ≤ -t ∧ ride m (-a) l arr

/-- A journey with `n` rides, see `Raptor.Journey`. -/
inductive JourneyBy (d : Dir) (E : Net) (ride : Loc → Int → Loc → Int → Prop) : Nat → Loc → Int → Int → Prop
  | last {l t m a A} : RideBy d ride l t m a → Arrive E m a A → JourneyBy d E ride 1 l t A
  | more {n l t m a l' t' A} : RideBy d ride l t m a → Walk E m a l' t' → JourneyBy d E ride n l' t' A →
      JourneyBy d E ride (n + 1) l t A

/-- A journey from one of the start events with at most `j` rides that arrives by `A`. -/
def PossibleBy (d : Dir) (E : Net) (ride : Loc → Int → Loc → Int → Prop) (qs : List Start) (j : Nat) (A : Int) : Prop :=
  ∃ q ∈ qs, ∃ x ∈ q.starts, ∃ j' A', j' ≤ j ∧ A' ≤ A ∧ JourneyBy d E ride j' x.1 x.2 A'

/-- The event times of the services do not decrease. -/
def TimesSorted {B : Type} (ss : List (UtcTrip B)) : Prop := ∀ s ∈ ss, s.times.Pairwise (· ≤ ·)

/-- Services with the same stops pass midnight at the same events. -/
def SameMidnights {B : Type} (f : Feed) (ss : List (UtcTrip B)) : Prop :=
  ∀ s ∈ ss, ∀ s' ∈ ss, getStopSeq f s = getStopSeq f s' → ∀ (i x y : Nat), s.times[i]? = some x → s'.times[i]? = some y → x / 1440 = y / 1440

/-- The stops of the services are known, and the end of an intermodal query is not one of them. -/
def StopsOk {B : Type} (f : Feed) (ss : List (UtcTrip B)) (E : Net) : Prop :=
  ∀ s ∈ ss, ∀ st, getStopSeq f s = some st → ∀ x ∈ st, x.loc < E.nLoc ∧ (E.intermodal = true → x.loc ≠ E.endLoc)

end Nigiri.FeedNet
