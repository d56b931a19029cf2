import Verif.Spec.Network
import Verif.Model.RaptorVia
/-!
# Specification: journeys that visit via stops

What it means that a journey visits the via stops in order and stays there.  Independent of the search.  Times are
relative to the base day and negated for a backward search, in which a journey is described from its end (as in
`Verif.Spec.Network`).
-/

namespace Nigiri.RaptorVia
open Nigiri.Raptor

/-- Being at a stop from one time to another. -/
structure Presence where
  loc : Loc
  since : Int
  till : Int
deriving DecidableEq, Repr

/-- A presence that counts as a visit of the via stop: at one of its locations for at least the stay. -/
def Visit (via : ViaStop) (p : Presence) : Prop := via.isVia p.loc = true ∧ p.since + via.stay ≤ p.till

/-- The via stops are visited one after the other by presences in the order of the journey. -/
def InOrder : List ViaStop → List Presence → Prop
  | [], _ => True
  | _ :: _, [] => False
  | via :: vs, p :: ps => (Visit via p ∧ InOrder vs ps) ∨ InOrder (via :: vs) ps

/-- The calls of a vehicle strictly between two of its stops. -/
def calls (stops : List StopData) (dep arr : Nat → Int) (i j : Nat) : List Presence :=
  (List.range' (i + 1) (j - i - 1)).map fun x => ⟨(stops.getD x ⟨0, false, false, false, false⟩).loc, arr x, dep x⟩

/-- A ride as in `VehicleRide`, with the stops passed on the way. -/
def VehicleRideVia (N : Net) (stops : List StopData) (clasz : Nat) (secFlags : List (List Bool)) (dep arr : Nat → Int)
    (x : Loc) (tdep : Int) (y : Loc) (tarr : Int) (mid : List Presence) : Prop :=
  N.claszMask.testBit clasz = true ∧
  ∃ (i j : Nat) (si sj : StopData), i < j ∧ stops[i]? = some si ∧ stops[j]? = some sj ∧ si.loc = x ∧ sj.loc = y ∧
    MayBoard N.wheelchair si ∧ MayAlight N.wheelchair sj ∧
    (∀ s, i ≤ s → s < j → SectionPermitted N.required secFlags s) ∧ tdep = dep i ∧ tarr = arr j ∧
    mid = calls stops dep arr i j

/-- A ride as in `NetRide`, with the stops passed on the way. -/
def NetRideVia (N : Net) (x : Loc) (tdep : Int) (y : Loc) (tarr : Int) (mid : List Presence) : Prop :=
  (∃ r ∈ N.routes, ∃ (t : Nat) (day : Int), t < r.nTr ∧ r.days t day = true ∧
    VehicleRideVia N r.stops r.clasz r.secFlags (fun i => (day - N.base) * 1440 + r.dep t i)
      (fun i => (day - N.base) * 1440 + r.arr t i) x tdep y tarr mid) ∨
  (∃ r ∈ N.rts, VehicleRideVia N r.stops r.clasz r.secFlags r.dep r.arr x tdep y tarr mid)

/-- The same presence seen from a backward search. -/
def Presence.flip (p : Presence) : Presence := ⟨p.loc, -p.till, -p.since⟩

/-- A ride as in `RideDir`, with the stops passed on the way. -/
def RideVia (d : Dir) (N : Net) (l : Loc) (t : Int) (m : Loc) (a : Int) (mid : List Presence) : Prop :=
  match d with
  | .fwd => ∃ dep, t ≤ dep ∧ NetRideVia N l dep m a mid
  | .bwd => ∃ arr, arr ≤ -t ∧ NetRideVia N m (-a) l arr (mid.map Presence.flip).reverse

/-- A journey up to the point of being ready at a location at a time after some rides, with all presences on the way.
`before l` is the time spent at a start location before the start event.  After alighting one may stay as long as one
likes, continue from the same station after its transfer time, or walk. -/
inductive ViaReach (d : Dir) (N : Net) (before : Loc → Int) (starts : List (Loc × Int)) : Nat → Loc → Int → List Presence → Prop
  | start {l t} : (l, t) ∈ starts → ViaReach d N before starts 0 l t [⟨l, t - before l, t⟩]
  | change {k l t m a mid t' T} : ViaReach d N before starts k l t T → RideVia d N l t m a mid → a + N.transfer m ≤ t' →
      ViaReach d N before starts (k + 1) m t' (T ++ mid ++ [⟨m, a, a⟩, ⟨m, a, t'⟩])
  | walk {k l t m a mid a1 l' w t' T} : ViaReach d N before starts k l t T → RideVia d N l t m a mid → a ≤ a1 →
      (l', w) ∈ N.fps m a1 → a1 + w ≤ t' →
      ViaReach d N before starts (k + 1) l' t' (T ++ mid ++ [⟨m, a, a⟩, ⟨m, a, a1⟩, ⟨l', a1 + w, t'⟩])
  | dest {k l t m a mid t' T} : ViaReach d N before starts k l t T → RideVia d N l t m a mid → N.intermodal = false →
      N.isDest m = true → a ≤ t' → ViaReach d N before starts (k + 1) m t' (T ++ mid ++ [⟨m, a, a⟩, ⟨m, a, t'⟩])
  | lastMile {k l t m a mid a1 w T} : ViaReach d N before starts k l t T → RideVia d N l t m a mid → N.intermodal = true →
      a ≤ a1 → (N.endDist m = some w ∨ N.endTd m a1 = some w) →
      ViaReach d N before starts (k + 1) N.endLoc (a1 + w) (T ++ mid ++ [⟨m, a, a⟩, ⟨m, a, a1⟩])

end Nigiri.RaptorVia
