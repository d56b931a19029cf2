import Verif.Model.OptimizeFootpaths
import Verif.Spec.Network
/-!
# Specification: itineraries

What the list of legs of a journey has to satisfy for a passenger to be able to follow it, in plain times and
in travel order.  Independent of the search and of reconstruction.
-/

namespace Nigiri.Raptor

def Leg.isRide (x : Leg) : Bool := match x.uses with | .ride .. => true | _ => false

/-- The leg rides a vehicle with these stops and times from its stop number `i` to its stop number `j`: its
class is allowed, boarding and alighting are allowed, every section in between has the required flags. -/
def VehicleLeg (N : Net) (stops : List StopData) (clasz : Nat) (secFlags : List (List Bool)) (dep arr : Nat → Int)
    (i j : Nat) (x : Leg) : Prop :=
  N.claszMask.testBit clasz = true ∧
  ∃ (si sj : StopData), i < j ∧ stops[i]? = some si ∧ stops[j]? = some sj ∧ si.loc = x.fr ∧ sj.loc = x.to ∧
    MayBoard N.wheelchair si ∧ MayAlight N.wheelchair sj ∧
    (∀ s, i ≤ s → s < j → SectionPermitted N.required secFlags s) ∧ x.dep = dep i ∧ x.arr = arr j

/-- The leg is a ride with a trip on one of its days of operation or with a real-time transport. -/
def RideLeg (N : Net) (v : Vehicle) (i j : Nat) (x : Leg) : Prop :=
  match v with
  | .trip r t day => ∃ rd, N.routes[r]? = some rd ∧ t < rd.nTr ∧ rd.days t day = true ∧
      VehicleLeg N rd.stops rd.clasz rd.secFlags (fun i => (day - N.base) * 1440 + rd.dep t i)
        (fun i => (day - N.base) * 1440 + rd.arr t i) i j x
  | .rt r => ∃ rd, N.rts[r]? = some rd ∧ VehicleLeg N rd.stops rd.clasz rd.secFlags rd.dep rd.arr i j x

/-- The leg is a transfer at a station or a footpath, and takes exactly its time (the first walk of an ontrip
query may take longer). -/
def WalkLeg (d : Dir) (N : Net) (ontrip : Bool) (w : Int) (x : Leg) : Prop :=
  0 ≤ w ∧ (x.arr = x.dep + w ∨ (ontrip = true ∧ x.dep + w ≤ x.arr)) ∧
  ((x.fr = x.to ∧ w = N.transfer x.fr) ∨
   match d with
   | .fwd => (x.to, w) ∈ N.fps x.fr x.dep
   | .bwd => (x.fr, w) ∈ N.fps x.to (-x.arr))

/-- The location and duration belong to one of the query's offsets. -/
def HasOffset (offs : List (List Loc × Int)) (l : Loc) (w : Int) : Prop := ∃ ls, (ls, w) ∈ offs ∧ l ∈ ls

/-- The last mile of the search (the first mile of the journey in a backward search): between the end point and
one of the query's destination offsets. -/
def EndMile (d : Dir) (N : Net) (Q : RcData) (w : Int) (x : Leg) : Prop :=
  N.intermodal = true ∧ x.arr = x.dep + w ∧
  match d with
  | .fwd => x.to = N.endLoc ∧ HasOffset Q.dests x.fr w
  | .bwd => x.fr = N.endLoc ∧ HasOffset Q.dests x.to w

/-- The first mile of the search. -/
def StartMile (d : Dir) (Q : RcData) (w : Int) (x : Leg) : Prop :=
  Q.startIntermodal = true ∧ x.arr = x.dep + w ∧
  match d with
  | .fwd => x.fr = Q.startLoc ∧ HasOffset Q.offs x.to w
  | .bwd => x.to = Q.startLoc ∧ HasOffset Q.offs x.fr w

def LegOk (d : Dir) (N : Net) (Q : RcData) (x : Leg) : Prop :=
  match x.uses with
  | .ride v i j => RideLeg N v i j x
  | .foot w => WalkLeg d N Q.ontrip w x
  | .offset w => EndMile d N Q w x ∨ StartMile d Q w x

/-- Consecutive legs meet, the second does not leave before the first has arrived, and rides alternate with
walks. -/
def Joined (x y : Leg) : Prop := x.to = y.fr ∧ x.arr ≤ y.dep ∧ x.isRide ≠ y.isRide

/-- The location at which the journey may begin (forward) or end (backward). -/
def StartAt (Q : RcData) (l : Loc) : Prop := if Q.startIntermodal = true then l = Q.startLoc else Q.isStart l = true

/-- An itinerary with `K` rides.  Forward: from a start of the query, not before `s`, to `dest`, not after `A`.
Backward (times negated): to a start of the query, not after `-s`, from `dest`, not before `-A`. -/
structure Itinerary (d : Dir) (N : Net) (Q : RcData) (s : Int) (K : Nat) (dest : Loc) (A : Int) (legs : List Leg) : Prop where
  ok : ∀ x ∈ legs, LegOk d N Q x
  joined : ∀ pre x y post, legs = pre ++ x :: y :: post → Joined x y
  rides : (legs.filter Leg.isRide).length = K
  first : ∃ x, legs.head? = some x ∧ match d with
    | .fwd => s ≤ x.dep ∧ StartAt Q x.fr
    | .bwd => -A ≤ x.dep ∧ x.fr = dest
  last : ∃ x, legs.getLast? = some x ∧ match d with
    | .fwd => x.arr ≤ A ∧ x.to = dest
    | .bwd => x.arr ≤ -s ∧ StartAt Q x.to

/-! ## Conditions for reconstruction

For passengers without a wheelchair both hold, whatever the timetable is. -/

/-- A stop of a vehicle of the timetable. -/
def Net.HasStop (N : Net) (s : StopData) : Prop := (∃ r ∈ N.routes, s ∈ r.stops) ∨ ∃ r ∈ N.rts, s ∈ r.stops

/-- Wherever others may board or alight, the passenger of the query may. -/
def OpenStops (N : Net) : Prop :=
  ∀ s, N.HasStop s → (s.inAllowed = true → MayBoard N.wheelchair s) ∧ (s.outAllowed = true → MayAlight N.wheelchair s)

/-- Wherever the passenger of the query may board or alight, others may. -/
def NoSpecialStops (N : Net) : Prop :=
  ∀ s, N.HasStop s → (MayBoard N.wheelchair s → s.inAllowed = true) ∧ (MayAlight N.wheelchair s → s.outAllowed = true)

/-! ## Conditions for the optimisation of footpaths -/

/-- The flags of the sections of a vehicle. -/
def Net.vFlags (N : Net) : Vehicle → List (List Bool)
  | .trip r _ _ => match N.routes[r]? with | none => [] | some rd => rd.secFlags
  | .rt r => match N.rts[r]? with | none => [] | some rd => rd.secFlags

/-- The requirements of the query (wheelchair, bicycle, ...) do not restrict the use of the vehicle. -/
def Unrestricted (N : Net) (v : Vehicle) : Prop :=
  (∀ s ∈ N.vStops v, (s.inAllowed = true → MayBoard N.wheelchair s) ∧ (s.outAllowed = true → MayAlight N.wheelchair s)) ∧
  ∀ x, x + 1 < (N.vStops v).length → SectionPermitted N.required (N.vFlags v) x

/-- There is a footpath from `a` to `b` of `w` minutes (at any time). -/
def Footpath (d : Dir) (N : Net) (a b : Loc) (w : Int) : Prop :=
  0 ≤ w ∧ ∀ t, match d with | .fwd => (b, w) ∈ N.fps a t | .bwd => (a, w) ∈ N.fps b t

/-- The data of the optimisation and of the search belong together; default transfer time settings; the end points
of intermodal queries are not stops. -/
structure OptOk (d : Dir) (N : Net) (Q : RcData) (D : OptData) : Prop where
  startOffs : ∀ o ∈ D.startOffs, HasOffset (match d with | .fwd => Q.offs | .bwd => Q.dests) o.1 o.2
  destOffs : ∀ o ∈ D.destOffs, HasOffset (match d with | .fwd => Q.dests | .bwd => Q.offs) o.1 o.2
  fpsOut : ∀ a b w, (b, w) ∈ D.fpsOut a → Footpath d N a b w
  fpsIn : ∀ a b w, (a, w) ∈ D.fpsIn b → Footpath d N a b w
  adj : ∀ w, D.adj w = w
  startStop : Q.startIntermodal = true → ∀ v, ∀ s ∈ N.vStops v, s.loc ≠ Q.startLoc
  endStop : N.intermodal = true → ∀ v, ∀ s ∈ N.vStops v, s.loc ≠ N.endLoc

end Nigiri.Raptor
