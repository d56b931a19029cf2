import Verif.Model.TbQuery
import Verif.Spec.Network
/-!
# Specification of the trip-based search

The timetable of the trip-based search as a network in the sense of `Verif.Spec.Network`, whose `Journey` then says what
a journey is.  Times are minutes after the first internal day.
-/

namespace Nigiri.TB
open Raptor (Loc StopData Net RouteData)

/-- A route: trip `t` runs on day `d` iff the bit is set.  Classes and flags play no role. -/
def Route.data (r : Route) : RouteData where
  stops := r.stops
  nTr := r.nTr
  arr := r.arr
  dep := r.dep
  days := fun t d => decide (0 ≤ d) && (r.bits t).testBit d.toNat
  clasz := 0
  secFlags := []

/-- The network of a timetable, a footpath profile and a query. -/
def net (tt : TT) (prf : Nat) (Q : Query) : Net where
  nLoc := 0
  routes := tt.routes.map Route.data
  rts := []
  base := 0
  wheelchair := false
  claszMask := 1
  required := []
  transfer := fun l => tt.transfer l
  fps := fun l _ => (tt.fpsOut prf l).map fun x => (x.1, (x.2 : Int))
  intermodal := decide (Q.dist ≠ [])
  endDist := fun l => (Q.dist.getD l none).map fun d => (d : Int)
  endTd := fun _ _ => none
  endLoc := 0
  isDest := fun l => decide (l ∈ Q.dests)
  lb := fun _ => none

/-- There is a journey with `n` rides from one of the starts that reaches the destination at `A`. -/
def JourneyFrom (tt : TT) (prf : Nat) (Q : Query) (starts : List (Loc × Nat)) (n : Nat) (A : Int) : Prop :=
  ∃ x ∈ starts, Raptor.Journey .fwd (net tt prf Q) n x.1 (x.2 : Int) A

/-- Walking from `m` to `l` when changing takes `w` minutes: the change time of the station or a footpath. -/
def ChangeWalk (tt : TT) (prf : Nat) (m l : Loc) (w : Nat) : Prop :=
  (l = m ∧ w = tt.transfer m) ∨ (l, w) ∈ tt.fpsOut prf m

/-- The destination is `w` minutes from `m`: `m` is a destination station or a footpath leads to one, or the last mile takes
`w` minutes. -/
def LastWalk (tt : TT) (prf : Nat) (Q : Query) (m : Loc) (w : Nat) : Prop :=
  if Q.dist = [] then (m ∈ Q.dests ∧ w = 0) ∨ ∃ l ∈ Q.dests, (l, w) ∈ tt.fpsOut prf m
  else Q.dist.getD m none = some w

/-- A ride with trip `o` of route `r` that starts on `day`, from its stop `j` at `l`, not before `t`, to its stop `q`. -/
structure Leg (tt : TT) (l : Loc) (t : Int) (r o day j q : Nat) : Prop where
  route : r < tt.routes.length
  trip : o < (tt.route r).nTr
  runs : ((tt.route r).bits o).testBit day = true
  lt : j < q
  len : q < (tt.route r).stops.length
  loc : ((tt.route r).stop j).loc = l
  board : ((tt.route r).stop j).inAllowed = true
  alight : ((tt.route r).stop q).outAllowed = true
  time : t ≤ (day : Int) * 1440 + ((tt.route r).dep o j : Nat)

/-- Timetables for which the trip-based search is complete. -/
structure Regular (tt : TT) (prf : Nat) : Prop where
  /-- the reduction uses the footpaths of the default profile -/
  profile : tt.fpsOut prf = tt.fpsOut 0
  /-- passengers may leave everywhere but at the first stop -/
  alight : ∀ r ∈ tt.routes, ∀ i, 0 < i → i < r.stops.length → (r.stop i).outAllowed = true
  /-- trips of a route do not overtake -/
  aligned : ∀ r ∈ tt.routes, Raptor.Aligned r.data
  /-- no two trips of a route leave the first stop at the same time of day -/
  first : ∀ r ∈ tt.routes, ∀ t t', t < t' → t' < r.nTr → r.dep t 0 % 1440 < r.dep t' 0 % 1440
  times : ∀ r ∈ tt.routes, ∀ t, t < r.nTr → Raptor.TimesOk r.stops.length (fun i => (r.dep t i : Int)) (fun i => (r.arr t i : Int))
  /-- trips end within five days -/
  short : ∀ r ∈ tt.routes, ∀ t, t < r.nTr → ∀ i, i < r.stops.length → r.dep t i < 7200 ∧ r.arr t i < 7200
  days : ∀ r ∈ tt.routes, ∀ t, t < r.nTr → ∀ d, (r.bits t).testBit d = true → d < nBits
  transfer : ∀ l, tt.transfer l ≤ 30000
  fps : ∀ prf l, ∀ x ∈ tt.fpsOut prf l, x.2 ≤ 30000
  /-- the routes of a location are listed -/
  locRoutes : ∀ r i, i < (tt.route r).stops.length → r ∈ tt.locRoutes ((tt.route r).stop i).loc
  /-- footpaths are listed in both directions -/
  fpsIn : ∀ l l' w, (l', w) ∈ tt.fpsOut prf l → (l, w) ∈ tt.fpsIn prf l'
  /-- footpaths are transitively closed -/
  closed : ∀ m l l' w1 w2, (l, w1) ∈ tt.fpsOut prf m → (l', w2) ∈ tt.fpsOut prf l →
    (∃ w3, w3 ≤ w1 + w2 ∧ (l', w3) ∈ tt.fpsOut prf m) ∨ (l' = m ∧ tt.transfer m ≤ w1 + w2)

/-- Queries for which the trip-based search is complete: `starts` are the start events, `T0` is the earliest of their times and
`W` the latest arrival of interest. -/
structure QueryFit (tt : TT) (prf : Nat) (Q : Query) (starts : List (Loc × Nat)) (T0 W : Nat) : Prop where
  /-- walking to another station does not give a shorter way to the destination -/
  dest : ∀ m l w w', (l, w) ∈ tt.fpsOut prf m → LastWalk tt prf Q l w' → ∃ w'', w'' ≤ w + w' ∧ LastWalk tt prf Q m w''
  early : ∀ x ∈ starts, T0 ≤ x.2
  base : 5 ≤ Q.base
  lo : Q.base * 1440 ≤ T0
  hi : T0 < (Q.base + 2) * 1440
  /-- journeys of at most a day -/
  day : W ≤ T0 + 1440
  /-- the destination is not within walking distance of the start -/
  far : ∀ x ∈ starts, ∀ w, ¬ LastWalk tt prf Q x.1 w
  /-- stations within walking distance of a start are starts -/
  walk : ∀ x ∈ starts, ∀ l w, (l, w) ∈ tt.fpsOut prf x.1 → ∀ r o dy j q, Leg tt l ((x.2 + w : Nat) : Int) r o dy j q →
    ∃ t' : Nat, (l, t') ∈ starts ∧ (t' : Int) ≤ (dy : Int) * 1440 + ((tt.route r).dep o j : Nat)
  /-- the lower bounds are admissible -/
  lb : ∀ r o day i0 i A, r < tt.routes.length → o < (tt.route r).nTr → ((tt.route r).bits o).testBit day = true → 0 < i0 → i0 ≤ i →
    i < (tt.route r).stops.length → A ≤ (W : Int) →
    Raptor.Onward .fwd (net tt prf Q) ((tt.route r).stop i).loc ((day : Int) * 1440 + ((tt.route r).arr o i : Nat)) A →
    (day : Int) * 1440 + ((tt.route r).arr o i0 : Nat) + Q.lb ((tt.route r).stop i0).loc ≤ A

end Nigiri.TB
