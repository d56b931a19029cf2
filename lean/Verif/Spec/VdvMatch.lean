import Verif.Model.VdvMatch

/-!
# When a run of the timetable is meant by a message

Uses only the data types of the model.
-/

namespace Nigiri.Vdv.Spec

open Nigiri.Rt Nigiri.Vdv

/-- The reported event which is compared at stop `i` of `n` stops: at the first stop the departure, at the
last stop the arrival, in between the departure if reported, otherwise the arrival. -/
def Compared (v : VStop) (i n : Nat) (arr : Bool) (t : Int) : Prop :=
  if i = 0 then arr = false ∧ v.dep = some t
  else if i + 1 = n then arr = true ∧ v.arr = some t
  else (arr = false ∧ v.dep = some t) ∨ (arr = true ∧ v.dep = none ∧ v.arr = some t)

/-- Run (transport, day) has an event at stop `i` of its route at time `time`: stop, location and time. -/
structure EventOf (tt : MTt) (x : Nat × Int) (r i l : Nat) (arr : Bool) (time : Int) : Prop where
  /-- the run operates -/
  active : tt.active x.1 x.2 = true
  /-- location -/
  loc : (tt.routeSeq r)[i]? = some l
  /-- the transport is the `k`-th of the route, its event time is `k`-th in the list of event times -/
  time : ∃ (k : Nat) (d m : Nat), (tt.trips r)[k]? = some x.1 ∧ (tt.evTimes r i arr)[k]? = some (d, m) ∧
    time = tt.start + (x.2 + d) * 1440 + m

/-- Stop `i` of the run is described by the reported stop up to `dist` minutes; `n` is the number of stops. -/
def NearBy (tt : MTt) (v : VStop) (x : Nat × Int) (i n dist : Nat) : Prop :=
  ∃ (loc l r : Nat) (arr : Bool) (t time : Int), v.loc = some loc ∧ l ∈ tt.equiv loc ∧ r ∈ tt.locRoutes l ∧
    n = (tt.routeSeq r).length ∧ EventOf tt x r i l arr time ∧ Compared v i n arr t ∧ (t - time).natAbs = dist

/-- The tables have one event time per transport, minutes are below 1440, and reported times are not before
the beginning of the timetable. -/
structure MatchOk (tt : MTt) (vs : List VStop) : Prop where
  /-- same number of entries -/
  rows : ∀ (r i : Nat) (arr : Bool), (tt.evTimes r i arr).length = (tt.trips r).length
  /-- minutes after midnight -/
  mam : ∀ (r i : Nat) (arr : Bool) (e : Nat × Nat), e ∈ tt.evTimes r i arr → e.2 < 1440
  /-- times in the timetable -/
  future : ∀ (v : VStop) (t : Int), v ∈ vs → v.dep = some t ∨ v.arr = some t → tt.start ≤ t

/-- Contract of `std::sort`: a permutation, sorted. -/
structure SortOk (sort : List Cand → List Cand) : Prop where
  /-- permutation -/
  perm : ∀ l, (sort l).Perm l
  /-- no element belongs before an earlier one -/
  sorted : ∀ l, (sort l).Pairwise fun a b => Cand.before b a = false

end Nigiri.Vdv.Spec
