import Verif.Model.RaptorAlgo
import Verif.Spec.Network
/-!
# Specification of a query: trips from the origin to the destination
-/

namespace Nigiri.EndToEnd
open Nigiri.Raptor Nigiri.Search Nigiri.StartTimes

/-- Minutes from the midnight of the base day on (backward search: before it). -/
def rel (d : Dir) (N : Net) (T : Int) : Int := match d with
  | .fwd => T - N.base * 1440
  | .bwd => N.base * 1440 - T

/-- A trip of the traveller: leave the origin at `T`, reach one of the start locations after its offset, ride `j`
vehicles, reach the destination at `A`.  (Backward search: be at the end of the trip at `T`, having left its
beginning at `A`.) -/
def Trip (d : Dir) (N : Net) (entries : List (Loc × Int)) (T : Int) (j : Nat) (A : Int) : Prop :=
  ∃ l x, (l, x) ∈ entries ∧ Journey d N j l (rel d N T + x) (rel d N A)

/-- A query of the search driver with RAPTOR and constant start offsets. -/
structure Setup (d : Dir) (N : Net) (n : Nat) (entries : List (Loc × Int)) (maxOff : Int) (E : Env Raptor.State) : Prop where
  /-- the timetable is sane and its routes do not overtake -/
  net : NetOk N
  fifo : NetFifo N
  /-- the lower bounds are those of C22 -/
  lb : ∀ T0 W, W ≤ T0 + 7200 → LbOk d N T0 W
  /-- the algorithm is RAPTOR and the reconstruction of a journey does not fail -/
  algo : ∃ rec, E.algo = raptorAlgo d N n rec ∧ ∀ s j, rec s j = true
  starts : ∀ st b l, E.starts st b l = getStarts d N st entries [] maxOff b l
  offsets : ∀ e ∈ entries, 0 ≤ e.2 ∧ e.2 ≤ maxOff ∧ e.2 ≠ 511 ∧ N.isDest e.1 = false
  offNonneg : 0 ≤ maxOff
  travel : 0 ≤ E.q.maxTravel ∧ E.q.maxTravel ≤ 7200 ∧ 0 ≤ E.direct
  /-- backward search: no trip takes zero minutes -/
  takes : d = .bwd → ∀ T j A, Trip d N entries T j A → T ≠ A
  /-- all times are in the range of the 16 bit times -/
  fits : ∀ T, E.q.startIv.from' - 3601 ≤ T → T ≤ E.q.startIv.to' + 3600 → d.lo < rel d N T ∧ rel d N T + 7201 + maxOff < d.hi

/-- If the interval may be extended: the query's interval is in the limits, and there is only one start location or
the interval is not extended on the side that is searched last (see `C27_extension_counterexample`). -/
structure Extendable (d : Dir) (entries : List (Loc × Int)) (E : Env Raptor.State) : Prop where
  timetable : E.tt.ext.from' ≤ E.q.startIv.from' ∧ E.q.startIv.to' ≤ E.tt.ext.to'
  max : ∀ m, E.q.maxIv = some m → m.from' ≤ E.q.startIv.from' ∧ E.q.startIv.to' ≤ m.to'
  size : E.q.startIv.to' - E.q.startIv.from' ≤ 14 * 1440
  order : entries.length ≤ 1 ∨ (match d with | .fwd => E.q.extEarlier = false | .bwd => E.q.extLater = false)

end Nigiri.EndToEnd
