import Verif.Model.RaptorConcrete
import Verif.Model.Calendar
/-!
# Days of a route

Model of `rebuild_route_traffic_days` (`src/loader/init_finish.cc:168-198`) and of
`timetable::is_route_active` (`include/nigiri/timetable.h:151-153`) on stored bitfields, that is
with the 512 bits a `bitfield` has; `maxDayDelta` is the loop at init_finish.cc:178-188.
-/

namespace Nigiri.RouteDays
open Nigiri.Raptor

/-- `bitset<512>::operator<<`: bits pushed past the end are lost. -/
def shiftLeft (b : Bitfield) (d : Nat) : Bitfield := fun i => decide (i < kMaxDays) && decide (d ≤ i) && b (i - d)

/-- `bitset<512>::operator|=`. -/
def orBits (a b : Bitfield) : Bitfield := fun i => a i || b i

/-- `bitset<512>::test(i)`, `false` from bit 512 on (cista's `bitset::test`). -/
def test (b : Bitfield) (i : Nat) : Bool := if i ≥ kMaxDays then false else b i

/-- The loop over the day offsets of one transport, init_finish.cc:190-193. -/
def addTransport (tb : Bitfield) (maxDelta : Nat) (combined : Bitfield) : Bitfield :=
  (List.range (maxDelta + 1)).foldl (fun c d => orBits c (shiftLeft tb d)) combined

/-- The bitfield stored for a route, init_finish.cc:171-197; `tb t` is the traffic day bitfield of its
`t`-th transport. -/
def storedDays (r : RouteData) (tb : Nat → Bitfield) : Bitfield :=
  (List.range r.nTr).foldl (fun c t => addTransport (tb t) (maxDayDelta r t) c) Bitfield.empty

/-- `timetable::is_route_active(r, day)`, timetable.h:151-153. -/
def isRouteActive (r : RouteData) (tb : Nat → Bitfield) (day : Nat) : Bool := test (storedDays r tb) day

end Nigiri.RouteDays
