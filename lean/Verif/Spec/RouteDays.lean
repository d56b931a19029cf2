import Verif.Model.RaptorConcrete
import Verif.Model.Calendar
/-!
# Days of a route: specification
-/

namespace Nigiri.RouteDays
open Nigiri.Raptor

/-- Transport `t` of the route has an event `m` minutes after the midnight its traffic day begins with:
an arrival at a stop that is not the first, a departure at a stop that is not the last. -/
def EventAt (r : RouteData) (t m : Nat) : Prop :=
  ∃ s, s < r.stops.length ∧ ((0 < s ∧ m = r.arr t s) ∨ (s + 1 < r.stops.length ∧ m = r.dep t s))

/-- Transport `t` starts on day `s` and is still on its way on day `day`: `day` is the first day or not
later than the day of some event. -/
def OnTheWay (r : RouteData) (tb : Nat → Bitfield) (t s day : Nat) : Prop :=
  tb t s = true ∧ s ≤ day ∧ (day = s ∨ ∃ m, EventAt r t m ∧ day ≤ s + m / 1440)

end Nigiri.RouteDays
