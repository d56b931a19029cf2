import Verif.Model.Search
import Verif.Model.RaptorConcrete
/-!
# RAPTOR as the routing algorithm of the search driver

The functions of `raptor<SearchDir, Rt, Vias, SearchMode>` that `search` calls, in terms of the model of the
rounds (`Verif.Model.Raptor`), with the conversion between times of the timetable and the 16 bit times of the
search.
-/

namespace Nigiri.EndToEnd
open Nigiri.Raptor Nigiri.Search

/-- `unix_to_delta(base(), t)`, `types.h`, in oriented time (saturation is left out: the theorems are about times in
range). -/
def toDelta (d : Dir) (N : Net) (t : Int) : Int := d.sgn * (t - N.base * 1440)

/-- `delta_to_unix(base(), x)`, `types.h`. -/
def toUnix (d : Dir) (N : Net) (x : Int) : Int := N.base * 1440 + d.sgn * x

/-- `reset_arrivals`, raptor.h:177-180. -/
def resetArrivals (d : Dir) (S : Raptor.State) : Raptor.State :=
  { S with tad := fun _ => d.hi, round := fun _ _ => d.hi }

/-- `next_start_time`, the `add_start` calls and `execute`, raptor.h:182-219, 223-366, 388-412: the new state and the
journeys added to the results (destination, transfers, `dest_time_`). -/
def exec (d : Dir) (N : Net) (n : Nat) (S : Raptor.State) (t : Int) (starts : List (Loc × Int)) (worst : Int) :
    Raptor.State × List (Loc × Nat × Int) :=
  let S' := runOne (mkProblem d N) n S ⟨toDelta d N t, starts.map fun x => (x.1, toDelta d N x.2), toDelta d N worst⟩
  (S', (results (mkProblem d N) n S').map fun r => (r.1, r.2.1 - 1, toUnix d N r.2.2))

/-- The algorithm; the reconstruction of the legs is a parameter. -/
def raptorAlgo (d : Dir) (N : Net) (n : Nat) (reconstruct : Raptor.State → Jny → Bool) : Algo Raptor.State :=
  ⟨resetArrivals d, exec d N n, reconstruct⟩

end Nigiri.EndToEnd
