import Verif.Model.RaptorConcrete
import Verif.Model.TdFootpath
/-!
# Walks of the round-based search

Model of the walks the search relaxes: static footpaths (`update_footpaths`,
`include/nigiri/routing/raptor/raptor.h:745-768`), time-dependent footpaths (`update_td_offsets`,
`raptor.h:847-875`, `for_each_footpath`, `include/nigiri/td_footpath.h:78-94`) and time-dependent last
miles (`raptor.h:1030-1038`).  It gives the fields `fps` and `endTd` of `Raptor.Net` from the tables of
the timetable and of the query.
-/

namespace Nigiri.TdNet

open Nigiri.Raptor (Loc Dir)

/-- The tables. -/
structure Walks where
  /-- `footpaths_out_` / `footpaths_in_` with adjusted durations -/
  static : Loc → List (Loc × Int)
  /-- `prf_idx_ != 0 && has_td_footpaths_out_[prf_idx_].test(l)` (backward: `in`) -/
  hasTd : Loc → Bool
  /-- `td_footpaths_out_[prf_idx_][l]` (backward: `in`): target, begin of validity, duration -/
  td : Loc → List (Loc × TdEntry)
  /-- `td_dist_to_end_` -/
  tdEnd : Loc → Option (List TdEntry)
  /-- unix time (in minutes) of the time 0 of the search -/
  zero : Int

/-- `to_unix` of an oriented time. -/
def toUnix (d : Dir) (f : Walks) (a : Int) : Int := f.zero + d.sgn * a

/-- `utl::equal_ranges_linear` by target, `td_footpath.h:81-86`. -/
def ranges : List (Loc × TdEntry) → List (Loc × List TdEntry)
  | [] => []
  | x :: xs => match ranges xs with
    | [] => [(x.1, [x.2])]
    | (l, es) :: r => if x.1 = l then (l, x.2 :: es) :: r else (x.1, [x.2]) :: (l, es) :: r

/-- `get_td_duration<SearchDir>`. -/
def tdDuration (d : Dir) (t : Int) (c : List TdEntry) : Option Int := match d with
  | .fwd => (TdFootpath.fwd t c).map (·.1)
  | .bwd => (TdFootpath.bwd t c).map (·.1)

/-- `kFwd`. -/
def isFwd : Dir → Bool
  | .fwd => true
  | .bwd => false

/-- `Net.fps`: at a location with time-dependent footpaths only these are used (`raptor.h:748-754`), and
the duration is stored in a `footpath` (at most 511 minutes). -/
def fps (d : Dir) (f : Walks) (l : Loc) (a : Int) : List (Loc × Int) :=
  if f.hasTd l then
    (ranges (f.td l)).filterMap fun g =>
      (TdFootpath.forEachDuration (isFwd d) (toUnix d f a) g.2).map fun w => (g.1, w)
  else f.static l

/-- `Net.endTd`: here the duration is not stored in a `footpath`. -/
def endTd (d : Dir) (f : Walks) (l : Loc) (a : Int) : Option Int :=
  (f.tdEnd l).bind fun c => tdDuration d (toUnix d f a) c

end Nigiri.TdNet
