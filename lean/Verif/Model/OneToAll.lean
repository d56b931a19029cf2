import Verif.Model.RaptorConcrete
import Verif.Model.LbGraph
import Verif.Model.Time
/-!
# One-to-all searches

Model of `one_to_all`, `get_fastest_one_to_all_offsets` and `for_each_one_to_all_round_time`,
`src/routing/one_to_all.cc`, on top of the round based search (`Verif.Model.Raptor`) with
`SearchMode == kOneToAll`: no destination, no lower bounds.

Times are minutes since the epoch (`unixtime_t`).  Simplification: the day index `base` is an unbounded integer
instead of 16 bit.
-/

namespace Nigiri.Raptor.OneToAll
open Nigiri.Lb

/-- The query (`query.h`) and the timetable as read by a one-to-all search. -/
structure Query where
  dir : Dir
  /-- the stations -/
  T : Tt
  /-- `tt.internal_interval().from_`, a day -/
  intFrom : Int
  /-- vehicles, transfer times, footpaths in search direction and the filters of the query, with times relative to a
  base day; destination and lower bounds are not used -/
  data : Int → Net
  /-- `start_time_` -/
  start : Int
  /-- `start_match_mode_` -/
  mode : Mode
  /-- `start_`: location and duration -/
  offs : List (Loc × Int)
  maxTransfers : Nat
  maxTravel : Int

/-- `std::chrono::round<days>(start_time)`: the nearest midnight, at noon the one of the even day. -/
def roundDays (t : Int) : Int :=
  let d := t / 1440
  let lo := t - d * 1440
  let hi := (d + 1) * 1440 - t
  if lo = hi then (if d % 2 = 0 then d else d + 1) else if lo < hi then d else d + 1

/-- `make_base`, `one_to_all.cc:19-24`. -/
def makeBase (intFrom t : Int) : Int := roundDays t - intFrom

/-- The base day as a date, raptor.h:412-414 and `one_to_all.cc:119-121`. -/
def baseDay (intFrom t : Int) : Int := intFrom + makeBase intFrom t

/-- What the search reads, `one_to_all.cc:66-90`: no destination, `lb` is zero. -/
def Query.net (q : Query) : Net :=
  { q.data (makeBase q.intFrom q.start) with
    base := makeBase q.intFrom q.start
    intermodal := false
    endDist := fun _ => none
    endTd := fun _ _ => none
    isDest := fun _ => false
    lb := fun _ => some 0 }

/-- An instant in the oriented time of the search: `unix_to_delta(base(), t)`, raptor.h:193-219. -/
def Query.rel (q : Query) (t : Int) : Int := q.dir.sgn * unixToDelta (baseDay q.intFrom q.start) t

/-- The arguments of `add_start`, `one_to_all.cc:33-40`. -/
def Query.starts (q : Query) : List (Loc × Int) :=
  q.offs.flatMap fun o => (forEachMeta q.T q.mode o.1).map fun l => (l, q.rel (q.start + q.dir.sgn * o.2))

/-- `run_raptor`, `one_to_all.cc:26-50`; `worst_time_at_dest`, `one_to_all.cc:45-47`. -/
def Query.at (q : Query) : Start := ⟨q.rel q.start, q.starts, q.rel (q.start + q.dir.sgn * q.maxTravel)⟩

/-- Number of rounds, raptor.h:213 (`end_k - 1`). -/
def Query.rounds (q : Query) : Nat := min q.maxTransfers 14 + 1

/-- `one_to_all`, `one_to_all.cc:52-105`: the returned state. -/
def Query.run (q : Query) : State :=
  runOne (mkProblem q.dir q.net) q.rounds (init (mkProblem q.dir q.net)) q.at

/-- Conversion to a 16 bit duration. -/
def i16 (x : Int) : Int := (x + 32768) % 65536 - 32768

/-- `end_time - start_time`, `one_to_all.cc:119-124, 145-152`: round times are stored relative to the base day. -/
def diffTo (d : Dir) (intFrom : Int) (S : State) (l : Loc) (start : Int) (k : Nat) : Int :=
  deltaToUnix (baseDay intFrom start) (d.sgn * S.round k l) - start

/-- `get_fastest_one_to_all_offsets`, `one_to_all.cc:107-130`: the duration and `k`. -/
def getFastest (d : Dir) (intFrom : Int) (S : State) (l : Loc) (start : Int) (transfers : Nat) : Int × Nat :=
  match (List.range (transfers + 2)).reverse.find? fun k => decide (S.round k l ≠ d.hi) with
  | some k => (i16 (diffTo d intFrom S l start k), k)
  | none => (32767, 255)

/-- `end_time - start_time` or `start_time - end_time`, `one_to_all.cc:150-151`. -/
def durationTo : Dir → Int → Int
  | .fwd, x => x
  | .bwd, x => - x

/-- `for_each_one_to_all_round_time`, `one_to_all.cc:132-154`: the arguments of the callback. -/
def forEachRound (d : Dir) (intFrom : Int) (S : State) (l : Loc) (start : Int) (transfers : Nat) : List (Nat × Int) :=
  ((List.range (transfers + 2)).filter fun k => decide (S.round k l ≠ d.hi)).map fun k =>
    (k, i16 (durationTo d (diffTo d intFrom S l start k)))

end Nigiri.Raptor.OneToAll
