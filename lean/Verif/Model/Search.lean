import Verif.Model.Interval
import Verif.Model.ParetoSet
import Verif.Model.Misc
import Verif.Model.StartTimes
/-!
# The search driver

Model of `search<SearchDir, Algo>::execute`, `include/nigiri/routing/search.h`, and of
`interval_estimator`, `include/nigiri/routing/interval_estimate.h`.

The routing algorithm, the generation of start times, the clock and the direct connections are parameters: the
algorithm is any state machine that, for a start time, offers journeys, which are added to the Pareto set of
results.  Times are minutes relative to some midnight; integers are unbounded.  Statistics and tracing are left
out.
-/

namespace Nigiri.Search
open Nigiri.Raptor (Loc Dir)
open Nigiri.StartTimes (Ev StartTime)

/-- `kMaxSearchIntervalSize`, `limits.h`: 15 days. -/
abbrev maxIvSize : Int := 15 * 1440

/-- The part of the query that is read. -/
structure Query where
  /-- `start_time_` -/
  start : StartTime
  /-- `min_connection_count_` -/
  minConn : Nat
  /-- `extend_interval_earlier_`, `extend_interval_later_` -/
  extEarlier : Bool
  extLater : Bool
  /-- `max_interval_` -/
  maxIv : Option Interval
  /-- `fastest_direct_.has_value()` -/
  hasDirect : Bool
  /-- `max_travel_time_` -/
  maxTravel : Int

/-- What is read from the timetable: `external_interval()` and the number of the day at time 0 (its parity
matters when rounding). -/
structure Tt where
  ext : Interval
  epochDay : Int

/-- `std::chrono::round<std::chrono::days>`: to the nearest midnight, noon to the even day. -/
def roundDay (epochDay t : Int) : Int :=
  1440 * (if t % 1440 < 720 then t / 1440 else if 720 < t % 1440 then t / 1440 + 1 else if (t / 1440 + epochDay) % 2 = 0 then t / 1440 else t / 1440 + 1)

/-- The query's start time as an interval, `interval_estimate.h:17-21`, `search.h:176-184`. -/
def Query.startIv (q : Query) : Interval := match q.start with
  | .interval iv => iv
  | .point t => ⟨t, t⟩

/-- `data_type_max_interval_`, `interval_estimate.h:23-37`. -/
def dataTypeMax (tt : Tt) (q : Query) : Interval :=
  let iv := q.startIv
  let x : Int := if q.hasDirect then 1440 else 2880
  { from' := max (roundDay tt.epochDay (iv.from' - x)) (roundDay tt.epochDay (iv.from' + Int.tdiv (iv.to' - iv.from' - maxIvSize) 2))
    to' := min (roundDay tt.epochDay (iv.to' + x)) (roundDay tt.epochDay (iv.from' + Int.tdiv (iv.to' - iv.from' + maxIvSize) 2)) }

/-- One bound in `clamp`, `interval_estimate.h:137-146`; `none` = undefined behaviour. -/
def clampPoint (tt : Tt) (q : Query) (x : Int) : Option Int :=
  (tt.ext.clamp x).bind fun x => ((dataTypeMax tt q).clamp x).bind fun x => match q.maxIv with
    | some m => m.clamp x
    | none => some x

/-- `clamp`, `interval_estimate.h:137-146`. -/
def clampIv (tt : Tt) (q : Query) (iv : Interval) : Option Interval :=
  (clampPoint tt q iv.from').bind fun a => (clampPoint tt q iv.to').map fun b => ⟨a, b⟩

/-- `can_extend_earlier`, `interval_estimate.h:116-119`. -/
def canEarlier (tt : Tt) (q : Query) (iv : Interval) : Bool := q.extEarlier && decide (iv.from' ≠ tt.ext.from')

/-- `can_extend_later`, `interval_estimate.h:121-123`. -/
def canLater (tt : Tt) (q : Query) (iv : Interval) : Bool := q.extLater && decide (iv.to' ≠ tt.ext.to')

/-- `can_extend_bad_dir`, `interval_estimate.h:125-131`. -/
def canBad (d : Dir) (tt : Tt) (q : Query) (iv : Interval) : Bool := match d with
  | .fwd => canLater tt q iv
  | .bwd => canEarlier tt q iv

/-- The changed bounds in `initial`, `interval_estimate.h:46-75`. -/
def initialRaw (d : Dir) (tt : Tt) (q : Query) (iv : Interval) : Interval :=
  let ext : Int := 60 * q.minConn
  match d with
  | .fwd =>
    if canBad .fwd tt q iv then
      (if canEarlier tt q iv then ⟨iv.from' - 60, iv.to' + ext⟩ else ⟨iv.from', iv.to' + 60 + ext⟩)
    else if q.extEarlier then ⟨iv.from' - (60 + ext), iv.to'⟩ else iv
  | .bwd =>
    if canBad .bwd tt q iv then
      (if canLater tt q iv then ⟨iv.from' - ext, iv.to' + 60⟩ else ⟨iv.from' - 60 - ext, iv.to'⟩)
    else if q.extLater then ⟨iv.from', iv.to' + (60 + ext)⟩ else iv

/-- `initial`, `interval_estimate.h:40-80`. -/
def initial (d : Dir) (tt : Tt) (q : Query) (iv : Interval) : Option Interval :=
  if q.minConn = 0 ∨ (q.extEarlier = false ∧ q.extLater = false) then some iv
  else clampIv tt q (initialRaw d tt q iv)

/-- The changed bounds in `extension`, `interval_estimate.h:95-108`. -/
def extensionRaw (tt : Tt) (q : Query) (iv : Interval) (n : Nat) : Interval :=
  let ext : Int := iv.size * n
  if canEarlier tt q iv && canLater tt q iv then ⟨iv.from' - Int.tdiv ext 2, iv.to' + Int.tdiv ext 2⟩
  else ⟨if q.extEarlier then iv.from' - ext else iv.from', if q.extLater then iv.to' + ext else iv.to'⟩

/-- `extension`, `interval_estimate.h:88-113`. -/
def extension (tt : Tt) (q : Query) (iv : Interval) (n : Nat) : Option Interval :=
  if n = 0 ∨ (q.extEarlier = false ∧ q.extLater = false) then some iv
  else clampIv tt q (extensionRaw tt q iv n)

/-! ## Results -/

/-- `journey`, `journey.h`: criteria, destination, state of the reconstruction; the legs are left out. -/
structure Jny where
  crit : Crit
  dest : Loc
  reconstructed : Bool := false
  error : Bool := false
deriving DecidableEq, Repr

def Jny.dom (a b : Jny) : Bool := a.crit.dominates b.crit

/-- The routing algorithm: `reset_arrivals`; `next_start_time`, `add_start`..., `execute` with the journeys it
adds to the results (destination, transfers, `dest_time_`); `reconstruct` (`false` = exception). -/
structure Algo (σ : Type) where
  reset : σ → σ
  exec : σ → Int → List (Loc × Int) → Int → σ × List (Loc × Nat × Int)
  reconstruct : σ → Jny → Bool

/-- Everything the search does not decide itself. -/
structure Env (σ : Type) where
  tt : Tt
  q : Query
  /-- `fastest_direct_` of the search -/
  direct : Int
  /-- `get_starts`: adds to the given start times -/
  starts : StartTime → Bool → List Ev → List Ev
  /-- `start_dest_overlap()`, `search.h:354-378` -/
  overlap : Bool
  algo : Algo σ
  /-- `is_timeout_reached()` after the `n`-th search -/
  timeout : Nat → Bool
  /-- the journeys of `enrich_with_slow_direct`, `direct.cc:608-653` (none if not requested); their
  `is_reconstructed_` is not set -/
  slow : Interval → List Jny

/-- The state of a search. -/
structure State (σ : Type) where
  iv : Interval
  starts : List Ev
  results : List Jny
  algo : σ

/-- `is_ontrip`, `search.h:348-350`. -/
def Query.ontrip (q : Query) : Bool := match q.start with
  | .interval _ => false
  | .point _ => true

/-- The lexicographic order of `start`, `start_times.h:19-24`: `a ≤ b`. -/
def evLe (a b : Ev) : Bool :=
  decide (a.timeAtStart < b.timeAtStart) || (a.timeAtStart == b.timeAtStart &&
    (decide (a.timeAtStop < b.timeAtStop) || (a.timeAtStop == b.timeAtStop && decide (a.stop ≤ b.stop))))

/-- Insertion into a sorted list. -/
def insertBy {α : Type} (le : α → α → Bool) (a : α) : List α → List α
  | [] => [a]
  | b :: l => if le a b then a :: b :: l else b :: insertBy le a l

/-- Sorting; `std::sort`, `utl::sort` (elements that are equal in the order may be returned in any order). -/
def sortBy {α : Type} (le : α → α → Bool) (l : List α) : List α := l.foldr (insertBy le) []

/-- `std::sort` in `add_start_labels`, `search.h:408-410`. -/
def sortStarts (d : Dir) (l : List Ev) : List Ev := match d with
  | .fwd => sortBy (fun a b => evLe b a) l
  | .bwd => sortBy evLe l

/-- `add_start_labels`, `search.h:401-411`. -/
def addStartLabels {σ : Type} (d : Dir) (E : Env σ) (st : StartTime) (ontrip : Bool) (l : List Ev) : List Ev :=
  sortStarts d (E.starts st ontrip l)

/-- `utl::equal_ranges_linear` with equal `time_at_start_`, `search.h:424-429`. -/
def groups : List Ev → List (List Ev)
  | [] => []
  | e :: es => match groups es with
    | (f :: g) :: gs => if e.timeAtStart = f.timeAtStart then (e :: f :: g) :: gs else [e] :: (f :: g) :: gs
    | gs => [e] :: gs

/-- `n_results_in_interval`, `search.h:380-389`. -/
def nInInterval (q : Query) (iv : Interval) (rs : List Jny) : Nat :=
  if q.ontrip then rs.length else (rs.filter fun j => iv.contains j.crit.start).length

/-- `worst_time_at_dest`, `search.h:449-452`. -/
def worst (d : Dir) (direct maxTravel start : Int) : Int := match d with
  | .fwd => start + (min direct maxTravel + 1)
  | .bwd => start - (min direct maxTravel + 1)

/-- The attempt to reconstruct a result, `search.h:457-475`. -/
def tryReconstruct {σ : Type} (E : Env σ) (a : σ) (iv : Interval) (j : Jny) : Jny :=
  if !j.reconstructed && !j.error && (E.q.ontrip || iv.contains j.crit.start) && decide (j.crit.travelTime < E.direct) then
    (if E.algo.reconstruct a j then { j with reconstructed := true } else { j with error := true })
  else j

/-- `results.add` for every offered journey, `raptor.h:388-412`. -/
def addAll (start : Int) (js : List (Loc × Nat × Int)) (rs : List Jny) : List Jny :=
  js.foldl (fun rs j => (ParetoSet.add Jny.dom { crit := ⟨start, j.2.2, j.2.1⟩, dest := j.1 } rs).2) rs

/-- Is the search of one direction finished as soon as enough journeys are found, `search.h:477-482`? -/
def stopsEarly (d : Dir) (q : Query) : Bool := match d with
  | .fwd => q.extEarlier && !q.extLater
  | .bwd => !q.extEarlier && q.extLater

/-- The shortened interval, `search.h:485-489`. -/
def cutIv (d : Dir) (iv : Interval) (start : Int) : Interval := match d with
  | .fwd => ⟨start, iv.to'⟩
  | .bwd => ⟨iv.from', start + 1⟩

/-- One start time, `search.h:430-493`; the flag is `early_termination`. -/
def searchStart {σ : Type} (d : Dir) (E : Env σ) (s : State σ × Bool) (g : List Ev) : State σ × Bool :=
  match g with
  | [] => s
  | e :: _ =>
    if s.2 then s
    else
      let start := e.timeAtStart
      let r := E.algo.exec s.1.algo start (g.map fun e => (e.stop, e.timeAtStop)) (worst d E.direct E.q.maxTravel start)
      let rs := (addAll start r.2 s.1.results).map (tryReconstruct E r.1 s.1.iv)
      if 0 < E.q.minConn ∧ E.q.minConn ≤ nInInterval E.q s.1.iv rs ∧ stopsEarly d E.q = true then
        ({ s.1 with algo := r.1, results := rs, iv := cutIv d s.1.iv start }, true)
      else ({ s.1 with algo := r.1, results := rs }, false)

/-- `search_interval`, `search.h:419-494`. -/
def searchInterval {σ : Type} (d : Dir) (E : Env σ) (s : State σ) : State σ :=
  ((groups s.starts).foldl (searchStart d E) (s, false)).1

/-- Leave the loop, `search.h:242-244`? -/
def finished {σ : Type} (E : Env σ) (s : State σ) (i : Nat) : Bool :=
  s.results.isEmpty || E.q.ontrip || decide (E.q.minConn ≤ nInInterval E.q s.iv s.results) || E.timeout i

/-- `remove_ontrip_results`, `search.h:413-417`. -/
def removeOntrip (iv : Interval) (rs : List Jny) : List Jny := rs.filter fun j => iv.contains j.crit.start

/-- The preparation of the next search, `search.h:282, 294-314`. -/
def extend {σ : Type} (d : Dir) (E : Env σ) (s : State σ) (new : Interval) : State σ :=
  let s0 := { s with starts := [] }
  let s1 := if new.from' ≠ s.iv.from' then
      let st := addStartLabels d E (.interval ⟨new.from', s.iv.from'⟩) (d == .bwd) s0.starts
      (if d == .bwd then { s0 with starts := st, algo := E.algo.reset s0.algo, results := removeOntrip s.iv s0.results } else { s0 with starts := st })
    else s0
  let s2 := if new.to' ≠ s.iv.to' then
      let st := addStartLabels d E (.interval ⟨s.iv.to', new.to'⟩) (d == .fwd) s1.starts
      (if d == .fwd then { s1 with starts := st, algo := E.algo.reset s1.algo, results := removeOntrip s.iv s1.results } else { s1 with starts := st })
    else s1
  { s2 with iv := new }

/-- Outcome of the loop. -/
inductive Loop (σ : Type)
  | done (s : State σ)
  /-- undefined behaviour (`std::clamp` with an inverted interval) -/
  | undef
  /-- the loop is still running after the given number of iterations -/
  | running

/-- The loop, `search.h:237-317`; `i` counts the iterations. -/
def loop {σ : Type} (d : Dir) (E : Env σ) : Nat → Nat → State σ → Loop σ
  | 0, _, _ => .running
  | n + 1, i, s =>
    let s := searchInterval d E s
    if finished E s i then .done s
    else match extension E.tt E.q s.iv (E.q.minConn - nInInterval E.q s.iv s.results) with
      | none => .undef
      | some new => if new = s.iv then .done s else loop d E n (i + 1) (extend d E s new)

/-- The state before the loop, `search.h:215-226`. -/
def start {σ : Type} (d : Dir) (E : Env σ) (a : σ) : Option (State σ) :=
  (if E.q.ontrip then some E.q.startIv else initial d E.tt E.q E.q.startIv).map fun iv =>
    { iv := iv, starts := addStartLabels d E (if iv.size ≠ 0 then .interval iv else E.q.start) true [], results := [], algo := a }

/-- The post processing, `search.h:319-337`: filter, `enrich_with_slow_direct`, sort, filter. -/
def finish {σ : Type} (E : Env σ) (s : State σ) : List Jny :=
  let rs :=
    if E.q.ontrip then s.results
    else
      let kept := s.results.filter fun j =>
        !(!s.iv.contains j.crit.start || decide (E.direct ≤ j.crit.travelTime) || decide (E.q.maxTravel < j.crit.travelTime))
      sortBy (fun a b => decide (a.crit.start < b.crit.start) || (a.crit.start == b.crit.start && decide (a.crit.transfers ≤ b.crit.transfers)))
        (kept ++ E.slow s.iv)
  rs.filter fun j => j.reconstructed

/-- Result of a query: the journeys and the searched interval; `found` (not part of the result of the code) are the
journeys before the post processing. -/
structure Result where
  journeys : List Jny
  iv : Interval
  found : List Jny := []

/-- `execute`, `search.h:204-346`, with a bound on the number of iterations. -/
def execute {σ : Type} (d : Dir) (E : Env σ) (a : σ) (n : Nat) : Option Result :=
  if E.overlap then some ⟨[], E.q.startIv, []⟩
  else match start d E a with
    | none => none
    | some s => match loop d E n 0 s with
      | .done s => some ⟨finish E s, s.iv, s.results⟩
      | _ => none

end Nigiri.Search
