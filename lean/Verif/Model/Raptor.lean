/-!
# The round based search (RAPTOR)

Model of `raptor<SearchDir, Rt, Vias = 0, SearchMode>`,
`include/nigiri/routing/raptor/raptor.h`, without via stops.

**Oriented time.**  The code is a template over the direction.  The model uses *oriented* times: the
`delta_t` value itself for a forward search and its negation for a backward search, so that
`is_better` is `<`, `get_best` is `min`, `dir(x)` is `x` and `kInvalid` is `hi` in both directions
(raptor.h:34-56).  Stop sequences are listed in search order (raptor.h:1171-1174).  `board`/`alight`
are the departure/arrival of the run in a forward search and the (negated) arrival/departure in a
backward search.  For `int16` the bounds are `lo = -32768, hi = 32767` (forward) and
`lo = -32767, hi = 32768` (backward).

Simplifications: label matrices are total functions; `is_transport_active`, event times and
`get_earliest_transport` are fields of a route (their code is modelled in `Verif.Model.RaptorConcrete`);
walking durations already contain `adjusted_transfer_time`; stats and tracing are dropped.
-/

namespace Nigiri.Raptor

abbrev Loc := Nat

/-- A trip on a day: `transport{t_idx_, day_}`. -/
abbrev Run := Nat × Int

/-- One stop of a route in search order: location, `can_start`, `can_finish` (`stop.h:50-67`), and
whether the section leading to it passes the query's section filters (raptor.h:1183-1209). -/
structure Stop where
  loc : Loc
  canBoard : Bool
  canAlight : Bool
  secOk : Bool
deriving DecidableEq, Repr

/-- A route: `allowed` is the result of the class and flag filters (raptor.h:496-560). -/
structure Route where
  stops : List Stop
  allowed : Bool
  active : Run → Prop
  board : Run → Nat → Int
  alight : Run → Nat → Int
  /-- `get_earliest_transport(k, r, stop_idx, day, mam, l)` with the label time and with the latest
  admissible event time `time_at_dest_[k] - lb(l)`. -/
  et : Nat → Int → Int → Option Run

/-- A real-time transport (raptor.h:1044-1157). -/
structure RtTransport where
  stops : List Stop
  allowed : Bool
  board : Nat → Int
  alight : Nat → Int

/-- The search problem. -/
structure Problem where
  lo : Int
  hi : Int
  nLoc : Nat
  routes : List Route
  rts : List RtTransport
  /-- adjusted transfer time of a location -/
  transfer : Loc → Int
  /-- adjusted footpaths from a location at a time (static ones and time-dependent ones) -/
  fps : Loc → Int → List (Loc × Int)
  /-- `!dist_to_end_.empty()` -/
  intermodal : Bool
  /-- `dist_to_end_` and the result of `get_td_duration` on `td_dist_to_end_` -/
  endDist : Loc → Option Int
  endTd : Loc → Int → Option Int
  /-- `kIntermodalTarget` -/
  endLoc : Loc
  isDest : Loc → Bool
  /-- lower bound to the destination; `none` = `kUnreachable` -/
  lb : Loc → Option Int
  /-- `none` if `bounds_last_k_ == 0`; otherwise `bounds_[bounds_last_k_ - k][l] + transfer` for round `k` and
  location `l` -/
  bound : Option (Nat → Loc → Int) := none

/-- `clamp`, `common/delta_t.h:19-34`. -/
def Problem.clamp (P : Problem) (x : Int) : Int := max P.lo (min P.hi x)

/-- `within_bounds`, raptor.h:458-489. -/
def Problem.within (P : Problem) (k : Nat) (l : Loc) (t : Int) : Bool := match P.bound with
  | none => true
  | some b => decide (t ≤ b k l)

/-- The search state, `raptor_state.h` and the members of `raptor`. -/
structure State where
  round : Nat → Loc → Int
  best : Loc → Int
  tmp : Loc → Int
  /-- `state_.station_mark_` -/
  mark : Loc → Bool
  tad : Nat → Int
  /-- the round loop has been left by `break` -/
  done : Bool

def upd {β : Type} (f : Nat → β) (i : Nat) (v : β) : Nat → β := fun j => if j = i then v else f j

/-- `round_times_[k][l] = v`. -/
def updRound (f : Nat → Loc → Int) (k : Nat) (l : Loc) (v : Int) : Nat → Loc → Int :=
  fun k' l' => if k' = k ∧ l' = l then v else f k' l'

/-- `update_time_at_dest`, raptor.h:1479-1486. -/
def updTad (tad : Nat → Int) (k : Nat) (t : Int) : Nat → Int := fun i => if k ≤ i then min (tad i) t else tad i

/-- The pruning test used everywhere, e.g. raptor.h:1266-1270 and raptor.h:704-709: reachable and,
with the lower bound, not later than the best known arrival. -/
def lbOk (lb : Option Int) (t tad : Int) : Bool :=
  decide (t ≤ tad) && (match lb with | none => false | some x => decide (t + x ≤ tad))

/-- What a route scan changes. -/
structure Scan where
  tmp : Loc → Int
  mark : Loc → Bool

/-- Alighting at a stop with arrival time `by`, raptor.h:1255-1293. -/
def alightAt (P : Problem) (tad : Int) (w : Loc → Int → Bool) (l : Loc) (by' : Int) (s : Scan) : Scan :=
  if lbOk (P.lb l) by' tad && w l by' then { tmp := upd s.tmp l (min by' (s.tmp l)), mark := upd s.mark l true } else s

/-- `et` after the section filter, raptor.h:1183-1209. -/
def filterEt {α : Type} (i : Nat) (s : Stop) (none' : α) (et : α) : α :=
  if i ≠ 0 && !s.secOk then none' else et

/-- Arrivals with the current trip, raptor.h:1237-1306: the changed scan state and `current_best`. -/
def arrive (P : Problem) (r : Route) (rk best : Loc → Int) (tad : Int) (w : Loc → Int → Bool) (i : Nat) (s : Stop) (et : Option Run)
    (sc : Scan) : Scan × Int :=
  match et with
  | none => (sc, P.hi)
  | some tr =>
    if s.canAlight then
      let by' := P.clamp (r.alight tr i)
      let cb := min (min (rk s.loc) (sc.tmp s.loc)) (best s.loc)
      if lbOk (P.lb s.loc) by' tad && w s.loc by' then (alightAt P tad w s.loc by' sc, min by' cb) else (sc, cb)
    else (sc, P.hi)

/-- `et_time_at_stop`, raptor.h:1319-1326. -/
def etTime (P : Problem) (r : Route) (i : Nat) : Option Run → Int
  | some tr => P.clamp (r.board tr i)
  | none => P.hi

/-- Boarding, raptor.h:1317-1352. -/
def boardAt (P : Problem) (r : Route) (rk best : Loc → Int) (tad : Int) (i : Nat) (s : Stop) (x : Int)
    (et : Option Run) (sc : Scan) (cb : Int) : Option Run :=
  let p := rk s.loc
  if p ≠ P.hi ∧ p ≤ etTime P r i et then
    match r.et i p (tad - x) with
    | none => et
    | some new =>
      let cb' := min (min cb (best s.loc)) (sc.tmp s.loc)
      if cb' = P.hi ∨ P.clamp (r.board new i) ≤ etTime P r i et then some new else et
  else et

/-- `update_route`, raptor.h:1163-1355: `rk` is `round_times_[k - 1]`, `prev` is `prev_station_mark_`. -/
def scanRoute (P : Problem) (r : Route) (rk best : Loc → Int) (tad : Int) (w : Loc → Int → Bool) (prev : Loc → Bool) :
    List Stop → Nat → Option Run → Scan → Scan
  | [], _, _, sc => sc
  | s :: rest, i, et0, sc0 =>
    let et := filterEt i s none et0
    let a := arrive P r rk best tad w i s et sc0
    if rest.isEmpty || !s.canBoard || !prev s.loc then scanRoute P r rk best tad w prev rest (i + 1) et a.1
    else match P.lb s.loc with
      | none => a.1
      | some x => scanRoute P r rk best tad w prev rest (i + 1) (boardAt P r rk best tad i s x et a.1 a.2) a.1

/-- `update_rt_transport`, raptor.h:1044-1157. -/
def scanRt (P : Problem) (r : RtTransport) (rk : Loc → Int) (tad : Int) (w : Loc → Int → Bool) (prev : Loc → Bool) :
    List Stop → Nat → Bool → Scan → Scan
  | [], _, _, sc => sc
  | s :: rest, i, et0, sc0 =>
    let et := filterEt i s false et0
    let sc := if i ≠ 0 && et && s.canAlight then alightAt P tad w s.loc (P.clamp (r.alight i)) sc0 else sc0
    match P.lb s.loc with
    | none => sc
    | some _ =>
      if rest.isEmpty || !s.canBoard || !prev s.loc then scanRt P r rk tad w prev rest (i + 1) et sc
      else scanRt P r rk tad w prev rest (i + 1) (et || decide (rk s.loc ≤ P.clamp (r.board i))) sc

/-- A route touches a marked station (`location_routes_`), raptor.h:236-250. -/
def touches (mark : Loc → Bool) (stops : List Stop) : Bool := stops.any fun s => mark s.loc

/-- The route loops of a round, raptor.h:257-345 with `loop_routes`, `loop_rt_routes`. -/
def scanAll (P : Problem) (k : Nat) (S : State) (best : Loc → Int) (tad : Nat → Int) : Scan :=
  let sc := (P.routes.filter fun r => touches S.mark r.stops && r.allowed).foldl
    (fun sc r => scanRoute P r (S.round (k - 1)) best (tad k) (P.within k) S.mark r.stops 0 none sc)
    { tmp := S.tmp, mark := fun _ => false }
  (P.rts.filter fun r => touches S.mark r.stops && r.allowed).foldl
    (fun sc r => scanRt P r (S.round (k - 1)) (tad k) (P.within k) S.mark r.stops 0 false sc) sc

/-- A label update at `l` with time `t` after a transfer or footpath, raptor.h:691-721, 778-822,
893-935.  Without bounds (`bounds_last_k_ == 0`) the label is written even if the pruning test fails (the
code writes it before the test and overwrites it if the test succeeds). -/
def applyUpd (P : Problem) (k : Nat) (S : State) (l : Loc) (t : Int) : State :=
  if t < S.best l then
    if lbOk (P.lb l) t (S.tad k) && P.within k l t then
      { S with
        round := updRound S.round k l t
        best := upd S.best l t
        mark := upd S.mark l true
        tad := if P.isDest l then updTad S.tad k t else S.tad }
    else if P.bound.isNone then { S with round := updRound S.round k l (min t (S.round k l)) }
    else S
  else S

/-- The stations of a bit vector in ascending order (`for_each_set_bit`). -/
def marked (P : Problem) (m : Loc → Bool) : List Loc := (List.range P.nLoc).filter m

/-- `transfer_time`, raptor.h:684-690. -/
def transferTime (P : Problem) (l : Loc) : Int := if !P.intermodal && P.isDest l then 0 else P.transfer l

/-- `update_transfers`, raptor.h:661-725, for one station. -/
def transferAt (P : Problem) (k : Nat) (S : State) (i : Loc) : State :=
  if S.tmp i = P.hi then S else applyUpd P k S i (P.clamp (S.tmp i + transferTime P i))

/-- Arrival at the intermodal target, raptor.h:998-1011. -/
def applyEnd (P : Problem) (k : Nat) (S : State) (t : Int) : State :=
  if t ≤ S.tad k then
    { S with round := updRound S.round k P.endLoc t, best := upd S.best P.endLoc t, tad := updTad S.tad k t }
  else S

/-- The time dependent variant, raptor.h:1013-1039. -/
def applyEndTd (P : Problem) (k : Nat) (S : State) (t : Int) : State :=
  if t ≤ S.tad k ∧ t < S.best P.endLoc then
    { S with round := updRound S.round k P.endLoc t, best := upd S.best P.endLoc t, tad := updTad S.tad k t }
  else S

/-- `update_intermodal_footpaths`, raptor.h:945-1042, for one station. -/
def endAt (P : Problem) (k : Nat) (S : State) (i : Loc) : State :=
  if S.tmp i = P.hi then S
  else
    let S1 := match P.endDist i with
      | some d => applyEnd P k S (P.clamp (S.tmp i + d))
      | none => S
    match P.endTd i (S.tmp i) with
    | some d => applyEndTd P k S1 (P.clamp (S.tmp i + d))
    | none => S1

/-- `update_footpaths` / `update_td_offsets`, raptor.h:727-943, for one station. -/
def footpathsAt (P : Problem) (k : Nat) (S : State) (i : Loc) : State :=
  if S.tmp i = P.hi then S
  else (P.fps i (S.tmp i)).foldl (fun S fp => applyUpd P k S fp.1 (P.clamp (S.tmp i + fp.2))) S

/-- `time_at_dest_` after `is_dest_.for_each_set_bit`, raptor.h:231-233. -/
def tadOfBest (P : Problem) (k : Nat) (best : Loc → Int) (tad : Nat → Int) : Nat → Int :=
  (marked P P.isDest).foldl (fun tad i => updTad tad k (best i)) tad

/-- One round, raptor.h:223-366.  The second `break` (raptor.h:347-350) is unreachable because
`any_marked` is already set. -/
def roundStep (P : Problem) (k : Nat) (S : State) : State :=
  let best := fun i => min (S.round k i) (S.best i)
  let tad := tadOfBest P k best S.tad
  if !(P.routes.any fun r => touches S.mark r.stops) && !(P.rts.any fun r => touches S.mark r.stops) then
    { S with best := best, tad := tad, done := true }
  else
    let sc := scanAll P k S best tad
    let S0 : State := { round := S.round, best := best, tmp := sc.tmp, mark := fun _ => false, tad := tad, done := false }
    let prev := marked P sc.mark
    let S1 := prev.foldl (transferAt P k) S0
    let S2 := if P.intermodal then prev.foldl (endAt P k) S1 else S1
    prev.foldl (footpathsAt P k) S2

/-- The loop over the rounds `k = 1, ..., n`, raptor.h:223-366. -/
def rounds (P : Problem) (S : State) : Nat → State
  | 0 => S
  | n + 1 => let S' := rounds P S n
    if S'.done then S' else roundStep P (n + 1) S'

/-- `next_start_time`, raptor.h:182-191. -/
def nextStart (P : Problem) (S : State) : State :=
  { S with best := fun _ => P.hi, tmp := fun _ => P.hi, mark := fun _ => false, done := false }

/-- `add_start`, raptor.h:193-207. -/
def addStart (S : State) (st : Loc × Int) : State :=
  { S with
    best := upd S.best st.1 (min st.2 (S.best st.1))
    round := updRound S.round 0 st.1 (min st.2 (S.round 0 st.1))
    mark := upd S.mark st.1 true }

/-- The beginning of `execute`, raptor.h:213-219. -/
def applyWorst (worst : Int) (S : State) : State := { S with tad := fun i => min worst (S.tad i) }

/-- One start time of a query: `next_start_time`, `add_start`..., `execute` with
`n = min(max_transfers, kMaxTransfers) + 1` rounds (`search.h` `search_interval`). -/
structure Start where
  /-- `start_time` -/
  time : Int
  /-- the arguments of the `add_start` calls -/
  starts : List (Loc × Int)
  /-- `worst_time_at_dest` -/
  worst : Int

def runOne (P : Problem) (n : Nat) (S : State) (q : Start) : State :=
  rounds P (applyWorst q.worst (q.starts.foldl addStart (nextStart P S))) n

/-- Initial state, `reset_arrivals`, raptor.h:177-180. -/
def init (P : Problem) : State :=
  { round := fun _ _ => P.hi, best := fun _ => P.hi, tmp := fun _ => P.hi, mark := fun _ => false,
    tad := fun _ => P.hi, done := false }

/-- A whole range query: the start times in the order in which they are processed. -/
def runAll (P : Problem) (n : Nat) (qs : List Start) : State := qs.foldl (runOne P n) (init P)

/-- The journeys added to the results after a start time, raptor.h:372-397: destination, number of
rides, arrival. -/
def results (P : Problem) (n : Nat) (S : State) : List (Loc × Nat × Int) :=
  (marked P P.isDest).flatMap fun d =>
    ((List.range' 1 n).filter fun k => S.round k d ≠ P.hi).map fun k => (d, k, S.round k d)

end Nigiri.Raptor
