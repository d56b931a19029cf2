import Verif.Model.RaptorConcrete
/-!
# The round based search with via stops

Model of `raptor<SearchDir, Rt, Vias, SearchMode>`, `include/nigiri/routing/raptor/raptor.h`, for any number of
via stops (the code instantiates `Vias` = 0, 1, 2), without ping bounds (`bounds_last_k_ == 0`).  Conventions as
in `Verif.Model.Raptor`: oriented time, label matrices as total functions.  A label is indexed by location and
number of via stops visited so far.
-/

namespace Nigiri.RaptorVia
open Nigiri.Raptor

/-- The via stops of the query in search order: `is_via_[v]` (`search.h:110-112`,
`start_times.cc:355-368`) and `via_stops_[v].stay_`. -/
structure ViaStop where
  isVia : Loc → Bool
  stay : Int

/-- The problem of a search with via stops. -/
structure VProblem extends Problem where
  vias : List ViaStop
  /-- the location has time dependent footpaths (`has_td_footpaths_out_` / `_in_` of the profile); the
  footpaths of all others do not depend on the time -/
  hasTd : Loc → Bool

/-- `Vias`. -/
def VProblem.n (P : VProblem) : Nat := P.vias.length

/-- `v != Vias && is_via_[v][l]`. -/
def VProblem.isVia (P : VProblem) (v : Nat) (l : Loc) : Bool :=
  match P.vias[v]? with | some s => s.isVia l | none => false

/-- `via_stops_[v].stay_`. -/
def VProblem.stay (P : VProblem) (v : Nat) : Int :=
  match P.vias[v]? with | some s => s.stay | none => 0

/-- The search state, `raptor_state.h` and the members of `raptor`. -/
structure State where
  round : Nat → Loc → Nat → Int
  best : Loc → Nat → Int
  tmp : Loc → Nat → Int
  /-- `state_.station_mark_` -/
  mark : Loc → Bool
  tad : Nat → Int
  done : Bool

/-- `f[l][v] = x`. -/
def upd2 {β : Type} (f : Nat → Nat → β) (l v : Nat) (x : β) : Nat → Nat → β :=
  fun l' v' => if l' = l ∧ v' = v then x else f l' v'

/-- `round_times_[k][l][v] = x`. -/
def upd3 (f : Nat → Loc → Nat → Int) (k : Nat) (l : Loc) (v : Nat) (x : Int) : Nat → Loc → Nat → Int :=
  fun k' l' v' => if k' = k ∧ l' = l ∧ v' = v then x else f k' l' v'

/-- What a route scan changes. -/
structure Scan where
  tmp : Loc → Nat → Int
  mark : Loc → Bool

/-- The riders of a route scan: `et[e][o]` boarded from a label with `e` via stops and passed `o` more,
raptor.h:1169. -/
abbrev Riders := Nat → Nat → Option Run

/-- One step of the crossing loop, raptor.h:1214-1229: the rider `et[e][o - 1]` passes a via stop without stay. -/
def crossOne (P : VProblem) (r : Route) (i : Nat) (s : Stop) (et : Riders) (eo : Nat × Nat) : Riders :=
  match et eo.1 (eo.2 - 1) with
  | none => et
  | some fr =>
    if P.isVia (eo.1 + eo.2 - 1) s.loc && decide (P.stay (eo.1 + eo.2 - 1) = 0) then
      let to := match et eo.1 eo.2 with
        | none => fr
        | some t => if P.clamp (r.alight fr i) < P.clamp (r.alight t i) then fr else t
      upd2 (upd2 et eo.1 eo.2 (some to)) eo.1 (eo.2 - 1) none
    else et

/-- The index pairs `(e, o)` of the crossing loop in order, raptor.h:1212-1213. -/
def crossPairs (n : Nat) : List (Nat × Nat) :=
  (List.range n).flatMap fun e => ((List.range (n - e)).reverse.map fun x => (e, x + 1))

/-- Riders passing via stops without stay, raptor.h:1211-1235. -/
def cross (P : VProblem) (r : Route) (i : Nat) (s : Stop) (et : Riders) : Riders :=
  (crossPairs P.n).foldl (crossOne P r i s) et

/-- One rider alights, raptor.h:1243-1303; `cb` is `current_best`. -/
def arriveOne (P : VProblem) (r : Route) (rk best : Loc → Nat → Int) (tad : Int) (i : Nat) (s : Stop) (et : Riders)
    (a : Scan × (Nat → Int)) (p : Nat × Nat) : Scan × (Nat → Int) :=
  match et p.2 (p.1 - p.2) with
  | none => a
  | some tr =>
    if s.canAlight then
      let by' := P.clamp (r.alight tr i)
      let c := if a.2 p.1 = P.hi then min (min (rk s.loc p.1) (a.1.tmp s.loc p.1)) (best s.loc p.1) else a.2 p.1
      if lbOk (P.lb s.loc) by' tad then
        (⟨upd2 a.1.tmp s.loc p.1 (min by' (a.1.tmp s.loc p.1)), upd a.1.mark s.loc true⟩, upd a.2 p.1 (min by' c))
      else (a.1, upd a.2 p.1 c)
    else a

/-- The index pairs `(cs, e)` of the alighting loop in order, raptor.h:1240-1242. -/
def arrivePairs (n : Nat) : List (Nat × Nat) :=
  (List.range (n + 1)).reverse.flatMap fun cs => (List.range (cs + 1)).map fun e => (cs, e)

/-- Arrivals of all riders, raptor.h:1237-1306. -/
def arrive (P : VProblem) (r : Route) (rk best : Loc → Nat → Int) (tad : Int) (i : Nat) (s : Stop) (et : Riders) (sc : Scan) :
    Scan × (Nat → Int) :=
  (arrivePairs P.n).foldl (arriveOne P r rk best tad i s et) (sc, fun _ => P.hi)

/-- `et_time_at_stop`, raptor.h:1321-1325. -/
def etTime (P : VProblem) (r : Route) (i : Nat) : Option Run → Int
  | some tr => P.clamp (r.board tr i)
  | none => P.hi

/-- Boarding from a label with `v` via stops, raptor.h:1317-1352: the new `et[v][0]`. -/
def boardV (P : VProblem) (r : Route) (rk best : Loc → Nat → Int) (tad : Int) (i : Nat) (s : Stop) (x : Int) (sc : Scan)
    (cb : Nat → Int) (fresh : Option Run) (v : Nat) : Option Run :=
  let p := rk s.loc v
  if p ≠ P.hi ∧ p ≤ etTime P r i fresh then
    match r.et i p (tad - x) with
    | none => fresh
    | some new =>
      let cb' := min (min (cb v) (best s.loc v)) (sc.tmp s.loc v)
      if cb' = P.hi ∨ P.clamp (r.board new i) ≤ etTime P r i fresh then some new else fresh
  else fresh

/-- The loop over `v`, raptor.h:1317: every step changes only its own rider. -/
def boardAt (P : VProblem) (r : Route) (rk best : Loc → Nat → Int) (tad : Int) (i : Nat) (s : Stop) (x : Int) (sc : Scan)
    (cb : Nat → Int) (et : Riders) : Riders :=
  (List.range (P.n + 1)).foldl (fun et v => upd2 et v 0 (boardV P r rk best tad i s x sc cb (et v 0) v)) et

/-- `update_route`, raptor.h:1163-1355. -/
def scanRoute (P : VProblem) (r : Route) (rk best : Loc → Nat → Int) (tad : Int) (prev : Loc → Bool) :
    List Stop → Nat → Riders → Scan → Scan
  | [], _, _, sc => sc
  | s :: rest, i, et0, sc0 =>
    let et := cross P r i s (filterEt i s (fun _ _ => none) et0)
    let a := arrive P r rk best tad i s et sc0
    if rest.isEmpty || !s.canBoard || !prev s.loc then scanRoute P r rk best tad prev rest (i + 1) et a.1
    else match P.lb s.loc with
      | none => a.1
      | some x => scanRoute P r rk best tad prev rest (i + 1) (boardAt P r rk best tad i s x a.1 a.2 et) a.1

/-- Passing via stops without stay on a real-time transport, raptor.h:1110-1118: `v` is the target slot. -/
def crossRtOne (P : VProblem) (l : Loc) (et : Nat → Bool) (v : Nat) : Nat → Bool :=
  if et (v - 1) && P.isVia (v - 1) l && decide (P.stay (v - 1) = 0) then upd (upd et v true) (v - 1) false else et

def crossRt (P : VProblem) (l : Loc) (et : Nat → Bool) : Nat → Bool :=
  ((List.range P.n).reverse.map (· + 1)).foldl (crossRtOne P l) et

/-- Alighting from a real-time transport with `v` via stops, raptor.h:1122-1151. -/
def arriveRtOne (P : VProblem) (tad : Int) (s : Stop) (by' : Int) (et : Nat → Bool) (sc : Scan) (v : Nat) : Scan :=
  if et v && s.canAlight && lbOk (P.lb s.loc) by' tad then
    ⟨upd2 sc.tmp s.loc v (min by' (sc.tmp s.loc v)), upd sc.mark s.loc true⟩
  else sc

/-- `update_rt_transport`, raptor.h:1068-1172. -/
def scanRt (P : VProblem) (r : RtTransport) (rk : Loc → Nat → Int) (tad : Int) (prev : Loc → Bool) :
    List Stop → Nat → (Nat → Bool) → Scan → Scan
  | [], _, _, sc => sc
  | s :: rest, i, et0, sc0 =>
    let et1 := filterEt i s (fun _ => false) et0
    let et := if i ≠ 0 then crossRt P s.loc et1 else et1
    let sc := if i ≠ 0 then (List.range (P.n + 1)).reverse.foldl (arriveRtOne P tad s (P.clamp (r.alight i)) et) sc0 else sc0
    match P.lb s.loc with
    | none => sc
    | some _ =>
      if rest.isEmpty || !s.canBoard || !prev s.loc then scanRt P r rk tad prev rest (i + 1) et sc
      else scanRt P r rk tad prev rest (i + 1)
        (fun v => et v || (decide (v ≤ P.n) && decide (rk s.loc v ≤ P.clamp (r.board i)))) sc

/-- The route loops of a round, raptor.h:257-345 with `loop_routes`, `loop_rt_routes`. -/
def scanAll (P : VProblem) (k : Nat) (S : State) (best : Loc → Nat → Int) (tad : Nat → Int) : Scan :=
  let sc := (P.routes.filter fun r => touches S.mark r.stops && r.allowed).foldl
    (fun sc r => scanRoute P r (S.round (k - 1)) best (tad k) S.mark r.stops 0 (fun _ _ => none) sc)
    { tmp := S.tmp, mark := fun _ => false }
  (P.rts.filter fun r => touches S.mark r.stops && r.allowed).foldl
    (fun sc r => scanRt P r (S.round (k - 1)) (tad k) S.mark r.stops 0 (fun _ => false) sc) sc

/-- A label update, raptor.h:691-741, 800-850, 893-935; `dest` says whether the update counts as an arrival at the
destination. -/
def applyUpd (P : VProblem) (k : Nat) (S : State) (l : Loc) (v : Nat) (t : Int) (dest : Bool) : State :=
  if t < S.best l v then
    let S1 := { S with round := upd3 S.round k l v (min t (S.round k l v)) }
    if lbOk (P.lb l) t (S.tad k) then
      { S1 with
        round := upd3 S.round k l v t
        best := upd2 S.best l v t
        mark := upd S.mark l true
        tad := if dest then updTad S.tad k t else S.tad }
    else S1
  else S

/-- `target_v` after arriving at `l` with `v` via stops, e.g. raptor.h:688-689. -/
def nextV (P : VProblem) (v : Nat) (l : Loc) : Nat := if P.isVia v l then v + 1 else v

/-- The stay at `l`, e.g. raptor.h:691. -/
def stayV (P : VProblem) (v : Nat) (l : Loc) : Int := if P.isVia v l then P.stay v else 0

/-- `transfer_time`, raptor.h:699-705. -/
def transferTime (P : VProblem) (l : Loc) (v : Nat) : Int :=
  if !P.intermodal && (decide (v = P.n) && P.isDest l) then 0 else P.transfer l

/-- `update_transfers`, raptor.h:680-744, for one station and number of via stops. -/
def transferV (P : VProblem) (k : Nat) (i : Loc) (S : State) (v : Nat) : State :=
  if S.tmp i v = P.hi then S
  else
    let tv := nextV P v i
    applyUpd P k S i tv (P.clamp (S.tmp i v + transferTime P i tv + stayV P v i)) (decide (tv = P.n) && P.isDest i)

def transferAt (P : VProblem) (k : Nat) (S : State) (i : Loc) : State :=
  (List.range (P.n + 1)).foldl (transferV P k i) S

/-- A footpath from `i` with `v` via stops, raptor.h:767-840 (`td = false`) and raptor.h:876-935 (`td = true`, where
the arrival at the destination does not ask for `target_v == Vias`, raptor.h:928). -/
def footpathV (P : VProblem) (k : Nat) (i : Loc) (td : Bool) (S : State) (v : Nat) (fp : Loc × Int) : State :=
  if S.tmp i v = P.hi then S
  else
    let sv := nextV P v i
    let tv := nextV P sv fp.1
    applyUpd P k S fp.1 tv (P.clamp (S.tmp i v + (fp.2 + (stayV P v i + stayV P sv fp.1))))
      (if td then P.isDest fp.1 else (decide (tv = P.n) && P.isDest fp.1))

/-- `update_footpaths`, raptor.h:746-858, for one station. -/
def footpathsAt (P : VProblem) (k : Nat) (S : State) (i : Loc) : State :=
  if P.hasTd i then S
  else (P.fps i 0).foldl (fun S fp => (List.range (P.n + 1)).foldl (fun S v => footpathV P k i false S v fp) S) S

/-- `update_td_offsets`, raptor.h:860-943, for one station. -/
def tdFootpathsAt (P : VProblem) (k : Nat) (S : State) (i : Loc) : State :=
  if P.hasTd i then
    (List.range (P.n + 1)).foldl (fun S v =>
      if S.tmp i v = P.hi then S
      else (P.fps i (S.tmp i v)).foldl (fun S fp => footpathV P k i true S v fp) S) S
  else S

/-- Arrival at the intermodal target, e.g. raptor.h:973-978. -/
def applyEnd (P : VProblem) (k : Nat) (S : State) (t : Int) : State :=
  if t ≤ S.tad k then
    { S with round := upd3 S.round k P.endLoc P.n t, best := upd2 S.best P.endLoc P.n t, tad := updTad S.tad k t }
  else S

/-- The time dependent variant, raptor.h:1028-1033. -/
def applyEndTd (P : VProblem) (k : Nat) (S : State) (t : Int) : State :=
  if t ≤ S.tad k ∧ t < S.best P.endLoc P.n then
    { S with round := upd3 S.round k P.endLoc P.n t, best := upd2 S.best P.endLoc P.n t, tad := updTad S.tad k t }
  else S

/-- Case 1 of the last mile: the station is the last via stop, raptor.h:966-993. -/
def endVia (P : VProblem) (k : Nat) (S : State) (i : Loc) (d : Int) : State :=
  if P.n ≠ 0 ∧ S.tmp i (P.n - 1) ≠ P.hi ∧ P.isVia (P.n - 1) i = true then
    applyEnd P k S (P.clamp (S.tmp i (P.n - 1) + P.stay (P.n - 1) + d))
  else S

/-- The last mile of fixed duration, raptor.h:960-1000. -/
def endStatic (P : VProblem) (k : Nat) (S : State) (i : Loc) : State :=
  match P.endDist i with
  | some d =>
    let S' := endVia P k S i d
    if S.tmp i P.n = P.hi then S' else applyEnd P k S' (P.clamp (S.tmp i P.n + d))
  | none => S

/-- `update_intermodal_footpaths`, raptor.h:945-1060, for one station. -/
def endAt (P : VProblem) (k : Nat) (S : State) (i : Loc) : State :=
  let S1 := endStatic P k S i
  if S.tmp i P.n = P.hi then S1
  else match P.endTd i (S.tmp i P.n) with
    | some d => applyEndTd P k S1 (P.clamp (S.tmp i P.n + d))
    | none => S1

/-- `time_at_dest_` after `is_dest_.for_each_set_bit`, raptor.h:231-233. -/
def tadOfBest (P : VProblem) (k : Nat) (best : Loc → Nat → Int) (tad : Nat → Int) : Nat → Int :=
  (marked P.toProblem P.isDest).foldl (fun tad i => updTad tad k (best i P.n)) tad

/-- One round, raptor.h:223-366. -/
def roundStep (P : VProblem) (k : Nat) (S : State) : State :=
  let best := fun i v => min (S.round k i v) (S.best i v)
  let tad := tadOfBest P k best S.tad
  if !(P.routes.any fun r => touches S.mark r.stops) && !(P.rts.any fun r => touches S.mark r.stops) then
    { S with best := best, tad := tad, done := true }
  else
    let sc := scanAll P k S best tad
    let S0 : State := { round := S.round, best := best, tmp := sc.tmp, mark := fun _ => false, tad := tad, done := false }
    let prev := marked P.toProblem sc.mark
    let S1 := prev.foldl (transferAt P k) S0
    let S2 := if P.intermodal then prev.foldl (endAt P k) S1 else S1
    let S3 := prev.foldl (footpathsAt P k) S2
    prev.foldl (tdFootpathsAt P k) S3

/-- The loop over the rounds, raptor.h:223-366. -/
def rounds (P : VProblem) (S : State) : Nat → State
  | 0 => S
  | n + 1 => let S' := rounds P S n
    if S'.done then S' else roundStep P (n + 1) S'

/-- `next_start_time`, raptor.h:182-191. -/
def nextStart (P : VProblem) (S : State) : State :=
  { S with best := fun _ _ => P.hi, tmp := fun _ _ => P.hi, mark := fun _ => false, done := false }

/-- `add_start`, raptor.h:193-207. -/
def addStart (P : VProblem) (S : State) (st : Loc × Int) : State :=
  let v := nextV P 0 st.1
  { S with
    best := upd2 S.best st.1 v (min st.2 (S.best st.1 v))
    round := upd3 S.round 0 st.1 v (min st.2 (S.round 0 st.1 v))
    mark := upd S.mark st.1 true }

/-- The beginning of `execute`, raptor.h:213-219. -/
def applyWorst (worst : Int) (S : State) : State := { S with tad := fun i => min worst (S.tad i) }

/-- One start time of a query. -/
def runOne (P : VProblem) (n : Nat) (S : State) (q : Start) : State :=
  rounds P (applyWorst q.worst (q.starts.foldl (addStart P) (nextStart P S))) n

/-- Initial state, `reset_arrivals`, raptor.h:177-180. -/
def init (P : VProblem) : State :=
  { round := fun _ _ _ => P.hi, best := fun _ _ => P.hi, tmp := fun _ _ => P.hi, mark := fun _ => false,
    tad := fun _ => P.hi, done := false }

/-- A whole range query. -/
def runAll (P : VProblem) (n : Nat) (qs : List Start) : State := qs.foldl (runOne P n) (init P)

/-- The journeys added to the results after a start time, raptor.h:372-397: labels at the destinations with all via
stops. -/
def results (P : VProblem) (n : Nat) (S : State) : List (Loc × Nat × Int) :=
  (marked P.toProblem P.isDest).flatMap fun d =>
    ((List.range' 1 n).filter fun k => S.round k d P.n ≠ P.hi).map fun k => (d, k, S.round k d P.n)

/-- The search problem of a timetable and query with via stops in a direction. -/
def mkVProblem (d : Dir) (N : Net) (vias : List ViaStop) (hasTd : Loc → Bool) : VProblem :=
  { mkProblem d N with vias := vias, hasTd := hasTd }

end Nigiri.RaptorVia
