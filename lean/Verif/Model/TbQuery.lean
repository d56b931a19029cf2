import Verif.Model.TbPreprocess
import Verif.Model.ParetoSet
/-!
# Trip-based routing: the query engine

Model of `include/nigiri/routing/tb/reached.h`, `queue.h`, `query_engine.h` and
`src/routing/tb/query_engine.cc` (without `reconstruct`).

Times are minutes (`unixtime_t`) relative to the first internal day of the timetable, so that the event time of
transport `t` on day `d` is `d * 1440 + event_mam`.
-/

namespace Nigiri.TB
open Raptor (Loc StopData)

/-- `kMaxTransfers`, `limits.h`. -/
def kMaxTransfers : Nat := 14

/-- `kTBMaxDayOffset`, `settings.h:17-19`. -/
def kTBMaxDayOffset : Nat := 8

/-! ## Reached segments -/

/-- `to_transport`, `reached.h:17-22` (the day in the upper 4 bits). -/
def toTransport (off day : Nat) : Nat := ((day <<< 12) % 65536) ||| off

/-- `entry`, `reached.h:30-39`. -/
structure Entry where
  tr : Nat
  seg : Nat
  k : Nat
deriving DecidableEq, Repr

/-- `entry::dominates`, `reached.h:31-34`. -/
def Entry.dominates (a b : Entry) : Bool := decide (a.k ≤ b.k) && decide (a.tr ≤ b.tr) && decide (a.seg ≤ b.seg)

/-- `reached::data_` -/
abbrev RMap := Nat → List Entry

/-- `reached::update`, `reached.h:54-78`: segment offset and round are stored in 12 and 4 bits. -/
def RMap.update (m : RMap) (r off seg day k : Nat) : RMap :=
  Raptor.upd m r (ParetoSet.add Entry.dominates ⟨toTransport off day, seg % 4096, k % 16⟩ (m r)).2

/-- `reached::query`, `reached.h:80-97`. -/
def RMap.query (tt : TT) (m : RMap) (r off day k : Nat) : Nat :=
  (m r).foldl (fun ms e => if e.k ≤ k ∧ e.tr ≤ toTransport off day ∧ e.seg < ms then e.seg else ms)
    (((tt.route r).stops.length - 1) % 65536)

/-! ## Queue -/

/-- `queue_entry`, `queue.h:20-32`: the parent `kNoParent` is `none`. -/
structure QE where
  from' : Nat
  to' : Nat
  parent : Option Nat
  day : Nat
deriving DecidableEq, Repr

/-- The queue and the reached segments. -/
structure QS where
  q : List QE
  r : RMap

/-- `queue::enqueue`, `queue.h:40-79`, given the parent's `transport_query_day_offset_`. -/
def enqueue (tt : TT) (S : QS) (x : Transfer) (parent parentDay k : Nat) : QS :=
  let day : Int := (parentDay : Int) + x.dayOffset
  if day ≤ 0 ∨ (kTBMaxDayOffset : Int) ≤ day then S
  else
    let m := S.r.query tt x.route x.trOff day.toNat k
    if m ≤ x.toSegOff then S
    else { q := S.q ++ [⟨x.toSeg, x.toSeg - x.toSegOff + m, some parent, day.toNat⟩],
           r := S.r.update x.route x.trOff x.toSegOff day.toNat k }

/-- `queue::initial_enqueue`, `queue.h:81-114`: `off` is the transport within route `r`, `i` the boarding stop. -/
def initialEnqueue (tt : TT) (tbd : TbData) (S : QS) (r off i day : Nat) : QS :=
  let first := tbd.firstSeg.getD (trFrom tt r + off) 0
  let m := S.r.query tt r (off % 65536) day 0
  if m ≤ i % 65536 then S
  else { q := S.q ++ [⟨first + i, first + m, none, day⟩],
         r := S.r.update r (off % 65536) (i % 65536) day 0 }

/-! ## Query engine -/

/-- `get_earliest_transport` with `worse_than_dest = false`, `get_earliest_transport.h:13-89`, on one day: the first
transport not before `mam` (only checked on the first day) that runs. -/
def earliestOn (r : Route) (stopIdx : Nat) (day mam : Nat) (first : Bool) : Option (Nat × Nat) :=
  let range := if first then (List.range r.nTr).dropWhile (fun t => decide (r.dep t stopIdx % 1440 < mam))
    else List.range r.nTr
  (range.find? fun t => !(first && !decide (mam ≤ r.dep t stopIdx % 1440)) &&
    decide (r.dep t stopIdx / 1440 ≤ day) && (r.bits t).testBit (day - r.dep t stopIdx / 1440)).map
    fun t => (t, day - r.dep t stopIdx / 1440)

/-- `get_earliest_transport` over `kNDaysToIterate = 2` days. -/
def earliest (r : Route) (stopIdx : Nat) (day mam : Nat) : Option (Nat × Nat) :=
  match earliestOn r stopIdx day mam true with
  | some x => some x
  | none => earliestOn r stopIdx (day + 1) mam false

/-- What the engine is constructed with. -/
structure Query where
  /-- `dist_to_dest`: empty = destination is a station -/
  dist : List (Option Nat)
  /-- set bits of `is_dest` -/
  dests : List Loc
  /-- `lb` -/
  lb : Loc → Int
  /-- `base` of the search, as day index -/
  base : Nat

/-- `base_`: `QUERY_DAY_SHIFT` days before the base day, `query_engine.cc:47`. -/
def Query.base' (Q : Query) : Nat := Q.base - 5

/-- `query_state`, `query_engine.h:20-50`. -/
structure State where
  qs : QS
  tmin : Nat → Int
  parent : Nat → Option Nat
  endReach : Nat → Bool
  distToDest : Nat → Option Nat

/-- `unixtime_t::max()` -/
def tMax : Int := 2147483647

/-- A new `query_state`, `query_engine.h:21-26`. -/
def State.fresh : State := ⟨⟨[], fun _ => []⟩, fun _ => tMax, fun _ => none, fun _ => false, fun _ => none⟩

/-- `query_state::reset`, `query_engine.h:28-33`. -/
def State.reset (S : State) : State :=
  { S with qs := ⟨[], fun _ => []⟩, parent := fun _ => none, endReach := fun _ => false }

/-- The segments marked by `mark_dest_segments(l, _)`, `query_engine.cc:52-76`. -/
def destSegs (tt : TT) (tbd : TbData) (l : Loc) : List Nat :=
  (tt.locRoutes l).flatMap fun r =>
    let R := tt.route r
    ((List.range (R.stops.length - 1)).filter fun i => decide ((R.stop (i + 1)).loc = l) && (R.stop (i + 1)).outAllowed).flatMap
      fun i => (List.range R.nTr).map fun t => tbd.firstSeg.getD (trFrom tt r + t) 0 + i

/-- Marking one segment, `query_engine.cc:64-72`. -/
def markSeg (d : Nat) (S : State) (seg : Nat) : State :=
  { S with
    endReach := Raptor.upd S.endReach seg true,
    distToDest := Raptor.upd S.distToDest seg (match S.distToDest seg with
      | none => some d
      | some d' => some (min d' d)) }

/-- `mark_dest_segments`, `query_engine.cc:52-76`. -/
def markDest (tt : TT) (tbd : TbData) (S : State) (x : Loc × Nat) : State := (destSegs tt tbd x.1).foldl (markSeg x.2) S

/-- The locations from which the destination is reached, with the distance, `query_engine.cc:78-94`. -/
def destDists (tt : TT) (tbd : TbData) (Q : Query) : List (Loc × Nat) :=
  if Q.dist = [] then Q.dests.flatMap fun l => (l, 0) :: tt.fpsIn tbd.prf l
  else Q.dist.zipIdx.filterMap fun x => x.1.map fun d => (x.2, d)

/-- The constructor, `query_engine.cc:25-95`. -/
def construct (tt : TT) (tbd : TbData) (Q : Query) (S : State) : State :=
  (destDists tt tbd Q).foldl (markDest tt tbd) S.reset

/-- `reset_arrivals`, `query_engine.h:103-107`. -/
def resetArrivals (S : State) : State :=
  { S with qs := { S.qs with r := fun _ => [] }, tmin := fun _ => tMax, parent := fun _ => none }

/-- `next_start_time`, `query_engine.h:109`. -/
def nextStartTime (S : State) : State := { S with qs := { S.qs with q := [] } }

/-- The initial segments of one start, `query_engine.cc:225-262`: (route, transport, stop, query day offset). -/
def startSegs (tt : TT) (Q : Query) (l : Loc) (t : Nat) : List (Nat × Nat × Nat × Nat) :=
  (tt.locRoutes l).flatMap fun r =>
    let R := tt.route r
    (List.range (R.stops.length - 1)).filterMap fun i =>
      if (R.stop i).inAllowed = false ∨ (R.stop i).loc ≠ l then none
      else match earliest R i (t / 1440) (t % 1440) with
        | none => none
        | some (o, day) =>
          if day < Q.base' ∨ Q.base' + kTBMaxDayOffset ≤ day then none else some (r, o, i, day - Q.base')

/-- `add_start`, `query_engine.cc:225-262`. -/
def addStart (tt : TT) (tbd : TbData) (Q : Query) (S : State) (x : Loc × Nat) : State :=
  { S with qs := (startSegs tt Q x.1 x.2).foldl (fun qs y => initialEnqueue tt tbd qs y.1 y.2.1 y.2.2.1 y.2.2.2) S.qs }

/-- Transport of a segment and its position: `segment_transports_`, `transport_first_segment_`. -/
def segPos (tt : TT) (tbd : TbData) (s : Nat) : Route × Nat × Nat :=
  let t := tbd.segTr.getD s 0
  let x := (trList tt).getD t (0, 0)
  (tt.route x.1, x.2, s - tbd.firstSeg.getD t 0)

/-- Arrival at the end of a segment: `event_time({t, base_ + day}, i + 1, kArr)`. -/
def segArr (tt : TT) (tbd : TbData) (Q : Query) (s day : Nat) : Int :=
  let p := segPos tt tbd s
  ((Q.base' + day : Nat) : Int) * 1440 + (p.1.arr p.2.1 (p.2.2 + 1) : Nat)

/-- The segments of a queue entry. -/
def QE.segs (e : QE) : List Nat := (List.range (e.to' - e.from')).map (e.from' + ·)

/-- The update of `t_min_` and `parent_` for one segment, `query_engine.cc:170-177`. -/
def destUpd (k : Nat) (q : Nat) (time : Int) (S : State) : State :=
  { S with
    tmin := fun j => if k ≤ j ∧ j < kMaxTransfers + 1 ∧ S.tmin j > time then time else S.tmin j,
    parent := fun j => if j = k ∧ k < kMaxTransfers + 1 ∧ S.tmin k > time then some q else S.parent j }

/-- `seg_dest`, `query_engine.cc:147-179`. -/
def segDest (tt : TT) (tbd : TbData) (Q : Query) (k : Nat) (S : State) (q : Nat) : State :=
  match S.qs.q[q]? with
  | none => S
  | some e => e.segs.foldl (fun S s =>
      if S.endReach s then destUpd k q (segArr tt tbd Q s e.day + ((S.distToDest s).getD 0 : Nat)) S else S) S

/-- `seg_prune`, `query_engine.cc:181-203` (with lower bounds, as used by `tb_search`). -/
def segPrune (tt : TT) (tbd : TbData) (Q : Query) (k : Nat) (S : State) (q : Nat) : State :=
  match S.qs.q[q]? with
  | none => S
  | some e =>
    let p := segPos tt tbd e.from'
    if segArr tt tbd Q e.from' e.day + Q.lb (p.1.stop (p.2.2 + 1)).loc > S.tmin (k + 1) then
      { S with qs := { S.qs with q := S.qs.q.set q { e with to' := e.from' } } }
    else S

/-- `seg_transfers`, `query_engine.cc:205-223`. -/
def segTransfers (tt : TT) (tbd : TbData) (Q : Query) (k : Nat) (S : State) (q : Nat) : State :=
  match S.qs.q[q]? with
  | none => S
  | some e =>
    { S with qs := (e.segs.flatMap fun s => tbd.segTransfers.getD s []).foldl (fun qs x =>
        if x.days.testBit (Q.base' + e.day) then enqueue tt qs x q e.day (k + 1) else qs) S.qs }

/-- One round over the queue entries `[lo, hi)`, `query_engine.cc:114-124`. -/
def roundStep (tt : TT) (tbd : TbData) (Q : Query) (k lo hi : Nat) (S : State) : State :=
  let idx := (List.range (hi - lo)).map (lo + ·)
  let S := idx.foldl (segDest tt tbd Q k) S
  let S := idx.foldl (segPrune tt tbd Q k) S
  idx.foldl (segTransfers tt tbd Q k) S

/-- The loop over the rounds, `query_engine.cc:109-128`; `n` rounds remain. -/
def rounds (tt : TT) (tbd : TbData) (Q : Query) : Nat → Nat → Nat → Nat → State → State
  | 0, _, _, _, S => S
  | n + 1, k, lo, hi, S =>
    if lo = hi then S
    else
      let S' := roundStep tt tbd Q k lo hi S
      rounds tt tbd Q n (k + 1) hi S'.qs.q.length S'

/-- `t_min_[k] >= worst_time_at_dest`, `query_engine.cc:102-107`. -/
def applyWorst (worst : Int) (S : State) : State :=
  { S with
    tmin := fun k => if k < kMaxTransfers ∧ S.tmin k ≥ worst then worst else S.tmin k,
    parent := fun k => if k < kMaxTransfers ∧ S.tmin k ≥ worst then none else S.parent k }

/-- `execute`, `query_engine.cc:97-145`: the argument `max_transfers` is only used for the statistics. -/
def execute (tt : TT) (tbd : TbData) (Q : Query) (_maxTransfers : Nat) (worst : Int) (S : State) :
    State × List (Nat × Int) :=
  let S := applyWorst worst S
  let S := rounds tt tbd Q kMaxTransfers 0 0 S.qs.q.length S
  (S, (List.range kMaxTransfers).filterMap fun n => if (S.parent n).isSome then some (n, S.tmin n) else none)

/-- One start time of the range query: `next_start_time`, `add_start` for the start events, `execute`. -/
def oneStart (tt : TT) (tbd : TbData) (Q : Query) (maxTransfers : Nat) (S : State) (starts : List (Loc × Nat))
    (worst : Int) : State × List (Nat × Int) :=
  execute tt tbd Q maxTransfers worst (starts.foldl (addStart tt tbd Q) (nextStartTime S))

end Nigiri.TB
