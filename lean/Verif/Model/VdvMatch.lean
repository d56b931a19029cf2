import Verif.Model.VdvAus

/-!
# Matching a reported run with the timetable

Model of `updater::match_run`, `vdv_aus.cc:308-453`.
-/

namespace Nigiri.Vdv

open Nigiri.Rt

/-- What `match_run` reads of the timetable. -/
structure MTt where
  /-- `locations_.equivalences_` -/
  equiv : Nat → List Nat
  /-- `location_routes_` -/
  locRoutes : Nat → List Nat
  /-- locations of `route_location_seq_` -/
  routeSeq : Nat → List Nat
  /-- `route_transport_ranges_[r]` -/
  trips : Nat → List Nat
  /-- `event_times_at_stop(r, stop, arr)`: (days, minutes after midnight) per transport -/
  evTimes : Nat → Nat → Bool → List (Nat × Nat)
  /-- `is_transport_active(t, day)`; days are not reduced to 16 bits, no transport is active outside of the bitfield -/
  active : Nat → Int → Bool
  /-- `internal_interval().from_` in minutes -/
  start : Int

/-- `vdv_stop::get_event(et)`, `vdv_aus.cc:216-225`; `none` is no restriction. -/
def getEvent (v : VStop) (et : Option Bool) : Option (Int × Bool) :=
  match et, v.dep, v.arr with
  | some false, d, _ => d.map fun t => (t, false)
  | some true, _, a => a.map fun t => (t, true)
  | none, some d, _ => some (d, false)
  | none, none, a => a.map fun t => (t, true)

/-- The event compared at a stop of a route with `n` stops, `vdv_aus.cc:344-348`. -/
def eventAt (v : VStop) (i n : Nat) : Option (Int × Bool) :=
  if i = 0 then getEvent v (some false) else if i + 1 = n then getEvent v (some true) else getEvent v none

/-- `tt.day_idx_mam(t)`, `timetable.h:200-208` (before the conversion to 16 bit). -/
def dayIdxMam (tt : MTt) (t : Int) : Int × Int := ((t - tt.start).tdiv 1440, (t - tt.start).tmod 1440)

/-- A stop of an active run close to the reported stop. -/
structure Hit where
  /-- `tr` -/
  t : Nat × Int
  /-- `stop_idx` -/
  stop : Nat
  /-- `location_seq.size()` -/
  len : Nat
  /-- `local_score` -/
  score : Nat
  deriving DecidableEq, Repr

/-- The innermost loop, `vdv_aus.cc:353-372`: transports of route `r` at stop `i`. -/
def tripHits (tt : MTt) (r i n : Nat) (t : Int) (arr : Bool) : List Hit :=
  ((tt.evTimes r i arr).zipIdx.filterMap fun (ev, k) =>
    let dm := dayIdxMam tt t
    let d := mamDist dm.2 ev.2
    let score : Int := (exactScore : Int) - d.1 * d.1
    if score < 0 then none
    else
      let tr := ((tt.trips r).getD k 0, dm.1 - ((ev.1 : Int) - d.2))
      if tt.active tr.1 tr.2 then some ⟨tr, i, n, score.toNat⟩ else none)

/-- The loops over equivalent locations, routes and stops, `vdv_aus.cc:336-351`, in order. -/
def stopHits (tt : MTt) (v : VStop) (loc : Nat) : List Hit :=
  (tt.equiv loc).flatMap fun l => (tt.locRoutes l).flatMap fun r =>
    (tt.routeSeq r).zipIdx.flatMap fun (s, i) =>
      if s ≠ l then []
      else match eventAt v i (tt.routeSeq r).length with
        | none => []
        | some (t, arr) => tripHits tt r i (tt.routeSeq r).length t arr

/-- `candidate`, `vdv_aus.cc:284-306`; `r_` is `t` and `first`, the range ends at `len`. -/
structure Cand where
  /-- `r_.t_` -/
  t : Nat × Int
  /-- `r_.stop_range_.from_` -/
  first : Nat
  /-- `total_length_` = `r_.stop_range_.to_` -/
  len : Nat
  /-- `score_` -/
  score : Nat
  /-- `local_best_` -/
  best : Nat
  deriving DecidableEq, Repr

/-- Registration of a hit, `vdv_aus.cc:373-396`: the first candidate with this transport is improved
(unless the stop lies before its first stop), otherwise a new one is appended. -/
def addHit : List Cand → Hit → List Cand
  | [], h => [⟨h.t, h.stop, h.len, 0, h.score⟩]
  | c :: cs, h =>
    if c.t = h.t then (if h.stop < c.first then c :: cs else { c with best := max c.best h.score } :: cs)
    else c :: addHit cs h

/-- `finish_stop`, `vdv_aus.cc:288-291`. -/
def finish (c : Cand) : Cand := { c with score := c.score + c.best, best := 0 }

/-- One reported stop, `vdv_aus.cc:331-407`. -/
def matchStop (tt : MTt) (cs : List Cand) (v : VStop) : List Cand :=
  match v.loc with
  | none => cs
  | some l => ((stopHits tt v l).foldl addHit cs).map finish

/-- All reported stops. -/
def candidates (tt : MTt) (vs : List VStop) : List Cand := vs.foldl (matchStop tt) []

/-- `operator<`, `vdv_aus.cc:293-296`. -/
def Cand.before (a b : Cand) : Bool := b.score < a.score || (a.score == b.score && a.len < b.len)

/-- `match_threshold`, `vdv_aus.cc:415-419`: 0.5 or 0.7 of the largest possible score (rational arithmetic
instead of `double`). -/
def above (complete : Bool) (score n : Nat) : Bool :=
  if complete then decide (n * exactScore < 2 * score) else decide (7 * (n * exactScore) < 10 * score)

/-- The selection, `vdv_aus.cc:409-428`, for a sort function of the standard library. -/
def select (sort : List Cand → List Cand) (complete : Bool) (n : Nat) (cs : List Cand) : List Cand :=
  match sort cs with
  | [] => []
  | best :: rest =>
    if above complete best.score n then
      (best :: rest).takeWhile fun c => decide (975 * best.score < 1000 * c.score)
    else []

/-- `match_run`, `vdv_aus.cc:308-428`: a run found by its trip id and date wins, otherwise the stops decide. -/
def matchRun (tt : MTt) (sort : List Cand → List Cand) (byId : Option (Nat × Int × Nat × Nat)) (complete : Bool)
    (vs : List VStop) : List (Nat × Int × Nat × Nat) :=
  match byId with
  | some r => [r]
  | none => (select sort complete vs.length (candidates tt vs)).map fun c => (c.t.1, c.t.2, c.first, c.len)

end Nigiri.Vdv
