import Verif.Model.Dijkstra
import Verif.Model.Misc
import Verif.Model.RaptorConcrete
/-!
# The lower-bound graph and the lower bounds of a query

Model of `build_lb_graph` (`include/nigiri/loader/build_lb_graph.h`), of the real-time edges added by
`rt_timetable::update_lbs` (`src/rt/rt_timetable.cc:215-325`), of `for_each_meta`
(`include/nigiri/for_each_meta.h`) and of the query's `dijkstra` (`src/routing/dijkstra.cc`).

Simplifications: only the default profile (the only one for which the graph is built,
`src/loader/init_finish.cc:224-225`), so no route is skipped for missing flags; durations are unbounded
integers until they are stored as footpaths (9 bits, saturating); hash map iteration order is the order of
first insertion.
-/

namespace Nigiri.Lb
open Nigiri.Raptor

/-- The part of the timetable that is read. -/
structure Tt where
  /-- `n_locations()` -/
  nLoc : Nat
  /-- `locations_.parents_` -/
  parent : Nat → Option Nat
  /-- `locations_.children_` -/
  children : Nat → List Nat
  /-- `locations_.equivalences_` -/
  equiv : Nat → List Nat
  /-- `locations_.types_[l] == kGeneratedTrack` -/
  generated : Nat → Bool
  /-- `locations_.footpaths_out_[kDefaultProfile]`, `footpaths_in_` -/
  fpsOut : Nat → List Edge
  fpsIn : Nat → List Edge
  routes : List RouteData
  rts : List RtData

/-- `get_root_idx`. -/
def Tt.root (T : Tt) (l : Nat) : Nat := (getRootIdx T.parent l).getD l

/-- Footpaths against the search direction, `build_lb_graph.h:26-28`. -/
def Tt.fpsAgainst (T : Tt) : Dir → Nat → List Edge
  | .fwd => T.fpsIn
  | .bwd => T.fpsOut

/-- `update_weight`, `build_lb_graph.h:15-22`. -/
def updateWeight : List (Nat × Int) → Nat → Int → List (Nat × Int)
  | [], t, d => [(t, d)]
  | (t', d') :: w, t, d => if t' = t then (t', min d' d) :: w else (t', d') :: updateWeight w t d

/-- The shortest travel time over the transports of a route between stops `s` and `s + 1`,
`build_lb_graph.h:60-65`. -/
def minTravel (r : RouteData) (s : Nat) : Int :=
  (List.range r.nTr).foldl (fun m t => min ((r.arr t (s + 1) : Int) - r.dep t s) m) 32767

/-- Location of a stop of a route. -/
def locAt (stops : List StopData) (s : Nat) : Nat := (stops.getD s ⟨0, false, false, false, false⟩).loc

/-- The two ends of a section: the end at which the edge starts and the other one,
`build_lb_graph.h:46-53`. -/
def sectionEnds (d : Dir) (stops : List StopData) (s : Nat) : Nat × Nat := match d with
  | .fwd => (locAt stops (s + 1), locAt stops s)
  | .bwd => (locAt stops s, locAt stops (s + 1))

/-- One section of a route, `build_lb_graph.h:42-66`. -/
def addSection (T : Tt) (d : Dir) (l : Nat) (r : RouteData) (w : List (Nat × Int)) (s : Nat) : List (Nat × Int) :=
  let e := sectionEnds d r.stops s
  if e.1 ≠ l then w
  else if T.root e.2 = T.root l then w
  else updateWeight w (T.root e.2) (minTravel r s)

/-- `add_edges`, `build_lb_graph.h:24-68`. -/
def addEdges (T : Tt) (d : Dir) (w : List (Nat × Int)) (l : Nat) : List (Nat × Int) :=
  let w := (T.fpsAgainst d l).foldl
    (fun w fp => if T.root fp.target ≠ T.root l then updateWeight w (T.root fp.target) fp.duration else w) w
  (T.routes.filter fun r => r.stops.any fun s => s.loc == l).foldl
    (fun w r => (List.range (r.stops.length - 1)).foldl (addSection T d l r) w) w

/-- The locations of a station in the order of `build_lb_graph.h:82-88`. -/
def group (T : Tt) (i : Nat) : List Nat := (T.children i).flatMap (fun c => c :: T.children c) ++ [i]

/-- The edges of a node, `build_lb_graph.h:76-99`; the `footpath` constructor saturates at 511. -/
def lbEdges (T : Tt) (d : Dir) (i : Nat) : List Edge :=
  match T.parent i with
  | some _ => []
  | none => ((group T i).foldl (addEdges T d) []).map fun w => ⟨w.1, (min 511 w.2).toNat⟩

/-! ## Real-time edges -/

/-- `fwd_search_lb_graph_has_edges_` and the edges being collected, for one direction. -/
structure RtLb where
  has : Nat → Bool
  lbs : Nat → List Edge

/-- `is_fastest`, `rt_timetable.cc:251-255`. -/
def isFastest (es : List Edge) (fp : Edge) : Bool :=
  match es.find? (fun x => x.target == fp.target) with
  | none => true
  | some x => decide (fp.duration < x.duration)

/-- `it->duration_ = ...` on the first edge with the target, `rt_timetable.cc:283-287`. -/
def setFirst : List Edge → Edge → List Edge
  | [], _ => []
  | e :: es, fp => if e.target = fp.target then ⟨e.target, fp.duration⟩ :: es else e :: setFirst es fp

/-- The `update` lambda, `rt_timetable.cc:257-291`, for one direction. -/
def updateRtLb (static : Nat → List Edge) (st : RtLb) (src : Nat) (fp : Edge) : RtLb :=
  if !isFastest (static src) fp then st
  else if !st.has src then { has := upd st.has src true, lbs := upd st.lbs src (st.lbs src ++ [fp]) }
  else if !isFastest (st.lbs src) fp then st
  else { st with lbs := upd st.lbs src (setFirst (st.lbs src) fp ++ [fp]) }

/-- `update_lbs(tt, rt_t, stop_idx, ...)`, `rt_timetable.cc:215-296`. -/
def updateSection (T : Tt) (d : Dir) (static : Nat → List Edge) (r : RtData) (st : RtLb) (s : Nat) : RtLb :=
  let travel := r.arr (s + 1) - r.dep s
  if travel < 0 then st
  else
    let e := sectionEnds d r.stops s
    if T.root e.1 = T.root e.2 then st
    else updateRtLb static st (T.root e.1) ⟨T.root e.2, (min 511 travel).toNat⟩

/-- `update_lbs(tt)`, `rt_timetable.cc:298-325`: `has` are the bits left by earlier calls. -/
def updateLbs (T : Tt) (d : Dir) (has : Nat → Bool) : RtLb :=
  T.rts.foldl (fun st r => (List.range (r.stops.length - 1)).foldl (updateSection T d (lbEdges T d) r) st)
    { has := has, lbs := fun _ => [] }

/-! ## Lower bounds of a query -/

/-- `location_match_mode`. -/
inductive Mode
  | exact
  | onlyChildren
  | equivalent
  | intermodal
deriving DecidableEq, Repr

/-- `handle_children`, `for_each_meta.h:13-20`. -/
def descendants (T : Tt) (l : Nat) : List Nat := (T.children l).flatMap fun c => c :: T.children c

/-- `for_each_meta`, `for_each_meta.h:8-46`: the locations visited. -/
def forEachMeta (T : Tt) (m : Mode) (l : Nat) : List Nat :=
  match m with
  | .exact => [l]
  | .intermodal => l :: (T.children l).filter T.generated
  | .onlyChildren => l :: descendants T l
  | .equivalent => (T.root l :: descendants T (T.root l)) ++ (T.equiv l).flatMap fun e => e :: descendants T e

/-- The part of the query that is read. -/
structure Qry where
  mode : Mode
  /-- `destination_`: target and duration -/
  dest : List (Nat × Nat)
  /-- `td_dest_`: location and the durations of its time-dependent offsets -/
  tdDest : List (Nat × List Nat)
  /-- `max_travel_time_` -/
  maxTravel : Nat

/-- `update_min` on the ordered map `min`, `dijkstra.cc:27-32`; the initial distances are all 65535. -/
def updateMin : List (Nat × Nat) → Nat → Nat → List (Nat × Nat)
  | [], l, d => [(l, min d 65535)]
  | (l', m) :: r, l, d =>
    if l < l' then (l, min d 65535) :: (l', m) :: r
    else if l = l' then (l', min d m) :: r
    else (l', m) :: updateMin r l d

/-- The map `min`, `dijkstra.cc:34-48`. -/
def minMap (T : Tt) (q : Qry) : List (Nat × Nat) :=
  let m := q.dest.foldl (fun m o => (forEachMeta T q.mode o.1).foldl (fun m x => updateMin m (T.root x) o.2) m) []
  q.tdDest.foldl (fun m td => td.2.foldl
    (fun m dur => if dur ≠ 511 ∧ dur < q.maxTravel then updateMin m (T.root td.1) dur else m) m) m

/-- The queue and the distances before the search. -/
abbrev Init := Dial Label × List Nat

/-- Pushing one label, `dijkstra.cc:53-55`; `none` = outside of the buckets or of the distances. -/
def initPush (s : Init) (x : Nat × Nat) : Option Init :=
  match s.1.push Label.bucket ⟨x.1, x.2⟩, s.2[x.1]? with
  | some pq, some cur => some (pq, s.2.set x.1 (min x.2 cur))
  | _, _ => none

/-- `dijkstra.cc:50-58` (`kMaxTravelTime` = 7200 minutes). -/
def initAll (T : Tt) (q : Qry) : Option Init :=
  ((minMap T q).flatMap fun m => (forEachMeta T q.mode m.1).map fun l => (l, m.2)).foldlM initPush
    (Dial.make 7200, List.replicate T.nLoc 65535)

/-- The children of one location, `dijkstra.cc:63-66`. -/
def propagateOne (T : Tt) (dists : List Nat) (i : Nat) : List Nat :=
  (T.children i).foldl (fun ds c => ds.set c (min (dists.getD i 65535) (ds.getD c 65535))) dists

/-- The propagation to child locations, `dijkstra.cc:62-67`. -/
def propagate (T : Tt) (dists : List Nat) : List Nat := (List.range T.nLoc).foldl (propagateOne T) dists

/-- `dijkstra(tt, q, lb_graph, has_rt, rt_lb_graph, dists)`, `dijkstra.cc:18-68`, for a search direction;
`has` = bits left by earlier real-time updates, `useRt` = a real-time timetable is given.
`none` = undefined behaviour. -/
def lowerBounds (T : Tt) (d : Dir) (q : Qry) (useRt : Bool) (has : Nat → Bool) : Option (List Nat) :=
  match initAll T q with
  | none => none
  | some (pq, start) =>
    let rt := updateLbs T d has
    (Dijkstra.dijkstra (lbEdges T d) (fun v => useRt && rt.has v) rt.lbs pq start distMax).map (propagate T)

/-- What the search reads: 65535 is `kUnreachable`. -/
def lbOf (dists : List Nat) (l : Nat) : Option Int :=
  let x := dists.getD l 65535
  if x = 65535 then none else some (x : Int)

end Nigiri.Lb
