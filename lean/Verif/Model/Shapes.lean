import Verif.Model.Resolve
/-!
# Shapes

Model of `src/loader/gtfs/shape.cc` (`parse_shapes`), `add_distance`
(`src/loader/gtfs/stop_time.cc:27-37`), `src/loader/gtfs/shape_prepare.cc`, `src/shapes_storage.cc` and
`frun::for_each_shape_point` (`src/rt/frun.cc:682-749`).

Simplifications: coordinates and distances are integers (`double` in the code; only comparisons and
equality are used, NaN excluded); the distance functions of the library `geo` are parameters; indices are
unbounded (`uint32`); CSV rows are given as parsed values; the tasks run one after the other
(`utl::parallel_for_run`, each task writes its own entry only); `utl::sort_by` is a stable sort.
`none` as the result of a function stands for an access outside of a vector or span, or an exception.
-/

namespace Nigiri.Shapes

abbrev Pos := Int × Int

/-! ### Reading shapes.txt and the distances of stop_times.txt -/

/-- One row of shapes.txt, `shape.cc:21-27`. -/
structure Row where
  id : Nat
  pos : Pos
  seq : Nat
  dist : Int
deriving DecidableEq, Repr

/-- A distance is appended, `shape.cc:58-68` and `add_distance`, `stop_time.cc:27-37`: `n` is the number
of points (stops) including this one; the vector stays empty until the first value other than zero. -/
def pushDist (n : Nat) (ds : List Int) (d : Int) : List Int :=
  if ds.isEmpty then
    if d ≠ 0 then List.replicate (n - 1) 0 ++ [d] else []
  else ds ++ [d]

/-- A shape while reading: `shapes_data.data_[i]`, `seq[i]`, `states.distances_[i]`. -/
structure Raw where
  pts : List Pos
  seqs : List Nat
  dists : List Int
deriving DecidableEq, Repr

/-- Append one row to its shape, `shape.cc:53-68`. -/
def Raw.push (s : Raw) (r : Row) : Raw :=
  ⟨s.pts ++ [r.pos], s.seqs ++ [r.seq], pushDist (s.pts.length + 1) s.dists r.dist⟩

/-- One row, `shape.cc:45-69`: the shapes by id in the order of their first row. -/
def readRow (shapes : List (Nat × Raw)) (r : Row) : List (Nat × Raw) :=
  if shapes.any (fun x => x.1 == r.id) then
    shapes.map fun x => if x.1 = r.id then (x.1, x.2.push r) else x
  else shapes ++ [(r.id, Raw.push ⟨[], [], []⟩ r)]

/-- Insert into a list ordered by sequence number. -/
def insertSeq {α : Type} (e : Nat × α) : List (Nat × α) → List (Nat × α)
  | [] => [e]
  | x :: xs => if x.1 ≤ e.1 then x :: insertSeq e xs else e :: x :: xs

/-- `utl::sort_by(seq, vec)` for one vector: empty vectors stay empty (`sort_by.h:12-14`). -/
def sortBy {α : Type} (seqs : List Nat) (v : List α) : List α :=
  if v.isEmpty then v else (((seqs.zip v).foldl (fun l e => insertSeq e l) []).map (·.2))

/-- `std::is_sorted`. -/
def isSorted : List Nat → Bool
  | a :: b :: l => a ≤ b && isSorted (b :: l)
  | _ => true

/-- Sorting of the points of a shape, `shape.cc:71-87`. -/
def finishShape (s : Raw) : Raw :=
  if isSorted s.seqs then s
  else ⟨sortBy s.seqs s.pts, sortBy s.seqs s.seqs, sortBy s.seqs s.dists⟩

/-- `parse_shapes`, `shape.cc:18-90`. -/
def parseShapes (rows : List Row) : List (Nat × Raw) :=
  (rows.foldl readRow []).map fun x => (x.1, finishShape x.2)

/-! ### Matching stops to shape points -/

/-- The functions of the library `geo`: segment of the polyline closest to a point
(`approx_squared_distance_to_polyline(..).segment_idx_`) and distance of two points. -/
structure Geo where
  segment : Pos → List Pos → Nat
  dist : Pos → Pos → Int

/-- `get_closest`, `shape_prepare.cc:30-45`. -/
def getClosest (g : Geo) (pos : Pos) (shape : List Pos) : Option Nat :=
  if shape.length < 2 then some 0
  else
    let best := g.segment pos shape
    match shape[best]?, shape[best + 1]? with
    | some fr, some to => some (if g.dist pos fr ≤ g.dist pos to then best else best + 1)
    | _, _ => none

/-- `std::span::subspan(from, len)`: defined if the part lies inside. -/
def subspan {α : Type} (l : List α) (fr len : Nat) : Option (List α) :=
  if fr + len ≤ l.length then some ((l.drop fr).take len) else none

/-- `shape.subspan(from, to - from + 1)` with unsigned offsets. -/
def subspanTo {α : Type} (l : List α) (fr to : Nat) : Option (List α) :=
  if fr ≤ to + 1 then subspan l fr (to + 1 - fr) else none

/-- `match_stop`, `shape_prepare.cc:84-93`: the offset, and the offsets with the new entry. -/
def matchStop (g : Geo) (stopPos : Nat → Pos) (shape : List Pos) (stops : List Nat) (offsets : List Nat)
    (s start len : Nat) : Option (Nat × List Nat) :=
  match stops[s]?, subspan shape start len with
  | some st, some sub =>
    match getClosest g (stopPos st) sub with
    | some off => if s < offsets.length then some (start + off, offsets.set s (start + off)) else none
    | none => none
  | _, _ => none

/-- `bisect`, `shape_prepare.cc:47-67`. -/
def bisect (g : Geo) (stopPos : Nat → Pos) (shape : List Pos) (stops : List Nat) (segStart segEnd : Int)
    (shapeStart shapeEnd : Nat) (offsets : List Nat) : Option (List Nat) :=
  if segStart > segEnd then some offsets
  else
    let center := (segStart + segEnd) / 2
    let subStart := shapeStart + (center - segStart).toNat
    let subLen := shapeEnd + 1 - shapeStart - (segEnd - segStart).toNat
    match matchStop g stopPos shape stops offsets center.toNat subStart subLen with
    | none => none
    | some (off, offsets) =>
      match bisect g stopPos shape stops segStart (center - 1) shapeStart (off - 1) offsets with
      | none => none
      | some offsets => bisect g stopPos shape stops (center + 1) segEnd (off + 1) shapeEnd offsets
termination_by (segEnd + 1 - segStart).toNat
decreasing_by all_goals omega

/-- `get_offsets_by_stops`, `shape_prepare.cc:69-104`. -/
def offsetsByStops (g : Geo) (stopPos : Nat → Pos) (shape : List Pos) (stops : List Nat) : Option (List Nat) :=
  if stops.length < 2 then some []
  else
    let offsets := ((List.replicate stops.length 0).set 0 0).set (stops.length - 1) (shape.length - 1)
    bisect g stopPos shape stops 1 ((stops.length : Int) - 2) 1 (shape.length - 2) offsets

/-- `std::lower_bound` over the distances `[fr, fr + len)`: binary search for the first value not less
than `d`. -/
def lowerBoundDist (ds : List Int) (d : Int) (fr len : Nat) : Nat :=
  Resolve.lowerBound (fun i => decide ((ds[i]?).getD 0 < d)) fr len

/-- `get_offsets_by_dist_traveled`, `shape_prepare.cc:106-127`: the search starts at the previous offset
and never goes beyond the last point. -/
def offsetsByDist (shapeDists : List Int) : Nat → List Int → List Nat
  | _, [] => []
  | fr, d :: ds =>
    let o := lowerBoundDist shapeDists d fr (shapeDists.length - 1 - fr)
    o :: offsetsByDist shapeDists o ds

/-! ### Bounding boxes -/

/-- `geo::box`: `none` = nothing added yet (`min_` = largest, `max_` = lowest value), else corners. -/
abbrev Box := Option (Pos × Pos)

/-- `geo::box::extend(latlng)`. -/
def Box.extend : Box → Pos → Box
  | none, p => some (p, p)
  | some (lo, hi), p => some ((min lo.1 p.1, min lo.2 p.2), (max hi.1 p.1, max hi.2 p.2))

/-- `geo::box::extend(box)`. -/
def Box.merge (a : Box) : Box → Box
  | none => a
  | some (lo, hi) => (a.extend lo).extend hi

/-- `geo::box::contains(latlng)`. -/
def Box.contains : Box → Pos → Bool
  | none, _ => false
  | some (lo, hi), p => decide (lo.1 ≤ p.1 ∧ p.1 ≤ hi.1 ∧ lo.2 ≤ p.2 ∧ p.2 ≤ hi.2)

/-- `geo::box::contains(box)`. -/
def Box.containsBox (a : Box) : Box → Bool
  | none => false
  | some (lo, hi) => a.contains lo && a.contains hi

def boxOf (l : List Pos) : Box := l.foldl Box.extend none

/-! ### Tasks -/

/-- What is read of a GTFS trip here; the trip index is its position. -/
structure Trip where
  stops : List Nat
  dist : List Int
  shape : Option Nat
deriving DecidableEq, Repr

/-- `stop_seq_dist` with its result, `shape_prepare.cc:129-149`; compared by the stop sequence only. -/
structure Task where
  stops : List Nat
  dist : List Int
  offsets : List Nat := []
  tripBox : Box := none
  segBoxes : List Box := []
  idx : Option Nat := none
deriving DecidableEq, Repr

/-- `utl::insert_sorted`: inserted at the lower bound unless an equal entry is there. -/
def insertTask (t : Task) : List Task → List Task
  | [] => [t]
  | x :: xs =>
    if Resolve.lexLt x.stops t.stops then x :: insertTask t xs
    else if x.stops = t.stops then x :: xs
    else t :: x :: xs

/-- `create_offset_tasks`, `shape_prepare.cc:153-169`, for one shape. -/
def tasksOf (trips : List Trip) (shape : Nat) : List Task :=
  trips.foldl (fun ts t => if t.shape = some shape then insertTask ⟨t.stops, t.dist, [], none, [], none⟩ ts else ts) []

/-- The boxes of the segments, `shape_prepare.cc:194-215`: box of the points from one offset to the next. -/
def segmentBoxes (shape : List Pos) : List Nat → Option (List Box)
  | a :: b :: l =>
    match subspanTo shape a b, segmentBoxes shape (b :: l) with
    | some pts, some r => some (boxOf pts :: r)
    | _, _ => none
  | _ => some []

/-- The trip box, `shape_prepare.cc:197-200`. -/
def tripBox (shape : List Pos) : List Nat → Box → Option Box
  | a :: b :: l, bx =>
    match subspanTo shape a b with
    | some pts => tripBox shape (b :: l) (pts.foldl Box.extend bx)
    | none => none
  | _, bx => some bx

/-- `is_trivial`, `shape_prepare.cc:193, 203-213`: every segment box lies in the box of its two stops. -/
def trivialBoxes (stopPos : Nat → Pos) : List Nat → List Box → Bool
  | s :: s' :: ss, b :: bs =>
    (boxOf [stopPos s, stopPos s']).containsBox b && trivialBoxes stopPos (s' :: ss) bs
  | _, _ => true

/-- The offsets of an entry, `shape_prepare.cc:181-187`. -/
def offsetsFor (g : Geo) (stopPos : Nat → Pos) (shape : List Pos) (shapeDists : List Int) (stops : List Nat)
    (dist : List Int) : Option (List Nat) :=
  if shape.length < stops.length then some []
  else if !shapeDists.isEmpty && !dist.isEmpty then some (offsetsByDist shapeDists 0 dist)
  else offsetsByStops g stopPos shape stops

/-- `process_task` for one entry, `shape_prepare.cc:171-219`. -/
def processTask (g : Geo) (stopPos : Nat → Pos) (shape : List Pos) (shapeDists : List Int) (x : Task) : Option Task :=
  match offsetsFor g stopPos shape shapeDists x.stops x.dist with
  | none => none
  | some offsets =>
    if offsets.isEmpty then some { x with offsets := [], tripBox := boxOf (x.stops.map stopPos), segBoxes := [] }
    else
      match segmentBoxes shape offsets, tripBox shape offsets none with
      | some segs, some tb =>
        some { x with offsets := offsets, tripBox := tb,
                      segBoxes := if trivialBoxes stopPos x.stops segs then [] else segs }
      | _, _ => none

/-! ### Storage -/

inductive Source | timetable | routed
deriving DecidableEq, Repr

/-- `shapes_storage`, `shapes_storage.h:15-56`. A trip entry is `none` if both indices are invalid, else
source and index of the shape (`scoped_shape_idx_t`, `types.h:484-517`) and the index of the offsets. -/
structure Store where
  data : List (List Pos) := []
  routed : List (List Pos) := []
  offsets : List (List Nat) := []
  trips : List (Option (Source × Nat × Nat)) := []
  boxes : List Box := []
  segBoxes : List (List Box) := []
deriving DecidableEq, Repr

/-- `assign_shape_offsets`, first loop, for the entries of one shape, `shape_prepare.cc:225-232`. -/
def addOffsets (st : Store) : List Task → Store × List Task
  | [] => (st, [])
  | x :: xs =>
    if x.offsets.isEmpty then
      let r := addOffsets st xs
      (r.1, x :: r.2)
    else
      let r := addOffsets { st with offsets := st.offsets ++ [x.offsets] } xs
      (r.1, { x with idx := some st.offsets.length } :: r.2)

/-- The same for all shapes. -/
def addAllOffsets (st : Store) : List (List Task) → Store × List (List Task)
  | [] => (st, [])
  | t :: ts =>
    let r := addOffsets st t
    let r' := addAllOffsets r.1 ts
    (r'.1, r.2 :: r'.2)

/-- `std::ranges::lower_bound(task, stop_seq)` over a list sorted by stop sequence. -/
def findTask (stops : List Nat) (ts : List Task) : Option Task :=
  ts.find? fun x => !Resolve.lexLt x.stops stops

/-- The entry of one trip, `shape_prepare.cc:233-257`; `off` is `index_offset_`. -/
def tripEntry (off : Nat) (tasks : List (List Task)) (t : Trip) : Option (Source × Nat × Nat) :=
  match t.shape with
  | none => none
  | some s =>
    match findTask t.stops ((tasks[s - off]?).getD []) with
    | some x => x.idx.map fun i => (Source.timetable, s, i)
    | none => none

/-- `assign_shape_offsets`, `shape_prepare.cc:221-258`. -/
def assignOffsets (st : Store) (off : Nat) (trips : List Trip) (tasks : List (List Task)) : Store × List (List Task) :=
  let r := addAllOffsets st tasks
  ({ r.1 with trips := r.1.trips ++ trips.map (tripEntry off r.2) }, r.2)

/-- A route: its stops and its transports. -/
structure Route where
  stops : List Nat
  transports : List Resolve.Transport

/-- Boxes spanned by the stops, `shape_prepare.cc:275-285`. -/
def stopBoxes (stopPos : Nat → Pos) : List Nat → List Box
  | s :: s' :: ss => boxOf [stopPos s, stopPos s'] :: stopBoxes stopPos (s' :: ss)
  | _ => []

/-- `segment_bboxes.at(i + from).extend(bbox)` for all boxes, `shape_prepare.cc:310-314`. -/
def addBoxes (segs : List Box) : Nat → List Box → Option (List Box)
  | _, [] => some segs
  | i, b :: bs => match segs[i]? with
    | none => none
    | some old => addBoxes (segs.set i (old.merge b)) (i + 1) bs

/-- One trip of a transport, `shape_prepare.cc:292-315`. -/
def addTrip (st : Store) (off : Nat) (tasks : List (List Task)) (acc : Option (Box × List Box))
    (x : Option Nat × Nat × Nat) : Option (Box × List Box) :=
  match acc with
  | none => none
  | some (box, segs) =>
    match x.1.bind fun t => (st.trips[t]?).join with
    | some (.timetable, s, i) =>
      match ((tasks[s - off]?).getD []).find? fun y => y.idx = some i with
      | none => some (box, segs)
      | some y => (addBoxes segs x.2.1 y.segBoxes).map fun segs => (box.merge y.tripBox, segs)
    | _ => some (box, segs)

/-- The boxes of one route, `shape_prepare.cc:265-321`. -/
def routeBoxes (st : Store) (stopPos : Nat → Pos) (off : Nat) (tasks : List (List Task)) (r : Route) :
    Option (Box × List Box) :=
  (r.transports.flatMap fun tr => Resolve.forEachTrip tr r.stops.length).foldl (addTrip st off tasks)
    (some (boxOf (r.stops.map stopPos), stopBoxes stopPos r.stops))

/-- `assign_bounding_boxes`, `shape_prepare.cc:260-322`: `routes` are the routes not yet handled. -/
def assignBoxes (stopPos : Nat → Pos) (off : Nat) (tasks : List (List Task)) : Store → List Route → Option Store
  | st, [] => some st
  | st, r :: rs =>
    match routeBoxes st stopPos off tasks r with
    | none => none
    | some (b, s) => assignBoxes stopPos off tasks { st with boxes := st.boxes ++ [b], segBoxes := st.segBoxes ++ [s] } rs

/-- One shape's tasks, `calculate_shape_offsets_and_bboxes`, `shape_prepare.cc:335-339`. -/
def processAll (g : Geo) (stopPos : Nat → Pos) (shape : List Pos) (dists : List Int) : List Task → Option (List Task)
  | [] => some []
  | x :: xs =>
    match processTask g stopPos shape dists x, processAll g stopPos shape dists xs with
    | some y, some ys => some (y :: ys)
    | _, _ => none

/-- The tasks of all shapes of the feed. -/
def processShapes (g : Geo) (stopPos : Nat → Pos) (trips : List Trip) : Nat → List (Nat × Raw) → Option (List (List Task))
  | _, [] => some []
  | i, x :: xs =>
    match processAll g stopPos x.2.pts x.2.dists (tasksOf trips i), processShapes g stopPos trips (i + 1) xs with
    | some y, some ys => some (y :: ys)
    | _, _ => none

/-- The part of `load_timetable` (GTFS) that concerns shapes, `load_timetable.cc:122-125, 496-499`, with
`calculate_shape_offsets_and_bboxes`, `shape_prepare.cc:324-345`. Trips refer to shapes by their index in
the store (`trip.cc:269-272`). -/
def loadFeed (g : Geo) (stopPos : Nat → Pos) (rows : List Row) (trips : List Trip) (routes : List Route) (st : Store) :
    Option Store :=
  let off := st.data.length
  let shapes := parseShapes rows
  let st := { st with data := st.data ++ shapes.map (·.2.pts) }
  match processShapes g stopPos trips off shapes with
  | none => none
  | some tasks =>
    let r := assignOffsets st off trips tasks
    assignBoxes stopPos off r.2 r.1 routes

/-! ### Queries -/

/-- `shapes_storage::get_shape(scoped_shape_idx_t)`, `shapes_storage.cc:67-95`. -/
def shapeAt (st : Store) : Source × Nat → List Pos
  | (.timetable, i) => (st.data[i]?).getD []
  | (.routed, i) => (st.routed[i]?).getD []

/-- `get_shape(storage, trip_idx)`, `shapes_storage.cc:51-65`. -/
def getTripShape (st : Store) (trip : Nat) : Option (List Pos × Source × Nat) :=
  match (st.trips[trip]?).join with
  | none => none
  | some (src, i, o) => some (shapeAt st (src, i), src, o)

/-- `get_shape_with_idx(trip, range)`, `shapes_storage.cc:103-125, 137-147`: the part of the shape and
its source; outer `none`: access out of bounds, inner `none`: no shape. -/
def getShape (st : Store) (trip fr to : Nat) : Option (Option (List Pos × Source)) :=
  match getTripShape st trip with
  | none => some none
  | some (shape, src, o) =>
    if shape.isEmpty then some none
    else
      match st.offsets[o]? with
      | none => none
      | some offs =>
        match offs[fr]?, (if to = 0 then none else offs[to - 1]?) with
        | some a, some b => (subspanTo shape a b).map fun x => some (x, src)
        | _, _ => none

/-- `consume_pos`, `frun.cc:705-714`: `last_pos` is always the last point passed on. -/
def consume (out : List Pos) (p : Pos) : List Pos := if out.getLast? = some p then out else out ++ [p]

/-- The points of one trip of the run, `frun.cc:717-741`: `fr`, `to` the stops of the trip, `a`, `b` the
requested stops, all counted from the first stop of the transport; `pos` the positions of the stops. -/
def tripPoints (st : Store) (pos : Nat → Pos) (a b : Nat) (x : Option Nat × Nat × Nat) : Option (List Pos) :=
  let i := max x.2.1 a
  let j := min x.2.2 b
  if i + 1 < j then
    match x.1 with
    | none => some ((List.range' i (j - i)).map pos)
    | some trip =>
      match getShape st trip (i - x.2.1) (j - x.2.1) with
      | none => none
      | some (some (shape, src)) =>
        if shape.isEmpty then some ((List.range' i (j - i)).map pos)
        else if src = .timetable then some (pos i :: shape ++ [pos (j - 1)])
        else some shape
      | some none => some ((List.range' i (j - i)).map pos)
  else some []

/-- `for_each_trip` with its callback of `for_each_shape_point`. -/
def runPoints (st : Store) (pos : Nat → Pos) (a b : Nat) : List (Option Nat × Nat × Nat) → Option (List Pos)
  | [] => some []
  | x :: xs =>
    match tripPoints st pos a b x, runPoints st pos a b xs with
    | some p, some ps => some (p ++ ps)
    | _, _ => none

/-- `for_each_shape_point`, `frun.cc:682-749`, for a run that ends at stop `runTo`; `a`, `b` as absolute
stops. The trips of the run are `trips` (`for_each_trip`). -/
def shapePoints (st : Store) (pos : Nat → Pos) (trips : List (Option Nat × Nat × Nat)) (a b : Nat) :
    Option (List Pos) :=
  if b < a + 2 then none
  else
    match runPoints st pos a b trips with
    | none => none
    | some ps =>
      let out := ps.foldl consume []
      match out with
      | [] => some [pos a, pos (b - 1)]
      | [p] => some [p, pos (b - 1)]
      | _ => some out

end Nigiri.Shapes
