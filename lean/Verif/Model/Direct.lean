import Verif.Model.OptimizeFootpaths
import Verif.Model.StartTimes
/-!
# Direct connections

Model of `src/routing/direct.cc` and `src/routing/leg_alternatives.cc`: journeys with exactly one vehicle, in order of
arrival (forward) or departure (backward).

Times are minutes relative to the midnight of day `N.base` (the code uses minutes since the epoch), in both directions;
integers are unbounded.  Hash sets are lists of which only membership is used.  Simplification: `is_route_active` is
computed from the same days as `is_transport_active` (the code uses the static days of a route also with real-time
information, which is a superset: a day on which no transport runs yields nothing).
-/

namespace Nigiri.Direct
open Nigiri.Raptor Nigiri.Lb Nigiri.StartTimes

/-- `enum class side`, `direct.h:22`. -/
inductive Side
  | boarding
  | alighting
deriving DecidableEq, Repr

/-- What the query says about one end of the journey: `start_match_mode_`, `start_`, `td_start_`, `use_start_footpaths_` /
`dest_match_mode_`, `destination_`, `td_dest_`, `true` (`direct.cc:167-177`). -/
structure SideQ where
  mode : Mode
  offs : List (Loc × Int)
  tdOffs : List (Loc × List TdEntry)
  useFootpaths : Bool

/-- What the search for direct connections reads. -/
structure Query where
  /-- vehicles, filters, adjusted transfer times -/
  N : Net
  /-- the stations -/
  T : Tt
  /-- `footpaths_out_[prf]` (boarding) and `footpaths_in_[prf]` (alighting), adjusted -/
  fps : Side → Loc → List (Loc × Int)
  /-- time-dependent footpaths by target; `none`: `has_td_footpaths_*` is not set -/
  tdFps : Side → Loc → Option (List (Loc × List TdEntry))
  start : SideQ
  dest : SideQ
  /-- `special_station::kStart`, `special_station::kEnd` -/
  startLoc : Loc
  endLoc : Loc
  /-- `internal_interval_days()` as day indices, `direct.cc:305-308` -/
  dayLo : Int
  dayHi : Int

def Query.side (q : Query) : Side → SideQ
  | .boarding => q.start
  | .alighting => q.dest

def Query.boundary (q : Query) : Side → Loc
  | .boarding => q.startLoc
  | .alighting => q.endLoc

/-- `td_search_dir`, `direct.cc:26-27, 76-77`. -/
def Side.tdDir : Side → Dir
  | .boarding => .bwd
  | .alighting => .fwd

/-- The duration found by `lookup_offset`, `direct.cc:21-62`. -/
def lookupOffset (s : Side) (offs : List (Loc × Int)) (tdOffs : List (Loc × List TdEntry)) (loc : Loc) (t : Int) : Option Int :=
  match tdOffs.find? fun e => e.1 == loc with
  | some e => match tdDuration s.tdDir e.2 t with
    | some d => if 511 ≤ d then none else some d
    | none => none
  | none => (offs.find? fun o => o.1 == loc).map (·.2)

/-- The shortest time-dependent footpath from `l` to `loc`, `direct.cc:113-119`. -/
def effTd (s : Side) (groups : List (Loc × List TdEntry)) (loc : Loc) (t : Int) : Int :=
  groups.foldl (fun e g => match TdFootpath.forEachDuration (decide (s.tdDir = .fwd)) t g.2 with
    | some d => if g.1 = loc ∧ d < e then d else e
    | none => e) 511

/-- The shortest static footpath from `l` to `loc`, `direct.cc:122-135`. -/
def effStatic (fps : List (Loc × Int)) (loc : Loc) : Int :=
  fps.foldl (fun e fp => if fp.1 = loc ∧ fp.2 < e then fp.2 else e) 511

/-- `eff_dur`, `direct.cc:108-136`. -/
def Query.eff (q : Query) (s : Side) (l loc : Loc) (t : Int) : Int :=
  match q.tdFps s l with
  | some groups => effTd s groups loc t
  | none => effStatic (q.fps s l) loc

/-- The direct match, `direct.cc:91-103`. -/
def directMatch (q : Query) (m : Mode) (loc : Loc) (o : Loc × Int) (l : Loc) (st : Int × Loc) : Int × Loc :=
  if l = loc ∧ o.2 < st.1 then (o.2 + (if m = .exact then q.N.transfer l else 0), o.1) else st

/-- The body of the loops, `direct.cc:88-146`: `st` is `best_dur`, `best_source`. -/
def footStep (q : Query) (s : Side) (S : SideQ) (loc : Loc) (t : Int) (o : Loc × Int) (st : Int × Loc) (l : Loc) : Int × Loc :=
  let st := directMatch q S.mode loc o l st
  if S.useFootpaths = false then st
  else if 511 ≤ q.eff s l loc t then st
  else if o.2 + q.eff s l loc t < st.1 then (o.2 + q.eff s l loc t, o.1)
  else st

/-- `best_dur`, `best_source` after the loops of `lookup_footpath`, `direct.cc:64-148`. -/
def footBest (q : Query) (s : Side) (loc : Loc) (t : Int) : Int × Loc :=
  (q.side s).offs.foldl (fun st o => (forEachMeta q.T (q.side s).mode o.1).foldl (footStep q s (q.side s) loc t o) st) (511, 0)

/-- The leg between `place` and `loc`, at `loc` at time `t`: `make_leg`, `direct.cc:29-40`, and `direct.cc:153-159`. -/
def sideLeg (s : Side) (place loc : Loc) (t w : Int) (u : Uses) : Leg := match s with
  | .boarding => ⟨place, loc, t - w, t, u⟩
  | .alighting => ⟨loc, place, t, t + w, u⟩

/-- `lookup_access`, `direct.cc:163-180`. -/
def lookupAccess (q : Query) (s : Side) (loc : Loc) (t : Int) : Option Leg :=
  if (q.side s).mode = .intermodal then
    (lookupOffset s (q.side s).offs (q.side s).tdOffs loc t).map fun w => sideLeg s (q.boundary s) loc t w (.offset w)
  else
    let b := footBest q s loc t
    if 511 ≤ b.1 then none else some (sideLeg s b.2 loc t b.1 (.foot b.1))

/-- Targets of the footpaths from `l`, `direct.cc:212-229`. -/
def Query.fpTargets (q : Query) (s : Side) (l : Loc) : List Loc :=
  (q.fps s l).map (·.1) ++ (match q.tdFps s l with | some g => g.map (·.1) | none => [])

/-- `collect_locations`, `direct.cc:182-239`. -/
def collectLocs (q : Query) (s : Side) : List Loc :=
  let S := q.side s
  (if S.mode = .intermodal then S.offs.map (·.1)
   else S.offs.flatMap fun o => (forEachMeta q.T S.mode o.1).flatMap fun l => l :: if S.useFootpaths = true then q.fpTargets s l else []) ++
  S.tdOffs.map (·.1)

/-- `run_stop::is_flag_set(f, kDep)`, `src/rt/frun.cc:453-475`. -/
def flagSet (f : FlagData) (x : Nat) : Bool :=
  if f.all then true
  else if !f.some then false
  else f.sections.getD (if f.sections.length = 1 then 0 else x) false

/-- `sections_violate_constraints`, `direct.cc:241-260`. -/
def sectionsViolate (required : List Bool) (flags : List FlagData) (a b : Nat) : Bool :=
  (List.range' a (b - a)).any fun x => (List.zipWith (fun (r : Bool) (f : FlagData) => r && !flagSet f x) required flags).any id

/-- The filters of a route or real-time transport, `direct.cc:504-514, 549-562`. -/
def passes (N : Net) (clasz : Nat) (flags : List FlagData) : Bool :=
  claszAllowed N.claszMask clasz && (List.zipWith (fun (r : Bool) (f : FlagData) => !r || f.all || f.some) N.required flags).all id

/-- `for_each_pair`, `direct.cc:437-460`: the remaining stops from index `i` on. -/
def pairs (isB isA : StopData → Bool) : Option Nat → Nat → List StopData → List (Nat × Nat)
  | _, _, [] => []
  | some b, i, s :: r => if isA s then (b, i) :: pairs isB isA none (i + 1) r else pairs isB isA (some b) (i + 1) r
  | none, i, s :: r => if isB s then pairs isB isA (some i) (i + 1) r else pairs isB isA none (i + 1) r

/-- `boarding_locs.contains(loc) && stp.in_allowed(prf_idx)`. -/
def Query.canBoard (q : Query) (s : StopData) : Bool := (collectLocs q .boarding).contains s.loc && s.canStart .fwd q.N.wheelchair

/-- `alighting_locs.contains(loc) && stp.out_allowed(prf_idx)`. -/
def Query.canAlight (q : Query) (s : StopData) : Bool := (collectLocs q .alighting).contains s.loc && s.canFinish .fwd q.N.wheelchair

/-- The pairs of stops for which there is a generator, `direct.cc:524-534, 572-582`. -/
def stopPairs (q : Query) (stops : List StopData) (flags : List FlagData) : List (Nat × Nat) :=
  (pairs q.canBoard q.canAlight none 0 stops).filter fun p => !sectionsViolate q.N.required flags p.1 p.2

/-- `assemble_legs`, `direct.cc:262-281`. -/
def dropAtBoundary (x : Leg) : Bool := (match x.uses with | .offset _ => true | _ => false) && decide (x.dep = x.arr)

def assemble (a r b : Leg) : List Leg :=
  (if dropAtBoundary a then [] else [a]) ++ r :: (if dropAtBoundary b then [] else [b])

/-- Not before `time` (forward) or not after (backward), `direct.cc:357-360`. -/
def inTime (d : Dir) (time : Int) (a b : Leg) : Bool := match d with
  | .fwd => decide (time ≤ a.dep)
  | .bwd => decide (b.arr ≤ time)

def locOf (stops : List StopData) (i : Nat) : Loc := (stops.getD i ⟨0, false, false, false, false⟩).loc

/-- The journey with vehicle `v` from stop `i` to stop `j`, `direct.cc:343-379, 389-434`. -/
def connection (d : Dir) (q : Query) (time : Int) (v : Vehicle) (stops : List StopData) (i j : Nat) (dep arr : Int) : Option (List Leg) :=
  match lookupAccess q .boarding (locOf stops i) dep, lookupAccess q .alighting (locOf stops j) arr with
  | some a, some b =>
    if inTime d time a b then some (assemble a ⟨locOf stops i, locOf stops j, dep, arr, .ride v i j⟩ b) else none
  | _, _ => none

/-- The event that determines the day, `direct.cc:296-299`. -/
def genEv (d : Dir) (r : RouteData) (i j t : Nat) : Nat := match d with
  | .fwd => r.dep t i
  | .bwd => r.arr t j

/-- One transport on one day, `direct.cc:314-379`. -/
def routeStep (d : Dir) (q : Query) (time : Int) (ri : Nat) (r : RouteData) (i j : Nat) (day : Int) (t : Nat) : Option (List Leg) :=
  let start := day - ((genEv d r i j t / 1440 : Nat) : Int)
  if start < 0 then none
  else if 512 ≤ start then none
  else if r.days t start = false then none
  else connection d q time (.trip ri t start) r.stops i j ((start - q.N.base) * 1440 + r.dep t i) ((start - q.N.base) * 1440 + r.arr t j)

/-- `day_idx_mam(time).first`. -/
def Query.dayOf (q : Query) (time : Int) : Int := q.N.base + time / 1440

/-- The days, `direct.cc:310-312, 381-386`. -/
def genDays (d : Dir) (q : Query) (time : Int) : List Int := match d with
  | .fwd => (List.range (q.dayHi - q.dayOf time + 1).toNat).map fun n : Nat => q.dayOf time + (n : Int)
  | .bwd => (List.range (q.dayOf time - q.dayLo + 1).toNat).map fun n : Nat => q.dayOf time - (n : Int)

/-- `route_gen`, `direct.cc:283-388`: all journeys of the generator. -/
def routeGen (d : Dir) (q : Query) (time : Int) (ri : Nat) (r : RouteData) (i j : Nat) : List (List Leg) :=
  (genDays d q time).flatMap fun day =>
    if routeActive r day then (trOrder d r.nTr).filterMap (routeStep d q time ri r i j day) else []

/-- `rt_gen`, `direct.cc:390-435`. -/
def rtGen (d : Dir) (q : Query) (time : Int) (ri : Nat) (r : RtData) (i j : Nat) : List (List Leg) :=
  (connection d q time (.rt ri) r.stops i j (r.dep i) (r.arr j)).toList

/-- Does the vehicle visit the collected locations at both ends, `direct.cc:488-503, 536-548`? -/
def visits (q : Query) (stops : List StopData) : Bool :=
  stops.any (fun s => (collectLocs q .boarding).contains s.loc) && stops.any (fun s => (collectLocs q .alighting).contains s.loc)

def routeGens (d : Dir) (q : Query) (time : Int) : List (List (List Leg)) :=
  q.N.routes.zipIdx.flatMap fun p =>
    if visits q p.1.stops && passes q.N p.1.clasz p.1.flags then
      (stopPairs q p.1.stops p.1.flags).map fun ij => routeGen d q time p.2 p.1 ij.1 ij.2
    else []

def rtGens (d : Dir) (q : Query) (time : Int) : List (List (List Leg)) :=
  q.N.rts.zipIdx.flatMap fun p =>
    if visits q p.1.stops && passes q.N p.1.clasz p.1.flags then
      (stopPairs q p.1.stops p.1.flags).map fun ij => rtGen d q time p.2 p.1 ij.1 ij.2
    else []

/-- `gens`, `direct.cc:475-584`. -/
def gens (d : Dir) (q : Query) (time : Int) : List (List (List Leg)) := routeGens d q time ++ rtGens d q time

def depOf (legs : List Leg) : Int := (legs.head?.map (·.dep)).getD 0
def arrOf (legs : List Leg) : Int := (legs.getLast?.map (·.arr)).getD 0

/-- The order of the priority queue, `direct.cc:589-592`: the smallest key is on top. -/
def key (d : Dir) (legs : List Leg) : Int := match d with
  | .fwd => arrOf legs
  | .bwd => - depOf legs

/-- The loop over the priority queue, `direct.cc:593-606`: every possible sequence of journeys, `std::priority_queue`
leaves open which of several equal elements is on top. -/
inductive Drain (d : Dir) : List (List (List Leg)) → List (List Leg) → Prop
  | done {gs} : (∀ g ∈ gs, g = []) → Drain d gs []
  | step {gs i h tl out} : gs[i]? = some (h :: tl) → (∀ g ∈ gs, ∀ h', g.head? = some h' → key d h ≤ key d h') →
      Drain d (gs.set i tl) out → Drain d gs (h :: out)

/-- `get_direct_journeys`, `direct.cc:464-606`: `out` is a possible sequence of journeys. -/
def Direct (d : Dir) (q : Query) (time : Int) (out : List (List Leg)) : Prop := Drain d (gens d q time) out

/-! ## Slow direct connections -/

/-- `journey`, `journey.h:21-117`: the fields that are compared. -/
structure Jny where
  legs : List Leg
  start : Int
  dest : Int
  transfers : Nat
  reconstructed : Bool
deriving DecidableEq, Repr

/-- `travel_time`. -/
def Jny.travelTime (j : Jny) : Int := if j.dest < j.start then j.start - j.dest else j.dest - j.start

/-- `t_check`, `direct.cc:622`. -/
def tCheck (d : Dir) (legs : List Leg) : Int := match d with
  | .fwd => depOf legs
  | .bwd => arrOf legs

/-- The journey, `direct.cc:630-636`. -/
def mkJny (d : Dir) (legs : List Leg) : Jny := match d with
  | .fwd => ⟨legs, depOf legs, arrOf legs, 0, false⟩
  | .bwd => ⟨legs, arrOf legs, depOf legs, 0, false⟩

/-- `break`, `direct.cc:623-626`. -/
def stopsAt (d : Dir) (iv : Interval) (t : Int) : Bool := match d with
  | .fwd => decide (iv.to' ≤ t)
  | .bwd => decide (t < iv.from')

/-- The loop, `direct.cc:619-642`. -/
def slowLoop (d : Dir) (iv : Interval) : List (List Leg) → List Jny
  | [] => []
  | legs :: rest =>
    if iv.contains (tCheck d legs) then mkJny d legs :: slowLoop d iv rest
    else if stopsAt d iv (tCheck d legs) then []
    else slowLoop d iv rest

/-- The filter by travel time, `direct.cc:617, 638-649`; `tooSlow x m` stands for the floating point comparison
`x > m * fastest_slow_direct_factor_`, `none` for a factor less than one. -/
def slowFilter (tooSlow : Option (Int → Int → Bool)) (js : List Jny) : List Jny := match tooSlow with
  | none => js
  | some f => js.filter fun j => !f j.travelTime (js.foldl (fun m j => min m j.travelTime) 32767)

/-- What `enrich_with_slow_direct` appends to the results, `direct.cc:608-650`; `out` is the sequence of direct
journeys from `threshold`. -/
def threshold (d : Dir) (iv : Interval) : Int := match d with
  | .fwd => iv.from'
  | .bwd => iv.to'

def slowDirect (d : Dir) (iv : Interval) (tooSlow : Option (Int → Int → Bool)) (out : List (List Leg)) : List Jny :=
  slowFilter tooSlow (slowLoop d iv out)

/-- `concat` and `erase_duplicates` (sort and remove equal neighbours), `direct.cc:651-652`; the order of the results is
not modelled: `List.eraseDups`. -/
def enrich (slow : Bool) (d : Dir) (iv : Interval) (tooSlow : Option (Int → Int → Bool)) (out : List (List Leg)) (results : List Jny) : List Jny :=
  if slow then (results ++ slowDirect d iv tooSlow out).eraseDups else results

/-- The end of `search::execute`, `search.h:317-337`: `done` are the results of the search in the interval. -/
def searchEnd (slow : Bool) (d : Dir) (iv : Interval) (tooSlow : Option (Int → Int → Bool)) (out : List (List Leg)) (done : List Jny) : List Jny :=
  (enrich slow d iv tooSlow out done).filter (·.reconstructed)

end Nigiri.Direct
