import Verif.Model.Reconstruct
/-!
# Footpath optimisation

Model of `optimize_footpaths`, `src/routing/raptor/optimize_footpaths.cc`, which is applied to every reconstructed
journey (reconstruct.cc:860-869): boarding or alighting stops are moved along the vehicles used if that shortens the
first or last walk or makes a transfer better.

Not modelled: via stops (optimize_footpaths.cc:34-39, 97-101, 152-162, 219-231, 294-324, 337-386).  The penalty of a
transfer (`get_penalty`, a floating point number, optimize_footpaths.cc:264-288) is abstract: `better x y` stands for
`get_penalty x < get_penalty y` and may be any test.
-/

namespace Nigiri.Raptor

/-- The stops of a vehicle, `run_stop::get_stop`, `src/rt/frun.cc:28-35`. -/
def Net.vStops (N : Net) : Vehicle → List StopData
  | .trip r _ _ => match N.routes[r]? with | none => [] | some rd => rd.stops
  | .rt r => match N.rts[r]? with | none => [] | some rd => rd.stops

/-- `run_stop::time(event_type::kDep)`, `src/rt/frun.cc:217-222`, relative to the base day. -/
def Net.vDep (N : Net) : Vehicle → Nat → Int
  | .trip r t day => fun i => match N.routes[r]? with | none => 0 | some rd => (day - N.base) * 1440 + rd.dep t i
  | .rt r => fun i => match N.rts[r]? with | none => 0 | some rd => rd.dep i

/-- `run_stop::time(event_type::kArr)`. -/
def Net.vArr (N : Net) : Vehicle → Nat → Int
  | .trip r t day => fun i => match N.routes[r]? with | none => 0 | some rd => (day - N.base) * 1440 + rd.arr t i
  | .rt r => fun i => match N.rts[r]? with | none => 0 | some rd => rd.arr i

/-- Duration, buffer, from, to: the arguments of `get_penalty`. -/
abbrev PenArgs := Int × Int × Loc × Loc

/-- What the optimisation reads from the query (flipped for backward searches, reconstruct.cc:863-867) and the
footpaths of the timetable. -/
structure OptData where
  /-- `q.start_`, `q.destination_`: targets and durations -/
  startOffs : List (Loc × Int)
  destOffs : List (Loc × Int)
  /-- `footpaths_out_[prf]`, `footpaths_in_[prf]` with the durations of the timetable -/
  fpsOut : Loc → List (Loc × Int)
  fpsIn : Loc → List (Loc × Int)
  /-- `adjusted_transfer_time(q.transfer_time_settings_, ·)` -/
  adj : Int → Int
  /-- locations with time-dependent footpaths, which are not optimised -/
  skipOut : Loc → Bool
  skipIn : Loc → Bool
  better : PenArgs → PenArgs → Bool

/-- `for (auto const stp : frun)` over the stops with the given indices that pass a test. -/
def overStops {σ : Type} (stops : List StopData) (idx : List Nat) (ok : StopData → Bool) (f : Nat → StopData → σ → σ) (st : σ) : σ :=
  idx.foldl (fun st s => match stops[s]? with
    | none => st
    | some sd => if ok sd = true then f s sd st else st) st

/-- The walk, the ride and the best duration so far. -/
structure EndState where
  walk : Leg
  ride : Leg
  best : Int

/-- The test and the update of the legs for boarding at stop `s`, optimize_footpaths.cc:43-61, 107-124. -/
def optBoard (N : Net) (v : Vehicle) (j : Nat) (mk : Int → Uses) (s : Nat) (sd : StopData) (w : Int) (st : EndState) : EndState :=
  if w < st.best ∧ st.walk.dep ≤ N.vDep v s - w then
    { walk := { st.walk with to := sd.loc, dep := N.vDep v s - w, arr := N.vDep v s, uses := mk w }
      ride := { st.ride with fr := sd.loc, dep := N.vDep v s, uses := .ride v s j }
      best := w }
  else st

/-- `optimize_initial_departure`, optimize_footpaths.cc:16-65. -/
def initialDeparture (N : Net) (D : OptData) (legs : List Leg) : List Leg :=
  match legs with
  | a :: b :: rest =>
    match a.uses, b.uses with
    | .offset w, .ride v _ j =>
      let st := overStops (N.vStops v) (List.range j) (·.inAllowed) (fun s sd st =>
        D.startOffs.foldl (fun st o => if o.1 = sd.loc then optBoard N v j .offset s sd o.2 st else st) st) (⟨a, b, w⟩ : EndState)
      st.walk :: st.ride :: rest
    | _, _ => legs
  | _ => legs

/-- `optimize_initial_start_footpath`, optimize_footpaths.cc:67-129. -/
def initialFootpath (N : Net) (D : OptData) (legs : List Leg) : List Leg :=
  match legs with
  | a :: b :: rest =>
    match a.uses, b.uses with
    | .foot w, .ride v _ j =>
      if D.skipOut a.fr = true then legs
      else
        let st := overStops (N.vStops v) (List.range j) (·.inAllowed) (fun s sd st =>
          match (D.fpsOut a.fr).find? fun fp => fp.1 == sd.loc with
          | none => st
          | some fp => optBoard N v j .foot s sd (D.adj fp.2) st) (⟨a, b, D.adj w⟩ : EndState)
        st.walk :: st.ride :: rest
    | _, _ => legs
  | _ => legs

/-- The test and the update of the legs for alighting at stop `s`, optimize_footpaths.cc:168-186, 237-257. -/
def optAlight (N : Net) (v : Vehicle) (i : Nat) (mk : Int → Uses) (s : Nat) (sd : StopData) (w : Int) (st : EndState) : EndState :=
  if w < st.best ∧ N.vArr v s + w ≤ st.walk.arr then
    { walk := { st.walk with fr := sd.loc, dep := N.vArr v s, arr := N.vArr v s + w, uses := mk w }
      ride := { st.ride with to := sd.loc, arr := N.vArr v s, uses := .ride v i s }
      best := w }
  else st

/-- The stops after the boarding stop `i`: `fr.stop_range_ = {from_ + 1, fr.size()}`. -/
def stopsAfter (N : Net) (v : Vehicle) (i : Nat) : List Nat :=
  (List.range (N.vStops v).length).filter fun s => decide (i < s)

/-- `optimize_last_arrival`, optimize_footpaths.cc:131-189, on the reversed list of legs. -/
def lastArrivalRev (N : Net) (D : OptData) (legs : List Leg) : List Leg :=
  match legs with
  | a :: b :: rest =>
    match a.uses, b.uses with
    | .offset w, .ride v i _ =>
      let st := overStops (N.vStops v) (stopsAfter N v i) (·.outAllowed) (fun s sd st =>
        D.destOffs.foldl (fun st o => if o.1 = sd.loc then optAlight N v i .offset s sd o.2 st else st) st) (⟨a, b, w⟩ : EndState)
      st.walk :: st.ride :: rest
    | _, _ => legs
  | _ => legs

def lastArrival (N : Net) (D : OptData) (legs : List Leg) : List Leg := (lastArrivalRev N D legs.reverse).reverse

/-- `optimize_final_egress_footpath`, optimize_footpaths.cc:191-262, on the reversed list of legs. -/
def finalEgressRev (N : Net) (D : OptData) (legs : List Leg) : List Leg :=
  match legs with
  | a :: b :: rest =>
    match a.uses, b.uses with
    | .foot w, .ride v i _ =>
      if D.skipIn a.to = true then legs
      else
        let st := overStops (N.vStops v) (stopsAfter N v i) (·.outAllowed) (fun s sd st =>
          match (D.fpsIn a.to).find? fun fp => fp.1 == sd.loc with
          | none => st
          | some fp => optAlight N v i .foot s sd (D.adj fp.2) st) (⟨a, b, D.adj w⟩ : EndState)
        st.walk :: st.ride :: rest
    | _, _ => legs
  | _ => legs

def finalEgress (N : Net) (D : OptData) (legs : List Leg) : List Leg := (finalEgressRev N D legs.reverse).reverse

/-- The three legs of a transfer and the arguments of the best penalty so far. -/
structure TransferState where
  fr : Leg
  walk : Leg
  to : Leg
  best : PenArgs

/-- The body of the loops of `optimize_transfers`, optimize_footpaths.cc:402-437: alight at stop `s` of `v`, board
at stop `s'` of `v'`.  (`leg_footpath.uses_ = fp` has the duration of the timetable.) -/
def optChange (N : Net) (D : OptData) (v v' : Vehicle) (i j' s s' : Nat) (sd sd' : StopData) (st : TransferState) : TransferState :=
  match (D.fpsOut sd.loc).find? fun fp => fp.1 == sd'.loc with
  | none => st
  | some fp =>
    let w := D.adj fp.2
    let arr := N.vArr v s
    let dep := N.vDep v' s'
    let pen : PenArgs := (w, dep - (arr + w), sd.loc, sd'.loc)
    if arr + w ≤ dep ∧ D.better pen st.best = true then
      { fr := { st.fr with to := sd.loc, arr := arr, uses := .ride v i s }
        to := { st.to with fr := sd'.loc, dep := dep, uses := .ride v' s' j' }
        walk := ⟨sd.loc, sd'.loc, arr, arr + w, .foot fp.2⟩
        best := pen }
    else st

/-- One transfer, optimize_footpaths.cc:326-441. -/
def optTransfer (N : Net) (D : OptData) (x y z : Leg) : Leg × Leg × Leg :=
  match x.uses, y.uses, z.uses with
  | .ride v i _, .foot w, .ride v' _ j' =>
    let st := overStops (N.vStops v) (stopsAfter N v i) (·.outAllowed) (fun s sd st =>
      overStops (N.vStops v') (List.range j') (·.inAllowed) (fun s' sd' st => optChange N D v v' i j' s s' sd sd' st) st)
      (⟨x, y, z, (w, z.dep - y.arr, x.fr, z.to)⟩ : TransferState)
    (st.fr, st.walk, st.to)
  | _, _, _ => (x, y, z)

/-- `optimize_transfers`, optimize_footpaths.cc:290-443: over all triples of consecutive legs. -/
def optTransfers (N : Net) (D : OptData) : List Leg → List Leg
  | [] => []
  | [x] => [x]
  | [x, y] => [x, y]
  | x :: y :: z :: rest =>
    let t := optTransfer N D x y z
    t.1 :: optTransfers N D (t.2.1 :: t.2.2 :: rest)
termination_by l => l.length

/-- `optimize_footpaths`, optimize_footpaths.cc:445-454. -/
def optimizeFootpaths (N : Net) (D : OptData) (legs : List Leg) : List Leg :=
  optTransfers N D (finalEgress N D (lastArrival N D (initialFootpath N D (initialDeparture N D legs))))

end Nigiri.Raptor
