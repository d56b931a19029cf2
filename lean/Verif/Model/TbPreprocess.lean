import Verif.Model.RaptorConcrete
/-!
# Trip-based routing: precomputed transfers

Model of `src/routing/tb/preprocess.cc` and `include/nigiri/routing/tb/tb_data.h`.

Bitfields (`bitset<512>`) are natural numbers below `2 ^ 512`.  `std::uint16_t` results that may be truncated are
reduced modulo `65536`; day offsets (`std::int8_t`) are plain integers (trips last less than 32 days,
`delta::days_` has 5 bits).
-/

namespace Nigiri.TB
open Raptor (Loc StopData)

/-- `bitfield` -/
abbrev Bits := Nat

/-- `kMaxDays`, `types.h`. -/
def nBits : Nat := 512

/-- `bitfield::max()` -/
def allBits : Bits := 2 ^ nBits - 1

/-- `bf << n` -/
def shl (b : Bits) (n : Nat) : Bits := (b <<< n) % 2 ^ nBits

/-- `bf >> n` -/
def shr (b : Bits) (n : Nat) : Bits := b >>> n

/-- `a & ~b` -/
def andNot (a b : Bits) : Bits := a &&& (b ^^^ allBits)

/-- A route with its transports numbered from 0; event times in minutes (`delta::count()`), traffic days as
bitfield. -/
structure Route where
  stops : List StopData
  nTr : Nat
  arr : Nat → Nat → Nat
  dep : Nat → Nat → Nat
  bits : Nat → Bits

/-- The parts of the timetable read by preprocessing and query. -/
structure TT where
  routes : List Route
  /-- `locations_.transfer_time_` -/
  transfer : Loc → Nat
  /-- `locations_.footpaths_out_[prf][l]` (target, duration) -/
  fpsOut : Nat → Loc → List (Loc × Nat)
  /-- `locations_.footpaths_in_[prf][l]` -/
  fpsIn : Nat → Loc → List (Loc × Nat)
  /-- `location_routes_[l]` -/
  locRoutes : Loc → List Nat

/-- `tt.route_location_seq_[r]` and transports of route `r`. -/
def TT.route (tt : TT) (r : Nat) : Route := tt.routes.getD r ⟨[], 0, fun _ _ => 0, fun _ _ => 0, fun _ => 0⟩

def noStop : StopData := ⟨0, false, false, false, false⟩

/-- `stop{route_location_seq_[r][i]}` -/
def Route.stop (r : Route) (i : Nat) : StopData := r.stops.getD i noStop

/-- `route_transfer`, `preprocess.cc:84-89`. -/
structure Nb where
  stopFrom : Nat
  routeTo : Nat
  stopTo : Nat
  len : Nat
deriving DecidableEq, Repr

/-- `is_uturn || is_uturn_target_route_terminates`, `preprocess.cc:191-203`. -/
def isUturn (tt : TT) (prev next : StopData) (isLast : Bool) (len : Nat) : Bool :=
  (isLast && decide (prev.loc = next.loc) && prev.outAllowed) ||
  (decide (prev.loc = next.loc) && prev.outAllowed && next.inAllowed && decide (tt.transfer prev.loc ≤ len))

/-- The inner loop of `add_non_uturn_transfers`, `preprocess.cc:182-211`. -/
def nbOfRoute (tt : TT) (prev : StopData) (fromIdx : Nat) (fp : Loc × Nat) (rTo : Nat) : List Nb :=
  let ss := tt.route rTo
  (List.range (ss.stops.length - 1)).filterMap fun j =>
    if (ss.stop j).loc ≠ fp.1 ∨ (ss.stop j).inAllowed = false then none
    else if isUturn tt prev (ss.stop (j + 1)) (decide (j + 1 = ss.stops.length - 1)) fp.2 then none
    else some ⟨fromIdx, rTo, j, fp.2⟩

/-- `add_non_uturn_transfers`, `preprocess.cc:173-213`. -/
def addNonUturn (tt : TT) (rFrom fromIdx : Nat) (fp : Loc × Nat) : List Nb :=
  (tt.locRoutes fp.1).flatMap (nbOfRoute tt ((tt.route rFrom).stop (fromIdx - 1)) fromIdx fp)

/-- The order of `get_route_neighborhood`, `preprocess.cc:247-254`. -/
def nbLt (a b : Nb) : Bool :=
  decide (a.routeTo < b.routeTo) || (decide (a.routeTo = b.routeTo) && decide (a.stopFrom > b.stopFrom)) ||
  (decide (a.routeTo = b.routeTo) && decide (a.stopFrom = b.stopFrom) && decide (a.stopTo < b.stopTo))

/-- Insertion into a sorted list. -/
def insertNb (x : Nb) : List Nb → List Nb
  | [] => [x]
  | y :: ys => if nbLt y x then y :: insertNb x ys else x :: y :: ys

/-- `utl::sort` (the order of equivalent elements, which the standard leaves open, is that of the input). -/
def sortNb (xs : List Nb) : List Nb := xs.foldr insertNb []

/-- The transfers considered at one stop, `preprocess.cc:226-244`. -/
def nbAt (tt : TT) (prf rFrom i : Nat) : List Nb :=
  let s := (tt.route rFrom).stop i
  if s.outAllowed = false then []
  else addNonUturn tt rFrom i (s.loc, tt.transfer s.loc) ++
    (tt.fpsOut prf s.loc).flatMap (addNonUturn tt rFrom i)

/-- `get_route_neighborhood`, `preprocess.cc:215-255`: stops in reverse order without the first. -/
def neighborhood (tt : TT) (prf rFrom : Nat) : List Nb :=
  sortNb (((List.range ((tt.route rFrom).stops.length - 1)).reverse).flatMap fun i => nbAt tt prf rFrom (i + 1))

/-! ## Line-based pruning -/

/-- `rlb_entry`, `preprocess.cc:20-24`. -/
structure Rlb where
  shift : Int
  start : Nat
  bf : Bits
deriving DecidableEq, Repr

/-- `std::tie(shift_new, start_new) < std::tie(shift, start)` -/
def keyLt (s : Int) (t : Nat) (s' : Int) (t' : Nat) : Bool := decide (s < s') || (decide (s = s') && decide (t < t'))

/-- `reached_line_based::update`, `preprocess.cc:26-46`: the entries of the stop and `bf_new` afterwards. -/
def rlbUpdate (shift : Int) (start : Nat) : List Rlb → Bits → List Rlb × Bits
  | [], bf => ([], bf)
  | e :: es, bf =>
    if bf = 0 then (e :: es, bf)
    else if e.bf = 0 then
      let r := rlbUpdate shift start es bf
      (e :: r.1, r.2)
    else if keyLt shift start e.shift e.start then
      let r := rlbUpdate shift start es bf
      ({ e with bf := andNot e.bf bf } :: r.1, r.2)
    else
      let r := rlbUpdate shift start es (andNot bf e.bf)
      (e :: r.1, r.2)

/-- `transports_`: entries per stop. -/
abbrev Reached := Nat → List Rlb

/-- `reached_line_based::reset`, `preprocess.cc:48-55`. -/
def rlbReset (nStops : Nat) : Reached := fun j => if j < nStops then [⟨127, 65535, allBits⟩] else []

/-- `expanded_transfer`, `preprocess.cc:66-81`; the target is given as route, transport within the route and
stop. -/
structure Xfer where
  bf : Bits
  route : Nat
  tr : Nat
  stopTo : Nat
  dayOff : Int
deriving DecidableEq, Repr

/-- The loop over the subsequent stops, `preprocess.cc:377-393`. -/
def markLater (shift : Int) (start : Nat) (bf : Bits) : List Nat → Reached → Reached
  | [], R => R
  | j :: js, R =>
    let r := rlbUpdate shift start (R j) bf
    markLater shift start bf js (Raptor.upd R j (if r.2 ≠ 0 then r.1 ++ [⟨shift, start, r.2⟩] else r.1))

/-- State of the loop `while (remaining_traffic_days.any())`. -/
structure LoopSt where
  reached : Reached
  /-- transfers found for the alighting stop at hand, in order -/
  out : List Xfer

/-- `u_shifted_traffic_days`, `preprocess.cc:340-346`. -/
def shiftDays (b : Bits) (total : Int) : Bits :=
  if total < 0 then shr b (-total).toNat else shl b total.toNat

/-- Handling of a transport `u` that runs on some of the remaining days, `preprocess.cc:352-394`. -/
def found (ru : Route) (rTo stopTo u : Nat) (common : Bits) (dayOff : Int) (S : LoopSt) : LoopSt :=
  let start := ru.dep u 0 % 1440
  let r := rlbUpdate dayOff start (S.reached stopTo) common
  let R := Raptor.upd S.reached stopTo r.1
  if r.2 = 0 then { S with reached := R }
  else
    let R := Raptor.upd R stopTo (r.1 ++ [⟨dayOff, start, r.2⟩])
    { reached := markLater dayOff start r.2 ((List.range ru.stops.length).filter (fun j => stopTo < j)) R,
      out := S.out ++ [⟨r.2, rTo, u, stopTo, dayOff⟩] }

/-- The loop over the departures of the target route, `preprocess.cc:309-406`: `idx` is the position of
`earliest_dep`, `day` is `transfer_day_offset`. -/
def depLoop (ru : Route) (rTo stopTo : Nat) (arr : Nat) (idx day : Nat) (rem : Bits) (S : LoopSt) : LoopSt :=
  if rem = 0 then S
  else if ru.nTr ≤ idx then S
  else
    let ev := ru.dep idx stopTo
    if day * 1440 + ev % 1440 > arr % 1440 + 1440 then S
    else
      let total : Int := (ev / 1440 : Nat) - (arr / 1440 : Nat) - (day : Int)
      let common := rem &&& shiftDays (ru.bits idx) total
      let rem' := if common = 0 then rem else andNot rem common
      let S' := if common = 0 then S else found ru rTo stopTo idx common (-total) S
      if idx + 1 = ru.nTr then depLoop ru rTo stopTo arr 0 (day + 1) rem' S'
      else depLoop ru rTo stopTo arr (idx + 1) day rem' S'
termination_by (arr % 1440 + 2881 - day * 1440) * (ru.nTr + 1) + (ru.nTr - idx)
decreasing_by
  · have h : arr % 1440 + 2881 - (day + 1) * 1440 + 1 ≤ arr % 1440 + 2881 - day * 1440 := by omega
    have h' := Nat.mul_le_mul_right (ru.nTr + 1) h
    rw [Nat.add_mul] at h'
    omega
  · omega

/-- `linear_lb` on the departures of the target route, `preprocess.cc:296-306`: position and
`transfer_day_offset`. -/
def firstDep (ru : Route) (stopTo fpArr : Nat) : Nat × Nat :=
  match (List.range ru.nTr).find? (fun u => decide (fpArr % 1440 ≤ ru.dep u stopTo % 1440)) with
  | some u => (u, fpArr / 1440)
  | none => (0, fpArr / 1440 + 1)

/-- One neighbour, `preprocess.cc:277-407`. -/
def handleNb (tt : TT) (rt : Route) (t : Nat) (nb : Nb) (S : LoopSt) : LoopSt :=
  let arr := rt.arr t nb.stopFrom
  let ru := tt.route nb.routeTo
  let fd := firstDep ru nb.stopTo ((arr % 1440 + nb.len) % 65536)
  depLoop ru nb.routeTo nb.stopTo arr fd.1 fd.2 (rt.bits t) S

/-- State of the loop over the neighbours. -/
structure LineSt where
  /-- `route_to_prev` -/
  prev : Nat
  reached : Reached
  /-- `segment_transfers` -/
  segs : Nat → List Xfer

/-- The loop over the neighbours, `preprocess.cc:277-407`. -/
def lineStep (tt : TT) (rt : Route) (t : Nat) (S : LineSt) (nb : Nb) : LineSt :=
  let R := if S.prev ≠ nb.routeTo then rlbReset (tt.route nb.routeTo).stops.length else S.reached
  let L := handleNb tt rt t nb ⟨R, []⟩
  { prev := nb.routeTo, reached := L.reached,
    segs := Raptor.upd S.segs (nb.stopFrom - 1) (S.segs (nb.stopFrom - 1) ++ L.out) }

/-- The line-based part of `preprocess_transport`, `preprocess.cc:257-407`. -/
def lineBased (tt : TT) (rt : Route) (t : Nat) (nbs : List Nb) : Nat → List Xfer :=
  match nbs with
  | [] => fun _ => []
  | nb :: _ =>
    (nbs.foldl (lineStep tt rt t) ⟨nb.routeTo, rlbReset (tt.route nb.routeTo).stops.length, fun _ => []⟩).segs

/-! ## Transfer reduction -/

/-- `rr_entry`, `preprocess.cc:92-95`. -/
structure Rr where
  time : Nat
  bf : Bits
deriving DecidableEq, Repr

/-- Result of the comparison with the existing entries: the entries, `bf_new`, `same_time_spot`,
`overwrite_spot`, and whether the function returned from within the loop. -/
structure RrScan where
  es : List Rr
  bf : Bits
  same : Option Nat
  over : Option Nat
  ret : Bool

/-- The loop of `reached_reduction::update`, `preprocess.cc:108-140`, from position `i`; `pre` are the entries
already handled. -/
def rrScan (time : Nat) (i : Nat) (bf : Bits) (same over : Option Nat) (pre : List Rr) : List Rr → RrScan
  | [] => ⟨pre, bf, same, over, false⟩
  | e :: es =>
    if bf = 0 then ⟨pre ++ e :: es, bf, same, over, true⟩
    else if time < e.time then
      let e' : Rr := { e with bf := andNot e.bf bf }
      rrScan time (i + 1) bf same (if e'.bf = 0 then some i else over) (pre ++ [e']) es
    else
      rrScan time (i + 1) (andNot bf e.bf) (if time = e.time then some i else same)
        (if e.bf = 0 then some i else over) (pre ++ [e]) es

/-- `reached_reduction::update`, `preprocess.cc:97-163`: the entries of the location and the bits added to
`*impr`. -/
def rrUpdate (es : List Rr) (time : Nat) (bf : Bits) : List Rr × Bits :=
  let s := rrScan time 0 bf none none [] es
  if s.ret || decide (s.bf = 0) then (s.es, 0)
  else match s.same, s.over with
    | some i, _ => (s.es.modify i fun e => { e with bf := e.bf ||| s.bf }, s.bf)
    | none, some i => (s.es.set i ⟨time, s.bf⟩, s.bf)
    | none, none => (s.es ++ [⟨time, s.bf⟩], s.bf)

/-- `times_` of one `reached_reduction`. -/
abbrev RrMap := Loc → List Rr

/-- `update` on the map. -/
def rrMapUpdate (m : RrMap) (l : Loc) (time : Nat) (bf : Bits) : RrMap × Bits :=
  let r := rrUpdate (m l) time bf
  (Raptor.upd m l r.1, r.2)

/-- `rr_arr_`, `rr_ch_` and the accumulated improvement. -/
structure RedSt where
  arr : RrMap
  ch : RrMap
  impr : Bits

def RedSt.updArr (S : RedSt) (l : Loc) (time : Nat) (bf : Bits) : RedSt :=
  let r := rrMapUpdate S.arr l (time % 65536) bf
  { S with arr := r.1, impr := S.impr ||| r.2 }

def RedSt.updCh (S : RedSt) (l : Loc) (time : Nat) (bf : Bits) : RedSt :=
  let r := rrMapUpdate S.ch l (time % 65536) bf
  { S with ch := r.1, impr := S.impr ||| r.2 }

/-- Arrival at a stop of the target trip (or of the trip itself): arrival, change and footpaths,
`preprocess.cc:433-441` and `467-483`. -/
def reachStop (tt : TT) (fps : Loc → List (Loc × Nat)) (l : Loc) (time : Nat) (bf : Bits) (S : RedSt) : RedSt :=
  let S := (S.updArr l time bf).updCh l (time + tt.transfer l) bf
  (fps l).foldl (fun S fp => (S.updArr fp.1 (time + fp.2) bf).updCh fp.1 (time + fp.2) bf) S

/-- One transfer of the reduction, `preprocess.cc:446-486`: the state with `improvement` in `impr`. -/
def reduceOne (tt : TT) (x : Xfer) (S : RedSt) : RedSt :=
  let ru := tt.route x.route
  ((List.range ru.stops.length).filter (fun s => x.stopTo < s)).foldl (fun S s =>
    reachStop tt (tt.fpsOut 0) (ru.stop s).loc (((x.dayOff * 1440 + (ru.arr x.tr s : Nat)) % 65536).toNat) x.bf S)
    { S with impr := 0 }

/-- The loop over the transfers of one stop, `preprocess.cc:444-495`. -/
def reduceList (tt : TT) : List Xfer → RedSt → List Xfer × RedSt
  | [], S => ([], S)
  | x :: xs, S =>
    let S' := reduceOne tt x S
    let r := reduceList tt xs S'
    (if S'.impr = 0 then r.1 else { x with bf := S'.impr } :: r.1, r.2)

/-- One stop of the reduction, `preprocess.cc:417-496`. -/
def reduceStop (tt : TT) (prf : Nat) (rt : Route) (t : Nat) (acc : (Nat → List Xfer) × RedSt) (i : Nat) :
    (Nat → List Xfer) × RedSt :=
  let s := rt.stop i
  if s.outAllowed = false then acc
  else
    let S := reachStop tt (tt.fpsOut prf) s.loc (rt.arr t i) (rt.bits t) acc.2
    let r := reduceList tt (acc.1 (i - 1)) S
    (Raptor.upd acc.1 (i - 1) r.1, r.2)

/-- `preprocess_transport`, `preprocess.cc:257-497`. -/
def preprocessTransport (tt : TT) (prf : Nat) (rt : Route) (t : Nat) (nbs : List Nb) : Nat → List Xfer :=
  (((List.range (rt.stops.length - 1)).reverse.map (· + 1)).foldl (reduceStop tt prf rt t)
    (lineBased tt rt t nbs, ⟨fun _ => [], fun _ => [], 0⟩)).1

/-- `preprocess_route`, `preprocess.cc:499-520`: transport, segment ↦ transfers. -/
def preprocessRoute (tt : TT) (prf r : Nat) (t seg : Nat) : List Xfer :=
  let nbs := neighborhood tt prf r
  if nbs = [] then [] else preprocessTransport tt prf (tt.route r) t nbs seg

/-! ## The flat data -/

/-- Route and position of the transports in the order of their indices (`route_transport_ranges_`). -/
def trList (tt : TT) : List (Nat × Nat) :=
  ((List.range tt.routes.length).map fun r => (List.range (tt.route r).nTr).map fun o => (r, o)).flatten

/-- `route_transport_ranges_[r].from_` -/
def trFrom (tt : TT) (r : Nat) : Nat := ((List.range r).map fun r => (tt.route r).nTr).sum

/-- Number of segments of a transport. -/
def nSeg (tt : TT) (x : Nat × Nat) : Nat := (tt.route x.1).stops.length - 1

/-- `transfer`, `tb_data.h:20-59`; the day offset is stored with an offset of 8 in 4 bits, the index of the
traffic days is replaced by the bitfield it refers to. -/
structure Transfer where
  toSeg : Nat
  days : Bits
  route : Nat
  trOff : Nat
  toSegOff : Nat
  dayOff : Nat
deriving DecidableEq, Repr

/-- `set_day_offset`, `tb_data.h:21-24`: `none` = exception. -/
def setDayOffset (o : Int) : Option Nat := if -8 ≤ o ∧ o < 8 then some ((o + 8).toNat % 16) else none

/-- `get_day_offset`, `tb_data.h:26-28`. -/
def Transfer.dayOffset (x : Transfer) : Int := (x.dayOff : Int) - 8

/-- `tb_data`, `tb_data.h:61-69`. -/
structure TbData where
  prf : Nat
  firstSeg : List Nat
  segTr : List Nat
  segTransfers : List (List Transfer)

/-- `transport_first_segment_`, `preprocess.cc:537-550`. -/
def firstSeg (tt : TT) (t : Nat) : Nat := (((trList tt).take t).map (nSeg tt)).sum

/-- Conversion of one transfer, `preprocess.cc:573-585`. -/
def toTransfer (tt : TT) (x : Xfer) : Option Transfer :=
  (setDayOffset x.dayOff).map fun o =>
    { toSeg := firstSeg tt (trFrom tt x.route + x.tr) + x.stopTo, days := x.bf, route := x.route,
      trOff := x.tr % 65536, toSegOff := x.stopTo % 4096, dayOff := o }

/-- `preprocess`, `preprocess.cc:522-595`; `none` = exception.  The routes are computed in parallel and collected in
order, which is the same as computing them in order. -/
def preprocess (tt : TT) (prf : Nat) : Option TbData :=
  (((trList tt).flatMap fun x => (List.range (nSeg tt x)).map fun seg => preprocessRoute tt prf x.1 x.2 seg).mapM
    fun (xs : List Xfer) => xs.mapM (toTransfer tt)).map fun segs =>
    { prf := prf,
      firstSeg := (List.range ((trList tt).length + 1)).map (firstSeg tt),
      segTr := ((trList tt).zipIdx.map fun x => List.replicate (nSeg tt x.1) x.2).flatten,
      segTransfers := segs }

end Nigiri.TB
