import Verif.Model.Raptor
import Verif.Model.GpuKernel
/-!
# The search on the GPU

Model of `gpu_raptor` (`src/routing/gpu/raptor.cu`) and `raptor_impl`
(`include/nigiri/routing/gpu/raptor_impl.cuh`).  The timetable and query are the `Problem` of the search on the
CPU (`Verif.Model.Raptor`, oriented times); lower bounds and via stops are not used by the GPU (raptor.cu:537-541).

Each kernel that reads cells which other threads of the same kernel may write is a pool of thread programs
(`Verif.Model.GpuKernel`).  Cells no thread of the kernel writes are read from the memory at its launch.  The threads of
the model are single work items (one footpath, one alighting, one location): a thread of the code runs several of them
one after the other (grid strides, warps), which is one of the schedules of the pool.

What is not modelled here: the bit operations on words and keys (C86, C87), the cooperation of the lanes of a warp
(C88), the two-phase task lists of the boarding lookups (a lookup per marked stop remains), reconstruction.
-/

namespace Nigiri.Gpu
open Nigiri.Raptor (Problem Route RtTransport Stop Run Start filterEt touches marked transferTime)

/-- How runs are ordered by the packed `(day, transport)` of `pack_et` (raptor_impl.cuh:914-927) and how rides are packed
into breadcrumbs (`make_transport_payload`, breadcrumb.h:53-61, with `encode_rt_bc_transport`). -/
structure Codec where
  /-- `pack_et a ≤ pack_et b` -/
  le : Run → Run → Bool
  /-- route index, run, boarding and alighting index in search order -/
  bcStatic : Nat → Run → Nat → Nat → Nat
  bcRt : Nat → Nat → Nat → Nat
  bcStart : Nat
  /-- the breadcrumb of `invalid_packed()`, device_times.h:37-39 -/
  bcInvalid : Nat

/-- The memory and `done_`. -/
structure GState where
  mem : Mem
  done : Bool

/-- `invalid_packed()`, device_times.h:37-39. -/
def invalid (P : Problem) (C : Codec) : Word := ⟨P.hi, C.bcInvalid⟩

/-- `update_time_at_dest`, raptor_impl.cuh:1074-1078: the entries `k, ..., max_transfers` where
`max_transfers + 1 = n`. -/
def tadUpd (t : Int) : List Nat → Prog
  | [] => .ret
  | i :: is => .amin (.tad i) ⟨t, 0⟩ (tadUpd t is)

def tadRange (n k : Nat) : List Nat := List.range' k (n - k)

/-- `reuse_previous_arrivals`, raptor_impl.cuh:118-134, for one location. -/
def reuse (P : Problem) (n k : Nat) (m : Mem) (l : Loc) : Prog :=
  .amin (.best l) ⟨(m.val (.round k l)).t, 0⟩
    (if P.isDest l then .read (.best l) fun b => tadUpd b (tadRange n k) else .ret)

/-- The better of two carried trips, by the 64 bit key of raptor_impl.cuh:703-711; `b` was boarded later. -/
def pick (C : Codec) : Option (Run × Nat) → Option (Run × Nat) → Option (Run × Nat)
  | none, b => b
  | some a, none => some a
  | some a, some b => if C.le a.1 b.1 then some a else some b

/-- An arrival written to `tmp_`. -/
def arrival (P : Problem) (k : Nat) (tad : Int) (l : Loc) (w : Word) : List (Loc × Word) :=
  if w.t ≤ tad && P.within k l w.t then [(l, w)] else []

/-- The lookup of et PHASE 2 and 3 at one stop, raptor_impl.cuh:973-1040 with `get_earliest_transport`,
raptor_impl.cuh:823-880 (the lookup of the CPU with lower bound 0). -/
def lookup (P : Problem) (r : Route) (rk : Loc → Int) (tad : Int) (prev : Loc → Bool) (last : Bool) (i : Nat) (s : Stop) : Option (Run × Nat) :=
  if !last && prev s.loc && s.canBoard && rk s.loc ≠ P.hi then (r.et i (rk s.loc) tad).map (·, i) else none

/-- The arrivals of `update_route_warp`, raptor_impl.cuh:692-820: `c` is the earliest trip boarded at one of the
stops since the last section that may not be used (that the lanes compute this is C88). -/
def routeArrivals (P : Problem) (C : Codec) (k ri : Nat) (r : Route) (rk : Loc → Int) (tad : Int) (prev : Loc → Bool) :
    List Stop → Nat → Option (Run × Nat) → List (Loc × Word)
  | [], _, _ => []
  | s :: rest, i, c0 =>
    let c := filterEt i s none c0
    (match c with
      | some (tr, b) => if s.canAlight then arrival P k tad s.loc ⟨P.clamp (r.alight tr i), C.bcStatic ri tr b i⟩ else []
      | none => []) ++
    routeArrivals P C k ri r rk tad prev rest (i + 1) (pick C c (lookup P r rk tad prev rest.isEmpty i s))

/-- `update_rt_transport`, raptor_impl.cuh:442-493: `et` is the boarding index. -/
def rtArrivals (P : Problem) (C : Codec) (k ri : Nat) (r : RtTransport) (rk : Loc → Int) (tad : Int) (prev : Loc → Bool) :
    List Stop → Nat → Option Nat → List (Loc × Word)
  | [], _, _ => []
  | s :: rest, i, et0 =>
    let et := filterEt i s none et0
    (match et with
      | some b => if i ≠ 0 && s.canAlight then arrival P k tad s.loc ⟨P.clamp (r.alight i), C.bcRt ri b i⟩ else []
      | none => []) ++
    rtArrivals P C k ri r rk tad prev rest (i + 1)
      (if !rest.isEmpty && s.canBoard && prev s.loc && rk s.loc ≤ P.clamp (r.board i) then some i else et)

/-- All arrivals of a round: `loop_routes`, `update_rt_transports`, raptor_impl.cuh:355-438. -/
def arrivals (P : Problem) (C : Codec) (k : Nat) (prev : Loc → Bool) (m : Mem) : List (Loc × Word) :=
  let rk := fun l => (m.val (.round (k - 1) l)).t
  let tad := (m.val (.tad k)).t
  (P.routes.zipIdx.filter fun x => touches prev x.1.stops && x.1.allowed).flatMap
    (fun x => routeArrivals P C k x.2 x.1 rk tad prev x.1.stops 0 none) ++
  (P.rts.zipIdx.filter fun x => touches prev x.1.stops && x.1.allowed).flatMap
    (fun x => rtArrivals P C k x.2 x.1 rk tad prev x.1.stops 0 none)

/-- Writing an arrival, raptor_impl.cuh:797-801 and 472-478. -/
def arrive (x : Loc × Word) : Prog := .amin (.tmp x.1) x.2 (.mark x.1 .ret)

/-- The second part of `relax_fp_target`, raptor_impl.cuh:524-537. -/
def relaxTail (P : Problem) (n k : Nat) (l : Loc) (w : Word) (td : Int) : Prog :=
  if w.t ≤ td then
    .read (.best l) fun b =>
      if w.t < b && P.within k l w.t then
        .amin (.round k l) w (.amin (.best l) ⟨w.t, 0⟩ (.mark l (if P.isDest l then tadUpd w.t (tadRange n k) else .ret)))
      else .ret
  else .ret

/-- `relax_fp_target`, raptor_impl.cuh:509-538; `t_at_dest` is read first (raptor_impl.cuh:611). -/
def relax (P : Problem) (n k : Nat) (l : Loc) (w : Word) : Prog :=
  .read (.tad k) fun td =>
    if P.bound.isNone then
      .read (.best l) fun b => if w.t < b then .amin (.round k l) w (relaxTail P n k l w td) else relaxTail P n k l w td
    else relaxTail P n k l w td

/-- Writing an arrival at the end of an intermodal query, raptor_impl.cuh:573-576, 635-640. -/
def endWrite (P : Problem) (n k : Nat) (w : Word) : Prog :=
  .amin (.round k P.endLoc) w (.amin (.best P.endLoc) ⟨w.t, 0⟩ (tadUpd w.t (tadRange n k)))

/-- Intermodal egress, raptor_impl.cuh:631-642. -/
def egress (P : Problem) (n k : Nat) (w : Word) : Prog :=
  .read (.tad k) fun td => if w.t ≤ td then endWrite P n k w else .ret

/-- Time dependent egress, `update_td_dest_offsets`, raptor_impl.cuh:546-579. -/
def tdEgress (P : Problem) (n k : Nat) (w : Word) : Prog :=
  .read (.tad k) fun td => if w.t ≤ td then .read (.best P.endLoc) fun b => if w.t < b then endWrite P n k w else .ret else .ret

/-- The work items of `update_transfers_and_footpaths` for one marked location, raptor_impl.cuh:582-690. -/
def walksAt (P : Problem) (n k : Nat) (m : Mem) (l : Loc) : List Prog :=
  let w := m.val (.tmp l)
  if w.t = P.hi then []
  else
    [relax P n k l ⟨P.clamp (w.t + transferTime P l), w.bc⟩] ++
    (if P.intermodal then
      (match P.endDist l with | some d => [egress P n k ⟨P.clamp (w.t + d), w.bc⟩] | none => []) ++
      (match P.endTd l w.t with | some d => [tdEgress P n k ⟨P.clamp (w.t + d), w.bc⟩] | none => [])
    else []) ++
    (P.fps l w.t).map fun fp => relax P n k fp.1 ⟨P.clamp (w.t + fp.2), w.bc⟩

/-- The footpath kernel. -/
def walks (P : Problem) (n k : Nat) (prev : Loc → Bool) (m : Mem) : List Prog :=
  (marked P prev).flatMap (walksAt P n k m)

/-- `swap_reset`, device_bitvec.cuh:40-47: the marks become the previous marks. -/
def noMarks (m : Mem) : Mem := { m with mark := fun _ => false }

/-- Is a route or real-time transport at a marked location, `mark_routes`, `mark_rt_transports`,
raptor_impl.cuh:136-168? -/
def anyTouched (P : Problem) (mark : Loc → Bool) : Bool :=
  (P.routes.any fun r => touches mark r.stops) || (P.rts.any fun r => touches mark r.stops)

/-- One iteration of the loop of `execute`, raptor.cu:898-953, with the convergence checks of
`begin_transit_phase_kernel` and `begin_footpath_phase_kernel` (raptor.cu:604-616, 664-676). -/
inductive Round (P : Problem) (C : Codec) (n k : Nat) : GState → GState → Prop
  | finished {S} : S.done = true → Round P C n k S S
  | noRoute {S m1} : S.done = false → Kernel ((List.range P.nLoc).map (reuse P n k S.mem)) S.mem m1 →
      anyTouched P m1.mark = false → Round P C n k S ⟨m1, true⟩
  | noArrival {S m1 m3} : S.done = false → Kernel ((List.range P.nLoc).map (reuse P n k S.mem)) S.mem m1 →
      anyTouched P m1.mark = true → Kernel ((arrivals P C k m1.mark (noMarks m1)).map arrive) (noMarks m1) m3 →
      (∀ l, m3.mark l = false) → Round P C n k S ⟨m3, true⟩
  | full {S m1 m3 m5} : S.done = false → Kernel ((List.range P.nLoc).map (reuse P n k S.mem)) S.mem m1 →
      anyTouched P m1.mark = true → Kernel ((arrivals P C k m1.mark (noMarks m1)).map arrive) (noMarks m1) m3 →
      (∃ l, m3.mark l = true) → Kernel (walks P n k m3.mark (noMarks m3)) (noMarks m3) m5 → Round P C n k S ⟨m5, false⟩

/-- Rounds `1, ..., j` of `n`. -/
inductive Rounds (P : Problem) (C : Codec) (n : Nat) (S : GState) : Nat → GState → Prop
  | zero : Rounds P C n S 0 S
  | succ {j S' S''} : Rounds P C n S j S' → Round P C n (j + 1) S' S'' → Rounds P C n S (j + 1) S''

/-- `next_start_time`, raptor.cu:1125-1146. -/
def nextStart (P : Problem) (C : Codec) (S : GState) : GState where
  mem := {
    val := fun a => match a with
      | .best _ => invalid P C
      | .tmp _ => invalid P C
      | a => S.mem.val a
    mark := fun _ => false }
  done := false

/-- `init_arrivals`, raptor_impl.cuh:95-115, for one start. -/
def initStart (C : Codec) (x : Loc × Int) : Prog :=
  .amin (.best x.1) ⟨x.2, 0⟩ (.amin (.round 0 x.1) ⟨x.2, C.bcStart⟩ (.mark x.1 .ret))

/-- `init_arrivals`: the entries `0, ..., kMaxTransfers + 1` of `time_at_dest_`. -/
def initTad (worst : Int) (i : Nat) : Prog := .amin (.tad i) ⟨worst, 0⟩ .ret

/-- `kMaxTransfers + 2`, raptor_impl.cuh:112. -/
def nTad : Nat := 16

/-- `next_start_time`, `add_start`..., `execute`, raptor.cu:816-953. -/
inductive RunOne (P : Problem) (C : Codec) (n : Nat) (S : GState) (q : Start) : GState → Prop
  | empty : q.starts = [] → RunOne P C n S q (nextStart P C S)
  | run {m S'} : q.starts ≠ [] →
      Kernel (q.starts.map (initStart C) ++ (List.range nTad).map (initTad q.worst)) (nextStart P C S).mem m →
      Rounds P C n ⟨m, false⟩ n S' → RunOne P C n S q S'

/-- `reset_arrivals`, raptor.cu:1116-1122. -/
def init (P : Problem) (C : Codec) : GState := ⟨{ val := fun _ => invalid P C, mark := fun _ => false }, false⟩

/-- A range query: the start times in the order in which they are processed. -/
inductive RunFrom (P : Problem) (C : Codec) (n : Nat) : GState → List Start → GState → Prop
  | nil {S} : RunFrom P C n S [] S
  | cons {S S' S'' q qs} : RunOne P C n S q S' → RunFrom P C n S' qs S'' → RunFrom P C n S (q :: qs) S''

def RunAll (P : Problem) (C : Codec) (n : Nat) (qs : List Start) (S : GState) : Prop := RunFrom P C n (init P C) qs S

/-- The journeys handed to the results, raptor.cu:960-998: destination, number of rides, arrival (when their
breadcrumbs can be followed). -/
def results (P : Problem) (n : Nat) (S : GState) : List (Loc × Nat × Int) :=
  (marked P P.isDest).flatMap fun d =>
    ((List.range' 1 n).filter fun k => (S.mem.val (.round k d)).t ≠ P.hi).map fun k => (d, k, (S.mem.val (.round k d)).t)

end Nigiri.Gpu
