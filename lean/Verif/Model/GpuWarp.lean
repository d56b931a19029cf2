import Verif.Model.GpuPacking
/-!
# The scan of a route by the lanes of a warp

Model of `update_route_warp`, `include/nigiri/routing/gpu/raptor_impl.cuh:692-820`: 32 lanes handle 32 consecutive stops
(in scan order) at a time.  A register is a function of the lane; `__shfl_up_sync` and `__shfl_sync` read the
registers of other lanes.  The lanes of a warp execute in lock step between shuffles (`kAllLanes` takes part in all of
them), so this is a function, not a set of schedules.
-/

namespace Nigiri.Gpu
open Nigiri.Raptor (Problem Route Stop Run Dir Net)

def kWarpSize : Nat := 32

/-- `kEtKeyInvalid`, raptor_impl.cuh:711. -/
def kEtKeyInvalid : Nat := 2 ^ 64 - 1

/-- `__shfl_up_sync(kAllLanes, f, off)`: the register of the lane `off` below; lanes below `off` get their own. -/
def shflUp {α : Type} (f : Nat → α) (off lane : Nat) : α := if off ≤ lane then f (lane - off) else f lane

/-- `__shfl_sync(kAllLanes, f, src)`. -/
def shfl {α : Type} (f : Nat → α) (src : Nat) : α := f src

/-- The registers `incl` and `prefix_contains_kill`. -/
structure Regs where
  incl : Nat → Nat
  killed : Nat → Bool

/-- One step of the prefix minimum, raptor_impl.cuh:744-754 (`sections`) and 757-762. -/
def scanStep (sections : Bool) (off : Nat) (s : Regs) : Regs :=
  if sections then
    { incl := fun lane => if off ≤ lane then (if !s.killed lane then min (s.incl lane) (shflUp s.incl off lane) else s.incl lane) else s.incl lane
      killed := fun lane => if off ≤ lane then s.killed lane || shflUp s.killed off lane else s.killed lane }
  else { s with incl := fun lane => if off ≤ lane then min (s.incl lane) (shflUp s.incl off lane) else s.incl lane }

/-- `for (off = 1; off < kWarpSize; off <<= 1)`. -/
def offsets : List Nat := [1, 2, 4, 8, 16]

def prefixMin (sections : Bool) (s : Regs) : Regs := offsets.foldl (fun s off => scanStep sections off s) s

/-- `my_key`, raptor_impl.cuh:721-729: `et i` is the entry of `et_result_` of the `i`-th stop in scan order. -/
def myKey (n : Nat) (et : Nat → Nat) (i : Nat) : Nat :=
  if i < n ∧ et i ≠ kEtInvalid then (et i <<< 32) ||| i else kEtKeyInvalid

/-- `kill`, raptor_impl.cuh:719, 731-737. -/
def myKill (sections : Bool) (n : Nat) (kill : Nat → Bool) (i : Nat) : Bool := sections && decide (i < n) && decide (i ≠ 0) && kill i

/-- `et` of every lane, raptor_impl.cuh:764-783. -/
def laneEt (sections : Bool) (kill : Nat → Bool) (s : Regs) (carried lane : Nat) : Nat :=
  let up := if lane = 0 then kEtKeyInvalid else shflUp s.incl 1 lane
  if sections then
    let upKilled := if lane = 0 then false else shflUp s.killed 1 lane
    if kill lane then kEtKeyInvalid else if upKilled then up else min up carried
  else min up carried

/-- `carried_et` for the next chunk, raptor_impl.cuh:806-816. -/
def nextCarried (sections : Bool) (s : Regs) (carried : Nat) : Nat :=
  if sections then if shfl s.killed (kWarpSize - 1) then shfl s.incl (kWarpSize - 1) else min (shfl s.incl (kWarpSize - 1)) carried
  else shfl (fun lane => min (s.incl lane) carried) (kWarpSize - 1)

/-- The registers after the prefix minimum of a chunk. -/
def chunkRegs (sections : Bool) (n : Nat) (et : Nat → Nat) (kill : Nat → Bool) (chunk : Nat) : Regs :=
  prefixMin sections { incl := fun lane => myKey n et (chunk + lane), killed := fun lane => myKill sections n kill (chunk + lane) }

/-- Update of the stop time by one lane, raptor_impl.cuh:785-804. -/
def laneArrival (P : Problem) (d : Dir) (N : Net) (k ri : Nat) (r : Route) (tad : Int) (i et : Nat) : List (Loc × Word) :=
  let boardI := et % 2 ^ 32
  match r.stops[i]? with
  | some s =>
    if et ≠ kEtKeyInvalid && boardI < i && s.canAlight then
      let t := unpackEt d N.base (et >>> 32)
      arrival P k tad s.loc ⟨P.clamp (r.alight t i), (codec d N).bcStatic ri t boardI i⟩
    else []
  | none => []

/-- The loop over the chunks. -/
def warpLoop (P : Problem) (d : Dir) (N : Net) (k ri : Nat) (r : Route) (tad : Int) (sections : Bool) (et : Nat → Nat) (kill : Nat → Bool) :
    List Nat → Nat → List (Loc × Word)
  | [], _ => []
  | c :: cs, carried =>
    let chunk := c * kWarpSize
    let s := chunkRegs sections r.stops.length et kill chunk
    (List.range kWarpSize).flatMap (fun lane =>
      laneArrival P d N k ri r tad (chunk + lane) (laneEt sections (fun lane => myKill sections r.stops.length kill (chunk + lane)) s carried lane)) ++
    warpLoop P d N k ri r tad sections et kill cs (nextCarried sections s carried)

/-- `update_route_warp`. -/
def warpArrivals (P : Problem) (d : Dir) (N : Net) (k ri : Nat) (r : Route) (tad : Int) (sections : Bool) (et : Nat → Nat) (kill : Nat → Bool) :
    List (Loc × Word) :=
  warpLoop P d N k ri r tad sections et kill (List.range ((r.stops.length + (kWarpSize - 1)) / kWarpSize)) kEtKeyInvalid

/-- `et_result_` of a route in scan order (raptor_impl.cuh:973-1040). -/
def etResult (P : Problem) (d : Dir) (N : Net) (r : Route) (rk : Loc → Int) (tad : Int) (prev : Loc → Bool) (i : Nat) : Nat :=
  match r.stops[i]? with
  | some s => match lookup P r rk tad prev (decide (i + 1 = r.stops.length)) i s with
    | some (a, _) => packEt d N.base a
    | none => kEtInvalid
  | none => kEtInvalid

/-- `section_killed` of the section before the `i`-th stop in scan order, device_timetable.cuh:44-63. -/
def secKilled (r : Route) (i : Nat) : Bool := match r.stops[i]? with
  | some s => !s.secOk
  | none => false

end Nigiri.Gpu
