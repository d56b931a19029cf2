import Verif.Model.RaptorConcrete
import Verif.Model.GpuRaptor
import Verif.Model.Packing
/-!
# The words and keys of the search on the GPU

Model of `include/nigiri/routing/gpu/device_times.h` (packed words), `breadcrumb.h` (breadcrumbs) and
`raptor_impl.cuh:903-940` (packed transports), on the level of bits.  Unsigned types are natural numbers reduced
modulo their size where the code converts or may wrap.
-/

namespace Nigiri.Gpu
open Nigiri.Raptor (Dir Run Net RouteData stopIdx)

/-! ## Packed words -/

/-- `to_key`, device_times.h:21-24. -/
def toKey (d : Dir) (t : Int) : Nat := match d with
  | .fwd => toUnsigned 16 (t + 32768)
  | .bwd => toUnsigned 16 (32767 - t)

/-- `from_key`, device_times.h:25-28. -/
def fromKey (d : Dir) (k : Nat) : Int := match d with
  | .fwd => toInt16 ((k : Int) - 32768)
  | .bwd => toInt16 (32767 - (k : Int))

/-- `kBcBits`, `kBcMask`, breadcrumb.h:40-41. -/
def kBcBits : Nat := 48
def kBcMask : Nat := 1 <<< kBcBits - 1

/-- `pack`, device_times.h:29-32. -/
def packWord (d : Dir) (t : Int) (bc : Nat) : Nat := (toKey d t <<< kBcBits) ||| (bc &&& kBcMask)

/-- `invalid_packed`, device_times.h:33-35. -/
def invalidPacked : Nat := 2 ^ 64 - 1

/-- `get`, device_times.h:37-51. -/
def wordTime (d : Dir) (w : Nat) : Int := fromKey d ((w >>> kBcBits) % 2 ^ 16)

/-- `get_bc`, device_times.h:53-57. -/
def wordBc (w : Nat) : Nat := w &&& kBcMask

/-- `update_min`, device_times.h:76-86, on a cell holding `old`: the new content of the cell and the returned
value. -/
def updateMin (d : Dir) (old : Nat) (t : Int) (bc : Nat) : Nat × Bool :=
  let new := packWord d t bc
  (min old new, decide (new >>> kBcBits < old >>> kBcBits))

/-! ## Breadcrumbs -/

/-- breadcrumb.h:42-47. -/
def kBcTransportMask : Nat := 0x03FFFFFF
def kBcStopMask : Nat := 0x7FF
def kBcBoardShift : Nat := 26
def kBcAlightShift : Nat := 37
def kStartSentinel : Nat := kBcTransportMask

/-- `make_transport_payload`, breadcrumb.h:49-58. -/
def makePayload (transport board alight : Nat) : Nat :=
  (transport &&& kBcTransportMask) ||| ((board &&& kBcStopMask) <<< kBcBoardShift) ||| ((alight &&& kBcStopMask) <<< kBcAlightShift)

/-- `make_start_bc`, breadcrumb.h:60-62. -/
def startBc : Nat := kStartSentinel

/-- `bc_transport`, `bc_board`, `bc_alight`, breadcrumb.h:64-74. -/
def bcTransport (bc : Nat) : Nat := bc &&& kBcTransportMask
def bcBoard (bc : Nat) : Nat := (bc >>> kBcBoardShift) &&& kBcStopMask
def bcAlight (bc : Nat) : Nat := (bc >>> kBcAlightShift) &&& kBcStopMask

/-- `bc_is_start`, breadcrumb.h:76-78. -/
def bcIsStart (bc : Nat) : Bool := bcTransport bc == kStartSentinel

/-- `encode_rt_bc_transport`, `decode_rt_bc_transport`, breadcrumb.h:80-88, in 32 bit arithmetic. -/
def encodeRt (i : Nat) : Nat := toUnsigned 32 ((kStartSentinel : Int) - 1 - i)
def decodeRt (f : Nat) : Nat := toUnsigned 32 ((kStartSentinel : Int) - 1 - f)

/-- `is_rt_bc_transport`, breadcrumb.h:90-93. -/
def isRtField (f nRt : Nat) : Bool := f != kStartSentinel && decide (toUnsigned 32 ((kStartSentinel : Int) - nRt) ≤ f)

/-- `bc_transport_space_fits`, breadcrumb.h:95-98 (64 bit: no overflow for 32 bit counts). -/
def spaceFits (nTransports nRt : Nat) : Bool := decide (nTransports + nRt + 1 ≤ kStartSentinel)

/-! ## Packed transports -/

/-- `kEtInvalid`, `kEtRelDayShift`, `kEtReverseBase`, raptor_impl.cuh:906-908. -/
def kEtInvalid : Nat := 2 ^ 32 - 1
def kEtRelDayShift : Nat := 26
def kEtReverseBase : Nat := kEtInvalid - 1

/-- `et_day_lo`, raptor_impl.cuh:910-912. -/
def etDayLo (base : Int) : Int := base - 28

/-- `pack_et` of a valid transport, raptor_impl.cuh:914-927: a run is (offset in the route, day). -/
def packEt (d : Dir) (base : Int) (a : Run) : Nat :=
  let relDay := toUnsigned 32 (a.2 - etDayLo base)
  let x := (relDay <<< kEtRelDayShift) % 2 ^ 32 ||| a.1
  match d with
  | .fwd => x
  | .bwd => toUnsigned 32 ((kEtReverseBase : Int) - x)

/-- `unpack_et`, raptor_impl.cuh:929-940.  Simplification: days are integers, not 16 bit. -/
def unpackEt (d : Dir) (base : Int) (p : Nat) : Run :=
  let x := match d with
    | .fwd => p
    | .bwd => toUnsigned 32 ((kEtReverseBase : Int) - p)
  (x &&& (1 <<< kEtRelDayShift - 1), ((x >>> kEtRelDayShift : Nat) : Int) + etDayLo base)

/-- Index of the first transport of route `ri`: the routes' transports are numbered consecutively
(`route_transport_ranges_`). -/
def firstTransport (N : Net) (ri : Nat) : Nat := ((N.routes.take ri).map (·.nTr)).sum

/-- The encodings used by the search: raptor_impl.cuh:472-478, 797-800, `make_start_bc` in `init_arrivals`
(raptor_impl.cuh:95-115), `invalid_packed`. -/
def codec (d : Dir) (N : Net) : Codec where
  le := fun a b => decide (packEt d N.base a ≤ packEt d N.base b)
  bcStatic := fun ri tr b i =>
    let n := ((N.routes[ri]?.map (·.stops.length)).getD 0)
    makePayload (firstTransport N ri + tr.1) (stopIdx d n b) (stopIdx d n i)
  bcRt := fun ri b i =>
    let n := ((N.rts[ri]?.map (·.stops.length)).getD 0)
    makePayload (encodeRt ri) (stopIdx d n b) (stopIdx d n i)
  bcStart := startBc
  bcInvalid := kBcMask

end Nigiri.Gpu
