/-!
# Bit-packed records

Model of the packed words of `include/nigiri/types.h` (`delta`, scoped shape index),
`include/nigiri/footpath.h`, `include/nigiri/stop.h`, `include/nigiri/routing/tb/tb_data.h`
(`transfer`), `include/nigiri/routing/tb/reached.h` (`to_transport`) and
`include/nigiri/routing/tb/queue.h` (`queue_entry`).

A bit-field word is a `Nat`; assigning `v` to a bit-field of width `w` stores `v % 2^w`
(unsigned bit-fields are reduced modulo `2^w`).  Bit-fields are allocated from the least
significant bit upwards (the layout used by all compilers the project supports).
-/

namespace Nigiri

/-- Conversion of an arbitrary integer to `int16_t` (two's complement). -/
def toInt16 (x : Int) : Int := (x + 32768) % 65536 - 32768

/-- Conversion of an integer to an unsigned type of width `w`. -/
def toUnsigned (w : Nat) (x : Int) : Nat := (x % (2 ^ w : Nat)).toNat

/-! ## `delta` (event time of a route, `types.h:569-632`) -/

/-- The two bit-fields of `delta`, `types.h:630-631`: `days_ : 5`, `mam_ : 11`. -/
structure Delta where
  days : Nat
  mam : Nat
deriving DecidableEq, Repr

namespace Delta
/-- Store into the two bit-fields (`delta(day, mam)`, `types.h:580-581`). -/
def mk' (day mam : Nat) : Delta := ⟨day % 2 ^ 5, mam % 2 ^ 11⟩
/-- `delta(duration_t)`, `types.h:570-574` (the assert `d >= 0` is a precondition). -/
def ofDuration (d : Int) : Delta :=
  mk' (toUnsigned 16 (d.tdiv 1440)) (toUnsigned 16 (d.tmod 1440))
/-- `delta(uint16_t minutes)`, `types.h:576-578`. -/
def ofMinutes (m : Nat) : Delta := mk' (m / 1440) (m % 1440)
/-- `delta(date::days, duration_t)`, `types.h:583-590` (asserts are preconditions). -/
def ofOffset (dayOffset minutesOffset : Int) : Delta :=
  mk' (toUnsigned 16 (dayOffset + 1)) (toUnsigned 16 (minutesOffset + 720))
/-- `to_offset()`, `types.h:617-619`. -/
def toOffset (d : Delta) : Int × Int := ((d.days : Int) - 1, (d.mam : Int) - 720)
/-- `count()`, `types.h:621`: the unsigned sum is converted to `int16_t`. -/
def count (d : Delta) : Int := toInt16 ((d.days * 1440 + d.mam : Nat) : Int)
/-- `as_duration()`, `types.h:613-615`: computed in `int16_t` minutes. -/
def asDuration (d : Delta) : Int := toInt16 (toInt16 ((d.days : Int) * 1440) + d.mam)
/-- `value()`, `types.h:592-594`: the raw 16-bit word. -/
def value (d : Delta) : Nat := d.days + d.mam * 2 ^ 5
/-- `operator<`, `types.h:623-625`. -/
def lt (a b : Delta) : Bool := a.value < b.value
/-- `operator-`, `types.h:604-607`: unsigned arithmetic reduced to 16 bits. -/
def sub (a b : Delta) : Delta :=
  ofMinutes (toUnsigned 16 (((a.days : Int) - b.days) * 1440 + ((a.mam : Int) - b.mam)))
end Delta

/-! ## `footpath` (`footpath.h:14-67`) -/

/-- `footpath::kMaxDuration`, `footpath.h:19-20`: `0xFFFFFFFF >> 23`. -/
def kMaxDuration : Nat := (2 ^ 32 - 1) >>> 23
/-- `footpath::kMaxTarget`, `footpath.h:21-22`: `0xFFFFFFFF >> 9`. -/
def kMaxTarget : Nat := (2 ^ 32 - 1) >>> 9

/-- The 32-bit word of a footpath: `target_ : 23`, `duration_ : 9` (`footpath.h:65-66`). -/
def footpathWord (target duration : Nat) : Nat := target % 2 ^ 23 + (duration % 2 ^ 9) * 2 ^ 23

/-- `footpath(target, duration)`, `footpath.h:30-35`; `none` = `utl::verify` throws. -/
def Footpath.make (target : Nat) (duration : Int) : Option Nat :=
  let d : Int := if duration > kMaxDuration then kMaxDuration else duration
  if target < kMaxTarget then some (footpathWord target (toUnsigned 32 d)) else none

/-- `footpath::target()`, `footpath.h:43-45`. -/
def Footpath.target (w : Nat) : Nat := w % 2 ^ 23
/-- `footpath::duration()`, `footpath.h:46-48`. -/
def Footpath.duration (w : Nat) : Nat := w / 2 ^ 23

/-! ## `stop` (`stop.h:11-90`) -/

/-- The 32-bit word of a stop: `location_ : 28` and four flags (`stop.h:85-89`),
constructor `stop.h:18-27`. -/
def Stop.make (location : Nat) (inA outA inW outW : Bool) : Nat :=
  location % 2 ^ 28 + inA.toNat * 2 ^ 28 + outA.toNat * 2 ^ 29 + inW.toNat * 2 ^ 30
    + outW.toNat * 2 ^ 31

/-- `location_idx()`, `stop.h:29-31`. -/
def Stop.location (w : Nat) : Nat := w % 2 ^ 28
/-- `in_allowed()`, `stop.h:38`. -/
def Stop.inAllowed (w : Nat) : Bool := w / 2 ^ 28 % 2 != 0
/-- `out_allowed()`, `stop.h:39`. -/
def Stop.outAllowed (w : Nat) : Bool := w / 2 ^ 29 % 2 != 0
/-- `in_allowed_wheelchair()`, `stop.h:32-34`. -/
def Stop.inAllowedWheelchair (w : Nat) : Bool := w / 2 ^ 30 % 2 != 0
/-- `out_allowed_wheelchair()`, `stop.h:35-37`. -/
def Stop.outAllowedWheelchair (w : Nat) : Bool := w / 2 ^ 31 % 2 != 0
/-- `is_cancelled()`, `stop.h:40-42`. -/
def Stop.isCancelled (w : Nat) : Bool := !Stop.inAllowed w && !Stop.outAllowed w
/-- `can_start<SearchDir>(is_wheelchair)`, `stop.h:51-58`. -/
def Stop.canStart (fwd wheelchair : Bool) (w : Nat) : Bool :=
  if fwd then (if wheelchair then Stop.inAllowedWheelchair w else Stop.inAllowed w)
  else (if wheelchair then Stop.outAllowedWheelchair w else Stop.outAllowed w)
/-- `can_finish<SearchDir>(is_wheelchair)`, `stop.h:60-67`. -/
def Stop.canFinish (fwd wheelchair : Bool) (w : Nat) : Bool :=
  if fwd then (if wheelchair then Stop.outAllowedWheelchair w else Stop.outAllowed w)
  else (if wheelchair then Stop.inAllowedWheelchair w else Stop.inAllowed w)

/-! ## Scoped shape index (`types.h:490-517`) -/

/-- `kInvalid` of a 32-bit strong index. -/
def invalidIdx : Nat := 2 ^ 32 - 1

/-- `shape_source`, `types.h:484-488`. -/
inductive ShapeSource | none | timetable | routed
deriving DecidableEq, Repr

/-- `to_scoped_shape_idx`, `types.h:507-517` (the assert that bit 31 is clear is a
precondition; the bitwise or is an addition of bit 31 under it). -/
def toScopedShapeIdx (loc : Nat) (src : ShapeSource) : Nat :=
  if loc = invalidIdx ∨ src = .none then invalidIdx
  else loc ||| (if src = .routed then 2 ^ 31 else 0)
/-- `get_shape_source`, `types.h:493-499`. -/
def getShapeSource (idx : Nat) : ShapeSource :=
  if idx = invalidIdx then .none else if idx &&& 2 ^ 31 ≠ 0 then .routed else .timetable
/-- `get_local_shape_idx`, `types.h:501-505`. -/
def getLocalShapeIdx (idx : Nat) : Nat :=
  if idx = invalidIdx then invalidIdx else idx &&& (2 ^ 31 - 1)

/-! ## Trip-based routing words -/

/-- `transfer::set_day_offset`, `tb_data.h:20-23`: `none` = `utl::verify` throws; the stored
4-bit field otherwise. -/
def setDayOffset (o : Int) : Option Nat :=
  if -8 ≤ o ∧ o < 8 then some (toUnsigned 16 (o + 8) % 2 ^ 4) else none
/-- `transfer::get_day_offset`, `tb_data.h:25-27`. -/
def getDayOffset (w : Nat) : Int := (w : Int) - 8

/-- `to_transport`, `tb/reached.h:18-23` (asserts are preconditions). -/
def toTransport (transportOffset queryDay : Nat) : Nat := (queryDay <<< 12) % 2 ^ 16 ||| transportOffset
/-- `get_transport_offset`, `tb/reached.h:25-27`. -/
def getTransportOffset (x : Nat) : Nat := x &&& 0x0FFF
/-- `get_query_day`, `tb/reached.h:29`. -/
def getQueryDay (x : Nat) : Nat := x >>> 12

end Nigiri
