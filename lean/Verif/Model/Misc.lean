/-!
# Small pure parts: station roots, journey domination, transfer time settings, class masks,
route flags
-/

namespace Nigiri

/-! ## Station roots -/

/-- The loop of `timetable::locations::get_root_idx`, `timetable.h:62-75`.  State: current location
`l`, counter `i`; the recursion is bounded because the guard `i > 20` leaves the loop (the fuel is
`21 - i`, it never runs out before the guard fires). -/
def rootLoop (parents : Nat → Option Nat) (idx : Nat) (l i : Nat) : Option Nat :=
  match parents l with
  | none => some l
  | some p =>
    if p = idx ∨ i > 20 then parents idx
    else rootLoop parents idx p (i + 1)
termination_by 21 - i
decreasing_by omega

/-- `get_root_idx`, `timetable.h:62-75`; `parents l = none` is `location_idx_t::invalid()`.  The
result `none` stands for `invalid()` (it does not occur, see `C43_defined`). -/
def getRootIdx (parents : Nat → Option Nat) (idx : Nat) : Option Nat := rootLoop parents idx idx 0

/-! ## Journeys -/

/-- The criteria of a `journey`, `journey.h:112-118` (`start_time_`, `dest_time_`, `transfers_`; the
legs do not take part in domination). -/
structure Crit where
  start : Int
  dest : Int
  transfers : Nat
deriving DecidableEq, Repr

namespace Crit

/-- `journey::dominates`, `journey.h:80-88`. -/
def dominates (a o : Crit) : Bool :=
  if a.start ≤ a.dest then
    a.transfers ≤ o.transfers && a.start ≥ o.start && a.dest ≤ o.dest
  else
    a.transfers ≤ o.transfers && a.start ≤ o.start && a.dest ≥ o.dest

/-- `journey::travel_time`, `journey.h:92-94` (without the 16-bit narrowing). -/
def travelTime (a : Crit) : Int := (a.dest - a.start).natAbs

/-- `journey::departure_time`, `journey.h:96-98`. -/
def departureTime (a : Crit) : Int := if a.start ≤ a.dest then a.start else a.dest

/-- `journey::arrival_time`, `journey.h:100-102`. -/
def arrivalTime (a : Crit) : Int := if a.start ≤ a.dest then a.dest else a.start

end Crit

/-! ## Transfer time settings -/

/-- `transfer_time_settings`, `transfer_time_settings.h:7-18`; the multiplication with the `float`
factor and the conversion back are the function `scale` (assumed monotone where needed). -/
structure TransferSettings where
  isDefault : Bool
  minTransferTime : Int
  additionalTime : Int
  factor : Nat  -- identifies the factor; its effect is `scale factor`

/-- `static_cast<T>(x)` for an unsigned `T` with `bits` bits (`T = std::uint8_t` is used for the
transfer times at a stop, `raptor.h`; `duration_t` (`int16_t`) for footpaths behaves the same as long
as nothing exceeds 15 bits). -/
def castU (bits : Nat) (x : Int) : Int := x % (2 ^ bits : Nat)

/-- `adjusted_transfer_time`, `transfer_time_settings.h:20-31` (and 33-48): `scale f d` is
`static_cast<float>(d) * factor`, truncated. -/
def adjustedTransferTime (bits : Nat) (scale : Nat → Int → Int) (s : TransferSettings) (d : Int) : Int :=
  if s.isDefault then d
  else castU bits (castU bits s.additionalTime +
    max (castU bits s.minTransferTime) (castU bits (scale s.factor d)))

/-- `transfer_time_settings::operator==`, `transfer_time_settings.h:8-12` - including its two slips
(`||`, and `additional_time_` compared with itself). -/
def TransferSettings.opEq (a o : TransferSettings) : Bool :=
  a.isDefault == o.isDefault ||
    (a.minTransferTime == o.minTransferTime && a.additionalTime == a.additionalTime && a.factor == o.factor)

/-! ## Class masks -/

/-- `to_mask`, `clasz_mask.h:17-20`. -/
def toMask (c : Nat) : BitVec 16 := 1#16 <<< c

/-- `all_clasz_allowed`, `clasz_mask.h:13-15`. -/
def allClaszAllowed : BitVec 16 := BitVec.ofNat 16 65535

/-- `is_allowed`, `clasz_mask.h:22-25`. -/
def isAllowed (mask : BitVec 16) (c : Nat) : Bool := (mask &&& toMask c) == toMask c

/-! ## Route flags -/

/-- What `register_route` stores for one flag of one route, `timetable.cc:138-155`: the two bits of
`route_flags_` and the bucket of `route_flags_per_section_`. -/
structure RouteFlag where
  all : Bool
  some : Bool
  sections : List Bool
deriving DecidableEq, Repr

/-- `apply_filter` in `register_route`, `timetable.cc:138-155`. -/
def registerFlag (flags : List Bool) : RouteFlag :=
  let n := flags.length
  let k := flags.count true
  let all := k == n && n != 0
  let some := k != 0
  ⟨all, some, if some && !all then flags else []⟩

/-- `run_stop::is_flag_set` for a static run, `frun.cc:464-474`; `none` = out-of-range access. -/
def isFlagSet (f : RouteFlag) (section_ : Nat) : Option Bool :=
  if f.all then Option.some true
  else if !f.some then Option.some false
  else f.sections[if f.sections.length == 1 then 0 else section_]?

/-- The route filter of the search for a required flag, `raptor.h:505-530`: `(skip route, check each
section)`. -/
def routeFlagFilter (f : RouteFlag) : Bool × Bool :=
  if f.all then (false, false) else if f.some then (false, true) else (true, false)

end Nigiri
