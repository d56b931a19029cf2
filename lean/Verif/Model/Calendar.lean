import Verif.Model.Interval
/-!
# GTFS service calendars

Model of `src/loader/gtfs/services.cc` (and the bit layout of `src/loader/gtfs/calendar.cc`).
Days are day numbers since 1970-01-01 (`date::sys_days`); the conversion of `yyyymmdd` to a day
number is done by the `date` library and not modelled.
-/

namespace Nigiri

/-- `kMaxDays`, `types.h`: number of bits of a `bitfield`. -/
def kMaxDays : Nat := 512

/-- `bitfield` (`bitset<kMaxDays>`): bits outside `[0, 512)` do not exist; every `set` of the model
checks the range. -/
abbrev Bitfield : Type := Nat → Bool

namespace Bitfield
/-- `bitfield{}`. -/
def empty : Bitfield := fun _ => false
/-- `bitfield::set(i, v)`; `none` = out of range (`bitset::set` with such an index is an error). -/
def set (b : Bitfield) (i : Nat) (v : Bool) : Option Bitfield :=
  if i < kMaxDays then some (fun j => if j = i then v else b j) else none
end Bitfield

namespace Calendar

/-- `calendar`, `calendar.h`: `week_days_` (bit 0 = Sunday) and `interval_` (end exclusive). -/
structure Row where
  weekDays : Nat → Bool
  interval : Interval

/-- The weekday bits of a calendar row, `calendar.cc:35-43`; the argument lists the columns Monday to
Sunday, `kind` is "column value = 1". -/
def weekDaysOf (monday tuesday wednesday thursday friday saturday sunday : Bool) : Nat → Bool
  | 0 => sunday
  | 1 => monday
  | 2 => tuesday
  | 3 => wednesday
  | 4 => thursday
  | 5 => friday
  | 6 => saturday
  | _ => false

/-- `date::weekday{sys_days}.c_encoding()` (0 = Sunday) as implemented by the `date` library
(`weekday_from_days`): `z >= -4 ? (z + 4) % 7 : (z + 5) % 7 + 6` with C++ remainder. -/
def weekday (z : Int) : Nat :=
  (if z ≥ -4 then Int.tmod (z + 4) 7 else Int.tmod (z + 5) 7 + 6).toNat

/-- The day loop of `calendar_to_bitfield`, `services.cc:25-30`. -/
def fill (weekDays : Nat → Bool) (to' : Int) (d : Int) (bit : Nat) (b : Bitfield) : Option Bitfield :=
  if _h : d < to' ∧ bit < kMaxDays then
    match b.set bit (weekDays (weekday d)) with
    | none => none
    | some b' => fill weekDays to' (d + 1) (bit + 1) b'
  else some b
termination_by kMaxDays - bit

/-- `calendar_to_bitfield`, `services.cc:12-32`; `none` = undefined behaviour (inverted timetable
interval passed to `std::clamp`, or a bit out of range). -/
def toBitfield (tt : Interval) (c : Row) (feedEnd : Option Int) : Option Bitfield :=
  let extend := feedEnd == some (c.interval.to' - 1)
  if !(tt.overlaps c.interval) && !extend then some Bitfield.empty
  else
    match tt.clamp c.interval.from', tt.clamp c.interval.to' with
    | some from', some cto =>
      let to' := if extend then tt.to' else cto
      fill c.weekDays to' from' (from' - tt.from').toNat Bitfield.empty
    | _, _ => none

/-- `calendar_date`, `calendar_date.h`. -/
structure Exception where
  add : Bool
  day : Int
deriving DecidableEq, Repr

/-- `add_exception`, `services.cc:34-42`. -/
def addException (tt : Interval) (e : Exception) (b : Bitfield) : Option Bitfield :=
  let dayIdx := e.day - tt.from'
  if dayIdx < 0 ∨ dayIdx ≥ (kMaxDays : Int) then some b
  else b.set dayIdx.toNat e.add

/-- All exceptions of one service, `services.cc:66-71`. -/
def addExceptions (tt : Interval) : List Exception → Bitfield → Option Bitfield
  | [], b => some b
  | e :: es, b => match addException tt e b with
    | none => none
    | some b' => addExceptions tt es b'

/-- `traffic_days_t`: service name to bitfield. -/
abbrev Services := String → Option Bitfield

/-- First loop of `merge_traffic_days`, `services.cc:57-60`: base services from calendar.txt. -/
def addBase (tt : Interval) (feedEnd : Option Int) : List (String × Row) → Services → Option Services
  | [], s => some s
  | (n, c) :: rest, s => match toBitfield tt c feedEnd with
    | none => none
    | some b => addBase tt feedEnd rest (fun k => if k = n then some b else s k)

/-- Second loop, `services.cc:65-72`: exceptions, creating an empty service if there is none (only
if the service has at least one exception row, which its presence in the map implies). -/
def addAllExceptions (tt : Interval) : List (String × List Exception) → Services → Option Services
  | [], s => some s
  | (n, es) :: rest, s =>
    if es.isEmpty then addAllExceptions tt rest s
    else match addExceptions tt es ((s n).getD Bitfield.empty) with
      | none => none
      | some b => addAllExceptions tt rest (fun k => if k = n then some b else s k)

/-- `merge_traffic_days`, `services.cc:44-76`. -/
def mergeTrafficDays (tt : Interval) (base : List (String × Row))
    (exceptions : List (String × List Exception)) (feedEnd : Option Int) : Option Services :=
  match addBase tt feedEnd base (fun _ => none) with
  | none => none
  | some s => addAllExceptions tt exceptions s

end Calendar
end Nigiri
