/-!
# Time arithmetic

Model of `include/nigiri/common/delta_t.h`, `include/nigiri/common/split_duration.h`,
`src/common/mam_dist.cc` and the day/minute helpers of `include/nigiri/timetable.h`.

All quantities are minutes (`Int`); the width of `delta_t` (`int16_t`) is explicit through
`deltaMin`/`deltaMax`.  C++ `/` and `%` on signed integers truncate towards zero: they are
`Int.tdiv` / `Int.tmod`.
-/

namespace Nigiri

/-- `std::numeric_limits<delta_t>::min()`, `delta_t.h:11` (`delta_t = int16_t`). -/
def deltaMin : Int := -32768
/-- `std::numeric_limits<delta_t>::max()`, `delta_t.h:11`. -/
def deltaMax : Int := 32767

/-- `std::clamp(v, lo, hi)`: `v < lo ? lo : hi < v ? hi : v`. -/
def stdClamp (v lo hi : Int) : Int := if v < lo then lo else if hi < v then hi else v

/-- `clamp(T)`, `delta_t.h:19-33` (the tracing output is dropped). -/
def clampDelta (t : Int) : Int := stdClamp t deltaMin deltaMax

/-- Minutes of the begin of a `date::sys_days` (number of days since the epoch):
`time_point_cast<unixtime_t::duration>(base)`. -/
def dayToUnix (base : Int) : Int := base * 1440

/-- `unix_to_delta(base, t)`, `delta_t.h:35-39`. -/
def unixToDelta (base t : Int) : Int := clampDelta (t - dayToUnix base)

/-- `tt_to_delta(base, day, mam)`, `delta_t.h:41-47`. -/
def ttToDelta (base day mam : Int) : Int := clampDelta ((day - base) * 1440 + mam)

/-- `delta_to_unix(base, d)`, `delta_t.h:49-53`. -/
def deltaToUnix (base d : Int) : Int := dayToUnix base + d

/-- `split_day_mam(base, x)`, `delta_t.h:55-59`.  The day is returned before its conversion to
the 16-bit `day_idx_t`. -/
def splitDayMam (base x : Int) : Int × Int :=
  let minutes := base * 1440 + x
  (minutes.tdiv 1440, minutes.tmod 1440)

/-- `time_mod(a, b)`, `split_duration.h:9-12`. -/
def timeMod (a b : Int) : Int := if a < 0 then ((a.tmod b) + b).tmod b else a.tmod b

/-- `split_time_mod(i)`, `split_duration.h:14-18`. -/
def splitTimeMod (i : Int) : Int × Int :=
  let b := timeMod i 1440
  ((i - b).tdiv 1440, b)

/-- `kTimetableOffset` in days, `types.h:53-54`. -/
def kTimetableOffset : Int := 1 + 4

/-- `timetable::internal_interval_days().from_`, `timetable.h:234-237`, as a day number;
`dateFrom` is `date_range_.from_`. -/
def internalFromDay (dateFrom : Int) : Int := dateFrom - kTimetableOffset

/-- `timetable::internal_interval().from_`, `timetable.h:241-246`, in minutes. -/
def internalFrom (dateFrom : Int) : Int := (dateFrom - kTimetableOffset) * 1440

/-- `timetable::day_idx_mam(t)`, `timetable.h:200-208`; the conversion of the day to the
16-bit `day_idx_t` is the reduction modulo 65536. -/
def dayIdxMam (dateFrom t : Int) : Int × Int :=
  let m := t - internalFrom dateFrom
  ((m.tdiv 1440) % 65536, m.tmod 1440)

/-- `timetable::to_unixtime(d, m)`, `timetable.h:210-213`. -/
def toUnixtime (dateFrom d m : Int) : Int := internalFromDay dateFrom * 1440 + d * 1440 + m

/-- `timetable::day_idx(day)`, `timetable.h:196-198` (before the 16-bit conversion). -/
def dayIdx (dateFrom day : Int) : Int := day - (dateFrom - kTimetableOffset)

/-- `mam_dist(a, b)`, `src/common/mam_dist.cc:8-21` (the asserts are preconditions). -/
def mamDist (a b : Int) : Int × Int :=
  let diff := a - b
  let abs := if diff < 0 then -diff else diff
  if abs > 1440 / 2 then (1440 - abs, if diff < 0 then -1 else 1) else (abs, 0)

end Nigiri
