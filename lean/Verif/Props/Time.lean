import Verif.Model.Time
/-!
# Properties C01, C02, C04: time arithmetic
-/

namespace Nigiri

/-- The distance of `t` from the begin of day `base` is representable in a `delta_t`. -/
def FitsDelta (base t : Int) : Prop := -32768 ≤ t - base * 1440 ∧ t - base * 1440 ≤ 32767

/-- C01: converting there and back is the identity on everything representable. -/
theorem C01_delta_roundtrip (base t : Int) (h : FitsDelta base t) :
    deltaToUnix base (unixToDelta base t) = t := by
  unfold FitsDelta at h
  simp only [deltaToUnix, unixToDelta, clampDelta, stdClamp, dayToUnix, deltaMin, deltaMax]
  repeat' split
  all_goals omega

example : FitsDelta 20000 (20000 * 1440 - 77) := by unfold FitsDelta; omega

/-- C01: converting back and there is the identity on every `delta_t` value. -/
theorem C01_delta_roundtrip_inv (base d : Int) (h : -32768 ≤ d ∧ d ≤ 32767) :
    unixToDelta base (deltaToUnix base d) = d := by
  simp only [deltaToUnix, unixToDelta, clampDelta, stdClamp, dayToUnix, deltaMin, deltaMax]
  repeat' split
  all_goals omega

example : (-32768 : Int) ≤ -1441 ∧ (-1441 : Int) ≤ 32767 := by omega

/-- C01: no wrap-around: the result is always an `int16_t` value, and whenever the distance is
not representable it is the nearest bound. -/
theorem C01_delta_saturates (base t : Int) :
    (-32768 ≤ unixToDelta base t ∧ unixToDelta base t ≤ 32767) ∧
    (t - base * 1440 < -32768 → unixToDelta base t = -32768) ∧
    (32767 < t - base * 1440 → unixToDelta base t = 32767) := by
  simp only [unixToDelta, clampDelta, stdClamp, dayToUnix, deltaMin, deltaMax]
  repeat' split
  all_goals omega

/-- C01: monotone: comparing offsets never inverts the order of two timestamps. -/
theorem C01_delta_monotone (base t₁ t₂ : Int) (h : t₁ ≤ t₂) :
    unixToDelta base t₁ ≤ unixToDelta base t₂ := by
  simp only [unixToDelta, clampDelta, stdClamp, dayToUnix, deltaMin, deltaMax]
  repeat' split
  all_goals omega

/-- C01: within the representable range the order is reflected as well. -/
theorem C01_delta_strict (base t₁ t₂ : Int) (h₁ : FitsDelta base t₁) (h₂ : FitsDelta base t₂) :
    unixToDelta base t₁ < unixToDelta base t₂ ↔ t₁ < t₂ := by
  unfold FitsDelta at *
  simp only [unixToDelta, clampDelta, stdClamp, dayToUnix, deltaMin, deltaMax]
  repeat' split
  all_goals omega

example : FitsDelta 0 5 ∧ FitsDelta 0 (-5) := by unfold FitsDelta; omega

/-- C01: the offset of a timetable event equals the offset of its absolute time. -/
theorem C01_tt_to_delta_eq (dateFrom base day mam : Int) :
    ttToDelta base day mam
      = unixToDelta (internalFromDay dateFrom + base) (toUnixtime dateFrom day mam) := by
  simp only [ttToDelta, unixToDelta, toUnixtime, dayToUnix]
  congr 1
  omega

/-- C02: splitting a non-negative absolute minute and recombining is the identity, and the
minute of day is in range. -/
theorem C02_split_day_mam (base x : Int) (h : 0 ≤ base * 1440 + x) :
    let r := splitDayMam base x
    r.1 * 1440 + r.2 = base * 1440 + x ∧ 0 ≤ r.2 ∧ r.2 < 1440 ∧ 0 ≤ r.1 := by
  simp only [splitDayMam]
  rw [Int.tdiv_eq_ediv_of_nonneg h, Int.tmod_eq_emod_of_nonneg h]
  omega

example : 0 ≤ (5 : Int) * 1440 + (-1) := by omega

/-- C02: the split day can be used to shift back: `tt_to_delta` inverts `split_day_mam` for every
16-bit offset that is not before the timetable begin. -/
theorem C02_split_tt_to_delta (base x : Int) (h : 0 ≤ base * 1440 + x)
    (hx : -32768 ≤ x ∧ x ≤ 32767) :
    ttToDelta base (splitDayMam base x).1 (splitDayMam base x).2 = x := by
  have := C02_split_day_mam base x h
  simp only at this
  simp only [ttToDelta, clampDelta, stdClamp, deltaMin, deltaMax]
  repeat' split
  all_goals omega

/-- C02: a timestamp inside the timetable (not before its begin and less than 65536 days later) is
recovered from its (day index, minute) decomposition, and the decomposition is in range. -/
theorem C02_day_idx_mam (dateFrom t : Int) (h : internalFrom dateFrom ≤ t)
    (hi : t < internalFrom dateFrom + 65536 * 1440) :
    let r := dayIdxMam dateFrom t
    toUnixtime dateFrom r.1 r.2 = t ∧ 0 ≤ r.2 ∧ r.2 < 1440 ∧ 0 ≤ r.1 ∧ r.1 < 65536 := by
  have h0 : 0 ≤ t - internalFrom dateFrom := by omega
  simp only [dayIdxMam, toUnixtime, internalFromDay]
  rw [Int.tdiv_eq_ediv_of_nonneg h0, Int.tmod_eq_emod_of_nonneg h0]
  unfold internalFrom at *
  omega

example : internalFrom 19000 ≤ 19000 * 1440 + 61 ∧
    19000 * 1440 + 61 < internalFrom 19000 + 65536 * 1440 := by
  unfold internalFrom kTimetableOffset; omega

/-- C02: the decomposition is the only one: any (day, minute-of-day) that denotes `t` is the one
returned. -/
theorem C02_day_idx_mam_unique (dateFrom d m : Int) (hd : 0 ≤ d ∧ d < 65536)
    (hm : 0 ≤ m ∧ m < 1440) :
    dayIdxMam dateFrom (toUnixtime dateFrom d m) = (d, m) := by
  have e : toUnixtime dateFrom d m - internalFrom dateFrom = d * 1440 + m := by
    simp only [toUnixtime, internalFrom, internalFromDay]; omega
  have h0 : 0 ≤ d * 1440 + m := by omega
  simp only [dayIdxMam, e]
  rw [Int.tdiv_eq_ediv_of_nonneg h0, Int.tmod_eq_emod_of_nonneg h0]
  refine Prod.ext ?_ ?_ <;> simp only <;> omega

example : (0 : Int) ≤ 3 ∧ (3 : Int) < 65536 ∧ (0 : Int) ≤ 1439 ∧ (1439 : Int) < 1440 := by omega

/-- C02: `split_time_mod` splits every (also negative) duration into whole days and a minute of
day. -/
theorem C02_split_time_mod (i : Int) :
    let r := splitTimeMod i
    r.1 * 1440 + r.2 = i ∧ 0 ≤ r.2 ∧ r.2 < 1440 := by
  have key : timeMod i 1440 = i % 1440 := by
    unfold timeMod
    split
    · rename_i h
      have h1 : i.tmod 1440 = -((-i) % 1440) := by
        have := Int.neg_tmod (-i) 1440
        rw [Int.neg_neg, Int.tmod_eq_emod_of_nonneg (by omega : 0 ≤ -i)] at this
        exact this
      rw [h1, Int.tmod_eq_emod_of_nonneg (by omega)]
      omega
    · rename_i h
      rw [Int.tmod_eq_emod_of_nonneg (by omega)]
  simp only [splitTimeMod, key]
  have hd : (i - i % 1440).tdiv 1440 = i / 1440 := by
    have e : i - i % 1440 = (i / 1440) * 1440 := by omega
    rw [e, Int.mul_tdiv_cancel _ (by decide)]
  rw [hd]
  omega

/-- C02, the boundary of the code: for an absolute minute before the timetable begin the truncating
division yields a negative minute of day (the precondition of `C02_split_day_mam` is needed). -/
theorem C02_split_day_mam_before_begin : splitDayMam 0 (-1) = (0, -1) := by decide

/-- C04: for minutes of the day `a`, `b`, `mam_dist` returns the minimum of `|a - b + 1440 k|` over
all integers `k`; the reported day shift `s` realises it (`a` is `s` days before `b`'s day ... i.e.
`|a - b - 1440 s|` is the distance), and it is one of -1, 0, +1. -/
theorem C04_mam_dist_minimal (a b : Int) (ha : 0 ≤ a ∧ a < 1440) (hb : 0 ≤ b ∧ b < 1440) :
    let r := mamDist a b
    (r.1 = a - b - 1440 * r.2 ∨ r.1 = -(a - b - 1440 * r.2)) ∧ 0 ≤ r.1 ∧
    (∀ k : Int, r.1 ≤ a - b + 1440 * k ∨ r.1 ≤ -(a - b + 1440 * k)) ∧
    (r.2 = -1 ∨ r.2 = 0 ∨ r.2 = 1) := by
  simp only [mamDist]
  refine ⟨?_, ?_, ?_, ?_⟩
  · repeat' split
    all_goals omega
  · repeat' split
    all_goals omega
  · intro k
    repeat' split
    all_goals (simp only; omega)
  · repeat' split
    all_goals omega

/-- C04: the direction convention documented in `mam_dist.h:18-20`: +1 iff midnight lies on the
short way from `a` (late) to `b` (early), -1 iff from `b` (late) to `a` (early). -/
theorem C04_mam_dist_direction (a b : Int) :
    ((mamDist a b).2 = 1 ↔ a - b > 720) ∧ ((mamDist a b).2 = -1 ↔ b - a > 720) := by
  simp only [mamDist]
  constructor <;> (repeat' split) <;> simp <;> omega

example : mamDist 1435 3 = (8, 1) ∧ mamDist 3 1435 = (8, -1) ∧ mamDist 600 500 = (100, 0) := by
  decide

end Nigiri
