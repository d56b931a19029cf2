import Verif.Model.Packing
/-!
# Property C03: packed words read back what was stored
-/

namespace Nigiri

private theorem toUnsigned16 (x : Int) (h0 : 0 ≤ x) (h1 : x < 65536) : (toUnsigned 16 x : Int) = x := by
  unfold toUnsigned
  have : ((2 ^ 16 : Nat) : Int) = 65536 := by decide
  rw [this, Int.emod_eq_of_lt h0 h1]
  omega

private theorem ofDuration_fields (d : Int) (h0 : 0 ≤ d) (h1 : d ≤ 32767) :
    ((Delta.ofDuration d).days : Int) = d / 1440 ∧ ((Delta.ofDuration d).mam : Int) = d % 1440 := by
  have e1 : d.tdiv 1440 = d / 1440 := Int.tdiv_eq_ediv_of_nonneg h0
  have e2 : d.tmod 1440 = d % 1440 := Int.tmod_eq_emod_of_nonneg h0
  have f1 := toUnsigned16 (d / 1440) (by omega) (by omega)
  have f2 := toUnsigned16 (d % 1440) (by omega) (by omega)
  simp only [Delta.ofDuration, Delta.mk', e1, e2]
  constructor <;> omega

/-- C03 (event times): every duration that the constructor accepts (a non-negative `int16_t`
number of minutes) is read back exactly by `count()` and by `as_duration()`, and its components
are whole days and minute of day. -/
theorem C03_delta_roundtrip (d : Int) (h0 : 0 ≤ d) (h1 : d ≤ 32767) :
    (Delta.ofDuration d).count = d ∧ (Delta.ofDuration d).asDuration = d ∧
    ((Delta.ofDuration d).days : Int) = d / 1440 ∧ ((Delta.ofDuration d).mam : Int) = d % 1440 := by
  obtain ⟨hd, hm⟩ := ofDuration_fields d h0 h1
  refine ⟨?_, ?_, hd, hm⟩
  · simp only [Delta.count, toInt16]; omega
  · simp only [Delta.asDuration, toInt16, hd, hm]; omega

example : (0 : Int) ≤ 4 * 1440 + 77 ∧ (4 * 1440 + 77 : Int) ≤ 32767 := by omega

/-- C03 (event times): the packed 16-bit word determines the components, so two event times are
`==` (word equality, `types.h:626-628`) iff they denote the same minute. -/
theorem C03_delta_value_eq_iff (a b : Int) (ha : 0 ≤ a ∧ a ≤ 32767) (hb : 0 ≤ b ∧ b ≤ 32767) :
    (Delta.ofDuration a).value = (Delta.ofDuration b).value ↔ a = b := by
  have ha' := C03_delta_roundtrip a ha.1 ha.2
  have hb' := C03_delta_roundtrip b hb.1 hb.2
  simp only [Delta.value]
  have l1 : (Delta.ofDuration a).days < 32 := by
    simp only [Delta.ofDuration, Delta.mk']; omega
  have l2 : (Delta.ofDuration b).days < 32 := by
    simp only [Delta.ofDuration, Delta.mk']; omega
  omega

/-- C03 (event times), a limit of the representation: the raw `operator<` of `delta` compares the
words, whose *low* bits are the day, and hence is **not** the order of the event times. -/
theorem C03_delta_lt_not_chronological :
    ∃ a b : Int, 0 ≤ a ∧ a < b ∧ b ≤ 32767 ∧
      Delta.lt (Delta.ofDuration b) (Delta.ofDuration a) = true :=
  ⟨5, 1440, by decide, by decide, by decide, by decide⟩

/-- C03 (event times): subtraction of event times is exact when the result is not negative (and
stays below the 32-day limit of the 5-bit day). -/
theorem C03_delta_sub (a b : Int) (hb : 0 ≤ b) (hab : b ≤ a) (ha : a ≤ 32767) :
    (Delta.sub (Delta.ofDuration a) (Delta.ofDuration b)).count = a - b := by
  have ha' := C03_delta_roundtrip a (by omega) ha
  have hb' := C03_delta_roundtrip b hb (by omega)
  have f := toUnsigned16 (a - b) (by omega) (by omega)
  have e : (((Delta.ofDuration a).days : Int) - (Delta.ofDuration b).days) * 1440
      + (((Delta.ofDuration a).mam : Int) - (Delta.ofDuration b).mam) = a - b := by omega
  simp only [Delta.sub, e, Delta.ofMinutes, Delta.mk', Delta.count, toInt16]
  generalize toUnsigned 16 (a - b) = N at f
  have g1 : N / 1440 % 2 ^ 5 = N / 1440 := Nat.mod_eq_of_lt (by omega)
  have g2 : N % 1440 % 2 ^ 11 = N % 1440 := Nat.mod_eq_of_lt (by omega)
  rw [g1, g2]
  omega

/-- C03 (first-departure offsets): the (day offset, minute offset) pair is read back for every pair
the constructor accepts. -/
theorem C03_delta_offset_roundtrip (day min : Int) (hd : -1 ≤ day ∧ day < 30)
    (hm : -720 ≤ min ∧ min < 1320) : (Delta.ofOffset day min).toOffset = (day, min) := by
  simp only [Delta.ofOffset, Delta.mk', Delta.toOffset, toUnsigned]
  refine Prod.ext ?_ ?_ <;> simp only <;> omega

example : (Delta.ofOffset (-1) (-60)).toOffset = (-1, -60) := by decide

/-- C03 (footpaths): an accepted footpath reads back its target, and its duration saturated at the
maximum (511 minutes); a target at or above the limit is rejected, not truncated. -/
theorem C03_footpath_roundtrip (target : Nat) (duration : Int) (hd : 0 ≤ duration) :
    (target < 2 ^ 23 - 1 → ∃ w, Footpath.make target duration = some w ∧ w < 2 ^ 32 ∧
        Footpath.target w = target ∧ (Footpath.duration w : Int) = min duration 511) ∧
    (2 ^ 23 - 1 ≤ target → Footpath.make target duration = none) := by
  have e1 : kMaxDuration = 511 := by decide
  have e2 : kMaxTarget = 2 ^ 23 - 1 := by decide
  have hu : ∀ x : Int, 0 ≤ x → x ≤ 511 → (toUnsigned 32 x : Int) = x := by
    intro x h0 h1
    unfold toUnsigned
    have : ((2 ^ 32 : Nat) : Int) = 4294967296 := by decide
    rw [this, Int.emod_eq_of_lt h0 (by omega)]
    omega
  constructor
  · intro h
    refine ⟨footpathWord target (toUnsigned 32 (if duration > kMaxDuration then kMaxDuration else duration)),
      ?_, ?_, ?_, ?_⟩
    · simp only [Footpath.make, e2, h, if_true]
    · simp only [footpathWord]; omega
    · simp only [footpathWord, Footpath.target]; omega
    · have := hu (if duration > kMaxDuration then kMaxDuration else duration)
        (by rw [e1]; split <;> omega) (by rw [e1]; split <;> omega)
      have hmin : (if duration > kMaxDuration then (kMaxDuration : Int) else duration)
          = min duration 511 := by rw [e1]; split <;> omega
      simp only [footpathWord, Footpath.duration]
      omega
  · intro h
    simp only [Footpath.make, e2]
    rw [if_neg (by omega)]

example : (17 : Nat) < 2 ^ 23 - 1 ∧ (0 : Int) ≤ 600 := by omega

/-- C03 (footpaths): the raw word (as stored in the lower-bound graph and serialised) is itself a
faithful representation: rebuilding a footpath from its components gives the same word. -/
theorem C03_footpath_word (w : Nat) (h : w < 2 ^ 32) :
    footpathWord (Footpath.target w) (Footpath.duration w) = w := by
  simp only [footpathWord, Footpath.target, Footpath.duration]
  omega

/-- C03 (stops): location and all four flags are read back for every 28-bit location. -/
theorem C03_stop_roundtrip (l : Nat) (h : l < 2 ^ 28) (inA outA inW outW : Bool) :
    let w := Stop.make l inA outA inW outW
    w < 2 ^ 32 ∧ Stop.location w = l ∧ Stop.inAllowed w = inA ∧ Stop.outAllowed w = outA ∧
    Stop.inAllowedWheelchair w = inW ∧ Stop.outAllowedWheelchair w = outW := by
  simp only [Stop.make, Stop.location, Stop.inAllowed, Stop.outAllowed, Stop.inAllowedWheelchair,
    Stop.outAllowedWheelchair]
  cases inA <;> cases outA <;> cases inW <;> cases outW <;>
    simp only [Bool.toNat_true, Bool.toNat_false, bne_iff_ne, ne_eq,
      bne_eq_false_iff_eq] <;> omega

example : (123456 : Nat) < 2 ^ 28 := by omega

/-- C24 (stop level): searching backwards exchanges the roles of boarding and alighting, for both
profiles. -/
theorem C24_stop_direction_duality (wheelchair : Bool) (w : Nat) :
    Stop.canStart true wheelchair w = Stop.canFinish false wheelchair w ∧
    Stop.canStart false wheelchair w = Stop.canFinish true wheelchair w := by
  constructor <;> rfl

/-- C24 (stop level): a stop of a forward search can be boarded iff boarding is allowed for the
profile, and alighted iff alighting is allowed for the profile. -/
theorem C24_stop_flags (l : Nat) (h : l < 2 ^ 28) (inA outA inW outW wheelchair : Bool) :
    Stop.canStart true wheelchair (Stop.make l inA outA inW outW)
      = (if wheelchair then inW else inA) ∧
    Stop.canFinish true wheelchair (Stop.make l inA outA inW outW)
      = (if wheelchair then outW else outA) ∧
    (Stop.isCancelled (Stop.make l inA outA inW outW) = true ↔ inA = false ∧ outA = false) := by
  obtain ⟨-, -, h1, h2, h3, h4⟩ := C03_stop_roundtrip l h inA outA inW outW
  simp only [Stop.canStart, Stop.canFinish, Stop.isCancelled, h1, h2, h3, h4]
  simp

/-- C03 (shapes): a local shape index and its source are read back from the scoped index for every
index that is not the single reserved one. -/
theorem C03_shape_idx_roundtrip (l : Nat) (h : l < 2 ^ 31 - 1) (s : ShapeSource) (hs : s ≠ .none) :
    getShapeSource (toScopedShapeIdx l s) = s ∧ getLocalShapeIdx (toScopedShapeIdx l s) = l := by
  have hinv : l ≠ invalidIdx := by unfold invalidIdx; omega
  have hm : ∀ x : Nat, x &&& (2 ^ 31 - 1) = x % 2 ^ 31 := fun x => Nat.and_two_pow_sub_one_eq_mod x 31
  have hbit : ∀ x : Nat, x &&& 2 ^ 31 = (x / 2 ^ 31 % 2) * 2 ^ 31 := by
    intro x
    apply Nat.eq_of_testBit_eq
    intro i
    rw [Nat.testBit_and, Nat.testBit_two_pow, Nat.testBit_mul_two_pow]
    by_cases hi : 31 = i
    · subst hi
      simp only [decide_true, Bool.and_true, Nat.le_refl, Nat.sub_self, Bool.true_and,
        Nat.testBit_eq_decide_div_mod_eq, Nat.pow_zero, Nat.div_one, Nat.mod_mod]
    · simp only [hi, decide_false, Bool.and_false]
      symm
      by_cases h2 : 31 ≤ i
      · simp only [h2, decide_true, Bool.true_and]
        apply Nat.testBit_lt_two_pow
        exact Nat.lt_of_lt_of_le (Nat.mod_lt _ (by decide))
          (Nat.pow_le_pow_right (n := 2) (by decide) (by omega : 1 ≤ i - 31))
      · simp [h2]
  cases s with
  | none => exact absurd rfl hs
  | timetable =>
    simp only [toScopedShapeIdx, hinv, reduceCtorEq, or_self, if_false, Nat.or_zero]
    simp only [getShapeSource, getLocalShapeIdx, hinv, if_false, hm, hbit]
    constructor
    · rw [if_neg]; omega
    · omega
  | routed =>
    have e : l ||| 2 ^ 31 = l + 2 ^ 31 := by
      rw [Nat.or_comm]
      have := Nat.two_pow_add_eq_or_of_lt (i := 31) (b := l) (by omega) 1
      simp only [Nat.mul_one] at this
      omega
    have hinv2 : l + 2 ^ 31 ≠ invalidIdx := by unfold invalidIdx; omega
    simp only [toScopedShapeIdx, hinv, reduceCtorEq, or_self, if_false, if_true, e]
    simp only [getShapeSource, getLocalShapeIdx, hinv2, if_false, hm, hbit]
    constructor
    · rw [if_pos]; omega
    · omega

example : (7 : Nat) < 2 ^ 31 - 1 := by omega

/-- C03 (shapes), boundary: the routed shape number `2^31-1` passes the code's assert but collides
with the 'invalid' index. -/
theorem C03_shape_idx_collision :
    getShapeSource (toScopedShapeIdx (2 ^ 31 - 1) .routed) = .none := by decide

/-- C03 (trip-based transfers): the day offset of a transfer is read back for every accepted value,
all others are rejected. -/
theorem C03_tb_day_offset (o : Int) :
    (-8 ≤ o ∧ o < 8 → ∃ w, setDayOffset o = some w ∧ w < 16 ∧ getDayOffset w = o) ∧
    (¬(-8 ≤ o ∧ o < 8) → setDayOffset o = none) := by
  constructor
  · intro h
    refine ⟨_, by simp only [setDayOffset, h, and_self, if_true]; rfl, ?_, ?_⟩ <;>
      simp only [getDayOffset, toUnsigned] <;> omega
  · intro h; simp only [setDayOffset, if_neg h]

example : setDayOffset (-3) = some 5 ∧ getDayOffset 5 = -3 := by decide

/-- C03 (trip-based reached keys): trip offset and query day are read back, and the packed key
orders lexicographically by (day, trip offset). -/
theorem C03_tb_transport_key (o d o' d' : Nat) (ho : o < 2 ^ 12) (hd : d < 2 ^ 4)
    (ho' : o' < 2 ^ 12) (hd' : d' < 2 ^ 4) :
    getTransportOffset (toTransport o d) = o ∧ getQueryDay (toTransport o d) = d ∧
    (toTransport o d ≤ toTransport o' d' ↔ d < d' ∨ (d = d' ∧ o ≤ o')) := by
  have key : ∀ o d : Nat, o < 2 ^ 12 → d < 2 ^ 4 → toTransport o d = d * 2 ^ 12 + o := by
    intro o d ho hd
    have e : (d <<< 12) % 2 ^ 16 = 2 ^ 12 * d := by rw [Nat.shiftLeft_eq]; omega
    rw [toTransport, e, ← Nat.two_pow_add_eq_or_of_lt ho d]; omega
  rw [key o d ho hd, key o' d' ho' hd']
  refine ⟨?_, ?_, ?_⟩
  · have := Nat.and_two_pow_sub_one_eq_mod (d * 2 ^ 12 + o) 12
    unfold getTransportOffset
    have e : (0x0FFF : Nat) = 2 ^ 12 - 1 := by decide
    rw [e, this]; omega
  · unfold getQueryDay; rw [Nat.shiftRight_eq_div_pow]; omega
  · omega

example : (4095 : Nat) < 2 ^ 12 ∧ (7 : Nat) < 2 ^ 4 := by omega

end Nigiri
