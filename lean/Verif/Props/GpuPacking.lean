import Verif.Model.GpuPacking
/-!
# Properties C86, C87: packed words, breadcrumbs and packed transports of the search on the GPU
-/

namespace Nigiri.Gpu
open Nigiri.Raptor (Dir Run Net)

/-! ## C86: packed words -/

/-- A time of the search: 16 bits, signed. -/
def Is16 (t : Int) : Prop := -32768 ≤ t ∧ t ≤ 32767

/-- `t` is a better arrival than `u`: earlier in a forward search, later in a backward search. -/
def Better (d : Dir) (t u : Int) : Prop := match d with
  | .fwd => t < u
  | .bwd => u < t

/-- The worst time of a direction, `kInvalidDelta`. -/
def worst (d : Dir) : Int := match d with
  | .fwd => 32767
  | .bwd => -32768

theorem toKey_lt (d : Dir) (t : Int) : toKey d t < 65536 := by
  cases d <;> simp only [toKey, toUnsigned] <;> omega

theorem toKey_eq {d : Dir} {t : Int} (h : Is16 t) : (toKey d t : Int) = match d with | .fwd => t + 32768 | .bwd => 32767 - t := by
  unfold Is16 at h
  cases d <;> simp only [toKey, toUnsigned] <;> omega

theorem packWord_eq (d : Dir) (t : Int) (bc : Nat) : packWord d t bc = toKey d t * 2 ^ 48 + bc % 2 ^ 48 := by
  unfold packWord kBcMask kBcBits
  rw [show (1 <<< 48 - 1 : Nat) = 2 ^ 48 - 1 from rfl, Nat.and_two_pow_sub_one_eq_mod,
    ← Nat.shiftLeft_add_eq_or_of_lt (Nat.mod_lt _ (by decide)), Nat.shiftLeft_eq]

theorem packWord_hi (d : Dir) (t : Int) (bc : Nat) : packWord d t bc >>> kBcBits = toKey d t := by
  rw [packWord_eq, Nat.shiftRight_eq_div_pow]
  unfold kBcBits
  have : bc % 2 ^ 48 < 2 ^ 48 := Nat.mod_lt _ (by decide)
  omega

/-- C86: a word keeps its time and its breadcrumb. -/
theorem C86_roundtrip (d : Dir) (t : Int) (bc : Nat) (ht : Is16 t) (hbc : bc < 2 ^ 48) :
    wordTime d (packWord d t bc) = t ∧ wordBc (packWord d t bc) = bc ∧ packWord d t bc < 2 ^ 64 := by
  have hk := toKey_lt d t
  refine ⟨?_, ?_, ?_⟩
  · unfold wordTime
    rw [packWord_hi, Nat.mod_eq_of_lt (by omega)]
    have := toKey_eq (d := d) ht
    unfold Is16 at ht
    cases d <;> simp only [fromKey, toInt16] at * <;> omega
  · unfold wordBc kBcMask kBcBits
    rw [show (1 <<< 48 - 1 : Nat) = 2 ^ 48 - 1 from rfl, Nat.and_two_pow_sub_one_eq_mod, packWord_eq]
    omega
  · rw [packWord_eq]; omega

example : packWord .fwd 600 77 = 33368 * 2 ^ 48 + 77 ∧ wordTime .fwd (packWord .fwd 600 77) = 600 := by decide +kernel
example : wordTime .bwd (packWord .bwd (-600) 77) = -600 ∧ wordBc (packWord .bwd (-600) 77) = 77 := by decide +kernel

theorem key_lt_iff (d : Dir) {t u : Int} (ht : Is16 t) (hu : Is16 u) : toKey d t < toKey d u ↔ Better d t u := by
  have h1 := toKey_eq (d := d) ht
  have h2 := toKey_eq (d := d) hu
  cases d <;> simp only [Better] at * <;> omega

/-- C86: comparing words as unsigned numbers compares times first - better is smaller, in both directions - and
breadcrumbs second. -/
theorem C86_order (d : Dir) (t u : Int) (a b : Nat) (ht : Is16 t) (hu : Is16 u) (ha : a < 2 ^ 48) (hb : b < 2 ^ 48) :
    packWord d t a ≤ packWord d u b ↔ Better d t u ∨ (t = u ∧ a ≤ b) := by
  rw [← key_lt_iff d ht hu, packWord_eq, packWord_eq, Nat.mod_eq_of_lt ha, Nat.mod_eq_of_lt hb]
  have h1 := toKey_eq (d := d) ht
  have h2 := toKey_eq (d := d) hu
  have : t = u ↔ toKey d t = toKey d u := by cases d <;> simp only at h1 h2 <;> omega
  rw [this]
  omega

/-- The words of the model of the search (`Verif.Model.GpuKernel`: oriented time, breadcrumb) are these. -/
theorem C86_model (d : Dir) (t u : Int) (a b : Nat) (ht : Is16 t) (hu : Is16 u) (ha : a < 2 ^ 48) (hb : b < 2 ^ 48) :
    packWord d t a ≤ packWord d u b ↔ Word.le ⟨d.sgn * t, a⟩ ⟨d.sgn * u, b⟩ := by
  rw [C86_order d t u a b ht hu ha hb]
  unfold Word.le
  cases d <;> simp only [Better, Dir.sgn] <;> omega

/-- C86: the initial content of a cell is worse than every word with a real time, and reads as the worst time. -/
theorem C86_invalid (d : Dir) :
    invalidPacked = packWord d (worst d) (2 ^ 48 - 1) ∧ wordTime d invalidPacked = worst d ∧
    ∀ t bc, Is16 t → bc < 2 ^ 48 → t ≠ worst d → packWord d t bc < invalidPacked := by
  have h0 : invalidPacked = packWord d (worst d) (2 ^ 48 - 1) := by cases d <;> decide +kernel
  refine ⟨h0, by cases d <;> decide +kernel, ?_⟩
  intro t bc ht hb hne
  have hw : Is16 (worst d) := by unfold Is16; cases d <;> decide
  rw [h0]
  have h1 := (C86_order d (worst d) t (2 ^ 48 - 1) bc hw ht (by decide) hb)
  apply Classical.byContradiction
  intro hc
  have := h1.mp (by omega)
  unfold Is16 at ht
  cases d <;> simp only [Better, worst] at * <;> omega

/-- A cell after a sequence of updates. -/
def updates (d : Dir) (w : Nat) (us : List (Int × Nat)) : Nat := us.foldl (fun w u => (updateMin d w u.1 u.2).1) w

/-- C86: whatever the updates of a cell and their order, it then holds the best time written (or its initial time)
together with a breadcrumb that was written with exactly this time: time and breadcrumb are never torn apart. -/
theorem C86_updates (d : Dir) (t0 : Int) (b0 : Nat) (h0 : Is16 t0) (hb0 : b0 < 2 ^ 48) (us : List (Int × Nat))
    (hu : ∀ u ∈ us, Is16 u.1 ∧ u.2 < 2 ^ 48) :
    ∃ u ∈ (t0, b0) :: us, updates d (packWord d t0 b0) us = packWord d u.1 u.2 ∧
      ∀ v ∈ (t0, b0) :: us, ¬ Better d v.1 u.1 ∧ (v.1 = u.1 → u.2 ≤ v.2) := by
  induction us generalizing t0 b0 with
  | nil =>
    refine ⟨(t0, b0), by simp, rfl, ?_⟩
    intro v hv
    rw [List.mem_singleton] at hv; subst hv
    exact ⟨by cases d <;> simp only [Better] <;> omega, fun _ => Nat.le_refl _⟩
  | cons x us ih =>
    have hx := hu x (by simp)
    have key : ∀ t1 b1, Is16 t1 → b1 < 2 ^ 48 → (updateMin d (packWord d t0 b0) x.1 x.2).1 = packWord d t1 b1 →
        ((t1, b1) = (t0, b0) ∨ (t1, b1) = x) → (∀ v, (v = (t0, b0) ∨ v = x) → ¬ Better d v.1 t1 ∧ (v.1 = t1 → b1 ≤ v.2)) →
        ∃ u ∈ (t0, b0) :: x :: us, updates d (packWord d t0 b0) (x :: us) = packWord d u.1 u.2 ∧
          ∀ v ∈ (t0, b0) :: x :: us, ¬ Better d v.1 u.1 ∧ (v.1 = u.1 → u.2 ≤ v.2) := by
      intro t1 b1 g1 g2 g3 g4 g5
      obtain ⟨u, h1, h2, h3⟩ := ih t1 b1 g1 g2 (fun v hv => hu v (by simp [hv]))
      refine ⟨u, ?_, ?_, ?_⟩
      · rcases List.mem_cons.mp h1 with rfl | h1
        · rcases g4 with e | e <;> rw [e] <;> simp
        · simp [h1]
      · show updates d (updateMin d (packWord d t0 b0) x.1 x.2).1 us = _
        rw [g3]; exact h2
      · intro v hv
        rw [List.mem_cons, List.mem_cons] at hv
        have hold : (v = (t0, b0) ∨ v = x) → ¬ Better d v.1 u.1 ∧ (v.1 = u.1 → u.2 ≤ v.2) := by
          intro hv
          have e1 := g5 v hv
          have e2 := h3 (t1, b1) (by simp)
          cases d <;> simp only [Better] at * <;> exact ⟨by omega, fun h => by
            have a1 : v.1 = t1 := by omega
            have a2 : t1 = u.1 := by omega
            have := e1.2 a1
            have := e2.2 a2
            omega⟩
        rcases hv with hv | hv | hv
        · exact hold (Or.inl hv)
        · exact hold (Or.inr hv)
        · exact h3 v (by simp [hv])
    by_cases hle : packWord d t0 b0 ≤ packWord d x.1 x.2
    · apply key t0 b0 h0 hb0
      · simp only [updateMin]; omega
      · exact Or.inl rfl
      · have := (C86_order d t0 x.1 b0 x.2 h0 hx.1 hb0 hx.2).mp hle
        rintro v (rfl | rfl)
        · cases d <;> simp only [Better] at * <;> exact ⟨by omega, by omega⟩
        · cases d <;> simp only [Better] at * <;> exact ⟨by omega, by omega⟩
    · apply key x.1 x.2 hx.1 hx.2
      · simp only [updateMin]; omega
      · exact Or.inr rfl
      · have := mt (C86_order d t0 x.1 b0 x.2 h0 hx.1 hb0 hx.2).mpr hle
        rintro v (rfl | rfl)
        · cases d <;> simp only [Better] at * <;> exact ⟨by omega, by omega⟩
        · cases d <;> simp only [Better] at * <;> exact ⟨by omega, by omega⟩

example : updates .fwd invalidPacked [(700, 5), (650, 9), (650, 4), (660, 1)] = packWord .fwd 650 4 := by decide +kernel
example : updates .bwd invalidPacked [(700, 5), (650, 9), (650, 4), (660, 1)] = packWord .bwd 700 5 := by decide +kernel

/-- C86: an update reports an improvement iff its time is strictly better than the time in the cell. -/
theorem C86_improved (d : Dir) (t0 : Int) (b0 : Nat) (h0 : Is16 t0) (t : Int) (bc : Nat) (ht : Is16 t) :
    (updateMin d (packWord d t0 b0) t bc).2 = true ↔ Better d t t0 := by
  simp only [updateMin, packWord_hi, decide_eq_true_eq]
  exact key_lt_iff d ht h0

/-- C86: the content does not depend on the order of the updates (schedules of the threads). -/
theorem C86_any_order (d : Dir) (w : Nat) (us vs : List (Int × Nat)) (h : us.Perm vs) : updates d w us = updates d w vs := by
  unfold updates
  induction h generalizing w with
  | nil => rfl
  | cons x _ ih => exact ih _
  | swap x y l =>
    simp only [List.foldl_cons]
    have : (updateMin d (updateMin d w y.1 y.2).1 x.1 x.2).1 = (updateMin d (updateMin d w x.1 x.2).1 y.1 y.2).1 := by
      show min (min w (packWord d y.1 y.2)) (packWord d x.1 x.2) = min (min w (packWord d x.1 x.2)) (packWord d y.1 y.2)
      generalize packWord d y.1 y.2 = p
      generalize packWord d x.1 x.2 = q
      omega
    rw [this]
  | trans _ _ ih1 ih2 => rw [ih1, ih2]

/-! ## C87: breadcrumbs -/

theorem payload_eq (t b a : Nat) : makePayload t b a = t % 2 ^ 26 + (b % 2 ^ 11) * 2 ^ 26 + (a % 2 ^ 11) * 2 ^ 37 := by
  unfold makePayload kBcTransportMask kBcStopMask kBcBoardShift kBcAlightShift
  rw [show (0x03FFFFFF : Nat) = 2 ^ 26 - 1 from rfl, show (0x7FF : Nat) = 2 ^ 11 - 1 from rfl]
  simp only [Nat.and_two_pow_sub_one_eq_mod]
  have h1 : t % 2 ^ 26 < 2 ^ 26 := Nat.mod_lt _ (by decide)
  have h2 : b % 2 ^ 11 < 2 ^ 11 := Nat.mod_lt _ (by decide)
  have e1 : t % 2 ^ 26 ||| (b % 2 ^ 11) <<< 26 = (b % 2 ^ 11) <<< 26 + t % 2 ^ 26 := by
    rw [Nat.or_comm, Nat.shiftLeft_add_eq_or_of_lt h1]
  rw [e1, Nat.or_comm, ← Nat.shiftLeft_add_eq_or_of_lt (by rw [Nat.shiftLeft_eq]; omega), Nat.shiftLeft_eq, Nat.shiftLeft_eq]
  omega

/-- C87: transport, boarding and alighting stop of a ride survive in a breadcrumb (26, 11 and 11 bits), which is
never mistaken for that of a start unless the transport field is the sentinel. -/
theorem C87_ride_partial (t b a : Nat) (ht : t < 2 ^ 26) (hb : b < 2 ^ 11) (ha : a < 2 ^ 11) :
    bcTransport (makePayload t b a) = t ∧ bcBoard (makePayload t b a) = b ∧ bcAlight (makePayload t b a) = a ∧
    makePayload t b a < 2 ^ 48 ∧ (bcIsStart (makePayload t b a) = true ↔ t = 2 ^ 26 - 1) := by
  have e : makePayload t b a = t + b * 2 ^ 26 + a * 2 ^ 37 := by
    rw [payload_eq, Nat.mod_eq_of_lt ht, Nat.mod_eq_of_lt hb, Nat.mod_eq_of_lt ha]
  have h1 : bcTransport (makePayload t b a) = t := by
    unfold bcTransport kBcTransportMask
    rw [show (0x03FFFFFF : Nat) = 2 ^ 26 - 1 from rfl, Nat.and_two_pow_sub_one_eq_mod, e]
    omega
  refine ⟨h1, ?_, ?_, by rw [e]; omega, ?_⟩
  · unfold bcBoard kBcStopMask kBcBoardShift
    rw [show (0x7FF : Nat) = 2 ^ 11 - 1 from rfl, Nat.and_two_pow_sub_one_eq_mod, Nat.shiftRight_eq_div_pow, e]
    omega
  · unfold bcAlight kBcStopMask kBcAlightShift
    rw [show (0x7FF : Nat) = 2 ^ 11 - 1 from rfl, Nat.and_two_pow_sub_one_eq_mod, Nat.shiftRight_eq_div_pow, e]
    omega
  · unfold bcIsStart
    rw [h1]
    unfold kStartSentinel kBcTransportMask
    rw [beq_iff_eq]

example : bcBoard (makePayload 12345 17 2047) = 17 ∧ bcAlight (makePayload 12345 17 2047) = 2047 := by decide +kernel

/-- Beyond 2047 stops the breadcrumb names another stop: nothing in the loader or the search rules such trips out. -/
theorem C87_many_stops : bcAlight (makePayload 12345 17 2048) = 0 ∧ bcBoard (makePayload 12345 2049 2050) = 1 := by decide +kernel

theorem encodeRt_eq {i : Nat} (h : i + 1 ≤ kStartSentinel) : encodeRt i = kStartSentinel - 1 - i := by
  unfold encodeRt toUnsigned
  simp only [kStartSentinel, kBcTransportMask] at *
  omega

theorem isRtField_iff {f nRt : Nat} (h : nRt ≤ kStartSentinel) : isRtField f nRt = true ↔ f ≠ kStartSentinel ∧ kStartSentinel - nRt ≤ f := by
  have e : toUnsigned 32 ((kStartSentinel : Int) - nRt) = kStartSentinel - nRt := by
    unfold toUnsigned
    simp only [kStartSentinel, kBcTransportMask] at *
    omega
  unfold isRtField
  rw [e, Bool.and_eq_true, bne_iff_ne, decide_eq_true_eq]

/-- C87: if the check of the constructor passes, the transport field of a breadcrumb tells apart start, scheduled
transport and real-time transport, and names the right one. -/
theorem C87_kinds (nTr nRt : Nat) (hfit : spaceFits nTr nRt = true) :
    (∀ t, t < nTr → t < 2 ^ 26 ∧ isRtField t nRt = false ∧ t ≠ kStartSentinel) ∧
    (∀ i, i < nRt → encodeRt i < 2 ^ 26 ∧ isRtField (encodeRt i) nRt = true ∧ encodeRt i ≠ kStartSentinel ∧ decodeRt (encodeRt i) = i) ∧
    isRtField kStartSentinel nRt = false ∧ bcIsStart startBc = true := by
  unfold spaceFits at hfit
  rw [decide_eq_true_eq] at hfit
  have hn : nRt ≤ kStartSentinel := by omega
  refine ⟨?_, ?_, by simp [isRtField], by decide⟩
  · intro t ht
    have h1 : t ≠ kStartSentinel := by omega
    refine ⟨by simp only [kStartSentinel, kBcTransportMask] at hfit; omega, ?_, h1⟩
    rw [← Bool.not_eq_true, isRtField_iff hn]
    omega
  · intro i hi
    rw [encodeRt_eq (by omega), isRtField_iff hn]
    refine ⟨by simp only [kStartSentinel, kBcTransportMask] at *; omega, ⟨by omega, by omega⟩, by omega, ?_⟩
    unfold decodeRt toUnsigned
    simp only [kStartSentinel, kBcTransportMask] at *
    omega

example : spaceFits 3000000 20000 = true := by decide

/-- Without the check a scheduled transport is taken for a real-time one. -/
theorem C87_unchecked : spaceFits (2 ^ 26 - 3) 3 = false ∧ isRtField (2 ^ 26 - 4) 3 = true ∧ 2 ^ 26 - 4 < 2 ^ 26 - 3 := by decide

/-! ## C87: packed transports -/

/-- The runs that fit: the day is at most 28 days before and 35 days after the base day, the route has at most `2^26`
transports (the last one not on the last day: this code means "none"). -/
def Packable (base : Int) (a : Run) : Prop :=
  base - 28 ≤ a.2 ∧ a.2 ≤ base + 35 ∧ a.1 < 2 ^ 26 ∧ ¬ (a.2 = base + 35 ∧ a.1 = 2 ^ 26 - 1)

theorem packEt_eq {d : Dir} {base : Int} {a : Run} (h : Packable base a) :
    (packEt d base a : Int) = match d with
      | .fwd => (a.2 - (base - 28)) * 2 ^ 26 + a.1
      | .bwd => 2 ^ 32 - 2 - ((a.2 - (base - 28)) * 2 ^ 26 + a.1) := by
  obtain ⟨h1, h2, h3, h4⟩ := h
  have hrel : ((toUnsigned 32 (a.2 - etDayLo base) : Nat) : Int) = a.2 - (base - 28) := by
    simp only [toUnsigned, etDayLo]; omega
  have hx : ((((toUnsigned 32 (a.2 - etDayLo base)) <<< kEtRelDayShift) % 2 ^ 32 ||| a.1 : Nat) : Int) = (a.2 - (base - 28)) * 2 ^ 26 + a.1 := by
    generalize toUnsigned 32 (a.2 - etDayLo base) = r at hrel
    unfold kEtRelDayShift
    have hr : r < 64 := by omega
    rw [Nat.mod_eq_of_lt (by rw [Nat.shiftLeft_eq]; omega), ← Nat.shiftLeft_add_eq_or_of_lt h3, Nat.shiftLeft_eq]
    omega
  cases d
  · exact hx
  · show ((toUnsigned 32 ((kEtReverseBase : Int) - ((((toUnsigned 32 (a.2 - etDayLo base)) <<< kEtRelDayShift) % 2 ^ 32 ||| a.1 : Nat) : Int)) : Nat) : Int) = _
    rw [hx]
    simp only [toUnsigned, kEtReverseBase, kEtInvalid]
    omega

/-- C87: a packed transport is unpacked to the same transport and day, and is not the code for "none". -/
theorem C87_transport_partial (d : Dir) (base : Int) (a : Run) (h : Packable base a) :
    unpackEt d base (packEt d base a) = a ∧ packEt d base a ≠ kEtInvalid ∧ packEt d base a < 2 ^ 32 := by
  have he := packEt_eq (d := d) h
  obtain ⟨h1, h2, h3, h4⟩ := h
  have hne : packEt d base a < kEtInvalid := by
    simp only [kEtInvalid]
    cases d <;> simp only at he <;> omega
  refine ⟨?_, by omega, by unfold kEtInvalid at hne; omega⟩
  have key : ∀ x : Nat, (x : Int) = (a.2 - (base - 28)) * 2 ^ 26 + a.1 →
      (x &&& (1 <<< kEtRelDayShift - 1), ((x >>> kEtRelDayShift : Nat) : Int) + etDayLo base) = a := by
    intro x hx
    unfold kEtRelDayShift etDayLo
    rw [show (1 <<< 26 - 1 : Nat) = 2 ^ 26 - 1 from rfl, Nat.and_two_pow_sub_one_eq_mod, Nat.shiftRight_eq_div_pow]
    obtain ⟨a1, a2⟩ := a
    simp only at *
    ext
    · simp only; omega
    · simp only; omega
  unfold unpackEt
  cases d
  · exact key _ he
  · simp only at he ⊢
    apply key
    simp only [toUnsigned, kEtReverseBase, kEtInvalid] at *
    omega

/-- C87: packed transports are ordered by day, then by position in the route; reversed in a backward search. -/
theorem C87_order_partial (d : Dir) (base : Int) (a b : Run) (ha : Packable base a) (hb : Packable base b) :
    packEt d base a ≤ packEt d base b ↔ d.sgn * a.2 < d.sgn * b.2 ∨ (a.2 = b.2 ∧ d.sgn * a.1 ≤ d.sgn * b.1) := by
  have e1 := packEt_eq (d := d) ha
  have e2 := packEt_eq (d := d) hb
  obtain ⟨h1, h2, h3, -⟩ := ha
  obtain ⟨g1, g2, g3, -⟩ := hb
  generalize packEt d base a = x at *
  generalize packEt d base b = y at *
  cases d <;> simp only [Dir.sgn] at * <;> omega

example : Packable 100 (3, 102) ∧ unpackEt .bwd 100 (packEt .bwd 100 (3, 102)) = (3, 102) := by
  refine ⟨by simp [Packable], by decide +kernel⟩
example : packEt .bwd 100 (3, 102) ≤ packEt .bwd 100 (7, 101) := by decide +kernel

/-- Outside of the window days wrap around: 36 days after the base day is packed like 28 days before it. -/
theorem C87_window : packEt .fwd 100 (0, 136) = packEt .fwd 100 (0, 72) ∧ packEt .fwd 100 (0, 135) > packEt .fwd 100 (0, 136) ∧
    packEt .fwd 100 (2 ^ 26 - 1, 135) = kEtInvalid ∧ packEt .bwd 100 (2 ^ 26 - 1, 135) = kEtInvalid := by decide +kernel

end Nigiri.Gpu
