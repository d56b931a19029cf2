import Verif.Spec.Hrd

namespace Nigiri.Hrd
open Spec

theorem active_eq (tz : Tz) (day mam : Int) :
    tz.seasons.find? (fun s => inSeason s day mam) =
      tz.seasons.find? (fun s => decide (InLocal s (day + mam))) := by
  congr 1
  funext s
  rw [Bool.eq_iff_iff, decide_eq_true_iff]
  simp [inSeason, InLocal]

/-- the result from the raw value -/
def lmTuple (first : Bool) (utc : Int) (v : Bool) : Int × Int × Bool :=
  if first && decide (utc ≥ 1440) then (Int.tmod utc 1440, Int.tdiv utc 1440 * 1440, v)
  else if utc < 0 then (utc + 1440, -1440, v)
  else (utc, 0, v)

theorem lmTuple_valid (first : Bool) (utc : Int) (v : Bool) : (lmTuple first utc v).2.2 = v := by
  unfold lmTuple
  split
  · rfl
  · split <;> rfl

/-- `valid` -/
def lmV (tz : Tz) (t : Int) : Bool :=
  match tz.seasons.find? (fun s => decide (InLocal s t)) with
  | none => true
  | some s => decide (t > s.begin + s.beginMam + (s.offset - tz.offset))

theorem lm_tuple (tz : Tz) (day mam : Int) (first : Bool) :
    localMamToUtcMam tz day mam first =
      lmTuple first (mam - offsetAt tz (day + mam) + (if lmV tz (day + mam) then 0 else 60))
        (lmV tz (day + mam)) := by
  unfold localMamToUtcMam lmV offsetAt
  rw [active_eq]
  rfl

theorem lm_valid (tz : Tz) (day mam : Int) (first : Bool) :
    (localMamToUtcMam tz day mam first).2.2 = true ↔ ¬ SkippedOrFirst tz (day + mam) := by
  rw [lm_tuple, lmTuple_valid]
  unfold SkippedOrFirst lmV
  cases h : tz.seasons.find? (fun s => decide (InLocal s (day + mam))) with
  | none => simp
  | some s =>
    simp only [decide_eq_true_eq]
    constructor
    · rintro h1 ⟨s', hs', hle⟩
      cases hs'; omega
    · intro h1
      refine Classical.byContradiction fun h2 => h1 ⟨s, rfl, by omega⟩

theorem lm_value (tz : Tz) (day mam : Int) (first : Bool)
    (hv : (localMamToUtcMam tz day mam first).2.2 = true) :
    localMamToUtcMam tz day mam first =
      (let u := utcOf tz (day + mam) - day
       if first = true ∧ u ≥ 1440 then (Int.tmod u 1440, Int.tdiv u 1440 * 1440, true)
       else if u < 0 then (u + 1440, -1440, true) else (u, 0, true)) := by
  rw [lm_tuple, lmTuple_valid] at hv
  rw [lm_tuple, hv]
  have e : mam - offsetAt tz (day + mam) + (if true = true then 0 else 60) =
      utcOf tz (day + mam) - day := by
    unfold utcOf; simp; omega
  rw [e]
  simp [lmTuple]

/-- one event of the second pass -/
theorem lm_second (tz : Tz) (day off t : Int) :
    let r := localMamToUtcMam tz (day + off) (t - off) false
    (r.2.1 ≠ 0 ∨ r.1 < 0 ∨ r.2.2 = false) ∨
      (r.2.1 = 0 ∧ r.2.2 = true ∧ r.1 = utcOf tz (day + t) - (day + off)) := by
  intro r
  by_cases hv : r.2.2 = true
  · have := lm_value tz (day + off) (t - off) false hv
    rw [show day + off + (t - off) = day + t by omega] at this
    have hr : r = _ := this
    dsimp only at hr
    rw [if_neg (by simp)] at hr
    by_cases hneg : utcOf tz (day + t) - (day + off) < 0
    · rw [if_pos hneg] at hr
      left; left; rw [hr]; simp
    · rw [if_neg hneg] at hr
      right; rw [hr]; simp
  · left; right; right; simpa using hv

/-- The times of the events: valid, in order, from `pred` on. -/
def Good (day off : Int) : Int → List (Int × Tz) → List Int → Prop
  | _, [], [] => True
  | pred, (t, tz) :: r, x :: xs =>
    x = utcOf tz (day + t) - (day + off) ∧ ¬ SkippedOrFirst tz (day + t) ∧ pred ≤ x ∧ Good day off x r xs
  | _, _, _ => False

theorem utcLoop_iff (day off : Int) (evs : List (Int × Tz)) :
    ∀ (pred : Int) (times : List Int), 0 ≤ pred →
      (utcLoop day off pred evs = some times ↔ Good day off pred evs times) := by
  induction evs with
  | nil =>
    intro pred times _
    cases times with
    | nil => simp [utcLoop, Good]
    | cons a b => simp [utcLoop, Good]
  | cons e rest ih =>
    obtain ⟨t, tz⟩ := e
    intro pred times hpred
    unfold utcLoop
    dsimp only
    have hval := lm_valid tz (day + off) (t - off) false
    rw [show day + off + (t - off) = day + t by omega] at hval
    by_cases hc : (localMamToUtcMam tz (day + off) (t - off) false).2.1 ≠ 0 ∨
        pred > (localMamToUtcMam tz (day + off) (t - off) false).1 ∨
        (localMamToUtcMam tz (day + off) (t - off) false).2.2 = false
    · rw [if_pos hc]
      constructor
      · intro h; cases h
      · intro h
        exfalso
        cases times with
        | nil => exact h
        | cons x xs =>
          obtain ⟨h1, h2, h3, h4⟩ := h
          have hv := hval.2 h2
          have hvalue := lm_value tz (day + off) (t - off) false hv
          rw [show day + off + (t - off) = day + t by omega] at hvalue
          dsimp only at hvalue
          rw [if_neg (by simp), if_neg (by omega)] at hvalue
          rw [hvalue] at hc
          simp at hc
          omega
    · rw [if_neg hc]
      have h2 : (localMamToUtcMam tz (day + off) (t - off) false).2.2 = true := by
        cases h : (localMamToUtcMam tz (day + off) (t - off) false).2.2 with
        | true => rfl
        | false => exact absurd (Or.inr (Or.inr h)) hc
      have hpr : pred ≤ (localMamToUtcMam tz (day + off) (t - off) false).1 := by
        refine Classical.byContradiction fun h => hc (Or.inr (Or.inl (by omega)))
      have h3 : (localMamToUtcMam tz (day + off) (t - off) false).1 = utcOf tz (day + t) - (day + off) := by
        rcases lm_second tz day off t with (h | h | h) | h
        · exact absurd (Or.inl h) hc
        · have : (localMamToUtcMam tz (day + off) (t - off) false).1 < 0 := h
          omega
        · exact absurd (Or.inr (Or.inr h)) hc
        · exact h.2.2
      rw [h3] at hpr ⊢
      cases times with
      | nil => simp [Good]
      | cons x xs =>
        simp only [Good]
        constructor
        · intro h
          obtain ⟨ys, hys, he⟩ := Option.map_eq_some_iff.1 h
          cases he
          exact ⟨rfl, hval.1 h2, hpr, (ih _ _ (by omega)).1 hys⟩
        · rintro ⟨h1, _, _, h4⟩
          subst h1
          rw [(ih _ _ (by omega)).2 h4]; rfl

theorem good_facts {day off : Int} {evs : List (Int × Tz)} :
    ∀ {pred : Int} {times : List Int}, Good day off pred evs times →
      times.length = evs.length ∧
      (∀ (i : Nat) (t : Int) (tz : Tz) (m : Int), evs[i]? = some (t, tz) → times[i]? = some m →
        m = utcOf tz (day + t) - (day + off)) ∧
      (∀ (i : Nat) (t : Int) (tz : Tz), evs[i]? = some (t, tz) → ¬ SkippedOrFirst tz (day + t)) ∧
      (∀ m, times[0]? = some m → pred ≤ m) ∧
      (∀ (i : Nat) (a b : Int), times[i]? = some a → times[i + 1]? = some b → a ≤ b) := by
  induction evs with
  | nil =>
    intro pred times h
    cases times with
    | nil => exact ⟨rfl, (by simp), (by simp), (by simp), (by simp)⟩
    | cons a b => exact absurd h (by simp [Good])
  | cons e rest ih =>
    obtain ⟨t, tz⟩ := e
    intro pred times h
    cases times with
    | nil => exact absurd h (by simp [Good])
    | cons x xs =>
      obtain ⟨h1, h2, h3, h4⟩ := h
      obtain ⟨i1, i2, i3, i4, i5⟩ := ih h4
      refine ⟨by simp [i1], ?_, ?_, ?_, ?_⟩
      · intro i t' tz' m he hm
        cases i with
        | zero => simp at he hm; rw [← hm, ← he.1, ← he.2]; exact h1
        | succ i => exact i2 i t' tz' m (by simpa using he) (by simpa using hm)
      · intro i t' tz' he
        cases i with
        | zero => simp at he; rw [← he.1, ← he.2]; exact h2
        | succ i => exact i3 i t' tz' (by simpa using he)
      · intro m hm; simp at hm; rw [← hm]; exact h3
      · intro i a b ha hb
        cases i with
        | zero => simp at ha; rw [← ha]; exact i4 b (by simpa using hb)
        | succ i => exact i5 i a b (by simpa using ha) (by simpa using hb)

theorem good_of_facts {day off : Int} {evs : List (Int × Tz)} :
    ∀ {pred : Int} {times : List Int}, times.length = evs.length →
      (∀ (i : Nat) (t : Int) (tz : Tz) (m : Int), evs[i]? = some (t, tz) → times[i]? = some m →
        m = utcOf tz (day + t) - (day + off)) →
      (∀ (i : Nat) (t : Int) (tz : Tz), evs[i]? = some (t, tz) → ¬ SkippedOrFirst tz (day + t)) →
      (∀ m, times[0]? = some m → pred ≤ m) →
      (∀ (i : Nat) (a b : Int), times[i]? = some a → times[i + 1]? = some b → a ≤ b) →
      Good day off pred evs times := by
  induction evs with
  | nil =>
    intro pred times h _ _ _ _
    cases times with
    | nil => trivial
    | cons a b => simp at h
  | cons e rest ih =>
    obtain ⟨t, tz⟩ := e
    intro pred times hl h1 h2 h3 h4
    cases times with
    | nil => simp at hl
    | cons x xs =>
      refine ⟨h1 0 t tz x rfl rfl, h2 0 t tz rfl, h3 x rfl, ih (by simpa using hl) ?_ ?_ ?_ ?_⟩
      · intro i t' tz' m a b; exact h1 (i + 1) t' tz' m (by simpa using a) (by simpa using b)
      · intro i t' tz' a; exact h2 (i + 1) t' tz' (by simpa using a)
      · intro m hm; exact h4 0 x m rfl (by simpa using hm)
      · intro i a b ha hb; exact h4 (i + 1) a b (by simpa using ha) (by simpa using hb)

/-- the offset of the first departure -/
theorem first_offset (tz : Tz) (day t : Int) (hv : (localMamToUtcMam tz day t true).2.2 = true)
    (hlow : day - 1440 ≤ utcOf tz (day + t)) :
    ∃ k : Int, (localMamToUtcMam tz day t true).2.1 = k * 1440 ∧
      0 ≤ utcOf tz (day + t) - (day + k * 1440) ∧ utcOf tz (day + t) - (day + k * 1440) < 1440 := by
  have := lm_value tz day t true hv
  dsimp only at this
  rw [this]
  by_cases h : utcOf tz (day + t) - day ≥ 1440
  · rw [if_pos ⟨rfl, h⟩]
    refine ⟨Int.tdiv (utcOf tz (day + t) - day) 1440, rfl, ?_, ?_⟩
    · rw [Int.tdiv_eq_ediv_of_nonneg (by omega)]; omega
    · rw [Int.tdiv_eq_ediv_of_nonneg (by omega)]; omega
  · rw [if_neg (fun h' => h h'.2)]
    by_cases h2 : utcOf tz (day + t) - day < 0
    · rw [if_pos h2]
      exact ⟨-1, rfl, by omega, by omega⟩
    · rw [if_neg h2]
      exact ⟨0, rfl, by omega, by omega⟩

theorem build_iff (evs : List (Int × Tz)) (day : Int) (times : List Int) (off : Int)
    (hlow : ∀ t tz, evs.head? = some (t, tz) → day - 1440 ≤ utcOf tz (day + t)) :
    buildUtcTimeSeq evs day = some (times, off) ↔
      evs ≠ [] ∧ Good day off 0 evs times ∧ (∀ m, times[0]? = some m → m < 1440) ∧ ∃ k, off = k * 1440 := by
  unfold buildUtcTimeSeq
  cases evs with
  | nil => simp
  | cons e rest =>
    obtain ⟨t, tz⟩ := e
    have hlow' := hlow t tz rfl
    have hval := lm_valid tz day t true
    dsimp only
    by_cases hv : (localMamToUtcMam tz day t true).2.2 = false
    · rw [if_pos hv]
      constructor
      · intro h; cases h
      · rintro ⟨_, h, _⟩
        cases times with
        | nil => exact absurd h (by simp [Good])
        | cons x xs =>
          have := hval.2 h.2.1
          rw [hv] at this; cases this
    · rw [if_neg hv]
      have hv' : (localMamToUtcMam tz day t true).2.2 = true := by simpa using hv
      obtain ⟨k, hk, h0, h1⟩ := first_offset tz day t hv' hlow'
      rw [hk]
      constructor
      · intro h
        obtain ⟨ts, hts, he⟩ := Option.map_eq_some_iff.1 h
        cases he
        have hg := (utcLoop_iff day (k * 1440) _ 0 times (Int.le_refl _)).1 hts
        refine ⟨by simp, hg, ?_, k, rfl⟩
        intro m hm
        have := (good_facts hg).2.1 0 t tz m rfl hm
        omega
      · rintro ⟨_, hg, hm, k', hk'⟩
        have hkk : k' = k := by
          cases times with
          | nil => exact absurd hg (by simp [Good])
          | cons x xs =>
            have e1 := hg.1
            have e2 := hg.2.2.1
            have e3 := hm x rfl
            rw [hk'] at e1
            omega
        subst hkk
        subst hk'
        rw [(utcLoop_iff day (k' * 1440) _ 0 times (Int.le_refl _)).2 hg]; rfl

/-- key and bit added for a day -/
def stepKey (x : ToUtc) (day : Int) : Option (List Int × List SeqStop × Nat) :=
  if !x.selection.overlaps ⟨day, day + x.lastDayOffset⟩ then none
  else
    if !(decide ((day - x.hrd.from').toNat < kMaxDays) && x.localDays (day - x.hrd.from').toNat) then none
    else
      match buildUtcTimeSeq x.evs (day * 1440) with
      | none => none
      | some (times, off) =>
        if ((day - x.hrd.from').toNat : Int) - (x.selection.from' - x.hrd.from' - 5) + Int.tdiv off 1440 < 0
        then none
        else some (times, x.stopSeq (day - x.hrd.from').toNat,
          (((day - x.hrd.from').toNat : Int) - (x.selection.from' - x.hrd.from' - 5) + Int.tdiv off 1440).toNat)

theorem step_eq (x : ToUtc) (m : List UtcService) (day : Int) :
    x.step m day = match stepKey x day with
      | none => some m
      | some (t, s, u) => addDay m t s u := by
  unfold ToUtc.step stepKey
  split
  · rfl
  · dsimp only
    split
    · rfl
    · cases buildUtcTimeSeq x.evs (day * 1440) with
      | none => rfl
      | some r =>
        obtain ⟨times, off⟩ := r
        dsimp only
        split <;> rfl

theorem evs_low {evs : List (Int × Tz)} (h : EvsOk evs) (day : Int) (t : Int) (tz : Tz)
    (he : evs.head? = some (t, tz)) : day - 1440 ≤ utcOf tz (day + t) := by
  have hm : (t, tz) ∈ evs := List.mem_of_head? he
  have h0 := h.nonneg _ hm
  obtain ⟨h1, h2⟩ := h.offset _ hm
  have : offsetAt tz (day + t) ≤ 1440 := by
    unfold offsetAt
    split
    · exact h1
    · rename_i s hs; exact h2 s (List.mem_of_find?_eq_some hs)
  unfold utcOf
  simp only at h0
  omega

theorem stepKey_iff (x : ToUtc) (hx : EvsOk x.evs) (hne : x.evs ≠ []) (D : Int) (hD : x.hrd.from' ≤ D)
    (hD2 : D < x.hrd.to') (times : List Int) (stops : List SeqStop) (u : Nat) :
    stepKey x D = some (times, stops, u) ↔ Runs x D u times stops := by
  obtain ⟨last, hlast⟩ : ∃ last, x.evs.getLast? = some last := by
    cases h : x.evs.getLast? with
    | none => exact absurd (List.getLast?_eq_none_iff.1 h) hne
    | some l => exact ⟨l, rfl⟩
  have hl0 : 0 ≤ last.1 := hx.nonneg _ (List.mem_of_getLast? hlast)
  have hsel : x.selection.overlaps ⟨D, D + x.lastDayOffset⟩ = true ↔
      (∃ last, x.evs.getLast? = some last ∧ x.selection.from' * 1440 ≤ D * 1440 + last.1) ∧
        D < x.selection.to' := by
    have hld : x.lastDayOffset = 1 + last.1 / 1440 := by
      unfold ToUtc.lastDayOffset
      rw [hlast]
      show 1 + Int.tdiv last.1 1440 = _
      rw [Int.tdiv_eq_ediv_of_nonneg hl0]
    unfold Interval.overlaps
    rw [hld]
    simp only [Bool.and_eq_true, decide_eq_true_eq, hlast, Option.some.injEq, exists_eq_left']
    constructor
    · rintro ⟨h1, h2⟩; exact ⟨by omega, by omega⟩
    · rintro ⟨h1, h2⟩; exact ⟨by omega, by omega⟩
  have hidx : ((D - x.hrd.from').toNat : Int) = D - x.hrd.from' := by omega
  have hb := fun times off => build_iff x.evs (D * 1440) times off (fun t tz h => evs_low hx _ t tz h)
  have hdiv : ∀ k : Int, Int.tdiv (k * 1440) 1440 = k := fun k => Int.mul_tdiv_cancel k (by decide)
  constructor
  · intro h
    unfold stepKey at h
    by_cases h1 : (!x.selection.overlaps ⟨D, D + x.lastDayOffset⟩) = true
    · rw [if_pos h1] at h; cases h
    rw [if_neg h1] at h
    by_cases h2 : (!(decide ((D - x.hrd.from').toNat < kMaxDays) && x.localDays (D - x.hrd.from').toNat)) = true
    · rw [if_pos h2] at h; cases h
    rw [if_neg h2] at h
    cases h3 : buildUtcTimeSeq x.evs (D * 1440) with
    | none => rw [h3] at h; cases h
    | some r =>
      obtain ⟨ts, off⟩ := r
      rw [h3] at h
      dsimp only at h
      by_cases h4 : ((D - x.hrd.from').toNat : Int) - (x.selection.from' - x.hrd.from' - 5) + Int.tdiv off 1440 < 0
      · rw [if_pos h4] at h; cases h
      rw [if_neg h4] at h
      obtain ⟨_, hg, hm, k, hk⟩ := (hb ts off).1 h3
      obtain ⟨g1, g2, g3, g4, g5⟩ := good_facts hg
      rw [hk, hdiv] at h4 h
      simp only [Option.some.injEq, Prod.mk.injEq] at h
      obtain ⟨e1, e2, e3⟩ := h
      subst e1
      have hu : (u : Int) = D - x.selection.from' + 5 + k := by omega
      refine ⟨⟨hD, hD2⟩, ?_, hsel.1 (by simpa using h1), e2.symm, g1, ?_, g3, ?_, g5⟩
      · simp only [Bool.not_eq_true', Bool.not_eq_false, Bool.and_eq_true, decide_eq_true_eq] at h2
        exact h2
      · intro i t tz m he hm'
        have := g2 i t tz m he hm'
        rw [hk] at this
        rw [hu, this]
        generalize utcOf tz (D * 1440 + t) = w
        omega
      · intro m hm'; exact ⟨g4 m hm', hm m hm'⟩
  · intro h
    unfold stepKey
    rw [hsel.2 h.selected]
    simp only [Bool.not_true, Bool.false_eq_true, if_false]
    rw [h.bit.2, decide_eq_true h.bit.1]
    simp only [Bool.and_self, Bool.not_true, Bool.false_eq_true, if_false]
    have hk : ∃ k : Int, (u : Int) = D - x.selection.from' + 5 + k := ⟨u - D + x.selection.from' - 5, by omega⟩
    obtain ⟨k, hk⟩ := hk
    have hg : buildUtcTimeSeq x.evs (D * 1440) = some (times, k * 1440) := by
      rw [hb]
      refine ⟨hne, good_of_facts h.len ?_ h.existing (fun m hm => (h.first m hm).1) h.mono,
        fun m hm => (h.first m hm).2, k, rfl⟩
      intro i t tz m he hm
      have := h.utc i t tz m he hm
      rw [hk] at this
      rw [← this]
      omega
    rw [hg]
    dsimp only
    rw [hdiv, if_neg (by omega), h.stopsEq]
    simp only [Option.some.injEq, Prod.mk.injEq, true_and]
    omega

/-- `m` has the day. -/
def Has (m : List UtcService) (times : List Int) (stops : List SeqStop) (u : Nat) : Prop :=
  ∃ e ∈ m, e.times = times ∧ e.stops = stops ∧ e.days u = true

/-- keys are distinct -/
def Keys (m : List UtcService) : Prop :=
  m.Pairwise fun a b => ¬ (a.times = b.times ∧ a.stops = b.stops)

theorem addDay_none (m : List UtcService) (t : List Int) (s : List SeqStop) (u : Nat) :
    addDay m t s u = none ↔ ¬ u < kMaxDays := by
  induction m with
  | nil =>
    unfold addDay Bitfield.set
    by_cases h : u < kMaxDays
    · simp [h]
    · simp [h]
  | cons e rest ih =>
    unfold addDay
    split
    · unfold Bitfield.set
      by_cases h : u < kMaxDays
      · simp [h]
      · simp [h]
    · rw [Option.map_eq_none_iff]; exact ih

theorem addDay_has (m : List UtcService) (t : List Int) (s : List SeqStop) (u : Nat) (m' : List UtcService)
    (h : addDay m t s u = some m') :
    (∀ t' s' u', Has m' t' s' u' ↔ Has m t' s' u' ∨ (t' = t ∧ s' = s ∧ u' = u)) ∧
    (∀ e' ∈ m', (∃ e ∈ m, e.times = e'.times ∧ e.stops = e'.stops) ∨ (e'.times = t ∧ e'.stops = s)) := by
  induction m generalizing m' with
  | nil =>
    unfold addDay Bitfield.set at h
    by_cases hu : u < kMaxDays
    · rw [if_pos hu] at h
      cases h
      constructor
      · intro t' s' u'
        simp only [Has, List.mem_singleton, List.not_mem_nil, false_and, exists_false, false_or,
          exists_eq_left, Bitfield.empty]
        constructor
        · rintro ⟨h1, h2, h3⟩
          refine ⟨h1.symm, h2.symm, ?_⟩
          by_cases e : u' = u
          · exact e
          · rw [if_neg e] at h3; cases h3
        · rintro ⟨h1, h2, h3⟩; exact ⟨h1.symm, h2.symm, by rw [if_pos h3]⟩
      · intro e' he'; simp at he'; subst he'; exact Or.inr ⟨rfl, rfl⟩
    · rw [if_neg hu] at h; cases h
  | cons e rest ih =>
    unfold addDay at h
    by_cases hk : e.times = t ∧ e.stops = s
    · rw [if_pos hk] at h
      obtain ⟨b, hb, he⟩ := Option.map_eq_some_iff.1 h
      unfold Bitfield.set at hb
      by_cases hu : u < kMaxDays
      · rw [if_pos hu] at hb
        cases hb
        subst he
        constructor
        · intro t' s' u'
          constructor
          · rintro ⟨e', hm, h1, h2, h3⟩
            rcases List.mem_cons.1 hm with hm | hm
            · subst hm
              by_cases hu' : u' = u
              · exact Or.inr ⟨(by rw [← h1]; exact hk.1), (by rw [← h2]; exact hk.2), hu'⟩
              · left
                refine ⟨e, List.mem_cons_self, h1, h2, ?_⟩
                simpa [hu'] using h3
            · exact Or.inl ⟨e', List.mem_cons_of_mem _ hm, h1, h2, h3⟩
          · rintro (⟨e', hm, h1, h2, h3⟩ | ⟨h1, h2, h3⟩)
            · rcases List.mem_cons.1 hm with hm | hm
              · subst hm
                refine ⟨_, List.mem_cons_self, h1, h2, ?_⟩
                show (if u' = u then true else e'.days u') = true
                split
                · rfl
                · exact h3
              · exact ⟨e', List.mem_cons_of_mem _ hm, h1, h2, h3⟩
            · refine ⟨_, List.mem_cons_self, (by rw [h1]; exact hk.1), (by rw [h2]; exact hk.2), ?_⟩
              show (if u' = u then true else e.days u') = true
              rw [if_pos h3]
        · intro e' he'
          rcases List.mem_cons.1 he' with he' | he'
          · subst he'; exact Or.inl ⟨e, List.mem_cons_self, rfl, rfl⟩
          · exact Or.inl ⟨e', List.mem_cons_of_mem _ he', rfl, rfl⟩
      · rw [if_neg hu] at hb; cases hb
    · rw [if_neg hk] at h
      obtain ⟨r, hr, he⟩ := Option.map_eq_some_iff.1 h
      subst he
      obtain ⟨i1, i2⟩ := ih r hr
      constructor
      · intro t' s' u'
        have hcons : ∀ l : List UtcService, Has (e :: l) t' s' u' ↔
            (e.times = t' ∧ e.stops = s' ∧ e.days u' = true) ∨ Has l t' s' u' := by
          intro l
          simp [Has]
        rw [hcons, hcons, i1 t' s' u', or_assoc]
      · intro e' he'
        rcases List.mem_cons.1 he' with he' | he'
        · subst he'; exact Or.inl ⟨e', List.mem_cons_self, rfl, rfl⟩
        · rcases i2 e' he' with ⟨e0, h0, h1⟩ | h0
          · exact Or.inl ⟨e0, List.mem_cons_of_mem _ h0, h1⟩
          · exact Or.inr h0

theorem addDay_keys (m : List UtcService) (t : List Int) (s : List SeqStop) (u : Nat) (m' : List UtcService)
    (h : addDay m t s u = some m') (hk : Keys m) : Keys m' := by
  induction m generalizing m' with
  | nil =>
    unfold addDay at h
    obtain ⟨b, _, he⟩ := Option.map_eq_some_iff.1 h
    subst he
    exact List.pairwise_singleton _ _
  | cons e rest ih =>
    unfold addDay at h
    obtain ⟨hk1, hk2⟩ := List.pairwise_cons.1 hk
    by_cases hc : e.times = t ∧ e.stops = s
    · rw [if_pos hc] at h
      obtain ⟨b, _, he⟩ := Option.map_eq_some_iff.1 h
      subst he
      exact List.pairwise_cons.2 ⟨fun a ha => hk1 a ha, hk2⟩
    · rw [if_neg hc] at h
      obtain ⟨r, hr, he⟩ := Option.map_eq_some_iff.1 h
      subst he
      refine List.pairwise_cons.2 ⟨?_, ih r hr hk2⟩
      intro a ha
      rcases (addDay_has rest t s u r hr).2 a ha with ⟨e0, h0, h1, h2⟩ | ⟨h1, h2⟩
      · rw [← h1, ← h2]; exact hk1 e0 h0
      · rw [h1, h2]; exact hc

theorem loop_has (x : ToUtc) (ds : List Int) (m out : List UtcService) (h : x.loop m ds = some out)
    (hk : Keys m) :
    Keys out ∧ ∀ t s u, Has out t s u ↔ Has m t s u ∨ ∃ D ∈ ds, stepKey x D = some (t, s, u) := by
  induction ds generalizing m with
  | nil =>
    cases h
    exact ⟨hk, by simp⟩
  | cons D ds ih =>
    unfold ToUtc.loop at h
    rw [step_eq] at h
    cases hs : stepKey x D with
    | none =>
      rw [hs] at h
      obtain ⟨i1, i2⟩ := ih m h hk
      refine ⟨i1, fun t s u => ?_⟩
      rw [i2 t s u]
      simp [hs]
    | some r =>
      obtain ⟨t0, s0, u0⟩ := r
      rw [hs] at h
      dsimp only at h
      cases ha : addDay m t0 s0 u0 with
      | none => rw [ha] at h; cases h
      | some m1 =>
        rw [ha] at h
        obtain ⟨i1, i2⟩ := ih m1 h (addDay_keys m _ _ _ m1 ha hk)
        refine ⟨i1, fun t s u => ?_⟩
        rw [i2 t s u, (addDay_has m t0 s0 u0 m1 ha).1 t s u]
        simp only [List.mem_cons, exists_eq_or_imp, hs, Option.some.injEq, Prod.mk.injEq]
        constructor
        · rintro ((h | ⟨rfl, rfl, rfl⟩) | h)
          · exact Or.inl h
          · exact Or.inr (Or.inl ⟨rfl, rfl, rfl⟩)
          · exact Or.inr (Or.inr h)
        · rintro (h | ⟨rfl, rfl, rfl⟩ | h)
          · exact Or.inl (Or.inl h)
          · exact Or.inl (Or.inr ⟨rfl, rfl, rfl⟩)
          · exact Or.inr h

theorem loop_none (x : ToUtc) (ds : List Int) (m : List UtcService) :
    x.loop m ds = none ↔ ∃ D ∈ ds, ∃ t s u, stepKey x D = some (t, s, u) ∧ ¬ u < kMaxDays := by
  induction ds generalizing m with
  | nil => simp [ToUtc.loop]
  | cons D ds ih =>
    unfold ToUtc.loop
    rw [step_eq]
    cases hs : stepKey x D with
    | none =>
      dsimp only
      rw [ih m]
      simp [hs]
    | some r =>
      obtain ⟨t0, s0, u0⟩ := r
      dsimp only
      cases ha : addDay m t0 s0 u0 with
      | none =>
        simp only [true_iff]
        exact ⟨D, List.mem_cons_self, t0, s0, u0, hs, (addDay_none m t0 s0 u0).1 ha⟩
      | some m1 =>
        dsimp only
        rw [ih m1]
        have hlt : u0 < kMaxDays := by
          refine Classical.byContradiction fun h => ?_
          rw [(addDay_none m t0 s0 u0).2 h] at ha; cases ha
        constructor
        · rintro ⟨D', hD', r⟩; exact ⟨D', List.mem_cons_of_mem _ hD', r⟩
        · rintro ⟨D', hD', t, s, u, hk, hn⟩
          rcases List.mem_cons.1 hD' with e | hm
          · subst e
            rw [hs] at hk; cases hk
            exact absurd hlt hn
          · exact ⟨D', hm, t, s, u, hk, hn⟩

theorem mem_points (a : Interval) (x : Int) : x ∈ a.points ↔ a.from' ≤ x ∧ x < a.to' := by
  unfold Interval.points
  simp only [List.mem_map, List.mem_range]
  constructor
  · rintro ⟨i, h1, h2⟩; omega
  · rintro ⟨h1, h2⟩; exact ⟨(x - a.from').toNat, by omega, by omega⟩

end Nigiri.Hrd
