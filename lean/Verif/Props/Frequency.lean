import Verif.Model.Frequency
/-!
# Properties C14 (frequency-based trips) and C42 (time parsing)
-/

namespace Nigiri.Frequency

/-- Specification: departure times of a window: `start + i * headway` strictly before the end. -/
def IsDeparture (f : Freq) (t : Int) : Prop :=
  ∃ i : Nat, t = f.startTime + i * f.headway ∧ t < f.endTime

/-- C14: every generated departure of a window is a scheduled one, in order and without
duplicates; and if the window length is a multiple of the headway, all scheduled departures are
generated. -/
theorem C14_window_partial (f : Freq) (hh : 0 < f.headway) (hle : f.startTime ≤ f.endTime)
    (hr : f.endTime - f.startTime < 65536) :
    ∃ n, numberOfIterations f = some n ∧
      (∀ i < n, IsDeparture f (iterationStart f i)) ∧
      (∀ i j, i < j → iterationStart f i < iterationStart f j) ∧
      ((∃ m : Int, f.endTime - f.startTime = m * f.headway) →
        ∀ t, IsDeparture f t → ∃ i < n, t = iterationStart f i) := by
  have hq : Int.tdiv (f.endTime - f.startTime) f.headway = (f.endTime - f.startTime) / f.headway :=
    Int.tdiv_eq_ediv_of_nonneg (by omega)
  have hq0 : 0 ≤ (f.endTime - f.startTime) / f.headway := Int.ediv_nonneg (by omega) (by omega)
  have hq1 : (f.endTime - f.startTime) / f.headway ≤ f.endTime - f.startTime :=
    Int.ediv_le_self _ (by omega)
  have hn : numberOfIterations f = some ((f.endTime - f.startTime) / f.headway).toNat := by
    unfold numberOfIterations
    rw [if_neg (by omega), hq, Int.emod_eq_of_lt hq0 (by omega)]
  refine ⟨_, hn, ?_, ?_, ?_⟩
  · intro i hi
    refine ⟨i, rfl, ?_⟩
    unfold iterationStart
    have h1 : (i : Int) + 1 ≤ (f.endTime - f.startTime) / f.headway := by omega
    have h2 : ((i : Int) + 1) * f.headway ≤ (f.endTime - f.startTime) / f.headway * f.headway :=
      Int.mul_le_mul_of_nonneg_right h1 (by omega)
    have h3 : (f.endTime - f.startTime) / f.headway * f.headway ≤ f.endTime - f.startTime :=
      Int.ediv_mul_le _ (by omega)
    rw [Int.add_mul] at h2
    omega
  · intro i j hij
    unfold iterationStart
    have : (i : Int) * f.headway < (j : Int) * f.headway :=
      Int.mul_lt_mul_of_pos_right (by omega) hh
    omega
  · rintro ⟨m, hm⟩ t ⟨i, rfl, hlt⟩
    refine ⟨i, ?_, rfl⟩
    rw [hm, Int.mul_ediv_cancel _ (by omega)]
    have : (i : Int) * f.headway < m * f.headway := by omega
    have := Int.lt_of_mul_lt_mul_right this (by omega)
    omega

/-- C14 fails if the headway does not divide the window: of the departures 06:00, 06:25, 06:50
before 07:00 only two are generated. -/
theorem C14_last_departure_counterexample :
    let f : Freq := ⟨360, 420, 25⟩
    IsDeparture f 410 ∧ numberOfIterations f = some 2 ∧ ∀ i < 2, iterationStart f i ≠ 410 := by
  refine ⟨⟨2, by decide, by decide⟩, by decide, by decide⟩

/-- C14 fails for a window that ends before it starts (no departures are scheduled): the negative
quotient wraps to an unsigned number of iterations of more than four billion. -/
theorem C14_inverted_window_counterexample :
    let f : Freq := ⟨420, 360, 10⟩
    (∀ t, ¬ IsDeparture f t) ∧ numberOfIterations f = some 4294967290 := by
  constructor
  · rintro t ⟨i, rfl, h⟩
    simp only at h
    omega
  · decide

/-- C14: the stored headway is at least one minute whatever the file contains, so the division is
defined, and it is the nearest minute for headways of at least 30 seconds. -/
theorem C14_headway (secs : Int) :
    1 ≤ headwayMinutes secs ∧
    (30 ≤ secs → 60 * headwayMinutes secs - 30 ≤ secs ∧ secs < 60 * headwayMinutes secs + 30) ∧
    ∀ s e, (numberOfIterations ⟨s, e, headwayMinutes secs⟩).isSome = true := by
  have h1 : 1 ≤ headwayMinutes secs := by unfold headwayMinutes; omega
  refine ⟨h1, ?_, ?_⟩
  · intro h
    unfold headwayMinutes
    rw [if_pos (by omega), Int.tdiv_eq_ediv_of_nonneg (by omega)]
    omega
  · intro s e
    unfold numberOfIterations
    rw [if_neg (by simp only; omega)]
    rfl

private theorem offsets_spec (firstDep : Int) (fs : List Freq) :
    ∀ os, offsets firstDep fs = some os → ∀ o, o ∈ os ↔ ∃ f ∈ fs, ∃ n, numberOfIterations f = some n ∧
      ∃ i < n, o = firstDep - iterationStart f i := by
  induction fs with
  | nil => intro os h o; simp [offsets] at h; subst h; simp
  | cons f fs ih =>
    intro os h o
    simp only [offsets] at h
    split at h
    · rename_i n rest hn hr
      cases h
      simp only [List.mem_append, List.mem_map, List.mem_range, ih rest hr o, List.mem_cons,
        exists_eq_or_imp, hn, Option.some.injEq, exists_eq_left']
      constructor
      · rintro (⟨i, hi, rfl⟩ | h)
        · exact Or.inl ⟨i, hi, rfl⟩
        · exact Or.inr h
      · rintro (⟨i, hi, rfl⟩ | h)
        · exact Or.inl ⟨i, hi, rfl⟩
        · exact Or.inr h
    · simp at h

/-- C14: every generated run departs at a scheduled departure of one of the windows and keeps all
time differences of the template; every iteration of every window yields a run. -/
theorem C14_runs (firstDep : Int) (times : List Int) (fs : List Freq) (os : List Int)
    (h : offsets firstDep fs = some os) :
    (∀ o ∈ os, ∃ f ∈ fs, ∃ n, numberOfIterations f = some n ∧ ∃ i < n,
      runTimes (firstDep :: times) o = iterationStart f i :: times.map (fun x => iterationStart f i + (x - firstDep))) ∧
    (∀ f ∈ fs, ∀ n, numberOfIterations f = some n → ∀ i < n, ∃ o ∈ os,
      (runTimes (firstDep :: times) o).head? = some (iterationStart f i)) := by
  constructor
  · intro o ho
    obtain ⟨f, hf, n, hn, i, hi, rfl⟩ := (offsets_spec firstDep fs os h o).mp ho
    refine ⟨f, hf, n, hn, i, hi, ?_⟩
    simp only [runTimes, List.map_cons, List.cons.injEq]
    refine ⟨by omega, ?_⟩
    apply List.map_congr_left
    intro x _
    omega
  · intro f hf n hn i hi
    refine ⟨firstDep - iterationStart f i, (offsets_spec firstDep fs os h _).mpr ⟨f, hf, n, hn, i, hi, rfl⟩, ?_⟩
    simp only [runTimes, List.map_cons, List.head?_cons, Option.some.injEq]
    omega

example : offsets 480 [⟨360, 420, 20⟩] = some [120, 100, 80] ∧
    runTimes [480, 490, 495] 100 = [380, 390, 395] := by decide

end Nigiri.Frequency

namespace Nigiri.ParseTime

/-- Decimal digits of a two- or more-digit number as text. -/
def IsNumber (s : List Char) (n : Nat) : Prop := s ≠ [] ∧ (∀ c ∈ s, '0' ≤ c ∧ c ≤ '9') ∧
  n = s.foldl (fun acc c => acc * 10 + (c.toNat - '0'.toNat)) 0

private theorem parseArg_number (s rest : List Char) (acc : Nat) (h : ∀ c ∈ s, '0' ≤ c ∧ c ≤ '9')
    (hr : ∀ c, rest.head? = some c → ¬ ('0' ≤ c ∧ c ≤ '9')) :
    parseArg acc (s ++ rest) = (s.foldl (fun acc c => acc * 10 + (c.toNat - '0'.toNat)) acc, rest) := by
  induction s generalizing acc with
  | nil =>
    cases rest with
    | nil => rfl
    | cons c cs =>
      have := hr c rfl
      simp [parseArg, digit, this]
  | cons c s ih =>
    have hc := h c (by simp)
    simp only [List.cons_append, parseArg, digit, hc, and_self, if_true, List.foldl_cons]
    exact ih _ (fun c hc => h c (by simp [hc]))

/-- C42: text of the form `H:M` or `H:M:anything` with decimal `H`, `M` of any length is parsed to
`60 * H + M` minutes (seconds are dropped). -/
theorem C42_hhmm (hs ms tail : List Char) (h m : Nat) (hh : IsNumber hs h) (hm : IsNumber ms m)
    (ht : tail = [] ∨ tail.head? = some ':') :
    hhmmToMin (hs ++ [':'] ++ ms ++ tail) = (h : Int) * 60 + m := by
  obtain ⟨h1, h2, h3⟩ := hh
  obtain ⟨m1, m2, m3⟩ := hm
  have hcolon : ¬ ('0' ≤ ':' ∧ ':' ≤ '9') := by decide
  unfold hhmmToMin
  rw [if_neg]
  · rw [show hs ++ [':'] ++ ms ++ tail = hs ++ (':' :: (ms ++ tail)) by simp]
    rw [parseArg_number hs _ 0 h2 (by intro c hc; simp at hc; subst hc; exact hcolon)]
    simp only
    rw [parseArg_number ms tail 0 m2 (by
      intro c hc
      rcases ht with ht | ht
      · subst ht; simp at hc
      · rw [ht] at hc; cases hc; exact hcolon)]
    rw [h3, m3]
  · cases hs with
    | nil => exact absurd rfl h1
    | cons c cs => simp

/-- C42: an empty or blank field yields the "interpolate" marker, and so does a number without a
separator. -/
theorem C42_missing (s : List Char) (n : Nat) :
    ((∀ c ∈ s, c = ' ') → hhmmToMin s = kInterpolate) ∧ (IsNumber s n → hhmmToMin s = kInterpolate) := by
  constructor
  · intro h
    unfold hhmmToMin
    rw [if_pos (by simpa using h)]
  · rintro ⟨h1, h2, -⟩
    unfold hhmmToMin
    split
    · rfl
    · have := parseArg_number s [] 0 h2 (by simp)
      rw [List.append_nil] at this
      rw [this]

/-- C42 fails for other malformed input: it is not rejected but read as some time. -/
theorem C42_malformed_counterexample :
    hhmmToMin "noon".toList = 0 ∧ hhmmToMin "8h30".toList = 510 ∧ hhmmToMin "08:xx".toList = 480 := by
  decide +kernel

example : IsNumber "25".toList 25 ∧ IsNumber "05".toList 5 ∧ hhmmToMin "25:05:30".toList = 1505 := by
  refine ⟨⟨by decide, by decide, by decide⟩, ⟨by decide, by decide, by decide⟩, by decide +kernel⟩

end Nigiri.ParseTime
