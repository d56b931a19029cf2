import Verif.Proofs.NetexCal
/-!
# C103, C104: days of NeTEx service journeys
-/

namespace Nigiri.Netex

/-! ## C103: operating periods and availability conditions -/

/-- **C103**.  An operating period is accepted iff it has a character for each of its days, and then it
contains exactly its days that are in the timetable (`iv`) and among the first 512 days of it. -/
theorem C103_period (iv : Interval) (p : Period) :
    (∀ b, operatingPeriod iv p = some b →
      ∀ j : Nat, b j = true ↔ j < 512 ∧ iv.from' + j < iv.to' ∧ p.Valid (iv.from' + j)) ∧
    ((∃ b, operatingPeriod iv p = some b) ↔ p.last - p.first + 1 ≤ p.bits.length) := by
  constructor
  · intro b hb
    by_cases hl : p.last - p.first + 1 ≤ p.bits.length
    · obtain ⟨b', h1, h2⟩ := period_spec iv p hl
      rw [h1] at hb
      cases hb
      exact h2
    · unfold operatingPeriod at hb
      rw [if_neg hl] at hb; cases hb
  · constructor
    · rintro ⟨b, hb⟩
      refine Classical.byContradiction fun hl => ?_
      unfold operatingPeriod at hb
      rw [if_neg hl] at hb; cases hb
    · intro hl
      obtain ⟨b, h, _⟩ := period_spec iv p hl
      exact ⟨b, h⟩

/-- Identifiers of periods are given and different. -/
def IdsOk (ps : List Period) : Prop := (∀ p ∈ ps, p.id ≠ 0) ∧ ps.Pairwise fun a b => a.id ≠ b.id

theorem find_period {ps : List Period} (h : ps.Pairwise fun a b => a.id ≠ b.id) {p : Period} (hp : p ∈ ps) :
    (ps.find? fun q => decide (q.id = p.id)) = some p := by
  induction ps with
  | nil => cases hp
  | cons q r ih =>
    have hh := List.pairwise_cons.1 h
    rcases List.mem_cons.1 hp with rfl | hp
    · rw [List.find?_cons_of_pos (by simp)]
    · rw [List.find?_cons_of_neg (by simpa using hh.1 p hp)]
      exact ih hh.2 hp

theorem file_periods {iv : Interval} {ps : List Period} {m : List (Nat × Bitfield)} (hm : operatingPeriods iv ps = some m)
    (hok : IdsOk ps) (r : Nat) (hr : r ≠ 0) (b : Bitfield) (hb : find m r = some b) :
    ∀ j : Nat, b j = true ↔ j < 512 ∧ iv.from' + j < iv.to' ∧ ∃ p ∈ ps, p.id = r ∧ p.Valid (iv.from' + j) := by
  have := periods_fold iv ps [(0, always)] m hm r
  rw [show find [(0, always)] r = none by rw [find_none]; intro x hx; simp at hx; subst hx; exact fun h => hr h.symm] at this
  simp only at this
  rw [hb] at this
  cases hf : ps.find? fun p => decide (p.id = r) with
  | none => rw [hf] at this; cases this
  | some p =>
    rw [hf] at this
    simp only [Option.bind_some] at this
    have hid : p.id = r := by simpa using List.find?_some hf
    have hmem := List.mem_of_find?_eq_some hf
    intro j
    rw [(C103_period iv p).1 b this.symm j]
    constructor
    · rintro ⟨h1, h2, h3⟩; exact ⟨h1, h2, p, hmem, hid, h3⟩
    · rintro ⟨h1, h2, q, hq, e, h3⟩
      have := find_period hok.2 hq
      rw [e, hf] at this
      cases this
      exact ⟨h1, h2, h3⟩

/-- **C103**.  A service journey with an availability condition runs on exactly its days. -/
theorem C103_validity (iv : Interval) (f : CalFile) (hok : IdsOk f.periods) (c : Cal) (r : Nat) (hr : r ≠ 0)
    (hc : c.validity = some r) (b : Bitfield) (h : fileDays iv f c = some b) (j : Nat) :
    b j = true ↔ j < 512 ∧ iv.from' + j < iv.to' ∧ ∃ p ∈ f.periods, p.id = r ∧ p.Valid (iv.from' + j) := by
  unfold fileDays at h
  cases hm : operatingPeriods iv f.periods with
  | none => rw [hm] at h; cases h
  | some m =>
    rw [hm] at h
    simp only [Option.bind_some] at h
    cases ht : dayTypes [] m f.assignments with
    | none => rw [ht] at h; cases h
    | some ts =>
      rw [ht] at h
      simp only [Option.bind_some, trafficDays, hc] at h
      have hl : lookupAt [] m r = find m r := by unfold lookupAt; cases find m r <;> rfl
      rw [hl] at h
      exact file_periods hm hok r hr b h j

/-- A file with a period of ten days, of which the 1st, 3rd and 10th are marked; the timetable starts on
its second day. -/
def demoCal : CalFile where
  periods := [⟨7, 100, 109, [true, false, true, false, false, false, false, false, false, true]⟩,
    ⟨8, 101, 102, [true, true]⟩]
  assignments := [⟨50, 7⟩, ⟨51, 8⟩]

theorem C103_demo : IdsOk demoCal.periods ∧
    (fileDays ⟨101, 130⟩ demoCal ⟨some 7, []⟩).map (fun b => (List.range 20).filter b) = some [1, 8] ∧
    (fileDays ⟨101, 130⟩ demoCal ⟨none, [51]⟩).map (fun b => (List.range 20).filter b) = some [0, 1] := by
  refine ⟨⟨?_, ?_⟩, by decide, by decide⟩
  · intro p hp
    simp only [demoCal, List.mem_cons, List.not_mem_nil, or_false] at hp
    rcases hp with rfl | rfl <;> decide
  · simp [demoCal]

/-! ## C104: day types -/

theorem find_assignment {as : List DayTypeAssignment} (h : as.Pairwise fun a b => a.dayType ≠ b.dayType)
    {a : DayTypeAssignment} (ha : a ∈ as) : (as.find? fun q => decide (q.dayType = a.dayType)) = some a := by
  induction as with
  | nil => cases ha
  | cons q r ih =>
    have hh := List.pairwise_cons.1 h
    rcases List.mem_cons.1 ha with rfl | ha
    · rw [List.find?_cons_of_pos (by simp)]
    · rw [List.find?_cons_of_neg (by simpa using hh.1 a ha)]
      exact ih hh.2 ha

/-- **C104** (partial: a service journey with one day type that has a single assignment, by an operating
period; see `C104_second_assignment`, `C104_second_day_type` and `C104_date` for the rest).  The service
journey runs on exactly the days of the assigned operating period. -/
theorem C104_day_type_partial (iv : Interval) (f : CalFile) (hok : IdsOk f.periods)
    (hone : f.assignments.Pairwise fun a b => a.dayType ≠ b.dayType) (hper : ∀ a ∈ f.assignments, a.period ≠ 0)
    (c : Cal) (t : Nat) (hc : c.validity = none) (ht : c.dayTypes = [t]) (b : Bitfield)
    (h : fileDays iv f c = some b) (j : Nat) :
    b j = true ↔ j < 512 ∧ iv.from' + j < iv.to' ∧
      ∃ a ∈ f.assignments, a.dayType = t ∧ ∃ p ∈ f.periods, p.id = a.period ∧ p.Valid (iv.from' + j) := by
  unfold fileDays at h
  cases hm : operatingPeriods iv f.periods with
  | none => rw [hm] at h; cases h
  | some m =>
    rw [hm] at h
    simp only [Option.bind_some] at h
    cases hts : dayTypes [] m f.assignments with
    | none => rw [hts] at h; cases h
    | some ts =>
      rw [hts] at h
      simp only [Option.bind_some, trafficDays, hc, ht, List.headD_cons] at h
      have hl : lookupAt [] ts t = find ts t := by unfold lookupAt; cases find ts t <;> rfl
      rw [hl] at h
      have := types_fold m f.assignments [] ts hts t
      rw [find_nil, h] at this
      simp only at this
      cases hf : f.assignments.find? fun a => decide (a.dayType = t) with
      | none => rw [hf] at this; cases this
      | some a =>
        rw [hf] at this
        simp only [Option.bind_some] at this
        have hid : a.dayType = t := by simpa using List.find?_some hf
        have hmem := List.mem_of_find?_eq_some hf
        rw [file_periods hm hok a.period (hper a hmem) b this.symm j]
        constructor
        · rintro ⟨h1, h2, h3⟩; exact ⟨h1, h2, a, hmem, hid, h3⟩
        · rintro ⟨h1, h2, a', ha', e, h3⟩
          refine ⟨h1, h2, ?_⟩
          have h4 := find_assignment hone ha'
          rw [e, hf] at h4
          cases h4
          exact h3

/-- **C104 is false in full.**  A day type is assigned two operating periods (day 1 and day 5): service
journeys run in the first one only. -/
theorem C104_second_assignment :
    (fileDays ⟨100, 130⟩ ⟨[⟨7, 101, 101, [true]⟩, ⟨8, 105, 105, [true]⟩], [⟨50, 7⟩, ⟨50, 8⟩]⟩ ⟨none, [50]⟩).map
      (fun b => (List.range 20).filter b) = some [1] := by decide

/-- **C104 is false in full.**  A service journey with two day types runs on the days of the first one
only. -/
theorem C104_second_day_type :
    (fileDays ⟨100, 130⟩ ⟨[⟨7, 101, 101, [true]⟩, ⟨8, 105, 105, [true]⟩], [⟨50, 7⟩, ⟨51, 8⟩]⟩ ⟨none, [50, 51]⟩).map
      (fun b => (List.range 20).filter b) = some [1] := by decide

/-- **C104 is false in full.**  A day type that is assigned to a date (a `DayTypeAssignment` with `Date` and
without `OperatingPeriodRef`) contains every day. -/
theorem C104_date :
    fileDays ⟨100, 130⟩ ⟨[⟨7, 101, 101, [true]⟩], [⟨50, 0⟩]⟩ ⟨none, [50]⟩ = some always := by
  rfl

end Nigiri.Netex
