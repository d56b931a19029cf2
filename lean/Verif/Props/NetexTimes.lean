import Verif.Proofs.NetexExpand
/-!
# C105 – C107: times of NeTEx service journeys
-/

namespace Nigiri.Netex

/-! ## C105: conversion of local times -/

/-- **C105**.  Whatever was converted before (`cache` is what the conversion remembers: an interval of the time
zone), a local time is converted to a UTC time at which clocks show it, or – if it is skipped – with the
offset before the change. -/
theorem C105_convert (tz : Tz) (hok : TzOk tz) (cache : Option Info) (hc : ∀ i, cache = some i → i ∈ tz.segments)
    (day x : Int) :
    Converted tz (day + x) (day + (toUtc tz cache day x).1) ∧
      ∀ i, (toUtc tz cache day x).2 = some i → i ∈ tz.segments :=
  toUtc_spec tz hok cache hc day x

/-- **C105**.  A service journey is represented by entries with different times; it has exactly one run for each
local day it is served, which the entry `f g` describes, and there are no other runs. -/
theorem C105_runs (j : Job) (hok : TzOk j.tz) (hn : 2 ≤ j.stops.length) (hsel : j.sel.from' < j.sel.to')
    (hord : (stopAt j.stops 0).dep ≤ (stopAt j.stops (j.stops.length - 1)).arr)
    (out : List (Key × Bitfield)) (h : j.expand = some out) :
    (out.Pairwise fun a b => a.1 ≠ b.1) ∧
    ∃ f : Nat → Key, (∀ g, Served j g → ∃ raw, Represents j g (f g) raw) ∧
      ∀ k u, (∃ b, (k, b) ∈ out ∧ b u = true) ↔ ∃ g, Served j g ∧ f g = k ∧ (u : Int) = g + k.dayOffset := by
  unfold Job.expand at h
  cases hl : j.loop (none, []) (List.range (j.iv.to' - j.iv.from').toNat) with
  | none => rw [hl] at h; cases h
  | some st =>
    rw [hl] at h
    simp only [Option.map_some, Option.some.injEq] at h
    subst h
    obtain ⟨h1, f, h2, h3⟩ := loop_spec j hok hn _ List.nodup_range none [] (by intro i e; cases e) List.Pairwise.nil st hl
    refine ⟨h1, f, ?_, ?_⟩
    · intro g hg
      have := (served_iff j hsel hord g).2 hg
      exact h2 g (List.mem_range.2 this.1) this.2
    · intro k u
      refine (h3 k u).trans ?_
      constructor
      · rintro (⟨b, hb, _⟩ | ⟨g, hg, hs, e1, e2⟩)
        · cases hb
        · exact ⟨g, (served_iff j hsel hord g).1 ⟨List.mem_range.1 hg, hs⟩, e1, e2⟩
      · rintro ⟨g, hg, e1, e2⟩
        have := (served_iff j hsel hord g).2 hg
        exact Or.inr ⟨g, List.mem_range.2 this.1, this.2, e1, e2⟩

/-- Two conversions of a local time that occurs exactly once agree. -/
theorem converted_unique (tz : Tz) (l u v : Int) (hu : IsUtc tz l u) (huniq : ∀ w, IsUtc tz l w → w = u)
    (hv : Converted tz l v) : v = u := by
  rcases hv with hv | hv
  · exact huniq v hv
  · exact absurd hu (hv.1 u)

theorem smoothed_sorted (raw out : List Int) (hs : raw.Pairwise (· ≤ ·)) (h : Smoothed raw out) : out = raw := by
  apply List.ext_getElem h.1
  intro i h1 h2
  obtain ⟨⟨k, hk, e⟩, h4⟩ := h.2 i out[i] (List.getElem?_eq_getElem h1)
  have h5 := h4 i (Nat.le_refl _) raw[i] (List.getElem?_eq_getElem h2)
  obtain ⟨hk', e⟩ := List.getElem?_eq_some_iff.1 e
  rcases Nat.lt_or_ge k i with hlt | hge
  · have := (List.pairwise_iff_getElem.1 hs) k i hk' h2 hlt
    omega
  · have : k = i := by omega
    subst this
    omega

/-- **C105**.  If on a day every local time of the service journey occurs exactly once (`utc`, in order of travel)
and these times are not decreasing, the entry has exactly these times. -/
theorem C105_exact (j : Job) (g : Nat) (k : Key) (raw utc : List Int) (hr : Represents j g k raw)
    (hlen : utc.length = 2 * (j.stops.length - 1)) (hsorted : utc.Pairwise (· ≤ ·))
    (hdep : ∀ i u, i + 1 < j.stops.length → utc[2 * i]? = some u →
      IsUtc j.tz ((j.iv.from' + g) * 1440 + (stopAt j.stops i).dep) u ∧
      ∀ w, IsUtc j.tz ((j.iv.from' + g) * 1440 + (stopAt j.stops i).dep) w → w = u)
    (harr : ∀ i u, i + 1 < j.stops.length → utc[2 * i + 1]? = some u →
      IsUtc j.tz ((j.iv.from' + g) * 1440 + (stopAt j.stops (i + 1)).arr) u ∧
      ∀ w, IsUtc j.tz ((j.iv.from' + g) * 1440 + (stopAt j.stops (i + 1)).arr) w → w = u) :
    k.times.map (· + (j.iv.from' + g + k.dayOffset) * 1440) = utc := by
  have e : raw = utc := by
    apply List.ext_getElem (hr.len.trans hlen.symm)
    intro i h1 h2
    have hl := hr.len
    obtain ⟨q, hq | hq⟩ : ∃ q, i = 2 * q ∨ i = 2 * q + 1 := ⟨i / 2, by omega⟩
    · subst hq
      obtain ⟨u, hu, hc⟩ := hr.dep q (by omega)
      rw [List.getElem?_eq_getElem h1] at hu
      have := hdep q utc[2 * q] (by omega) (List.getElem?_eq_getElem h2)
      rw [Option.some.inj hu]
      exact converted_unique _ _ _ _ this.1 this.2 hc
    · subst hq
      obtain ⟨u, hu, hc⟩ := hr.arr q (by omega)
      rw [List.getElem?_eq_getElem h1] at hu
      have := harr q utc[2 * q + 1] (by omega) (List.getElem?_eq_getElem h2)
      rw [Option.some.inj hu]
      exact converted_unique _ _ _ _ this.1 this.2 hc
  subst e
  rw [smoothed_sorted _ _ (by rw [List.pairwise_map]; exact hsorted.imp (by intros; omega)) hr.times, List.map_map]
  conv => rhs; rw [← List.map_id raw]
  apply List.map_congr_left
  intro x _
  show x - _ + _ = x
  omega

/-- Central European Time with the two changes of a year (minutes since the beginning of the model's year: clocks
are set forward on day 10 at 01:00 UTC and back on day 20 at 01:00 UTC). -/
def cet : Tz := ⟨60, [(14460, 120), (28860, 60)]⟩

theorem C105_cet_ok : TzOk cet := by
  unfold TzOk
  decide

/-- A night train, 23:50 to 02:30 to 06:00, with an operating day before each change. -/
def nightJob : Job :=
  ⟨⟨4, 27⟩, ⟨9, 26⟩, cet, fun g => decide (g ∈ [5, 10, 15]), [⟨0, 1430⟩, ⟨1590, 1595⟩, ⟨1800, 0⟩]⟩

/-- Day 9 (index 5): 02:30 is skipped. Day 14: regular. Day 19: 02:30 occurs twice, the first one is taken. -/
theorem C105_demo :
    nightJob.expand.map (fun l => l.map fun x => (x.1.times, x.1.dayOffset, x.1.tzOffset, (List.range 30).filter x.2)) =
      some [([1370, 1530, 1535, 1680], 0, 60, [5]), ([1310, 1470, 1475, 1680], 0, 120, [10]),
        ([1310, 1470, 1475, 1740], 0, 120, [15])] ∧
    (stopAt nightJob.stops 0).dep ≤ (stopAt nightJob.stops (nightJob.stops.length - 1)).arr := by
  refine ⟨by decide +kernel, by decide⟩

/-! ## C106: no access outside of the days -/

theorem segs_off {l : List (Int × Int)} {lo : Option Int} {o : Int} {s : Info} (hs : s ∈ segs lo o l) :
    s.off = o ∨ ∃ c ∈ l, s.off = c.2 := by
  induction l generalizing lo o with
  | nil =>
    simp only [segs, List.mem_singleton] at hs
    subst hs; exact Or.inl rfl
  | cons c r ih =>
    obtain ⟨t, o2⟩ := c
    simp only [segs, List.mem_cons] at hs
    rcases hs with rfl | hs
    · exact Or.inl rfl
    · rcases ih hs with e | ⟨c, hc, e⟩
      · exact Or.inr ⟨(t, o2), List.mem_cons_self .., e⟩
      · exact Or.inr ⟨c, List.mem_cons_of_mem _ hc, e⟩

/-- Clocks differ from UTC by less than a day. -/
def TzDay (tz : Tz) : Prop := (-1440 < tz.first ∧ tz.first < 1440) ∧ ∀ c ∈ tz.changes, -1440 < c.2 ∧ c.2 < 1440

theorem loop_total (j : Job) (hok : TzOk j.tz) (hn : 2 ≤ j.stops.length) (gs : List Nat)
    (hb : ∀ g ∈ gs, j.served g = true → ∀ c, CacheOk j.tz c →
      0 ≤ (g : Int) + (j.key c g).1.dayOffset ∧ (g : Int) + (j.key c g).1.dayOffset < 512)
    (c : Option Info) (hc : CacheOk j.tz c) (m : List (Key × Bitfield)) : ∃ st, j.loop (c, m) gs = some st := by
  induction gs generalizing c m with
  | nil => exact ⟨_, rfl⟩
  | cons g r ih =>
    have ih := ih fun g hg => hb g (List.mem_cons_of_mem _ hg)
    simp only [Job.loop, Job.step]
    by_cases hs : j.served g = true
    · rw [if_pos hs, if_pos (hb g (List.mem_cons_self ..) hs c hc)]
      simp only [Option.bind_some]
      exact ih _ (key_spec j hok hn c hc g).2 _
    · rw [if_neg hs]
      simp only [Option.bind_some]
      exact ih c hc m

/-- **C106**.  No day outside of the timetable is set for service journeys that take less than five calendar
days, if the timetable has at most 512 days including the five days before and the day after the selected
range. -/
theorem C106_in_range (j : Job) (hok : TzOk j.tz) (hday : TzDay j.tz) (hn : 2 ≤ j.stops.length)
    (hsel : j.sel.from' = j.iv.from' + 5 ∧ j.sel.to' = j.iv.to' - 1) (hdays : j.iv.to' - j.iv.from' ≤ 512)
    (hpos : 0 ≤ (stopAt j.stops 0).dep)
    (hdur : (stopAt j.stops (j.stops.length - 1)).arr.tdiv 1440 ≤ (stopAt j.stops 0).dep.tdiv 1440 + 4) :
    ∃ out, j.expand = some out := by
  unfold Job.expand
  obtain ⟨st, h⟩ := loop_total j hok hn (List.range (j.iv.to' - j.iv.from').toNat) (by
    intro g hg hs c hc
    have hg := List.mem_range.1 hg
    unfold Job.served Job.firstDay Job.lastDay at hs
    simp only [head_stopAt, last_stopAt, Bool.and_eq_true, decide_eq_true_eq] at hs
    unfold Job.key
    simp only [head_stopAt]
    have hcv := (toUtc_spec j.tz hok c hc ((j.iv.from' + g) * 1440) (stopAt j.stops 0).dep).2
    have hoff : ∀ i, (toUtc j.tz c ((j.iv.from' + g) * 1440) (stopAt j.stops 0).dep).2 = some i →
        (toUtc j.tz c ((j.iv.from' + g) * 1440) (stopAt j.stops 0).dep).1 = (stopAt j.stops 0).dep - i.off := by
      intro i hi
      unfold toUtc at hi ⊢
      simp only [Option.some.injEq] at hi
      simp only [hi]
    obtain ⟨i, hi⟩ : ∃ i, (toUtc j.tz c ((j.iv.from' + g) * 1440) (stopAt j.stops 0).dep).2 = some i := ⟨_, rfl⟩
    have hb : -1440 < i.off ∧ i.off < 1440 := by
      rcases segs_off (hcv i hi) with e | ⟨d, hd, e⟩
      · rw [e]; exact hday.1
      · rw [e]; exact hday.2 d hd
    rw [hoff i hi]
    rw [Int.tdiv_eq_ediv_of_nonneg hpos] at hdur hs
    generalize (stopAt j.stops (j.stops.length - 1)).arr.tdiv 1440 = b at *
    generalize (stopAt j.stops 0).dep = a at *
    omega) none (by intro i e; cases e) []
  exact ⟨st.2, by rw [h]; rfl⟩

theorem C106_demo : TzOk nightJob.tz ∧ TzDay nightJob.tz ∧ 2 ≤ nightJob.stops.length ∧
    (nightJob.sel.from' = nightJob.iv.from' + 5 ∧ nightJob.sel.to' = nightJob.iv.to' - 1) ∧
    (stopAt nightJob.stops (nightJob.stops.length - 1)).arr.tdiv 1440 ≤ (stopAt nightJob.stops 0).dep.tdiv 1440 + 4 :=
  ⟨C105_cet_ok, by unfold TzDay; decide, by decide, by decide, by decide⟩

/-- The bound is sharp: a service journey that starts at 00:30 local time (so on the day before in UTC) on
the first of the five days before the selected range and ends five days later has a negative day. -/
theorem C106_sharp :
    (Job.expand ⟨⟨4, 27⟩, ⟨9, 26⟩, cet, fun g => decide (g = 0), [⟨0, 30⟩, ⟨7300, 0⟩]⟩).isNone = true := by
  decide +kernel

/-! ## C107: missing times -/

/-- The stop times of a service journey as given in the file: hours and minutes of arrival and departure with
their day offsets. -/
structure GivenTimes where
  arr : Option (Nat × Nat)
  arrDay : Int
  dep : Option (Nat × Nat)
  depDay : Int

/-- `load_timetable.cc:997-1000` and `1028-1032`. -/
def stopTime (t : GivenTimes) : StopTime := ⟨parseTime t.arr t.arrDay, parseTime t.dep t.depDay⟩

/-- **C107** (partial: for times that are given; see `C107_missing_arrival`).  A given time is the minutes since the
beginning of the operating day. -/
theorem C107_given_partial (t : GivenTimes) :
    (∀ h m, t.arr = some (h, m) → (stopTime t).arr = t.arrDay * 1440 + h * 60 + m) ∧
    (∀ h m, t.dep = some (h, m) → (stopTime t).dep = t.depDay * 1440 + h * 60 + m) := by
  constructor
  · intro h m e
    simp only [stopTime, parseTime, e]; omega
  · intro h m e
    simp only [stopTime, parseTime, e]; omega

/-- **C107 is false in full.**  10:00 – 10:30 – 11:00 where only the departure of the stop in between is given: the
loader says that it is reached at 10:00 (UTC), when the vehicle leaves the first stop. -/
theorem C107_missing_arrival :
    (Job.expand ⟨⟨4, 27⟩, ⟨9, 26⟩, ⟨0, []⟩, fun g => decide (g = 7),
      [⟨none, 0, some (10, 0), 0⟩, ⟨none, 0, some (10, 30), 0⟩, ⟨some (11, 0), 0, none, 0⟩].map stopTime⟩).map
      (fun l => l.map fun x => x.1.times) = some [[600, 600, 630, 660]] := by
  decide +kernel

end Nigiri.Netex
