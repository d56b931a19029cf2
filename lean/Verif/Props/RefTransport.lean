import Verif.Props.ResolveLoaded
/-!
# Property C71: the reference transport of a trip on a day

`get_ref_transport(tt, id, day, gtfs_local_day)` finds the run of the trip that departs on the given
calendar day: of UTC, or of the local time of the trip's agency.
-/

namespace Nigiri.Resolve
open LocalToUtc

/-- Specification: the calendar day of the first departure of the run, on a clock `tz` minutes ahead of
UTC. -/
def depDay (tt : TT) (r : Run) (tz : Int) : Int := (utcDep tt r + tz) / 1440


/-- C71 (all runs): the runs visited are exactly the runs of the trips with this id that depart on the
requested day — provided no departure, on the requested clock, precedes the midnight of its UTC day
(always true for the UTC day). Days are within 50000 days of the timetable. -/
theorem C71_departure_day_partial (tt : TT) (hs : IdsSorted tt) (id : TripId) (day : Int) (localDay : Bool) (noon : Nat → Int)
    (hclock : ∀ trip, ∀ x ∈ tt.ranges trip, 0 ≤ (tt.transport x.t).dep x.fr + (if localDay then noon x.t else 0) ∧
      (tt.transport x.t).dep x.fr + (if localDay then noon x.t else 0) < 72000)
    (hday : -10000 ≤ day ∧ day < 50000) (r : Run) :
    r ∈ scheduleTransports tt id day localDay noon ↔
      ∃ trip, (id, trip) ∈ tt.ids ∧ RunOf tt trip r ∧ depDay tt r (if localDay then noon r.t else 0) = day := by
  unfold scheduleTransports
  simp only [List.mem_flatMap, List.mem_filterMap]
  have hmem : ∀ trip, trip ∈ tripsOf tt id ↔ (id, trip) ∈ tt.ids := by
    intro trip
    rw [C69_trip_id tt hs, List.mem_map]
    constructor
    · rintro ⟨⟨a, b⟩, h, rfl⟩
      rw [List.mem_filter] at h
      have : a = id := by simpa using h.2
      subst this; exact h.1
    · intro h
      exact ⟨(id, trip), by simp [List.mem_filter, h], rfl⟩
  have key : ∀ trip, ∀ x ∈ tt.ranges trip, ∀ d : Nat, d < 512 →
      (toUnsigned 16 (day - ((tt.transport x.t).dep x.fr + (if localDay then noon x.t else 0)).tdiv 1440) = d ↔
        ((d : Int) * 1440 + (tt.transport x.t).dep x.fr + (if localDay then noon x.t else 0)) / 1440 = day) := by
    intro trip x hx d hd
    obtain ⟨h1, h2⟩ := hclock trip x hx
    rw [tdiv_nonneg _ h1]
    generalize (tt.transport x.t).dep x.fr = D at *
    generalize (if localDay then noon x.t else 0) = Z at *
    generalize hq : (D + Z) / 1440 = q
    have hq0 : 0 ≤ q := by omega
    have hq1 : q < 50 := by omega
    have e1 : ((d : Int) * 1440 + D + Z) / 1440 = d + q := by omega
    rw [e1]
    unfold toUnsigned
    constructor
    · intro h
      by_cases hn : day - q < 0
      · exfalso; omega
      · omega
    · intro h
      omega
  constructor
  · rintro ⟨trip, htrip, x, hx, h⟩
    by_cases hact : isActive (tt.transport x.t) (toUnsigned 16
        (day - ((tt.transport x.t).dep x.fr + (if localDay then noon x.t else 0)).tdiv 1440)) = true
    · rw [if_pos hact] at h
      have hact := (isActive_iff _ _).1 hact
      have := Option.some.inj h
      subst this
      refine ⟨trip, (hmem trip).1 htrip, ⟨hx, hact⟩, ?_⟩
      exact (key trip x hx _ hact.1).1 rfl
    · rw [if_neg hact] at h
      cases h
  · rintro ⟨trip, htrip, ⟨h1, h2, h3⟩, h4⟩
    refine ⟨trip, (hmem trip).2 htrip, ⟨r.t, r.fr, r.to⟩, h1, ?_⟩
    have := (key trip _ h1 r.day h2).2 h4
    dsimp only at this ⊢
    rw [this, if_pos ((isActive_iff _ _).2 ⟨h2, h3⟩)]

theorem ref_best (l : List Run) : ∀ acc : Option Run,
    (∀ o, l.foldl (fun acc r => match acc with
      | none => some r
      | some b => if r.to - r.fr > b.to - b.fr then some r else some b) acc = o →
    (o = none → acc = none ∧ l = []) ∧
    (∀ x, o = some x → (x ∈ l ∨ acc = some x) ∧ (∀ y ∈ l, y.to - y.fr ≤ x.to - x.fr) ∧
      (∀ y, acc = some y → y.to - y.fr ≤ x.to - x.fr))) := by
  induction l with
  | nil =>
    intro acc o ho
    simp only [List.foldl_nil] at ho
    subst ho
    exact ⟨fun h => ⟨h, rfl⟩, fun x hx => ⟨.inr hx, fun y hy => (by cases hy), fun y hy => (by
      rw [hx] at hy; rw [Option.some.inj hy]; exact Nat.le_refl _)⟩⟩
  | cons r l ih =>
    intro acc o ho
    rw [List.foldl_cons] at ho
    obtain ⟨h1, h2⟩ := ih _ o ho
    have hsome : ∃ z, (match acc with
      | none => some r
      | some b => if r.to - r.fr > b.to - b.fr then some r else some b) = some z ∧
        (z = r ∨ acc = some z) ∧ r.to - r.fr ≤ z.to - z.fr ∧ (∀ y, acc = some y → y.to - y.fr ≤ z.to - z.fr) := by
      cases acc with
      | none => exact ⟨r, rfl, .inl rfl, Nat.le_refl _, fun y hy => by cases hy⟩
      | some b =>
        dsimp only
        by_cases h : r.to - r.fr > b.to - b.fr
        · rw [if_pos h]
          exact ⟨r, rfl, .inl rfl, Nat.le_refl _, fun y hy => by rw [← Option.some.inj hy]; omega⟩
        · rw [if_neg h]
          exact ⟨b, rfl, .inr rfl, by omega, fun y hy => by rw [← Option.some.inj hy]; exact Nat.le_refl _⟩
    obtain ⟨z, hz, hz1, hz2, hz3⟩ := hsome
    rw [hz] at h1 h2
    refine ⟨fun h => (by cases (h1 h).1), fun x hx => ?_⟩
    obtain ⟨a, b, c⟩ := h2 x hx
    refine ⟨?_, ?_, ?_⟩
    · rcases a with a | a
      · exact .inl (List.mem_cons_of_mem _ a)
      · have := Option.some.inj a
        subst this
        rcases hz1 with rfl | hz1
        · exact .inl (by simp)
        · exact .inr hz1
    · intro y hy
      have := c z rfl
      rcases List.mem_cons.1 hy with rfl | hy
      · omega
      · exact b y hy
    · intro y hy
      have := c z rfl
      have := hz3 y hy
      omega

/-- C71: `get_ref_transport` returns a run of a trip with this id that departs on the requested day, and
among those one that covers the most stops; it returns nothing only if there is none. Same proviso. -/
theorem C71_reference_partial (tt : TT) (hs : IdsSorted tt) (id : TripId) (day : Int) (localDay : Bool) (noon : Nat → Int)
    (hclock : ∀ trip, ∀ x ∈ tt.ranges trip, 0 ≤ (tt.transport x.t).dep x.fr + (if localDay then noon x.t else 0) ∧
      (tt.transport x.t).dep x.fr + (if localDay then noon x.t else 0) < 72000)
    (hday : -10000 ≤ day ∧ day < 50000) :
    (∀ r, refTransport tt id day localDay noon = some r →
      (∃ trip, (id, trip) ∈ tt.ids ∧ RunOf tt trip r ∧ depDay tt r (if localDay then noon r.t else 0) = day) ∧
      ∀ r' trip, (id, trip) ∈ tt.ids → RunOf tt trip r' → depDay tt r' (if localDay then noon r'.t else 0) = day →
        r'.to - r'.fr ≤ r.to - r.fr) ∧
    (refTransport tt id day localDay noon = none →
      ¬ ∃ r trip, (id, trip) ∈ tt.ids ∧ RunOf tt trip r ∧ depDay tt r (if localDay then noon r.t else 0) = day) := by
  have hc := C71_departure_day_partial tt hs id day localDay noon hclock hday
  obtain ⟨h1, h2⟩ := ref_best (scheduleTransports tt id day localDay noon) none _ rfl
  constructor
  · intro r hr
    obtain ⟨a, b, -⟩ := h2 r hr
    refine ⟨(hc r).1 (a.resolve_right (by simp)), ?_⟩
    intro r' trip k1 k2 k3
    exact b r' ((hc r').2 ⟨trip, k1, k2, k3⟩)
  · rintro h ⟨r, trip, k⟩
    have := (hc r).2 ⟨trip, k⟩
    rw [(h1 h).2] at this
    cases this

/-- C71 for the UTC day: no proviso is needed, departures are stored as non-negative offsets. -/
theorem C71_utc_day (tt : TT) (hs : IdsSorted tt) (id : TripId) (day : Int) (noon : Nat → Int)
    (hdep : ∀ trip, ∀ x ∈ tt.ranges trip, 0 ≤ (tt.transport x.t).dep x.fr ∧ (tt.transport x.t).dep x.fr < 72000)
    (hday : -10000 ≤ day ∧ day < 50000) :
    (∀ r, refTransport tt id day false noon = some r →
      (∃ trip, (id, trip) ∈ tt.ids ∧ RunOf tt trip r ∧ depDay tt r 0 = day) ∧
      ∀ r' trip, (id, trip) ∈ tt.ids → RunOf tt trip r' → depDay tt r' 0 = day → r'.to - r'.fr ≤ r.to - r.fr) ∧
    (refTransport tt id day false noon = none →
      ¬ ∃ r trip, (id, trip) ∈ tt.ids ∧ RunOf tt trip r ∧ depDay tt r 0 = day) := by
  have := C71_reference_partial tt hs id day false noon (by
    intro trip x hx
    have := hdep trip x hx
    simpa using this) hday
  simpa only [Bool.false_eq_true, if_false] using this

/-! ### Non-vacuity and counterexample -/

example : IdsSorted demoTT ∧
    refTransport demoTT [0, 66] 1 false (fun _ => 0) = some ⟨1, 1, 1, 4⟩ ∧
    refTransport demoTT [0, 66] 2 true (fun _ => 120) = some ⟨1, 1, 1, 4⟩ ∧
    refTransport demoTT [0, 66] 1 true (fun _ => 120) = none := by
  refine ⟨?_, by decide +kernel⟩
  unfold IdsSorted
  decide +kernel

/-- Counterexample (timezones west of Greenwich): a trip with UTC offset -300 that leaves at 02:00 UTC of
day 3, which is 21:00 local time of day 2. The division truncates towards zero, so the departure is
taken to be on local day 3: the run is found for day 3 and not for day 2. -/
theorem C71_local_day_false :
    let tt : TT := { emptyTT with
      transport := fun _ => { off := Delta.ofOffset 1 (-300), dep := fun k => 120 + 10 * k, days := fun d => d = 3,
                              sections := [0], numStops := 2 }
      ranges := fun _ => [⟨0, 0, 2⟩]
      ids := [([0, 65], 0)] }
    depDay tt ⟨0, 3, 0, 2⟩ (-300) = 2 ∧
    refTransport tt [0, 65] 2 true (fun _ => -300) = none ∧
    refTransport tt [0, 65] 3 true (fun _ => -300) = some ⟨0, 3, 0, 2⟩ := by
  decide +kernel

end Nigiri.Resolve
