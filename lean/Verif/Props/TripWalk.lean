import Verif.Props.ResolveLoaded
/-!
# Property C70: the trips of a run

A run may serve several trips one after the other (a block); consecutive trips share a stop. The
functions of `run_stop` that walk to the begin or end of the trip, and `for_each_trip`, must agree with
the stop ranges recorded by the loader, and the service date and start time reported for a trip must
lead back to the run.
-/

namespace Nigiri.Resolve
open LocalToUtc

/-- The trip of every section of the block. -/
def flat (trips : List (Nat × Nat)) : List Nat := trips.flatMap fun x => List.replicate (x.2 - 1) x.1

theorem flat_length (trips : List (Nat × Nat)) : (flat trips).length = (trips.map fun x => x.2 - 1).sum := by
  induction trips with
  | nil => rfl
  | cons x xs ih => simp only [flat, List.flatMap_cons, List.length_append, List.length_replicate, List.map_cons,
      List.sum_cons] at *; omega

theorem blockStops_flat (trips : List (Nat × Nat)) : blockStops trips = (flat trips).length + 1 := by
  rw [flat_length]; rfl

/-- The trip of a section does not depend on how the sections are stored. -/
theorem tripAt_dep (s : Service) (hn : ∀ x ∈ s.trips, 2 ≤ x.2) (j : Nat) (hj : j < (flat s.trips).length) :
    tripAt (transportOf s) j .dep = (flat s.trips)[j]? := by
  unfold tripAt transportOf
  dsimp only
  match h : s.trips with
  | [] => rw [h] at hj; simp [flat] at hj
  | [(t, n)] =>
    rw [h] at hj
    simp only [blockSections, flat, List.flatMap_cons, List.flatMap_nil, List.append_nil, List.length_replicate] at *
    simp [hj]
  | (t, n) :: (t', n') :: r =>
    have h1 := hn (t, n) (by rw [h]; simp)
    have h2 := hn (t', n') (by rw [h]; simp)
    dsimp only at h1 h2
    have : blockSections ((t, n) :: (t', n') :: r) = flat ((t, n) :: (t', n') :: r) := rfl
    rw [this, if_neg]
    rw [flat_length]
    simp only [List.map_cons, List.sum_cons]
    omega

theorem tripAt_arr (s : Service) (hn : ∀ x ∈ s.trips, 2 ≤ x.2) (j : Nat) (hj : j < (flat s.trips).length) :
    tripAt (transportOf s) (j + 1) .arr = (flat s.trips)[j]? := by
  rw [← tripAt_dep s hn j hj]
  unfold tripAt
  rw [if_neg (Nat.succ_ne_zero j)]
  rfl

/-- Sections of a trip in the flattened block. -/
theorem flat_iff : ∀ (l : List (Nat × Nat)) (p trip fr to j : Nat), (l.map (·.1)).Nodup → (∀ x ∈ l, 2 ≤ x.2) →
    (trip, fr, to) ∈ blockRanges p l →
    p ≤ fr ∧ fr + 2 ≤ to ∧ to ≤ p + (flat l).length + 1 ∧
      ((flat l)[j]? = some trip ↔ fr ≤ p + j ∧ p + j + 1 < to)
  | [], _, _, _, _, _, _, _, h => by simp [blockRanges] at h
  | (t, n) :: l, p, trip, fr, to, j, hnd, hn, h => by
    rw [List.map_cons, List.nodup_cons] at hnd
    have h2 := hn (t, n) (by simp)
    dsimp only at h2
    have hflat : flat ((t, n) :: l) = List.replicate (n - 1) t ++ flat l := rfl
    simp only [blockRanges, List.mem_cons] at h
    rw [hflat, List.length_append, List.length_replicate]
    have hnot : ∀ j : Nat, (flat l)[j]? ≠ some t := by
      intro j hj
      have := List.mem_of_getElem? hj
      simp only [flat, List.mem_flatMap] at this
      obtain ⟨x, hx, hxt⟩ := this
      have := List.eq_of_mem_replicate hxt
      exact hnd.1 (List.mem_map.2 ⟨x, hx, this.symm⟩)
    rcases h with h | h
    · injection h with h3 h4
      injection h4 with h4 h5
      subst h3 h4 h5
      refine ⟨by omega, by omega, by omega, ?_⟩
      by_cases hj : j < n - 1
      · rw [List.getElem?_append_left (by simpa using hj), List.getElem?_replicate, if_pos hj]
        constructor
        · intro _; omega
        · intro _; rfl
      · rw [List.getElem?_append_right (by simpa using hj)]
        constructor
        · intro h; exact absurd h (hnot _)
        · intro h; omega
    · obtain ⟨a, b, c, -⟩ := flat_iff l (p + n - 1) trip fr to 0 hnd.2 (fun x hx => hn x (List.mem_cons_of_mem _ hx)) h
      refine ⟨by omega, by omega, by omega, ?_⟩
      have hne : t ≠ trip := by
        intro he; subst he
        exact hnd.1 (blockRanges_mem _ _ _ h)
      by_cases hj : j < n - 1
      · rw [List.getElem?_append_left (by simpa using hj), List.getElem?_replicate, if_pos hj]
        constructor
        · intro h; exact absurd (Option.some.inj h) hne
        · intro h; omega
      · rw [List.getElem?_append_right (by simpa using hj), List.length_replicate]
        obtain ⟨-, -, -, hd⟩ := flat_iff l (p + n - 1) trip fr to (j - (n - 1)) hnd.2
          (fun x hx => hn x (List.mem_cons_of_mem _ hx)) h
        rw [hd]
        constructor <;> intro h <;> omega

/-- The trip occupies exactly the stops `[fr, to)` of the transport, as far as `get_trip_idx` says. -/
structure Owns (tr : Transport) (trip fr to : Nat) : Prop where
  dep : ∀ i, i + 1 < tr.numStops → (tripAt tr i .dep = some trip ↔ fr ≤ i ∧ i + 1 < to)
  arr : ∀ i, 0 < i → i < tr.numStops → (tripAt tr i .arr = some trip ↔ fr < i ∧ i < to)
  two : fr + 2 ≤ to
  le : to ≤ tr.numStops

theorem owns_of (s : Service) (trip fr to : Nat) (hnd : (s.trips.map (·.1)).Nodup) (hn : ∀ x ∈ s.trips, 2 ≤ x.2)
    (h : (trip, fr, to) ∈ blockRanges 0 s.trips) : Owns (transportOf s) trip fr to := by
  have hns : (transportOf s).numStops = (flat s.trips).length + 1 := blockStops_flat _
  obtain ⟨-, h2, h3, -⟩ := flat_iff _ 0 trip fr to 0 hnd hn h
  refine ⟨?_, ?_, h2, by omega⟩
  · intro i hi
    rw [tripAt_dep s hn i (by omega)]
    obtain ⟨-, -, -, h4⟩ := flat_iff _ 0 trip fr to i hnd hn h
    rw [h4, Nat.zero_add]
  · intro i hi0 hi
    obtain ⟨j, rfl⟩ : ∃ j, i = j + 1 := ⟨i - 1, by omega⟩
    rw [tripAt_arr s hn j (by omega)]
    obtain ⟨-, -, -, h4⟩ := flat_iff _ 0 trip fr to j hnd hn h
    rw [h4, Nat.zero_add]
    omega

theorem walkBack_eq {tr : Transport} {trip fr to : Nat} (ho : Owns tr trip fr to) :
    ∀ s, fr ≤ s → s < to → walkBack tr trip s = fr
  | 0, h1, _ => by unfold walkBack; omega
  | s + 1, h1, h2 => by
    have hle := ho.le
    unfold walkBack
    by_cases hs : fr < s + 1
    · rw [if_pos ((ho.arr (s + 1) (by omega) (by omega)).2 ⟨hs, h2⟩)]
      exact walkBack_eq ho s (by omega) (by omega)
    · rw [if_neg (fun h => hs ((ho.arr (s + 1) (by omega) (by omega)).1 h).1)]
      omega

/-- Specification: at this stop, the trip of the arriving/departing section is meant. -/
def OnTrip (fr to stop : Nat) : EvType → Prop
  | .dep => fr ≤ stop ∧ stop + 1 < to
  | .arr => fr < stop ∧ stop < to

theorem tripAt_on {tr : Transport} {trip fr to : Nat} (ho : Owns tr trip fr to) (stop : Nat) (ev : EvType)
    (h : OnTrip fr to stop ev) : tripAt tr stop ev = some trip ∧ fr ≤ stop ∧ stop < to := by
  have hle := ho.le
  cases ev with
  | dep => obtain ⟨h1, h2⟩ := h; exact ⟨(ho.dep stop (by omega)).2 ⟨h1, h2⟩, by omega, by omega⟩
  | arr => obtain ⟨h1, h2⟩ := h; exact ⟨(ho.arr stop (by omega) (by omega)).2 ⟨h1, h2⟩, by omega, by omega⟩

/-- C70 (trip start): asked at any stop of a trip, `get_trip_start` reports the service date of the run
and the start time of the trip; looking the trip up with that date, with or without that time, leads
back to the run. -/
theorem C70_trip_start (tt : TT) (s : Service) (r : Run) (trip fr to : Nat)
    (htr : tt.transport r.t = transportOf s)
    (hnd : (s.trips.map (·.1)).Nodup) (hn : ∀ x ∈ s.trips, 2 ≤ x.2)
    (hbr : (trip, fr, to) ∈ blockRanges 0 s.trips)
    (hrange : ⟨r.t, fr, to⟩ ∈ tt.ranges trip) (hday : r.day < 512) (hact : s.utc.days r.day = true)
    (stop : Nat) (ev : EvType) (hon : OnTrip fr to stop ev) :
    tripStart tt r stop ev = some (serviceDate tt r, startTime tt ⟨r.t, fr, to⟩) ∧
    ⟨r.t, r.day, fr, to⟩ ∈ resolveTrip tt (serviceDate tt r) none trip ∧
    ((∀ x ∈ tt.ranges trip, (∃ d, d < 512 ∧ (tt.transport x.t).days d = true) → 0 ≤ startTime tt x) →
      ⟨r.t, r.day, fr, to⟩ ∈ resolveTrip tt (serviceDate tt r) (some (startTime tt ⟨r.t, fr, to⟩)) trip) := by
  have ho := owns_of s trip fr to hnd hn hbr
  have hrun : RunOf tt trip ⟨r.t, r.day, fr, to⟩ := ⟨hrange, hday, by rw [htr]; exact hact⟩
  obtain ⟨h1, h2, h3⟩ := tripAt_on ho stop ev hon
  refine ⟨?_, ?_, ?_⟩
  · unfold tripStart
    dsimp only
    rw [htr, h1]
    dsimp only
    rw [walkBack_eq ho stop h2 h3]
    unfold serviceDate startTime
    rw [htr]
  · exact (C69_start_date tt trip _ _).2 ⟨hrun, rfl⟩
  · intro hL
    refine (C69_start_time tt trip _ _ (hL _ hrange ⟨_, hday, hrun.2.2⟩) hL _).2 ⟨hrun, ?_⟩
    unfold localDep utcDep serviceDate startTime
    dsimp only
    omega

/-! ### First and last stop of a trip -/

theorem skipFwd_spec {tr : Transport} {trip fr to : Nat} (ho : Owns tr trip fr to) (cancelled : Nat → Bool) :
    ∀ fuel s, fr ≤ s → s < to → to ≤ s + fuel →
      s ≤ skipCancelledFwd tr tr.numStops cancelled trip fuel s ∧
      skipCancelledFwd tr tr.numStops cancelled trip fuel s < to ∧
      (∀ i, s ≤ i → i < skipCancelledFwd tr tr.numStops cancelled trip fuel s → cancelled i = true) ∧
      (skipCancelledFwd tr tr.numStops cancelled trip fuel s + 1 < to →
        cancelled (skipCancelledFwd tr tr.numStops cancelled trip fuel s) = false)
  | 0, s, h1, h2, h3 => by omega
  | fuel + 1, s, h1, h2, h3 => by
    have hle := ho.le
    unfold skipCancelledFwd
    by_cases hc : s + 1 < tr.numStops ∧ cancelled s = true ∧ tripAt tr s .dep = some trip
    · rw [if_pos hc]
      have := (ho.dep s hc.1).1 hc.2.2
      obtain ⟨a, b, c, d⟩ := skipFwd_spec ho cancelled fuel (s + 1) (by omega) (by omega) (by omega)
      refine ⟨by omega, b, fun i hi1 hi2 => ?_, d⟩
      by_cases his : i = s
      · rw [his]; exact hc.2.1
      · exact c i (by omega) hi2
    · rw [if_neg hc]
      refine ⟨Nat.le_refl _, h2, fun i _ _ => by omega, fun h => ?_⟩
      by_cases hcs : cancelled s = true
      · exact absurd ⟨by omega, hcs, (ho.dep s (by omega)).2 ⟨h1, h⟩⟩ hc
      · simpa using hcs

/-- C70 (first stop): at any stop of the trip, `get_first_trip_stop` is the first stop of the trip that
is served (if one before its last stop is), and the trip's origin if none is — the latter only for the
last trip of the run, see `C70_first_stop_false`. -/
theorem C70_first_stop_partial (s : Service) (trip fr to : Nat) (cancelled : Nat → Bool)
    (hnd : (s.trips.map (·.1)).Nodup) (hn : ∀ x ∈ s.trips, 2 ≤ x.2)
    (hbr : (trip, fr, to) ∈ blockRanges 0 s.trips) (stop : Nat) (ev : EvType) (hon : OnTrip fr to stop ev) :
    ∃ first, firstTripStop (transportOf s) cancelled stop ev = some first ∧
      (∀ k, fr ≤ k → k + 1 < to → cancelled k = false → (∀ i, fr ≤ i → i < k → cancelled i = true) → first = k) ∧
      ((∀ k, fr ≤ k → k + 1 < to → cancelled k = true) → to = (transportOf s).numStops → first = fr) := by
  have ho := owns_of s trip fr to hnd hn hbr
  have hle := ho.le
  have htwo := ho.two
  obtain ⟨h1, h2, h3⟩ := tripAt_on ho stop ev hon
  refine ⟨_, by unfold firstTripStop; rw [h1], ?_, ?_⟩
  all_goals
    rw [walkBack_eq ho stop h2 h3]
    obtain ⟨a, b, c, d⟩ := skipFwd_spec ho cancelled (transportOf s).numStops fr (Nat.le_refl _) (by omega) (by omega)
    generalize skipCancelledFwd (transportOf s) (transportOf s).numStops cancelled trip (transportOf s).numStops fr = x at *
  · intro k k1 k2 k3 k4
    have hxk : ¬ k < x := fun h => by have := c k k1 h; rw [k3] at this; cases this
    have hkx : ¬ x < k := fun h => by
      have e1 := k4 x a h
      have e2 := d (by omega)
      rw [e1] at e2; cases e2
    have : x = k := by omega
    subst this
    rw [if_pos (by omega)]
  · intro hall hlast
    by_cases hx : x + 1 < to
    · have e1 := hall x a hx
      have e2 := d hx
      rw [e1] at e2; cases e2
    · rw [if_neg (by omega)]

theorem skipBwd_spec {tr : Transport} {trip fr to : Nat} (ho : Owns tr trip fr to) (cancelled : Nat → Bool) :
    ∀ s, fr ≤ s → s < to →
      fr ≤ skipCancelledBwd tr cancelled trip s ∧ skipCancelledBwd tr cancelled trip s ≤ s ∧
      (∀ i, skipCancelledBwd tr cancelled trip s < i → i ≤ s → cancelled i = true) ∧
      (fr < skipCancelledBwd tr cancelled trip s → cancelled (skipCancelledBwd tr cancelled trip s) = false)
  | 0, h1, h2 => by
    unfold skipCancelledBwd
    exact ⟨h1, Nat.le_refl _, fun i _ _ => by omega, fun h => by omega⟩
  | s + 1, h1, h2 => by
    have hle := ho.le
    unfold skipCancelledBwd
    by_cases hc : cancelled (s + 1) = true ∧ tripAt tr (s + 1) .arr = some trip
    · rw [if_pos hc]
      have := (ho.arr (s + 1) (by omega) (by omega)).1 hc.2
      obtain ⟨a, b, c, d⟩ := skipBwd_spec ho cancelled s (by omega) (by omega)
      refine ⟨a, by omega, fun i hi1 hi2 => ?_, d⟩
      by_cases his : i = s + 1
      · rw [his]; exact hc.1
      · exact c i hi1 (by omega)
    · rw [if_neg hc]
      refine ⟨h1, Nat.le_refl _, fun i _ _ => by omega, fun h => ?_⟩
      by_cases hcs : cancelled (s + 1) = true
      · exact absurd ⟨hcs, (ho.arr (s + 1) (by omega) (by omega)).2 ⟨h, h2⟩⟩ hc
      · simpa using hcs

theorem walkFwd_spec {tr : Transport} {trip fr to : Nat} (ho : Owns tr trip fr to) :
    ∀ fuel s, fr < s → s ≤ to → s < tr.numStops → to ≤ s + fuel →
      walkFwd tr tr.numStops trip fuel s = if to < tr.numStops then to else to - 1
  | 0, s, h1, h2, h3, h4 => by
    unfold walkFwd
    have : s = to := by omega
    subst this
    rw [if_pos h3]
  | fuel + 1, s, h1, h2, h3, h4 => by
    have hle := ho.le
    unfold walkFwd
    by_cases hc : s + 1 < tr.numStops ∧ tripAt tr s .arr = some trip
    · rw [if_pos hc]
      have := (ho.arr s (by omega) h3).1 hc.2
      exact walkFwd_spec ho fuel (s + 1) (by omega) (by omega) hc.1 (by omega)
    · rw [if_neg hc]
      by_cases hst : s < to
      · have : ¬ s + 1 < tr.numStops := fun h => hc ⟨h, (ho.arr s (by omega) h3).2 ⟨h1, hst⟩⟩
        rw [if_neg (by omega)]; omega
      · rw [if_pos (by omega)]; omega

/-- The destination of the trip as computed by `get_last_trip_stop`. -/
theorem dest_eq {tr : Transport} {trip fr to : Nat} (ho : Owns tr trip fr to) (stop : Nat)
    (h2 : fr ≤ stop) (h3 : stop < to) :
    (if stop + 1 = tr.numStops then stop
      else
        if tripAt tr (walkFwd tr tr.numStops trip tr.numStops (stop + 1)) .arr ≠ some trip then
          walkFwd tr tr.numStops trip tr.numStops (stop + 1) - 1
        else walkFwd tr tr.numStops trip tr.numStops (stop + 1)) = to - 1 := by
  have hle := ho.le
  have htwo := ho.two
  by_cases h : stop + 1 = tr.numStops
  · rw [if_pos h]; omega
  · rw [if_neg h, walkFwd_spec ho tr.numStops (stop + 1) (by omega) (by omega) (by omega) (by omega)]
    by_cases hto : to < tr.numStops
    · rw [if_pos hto, if_pos (fun h => by have := (ho.arr to (by omega) hto).1 h; omega)]
    · rw [if_neg hto, if_neg (fun h => h ((ho.arr (to - 1) (by omega) (by omega)).2 ⟨by omega, by omega⟩))]

/-- C70 (last stop): at any stop of the trip, `get_last_trip_stop` is the last stop of the trip that is
served (if one after its first stop is), and the trip's destination if none is — the latter only for the
first trip of the run, see `C70_last_stop_false`. -/
theorem C70_last_stop_partial (s : Service) (trip fr to : Nat) (cancelled : Nat → Bool)
    (hnd : (s.trips.map (·.1)).Nodup) (hn : ∀ x ∈ s.trips, 2 ≤ x.2)
    (hbr : (trip, fr, to) ∈ blockRanges 0 s.trips) (stop : Nat) (ev : EvType) (hon : OnTrip fr to stop ev) :
    ∃ last, lastTripStop (transportOf s) cancelled stop ev = some last ∧
      (∀ k, fr < k → k < to → cancelled k = false → (∀ i, k < i → i < to → cancelled i = true) → last = k) ∧
      ((∀ k, fr < k → k < to → cancelled k = true) → fr = 0 → last = to - 1) := by
  have ho := owns_of s trip fr to hnd hn hbr
  have hle := ho.le
  have htwo := ho.two
  obtain ⟨h1, h2, h3⟩ := tripAt_on ho stop ev hon
  refine ⟨_, by unfold lastTripStop; rw [h1], ?_, ?_⟩
  all_goals
    dsimp only
    rw [dest_eq ho stop h2 h3]
    obtain ⟨a, b, c, d⟩ := skipBwd_spec ho cancelled (to - 1) (by omega) (by omega)
    generalize skipCancelledBwd (transportOf s) cancelled trip (to - 1) = x at *
  · intro k k1 k2 k3 k4
    have hxk : ¬ x < k := fun h => by have := c k h (by omega); rw [k3] at this; cases this
    have hkx : ¬ k < x := fun h => by
      have e1 := k4 x h (by omega)
      have e2 := d (by omega)
      rw [e1] at e2; cases e2
    have : x = k := by omega
    subst this
    rw [if_neg (by omega)]
  · intro hall hfr
    by_cases hx : fr < x
    · have e1 := hall x hx (by omega)
      have e2 := d hx
      rw [e1] at e2; cases e2
    · rw [if_pos (by omega)]

/-! ### `for_each_trip` -/

theorem tripLoop_skip (tr : Transport) (to : Nat) (c : Nat) (cf : Nat) (is : List Nat) : ∀ m p,
    (∀ j, j < m → tripAt tr (p + j) .dep = some c) →
    tripLoop tr to (some c) cf (List.range' p m ++ is) = tripLoop tr to (some c) cf is
  | 0, p, _ => rfl
  | m + 1, p, h => by
    rw [List.range'_succ, List.cons_append, tripLoop]
    have h0 := h 0 (by omega)
    rw [Nat.add_zero] at h0
    rw [if_pos h0]
    exact tripLoop_skip tr to c cf is m (p + 1) (fun j hj => by
      have := h (j + 1) (by omega)
      rw [show p + 1 + j = p + (j + 1) by omega]; exact this)

theorem tripLoop_block (tr : Transport) : ∀ (l : List (Nat × Nat)) (c cf p : Nat), 0 < p →
    (c :: l.map (·.1)).Nodup → (∀ x ∈ l, 2 ≤ x.2) →
    (∀ j, j < (flat l).length → tripAt tr (p + j) .dep = (flat l)[j]?) →
    tripLoop tr (p + (flat l).length + 1) (some c) cf (List.range' p (flat l).length) =
      (some c, cf, p + 1) :: (blockRanges p l).map fun x => (some x.1, x.2)
  | [], c, cf, p, _, _, _, _ => by simp [flat, tripLoop, blockRanges]
  | (t, n) :: l, c, cf, p, hp, hnd, hn, h => by
    have h2 := hn (t, n) (by simp)
    dsimp only at h2
    have hflat : flat ((t, n) :: l) = List.replicate (n - 1) t ++ flat l := rfl
    have hlen : (flat ((t, n) :: l)).length = (n - 1) + (flat l).length := by rw [hflat]; simp
    have hA : ∀ j, j < n - 1 → tripAt tr (p + j) .dep = some t := by
      intro j hj
      rw [h j (by omega), hflat, List.getElem?_append_left (by simpa using hj), List.getElem?_replicate, if_pos hj]
    have hB : ∀ j, j < (flat l).length → tripAt tr (p + n - 1 + j) .dep = (flat l)[j]? := by
      intro j hj
      have := h (n - 1 + j) (by omega)
      rw [hflat, List.getElem?_append_right (by simp), List.length_replicate, Nat.add_sub_cancel_left] at this
      rw [← this]
      congr 1
      omega
    have hne : t ≠ c := by
      intro he; subst he
      rw [List.nodup_cons] at hnd
      exact hnd.1 (by simp)
    rw [hlen]
    have hr : List.range' p (n - 1 + (flat l).length) =
        p :: (List.range' (p + 1) (n - 2) ++ List.range' (p + n - 1) (flat l).length) := by
      rw [show n - 1 + (flat l).length = (n - 2 + (flat l).length) + 1 by omega, List.range'_succ]
      congr 1
      rw [← List.range'_append_1]
      congr 2
      omega
    rw [hr, tripLoop]
    have h0 := hA 0 (by omega)
    rw [Nat.add_zero] at h0
    rw [h0, if_neg (fun h => hne (Option.some.inj h)), if_pos (by omega),
      tripLoop_skip tr _ t p _ (n - 2) (p + 1) (fun j hj => by
        rw [show p + 1 + j = p + (j + 1) by omega]; exact hA (j + 1) (by omega))]
    have hnd' : (t :: l.map (·.1)).Nodup := by
      rw [List.nodup_cons] at hnd; exact hnd.2
    have ih := tripLoop_block tr l t p (p + n - 1) (by omega) hnd' (fun x hx => hn x (List.mem_cons_of_mem _ hx)) hB
    have e1 : p + (n - 1 + (flat l).length) + 1 = p + n - 1 + (flat l).length + 1 := by omega
    rw [e1, ih, show p + n - 1 + 1 = p + n by omega]
    simp only [blockRanges, List.map_cons]

/-- C70 (for_each_trip): for a run that ends with one of its trips (in particular for a complete run),
`for_each_trip` reports exactly the trips up to there, in order, each with the stops the loader recorded
for it. -/
theorem C70_for_each_trip (s : Service) (a b : List (Nat × Nat)) (hs : s.trips = a ++ b) (ha : a ≠ [])
    (hnd : (s.trips.map (·.1)).Nodup) (hn : ∀ x ∈ s.trips, 2 ≤ x.2) :
    forEachTrip (transportOf s) (blockStops a) = (blockRanges 0 a).map fun x => (some x.1, x.2) := by
  match a, ha with
  | (t, n) :: l, _ =>
    have h2 := hn (t, n) (by rw [hs]; simp)
    dsimp only at h2
    have hflat : flat ((t, n) :: l) = List.replicate (n - 1) t ++ flat l := rfl
    have hlen : (flat ((t, n) :: l)).length = (n - 1) + (flat l).length := by rw [hflat]; simp
    have hsf : flat s.trips = flat ((t, n) :: l) ++ flat b := by rw [hs]; simp [flat]
    have hT : ∀ j, j < n - 1 + (flat l).length → tripAt (transportOf s) j .dep = (flat ((t, n) :: l))[j]? := by
      intro j hj
      rw [tripAt_dep s hn j (by rw [hsf, List.length_append]; omega), hsf, List.getElem?_append_left (by omega)]
    have hA : ∀ j, j < n - 1 → tripAt (transportOf s) j .dep = some t := by
      intro j hj
      rw [hT j (by omega), hflat, List.getElem?_append_left (by simpa using hj), List.getElem?_replicate, if_pos hj]
    have hB : ∀ j, j < (flat l).length → tripAt (transportOf s) (n - 1 + j) .dep = (flat l)[j]? := by
      intro j hj
      rw [hT _ (by omega), hflat, List.getElem?_append_right (by simp), List.length_replicate, Nat.add_sub_cancel_left]
    unfold forEachTrip
    rw [blockStops_flat, hlen, Nat.add_sub_cancel]
    have hr : List.range (n - 1 + (flat l).length) =
        0 :: (List.range' 1 (n - 2) ++ List.range' (n - 1) (flat l).length) := by
      rw [List.range_eq_range', show n - 1 + (flat l).length = (n - 2 + (flat l).length) + 1 by omega, List.range'_succ]
      congr 1
      rw [← List.range'_append_1]
      congr 2
      omega
    rw [hr, tripLoop]
    rw [hA 0 (by omega), if_neg (by simp), if_neg (by simp),
      tripLoop_skip _ _ t 0 _ (n - 2) 1 (fun j hj => by
        rw [show 1 + j = j + 1 by omega]; exact hA (j + 1) (by omega))]
    have hnd' : (t :: l.map (·.1)).Nodup := by
      rw [hs, List.map_append, List.map_cons] at hnd
      exact hnd.sublist (List.sublist_append_left _ _)
    have ih := tripLoop_block (transportOf s) l t 0 (n - 1) (by omega) hnd'
      (fun x hx => hn x (by rw [hs]; exact List.mem_append_left _ (List.mem_cons_of_mem _ hx))) hB
    rw [ih]
    simp only [blockRanges, List.map_cons, Nat.zero_add]
    congr 3
    omega

/-! ### Non-vacuity and counterexamples -/

/-- A run of three trips with 3, 2 and 3 stops. -/
def walkService : Service := ⟨[(7, 3), (8, 2), (9, 3)], ⟨0, 60, [0, 5, 6, 10, 11, 20, 21, 30, 31, 40], fun d => d = 2⟩⟩

example : (walkService.trips.map (·.1)).Nodup ∧ (∀ x ∈ walkService.trips, 2 ≤ x.2) ∧
    blockRanges 0 walkService.trips = [(7, 0, 3), (8, 2, 4), (9, 3, 6)] ∧
    forEachTrip (transportOf walkService) 6 = [(some 7, 0, 3), (some 8, 2, 4), (some 9, 3, 6)] ∧
    forEachTrip (transportOf walkService) 4 = [(some 7, 0, 3), (some 8, 2, 4)] ∧
    firstTripStop (transportOf walkService) (fun i => i = 3) 4 .dep = some 4 ∧
    lastTripStop (transportOf walkService) (fun i => i = 5) 4 .dep = some 4 ∧
    tripStart (addServices 0 [walkService] emptyTT) ⟨0, 2, 0, 6⟩ 3 .arr = some (2, 71) ∧
    resolveTrip (addServices 0 [walkService] emptyTT) 2 (some 71) 8 = [⟨0, 2, 2, 4⟩] := by decide +kernel

/-- Counterexample: if all stops of a trip are cancelled and it is not the last trip of the run,
`get_first_trip_stop` does not return the origin of the trip (stop 0) but its last stop. -/
theorem C70_first_stop_false :
    (7, 0, 3) ∈ blockRanges 0 walkService.trips ∧ OnTrip 0 3 1 .dep ∧
    firstTripStop (transportOf walkService) (fun i => i < 3) 1 .dep = some 2 := by
  refine ⟨by decide, ⟨by decide, by decide⟩, by decide +kernel⟩

/-- Counterexample: if all stops of a trip are cancelled and it is not the first trip of the run,
`get_last_trip_stop` does not return the destination of the trip (stop 5) but its first stop. -/
theorem C70_last_stop_false :
    (9, 3, 6) ∈ blockRanges 0 walkService.trips ∧ OnTrip 3 6 4 .dep ∧
    lastTripStop (transportOf walkService) (fun i => 3 ≤ i) 4 .dep = some 3 := by
  refine ⟨by decide, ⟨by decide, by decide⟩, by decide +kernel⟩

end Nigiri.Resolve
