import Verif.Proofs.Reconstruct
/-!
# Itineraries in the timetable (proofs)
-/

namespace Nigiri.Raptor

theorem catchRuns_iff (d : Dir) (base : Int) (r : RouteData) (i : Nat) (T : Int) (tr : Run) :
    tr ∈ catchRuns d base r i T ↔ (tr.1 < r.nTr ∧ r.days tr.1 tr.2 = true) ∧ evTime d base tr.2 (r.evAlight d tr.1 i) = T := by
  obtain ⟨t, day⟩ := tr
  unfold catchRuns evTime
  simp only [List.mem_filterMap, List.mem_range]
  constructor
  · rintro ⟨t', h1, h2⟩
    split at h2
    · rename_i hc
      cases h2
      refine ⟨⟨h1, hc.2⟩, ?_⟩
      have h3 := hc.1
      generalize r.evAlight d t i = ev at h3 ⊢
      cases d <;> simp only [Dir.sgn] at h3 ⊢ <;> omega
    · cases h2
  · rintro ⟨⟨h1, h2⟩, h3⟩
    refine ⟨t, h1, ?_⟩
    have e : (((r.evAlight d t i) % 1440 : Nat) : Int) = (base * 1440 + d.sgn * T) % 1440 ∧
        (base * 1440 + d.sgn * T) / 1440 - (((r.evAlight d t i) / 1440 : Nat) : Int) = day := by
      generalize r.evAlight d t i = ev at h3 ⊢
      cases d <;> simp only [Dir.sgn] at h3 ⊢ <;> omega
    rw [e.2, if_pos ⟨e.1, h2⟩]

/-- What reconstruction assumes about the query: no negative durations, and every footpath it may walk is one
of the timetable; and, for wheelchair queries, no stop at which others may board or alight is closed for
wheelchairs. -/
structure RcSound (N : Net) (Q : RcData) : Prop where
  stops : OpenStops N
  fps : ∀ l m w, (m, w) ∈ Q.fpsIn l → 0 ≤ w ∧ ∀ t, (l, w) ∈ N.fps m t
  dests : ∀ o ∈ Q.dests, 0 ≤ o.2

theorem routes_get {d : Dir} {N : Net} {x : Nat} {r : Route} (h : (mkProblem d N).routes[x]? = some r) :
    ∃ rd, N.routes[x]? = some rd ∧ r = mkRoute d N rd := by
  have e : (mkProblem d N).routes = N.routes.map (mkRoute d N) := rfl
  rw [e, List.getElem?_map, Option.map_eq_some_iff] at h
  obtain ⟨rd, h1, h2⟩ := h
  exact ⟨rd, h1, h2.symm⟩

theorem rts_get {d : Dir} {N : Net} {x : Nat} {r : RtTransport} (h : (mkProblem d N).rts[x]? = some r) :
    ∃ rd, N.rts[x]? = some rd ∧ r = mkRt d N rd := by
  have e : (mkProblem d N).rts = N.rts.map (mkRt d N) := rfl
  rw [e, List.getElem?_map, Option.map_eq_some_iff] at h
  obtain ⟨rd, h1, h2⟩ := h
  exact ⟨rd, h1, h2.symm⟩

theorem exitAt_eq {d : Dir} {w : Bool} {required : List Bool} {flags : List FlagData} {stops : List StopData} {j : Nat} {s : Stop}
    (h : (searchStops d w required flags stops)[j]? = some s) : ∃ sd ∈ stops, s.canAlight = sd.canFinish d w ∧ exitAt d stops j = sd.canFinish d false := by
  obtain ⟨h1, sd, h2, rfl⟩ := (searchStops_get _ _ _ _ _ _ _).mp h
  refine ⟨sd, List.mem_of_getElem? h2, rfl, ?_⟩
  unfold exitAt
  rw [List.getD_eq_getElem?_getD, h2]; rfl

theorem OpenStops.finish {N : Net} (h : OpenStops N) {s : StopData} (hs : N.HasStop s) {d : Dir} (he : s.canFinish d false = true) :
    s.canFinish d N.wheelchair = true := by
  have := h s hs
  unfold MayBoard MayAlight at this
  cases d <;> cases hw : N.wheelchair <;> simp_all [StopData.canFinish]

theorem NoSpecialStops.finish {N : Net} (h : NoSpecialStops N) {s : StopData} (hs : N.HasStop s) {d : Dir} (he : s.canFinish d N.wheelchair = true) :
    s.canFinish d false = true := by
  have := h s hs
  unfold MayBoard MayAlight at this
  cases d <;> cases hw : N.wheelchair <;> simp_all [StopData.canFinish]

theorem openStops_of {N : Net} (h : N.wheelchair = false) : OpenStops N := by
  intro s _; unfold MayBoard MayAlight; simp [h]

theorem noSpecial_of {N : Net} (h : N.wheelchair = false) : NoSpecialStops N := by
  intro s _; unfold MayBoard MayAlight; simp [h]

theorem exitAll_of (d : Dir) {N : Net} (h : NoSpecialStops N) (Q : RcData) : ExitAll (mkProblem d N) (mkRc d N Q) where
  route := by
    intro x r hx j s hs hc
    obtain ⟨rd, h1, rfl⟩ := routes_get hx
    obtain ⟨sd, g1, g2, g3⟩ := exitAt_eq hs
    simp only [mkRc, h1, g3]
    exact h.finish (Or.inl ⟨rd, List.mem_of_getElem? h1, g1⟩) (by rw [← g2]; exact hc)
  rt := by
    intro x r hx j s hs hc
    obtain ⟨rd, h1, rfl⟩ := rts_get hx
    obtain ⟨sd, g1, g2, g3⟩ := exitAt_eq hs
    simp only [mkRc, h1, g3]
    exact h.finish (Or.inr ⟨rd, List.mem_of_getElem? h1, g1⟩) (by rw [← g2]; exact hc)

theorem rcOk_of (d : Dir) {N : Net} {Q : RcData} (h : RcSound N Q) : RcOk (mkProblem d N) (mkRc d N Q) where
  catchSound := by
    intro x r hx j T tr htr
    obtain ⟨rd, h1, rfl⟩ := routes_get hx
    have : tr ∈ catchRuns d N.base rd j T := by simpa [mkRc, h1] using htr
    exact (catchRuns_iff _ _ _ _ _ _).mp this
  catchAll := by
    intro x r hx j T tr hact hal
    obtain ⟨rd, h1, rfl⟩ := routes_get hx
    have : tr ∈ catchRuns d N.base rd j T := (catchRuns_iff _ _ _ _ _ _).mpr ⟨hact, hal⟩
    simpa [mkRc, h1] using this
  order := by intro n j; cases d <;> simp [mkRc]
  exitRoute := by
    intro x r hx j s hs hc
    obtain ⟨rd, h1, rfl⟩ := routes_get hx
    obtain ⟨sd, g1, g2, g3⟩ := exitAt_eq hs
    simp only [mkRc, h1, g3] at hc
    rw [g2]
    exact h.stops.finish (Or.inl ⟨rd, List.mem_of_getElem? h1, g1⟩) hc
  exitRt := by
    intro x r hx j s hs hc
    obtain ⟨rd, h1, rfl⟩ := rts_get hx
    obtain ⟨sd, g1, g2, g3⟩ := exitAt_eq hs
    simp only [mkRc, h1, g3] at hc
    rw [g2]
    exact h.stops.finish (Or.inr ⟨rd, List.mem_of_getElem? h1, g1⟩) hc
  fpsPos := fun l m w hm => (h.fps l m w hm).1
  destPos := h.dests

/-- Forward: a ride along the search stops is a ride of the vehicle. -/
theorem vehicleLeg_fwd {N : Net} {stops : List StopData} {clasz : Nat} {secFlags : List (List Bool)} (hf : FlagsOk stops.length N.required secFlags)
    {dep arr : Nat → Int} {i j : Nat} {x : Leg} (hal : routeAllowed N.claszMask clasz N.required (secFlags.map registerFlag) = true)
    (h : RideIdx (searchStops .fwd N.wheelchair N.required (secFlags.map registerFlag) stops) i j x.fr x.to)
    (hd : x.dep = dep i) (ha : x.arr = arr j) : VehicleLeg N stops clasz secFlags dep arr i j x := by
  obtain ⟨hij, ⟨si, hi, e1, hb⟩, ⟨sj, hj, e2, hal'⟩, hsec⟩ := h
  obtain ⟨hil, sdi, hi1, rfl⟩ := (searchStops_get _ _ _ _ _ _ _).mp hi
  obtain ⟨hjl, sdj, hj1, rfl⟩ := (searchStops_get _ _ _ _ _ _ _).mp hj
  have hperm : ∀ s, i ≤ s → s < j → N.claszMask.testBit clasz = true ∧ SectionPermitted N.required secFlags s := by
    intro s h1 h2
    apply (section_iff _ _ _ _ _ hf s (by omega)).mp
    refine ⟨hal, ?_⟩
    have hlt : s + 1 < stops.length := by omega
    have hget := (searchStops_get .fwd N.wheelchair N.required (secFlags.map registerFlag) stops (s + 1) _).mpr
      ⟨hlt, stops[s + 1], by simp [stopIdx, List.getElem?_eq_getElem hlt], rfl⟩
    have := hsec (s + 1) _ (by omega) (by omega) hget
    simpa [secIdx, stopIdx] using this
  exact ⟨(hperm i (Nat.le_refl _) hij).1, sdi, sdj, hij, hi1, hj1, e1, e2, (canStart_fwd _ _).mp hb,
    (canFinish_fwd _ _).mp hal', fun s h1 h2 => (hperm s h1 h2).2, hd, ha⟩

/-- Backward. -/
theorem vehicleLeg_bwd {N : Net} {stops : List StopData} {clasz : Nat} {secFlags : List (List Bool)} (hf : FlagsOk stops.length N.required secFlags)
    {dep arr : Nat → Int} {i j : Nat} {x : Leg} (hal : routeAllowed N.claszMask clasz N.required (secFlags.map registerFlag) = true)
    (h : RideIdx (searchStops .bwd N.wheelchair N.required (secFlags.map registerFlag) stops) i j x.to x.fr)
    (hd : x.dep = dep (stops.length - 1 - j)) (ha : x.arr = arr (stops.length - 1 - i)) :
    VehicleLeg N stops clasz secFlags dep arr (stops.length - 1 - j) (stops.length - 1 - i) x := by
  obtain ⟨hij, ⟨si, hi, e1, hb⟩, ⟨sj, hj, e2, hal'⟩, hsec⟩ := h
  obtain ⟨hil, sdi, hi1, rfl⟩ := (searchStops_get _ _ _ _ _ _ _).mp hi
  obtain ⟨hjl, sdj, hj1, rfl⟩ := (searchStops_get _ _ _ _ _ _ _).mp hj
  have hperm : ∀ s, stops.length - 1 - j ≤ s → s < stops.length - 1 - i → N.claszMask.testBit clasz = true ∧ SectionPermitted N.required secFlags s := by
    intro s h1 h2
    apply (section_iff _ _ _ _ _ hf s (by omega)).mp
    refine ⟨hal, ?_⟩
    have hlt : s < stops.length := by omega
    have hlt' : stops.length - 1 - s < stops.length := by omega
    have hget := (searchStops_get .bwd N.wheelchair N.required (secFlags.map registerFlag) stops (stops.length - 1 - s) _).mpr
      ⟨hlt', stops[s], by
        simp only [stopIdx]
        rw [show stops.length - 1 - (stops.length - 1 - s) = s by omega]
        exact List.getElem?_eq_getElem hlt, rfl⟩
    have := hsec (stops.length - 1 - s) _ (by omega) (by omega) hget
    simp only [secIdx, stopIdx] at this
    rw [show stops.length - 1 - (stops.length - 1 - s) = s by omega] at this
    exact this
  exact ⟨(hperm (stops.length - 1 - j) (Nat.le_refl _) (by omega)).1, sdj, sdi, by omega, hj1, hi1, e2, e1, (canFinish_bwd _ _).mp hal',
    (canStart_bwd _ _).mp hb, fun s h1 h2 => (hperm s h1 h2).2, hd, ha⟩

theorem plain_isRide (d : Dir) (x : OLeg) : (x.plain d).isRide = x.isRide := by
  unfold OLeg.plain Leg.isRide OLeg.isRide
  cases d <;> cases x.uses <;> rfl

/-- The presented leg of a ride. -/
theorem plain_ride {d : Dir} {N : Net} (hN : NetOk N) {v : Vehicle} {n i j : Nat} {x : OLeg} (hu : x.uses = .ride v n i j)
    (h : ORide (mkProblem d N) v n i j x) :
    ∃ i' j', (x.plain d).uses = .ride v i' j' ∧ RideLeg N v i' j' (x.plain d) := by
  refine ⟨min (stopIdx d n i) (stopIdx d n j), max (stopIdx d n i) (stopIdx d n j), ?_, ?_⟩
  · unfold OLeg.plain; rw [hu]; cases d <;> rfl
  cases v with
  | trip r t day =>
    obtain ⟨rd, h1, h2, h3, rfl, h4, h5, h6⟩ := h
    obtain ⟨r0, e1, rfl⟩ := routes_get h1
    refine ⟨r0, e1, h3.1, h3.2, ?_⟩
    have hlen : (mkRoute d N r0).stops.length = r0.stops.length := searchStops_length _ _ _ _ _
    have hf := hN.flags r0 (List.mem_of_getElem? e1)
    rw [hlen]
    obtain ⟨s, g1, _⟩ := h4.alight
    have hj : j < r0.stops.length := by rw [← hlen]; exact (List.getElem?_eq_some_iff.mp g1).1
    have hij := h4.lt
    cases d with
    | fwd =>
      simp only [stopIdx]
      rw [Nat.min_eq_left (by omega), Nat.max_eq_right (by omega)]
      refine vehicleLeg_fwd hf h2 h4 ?_ ?_
      · simp only [OLeg.plain, h5, mkRoute, evTime, Dir.sgn, RouteData.evBoard, Int.one_mul]
      · simp only [OLeg.plain, h6, mkRoute, evTime, Dir.sgn, RouteData.evAlight, Int.one_mul]
    | bwd =>
      simp only [stopIdx]
      rw [Nat.min_eq_right (by omega), Nat.max_eq_left (by omega)]
      refine vehicleLeg_bwd hf h2 h4 ?_ ?_
      · simp only [OLeg.plain, h6, mkRoute, evTime, Dir.sgn, RouteData.evAlight]; omega
      · simp only [OLeg.plain, h5, mkRoute, evTime, Dir.sgn, RouteData.evBoard]; omega
  | rt r =>
    obtain ⟨rd, h1, h2, rfl, h4, h5, h6⟩ := h
    obtain ⟨r0, e1, rfl⟩ := rts_get h1
    refine ⟨r0, e1, ?_⟩
    have hlen : (mkRt d N r0).stops.length = r0.stops.length := searchStops_length _ _ _ _ _
    have hf := hN.rtFlags r0 (List.mem_of_getElem? e1)
    rw [hlen]
    obtain ⟨s, g1, _⟩ := h4.alight
    have hj : j < r0.stops.length := by rw [← hlen]; exact (List.getElem?_eq_some_iff.mp g1).1
    have hij := h4.lt
    cases d with
    | fwd =>
      simp only [stopIdx]
      rw [Nat.min_eq_left (by omega), Nat.max_eq_right (by omega)]
      exact vehicleLeg_fwd hf h2 h4 h5 h6
    | bwd =>
      simp only [stopIdx]
      rw [Nat.min_eq_right (by omega), Nat.max_eq_left (by omega)]
      refine vehicleLeg_bwd hf h2 h4 ?_ ?_
      · simp only [OLeg.plain, h6, mkRt]; omega
      · simp only [OLeg.plain, h5, mkRt]; omega

theorem plain_ok {d : Dir} {N : Net} (hN : NetOk N) {Q : RcData} (hQ : RcSound N Q) {dest : Loc} (hd : N.intermodal = true → dest = N.endLoc) {x : OLeg}
    (h : OLegOk (mkProblem d N) (mkRc d N Q) dest x) : LegOk d N Q (x.plain d) := by
  unfold OLegOk at h
  split at h
  · rename_i v n i j hu
    obtain ⟨i', j', h1, h2⟩ := plain_ride hN hu h
    unfold LegOk; rw [h1]; exact h2
  · rename_i w hu
    obtain ⟨h1, h2, h3⟩ := h
    have hu' : (x.plain d).uses = .foot w := by unfold OLeg.plain; rw [hu]; cases d <;> rfl
    unfold LegOk; rw [hu']
    refine ⟨h1, ?_, ?_⟩
    · rcases h2 with h2 | ⟨h2, h2'⟩
      · left; cases d <;> simp only [OLeg.plain] <;> omega
      · right; refine ⟨h2, ?_⟩; cases d <;> simp only [OLeg.plain] <;> omega
    · rcases h3 with ⟨h3, h4⟩ | h3
      · left
        cases d
        · exact ⟨h3, h4⟩
        · exact ⟨h3.symm, by rw [h4, h3]; rfl⟩
      · right
        cases d
        · exact (hQ.fps _ _ _ h3).2 _
        · exact (hQ.fps _ _ _ h3).2 _
  · rename_i w hu
    have hu' : (x.plain d).uses = .offset w := by unfold OLeg.plain; rw [hu]; cases d <;> rfl
    unfold LegOk; rw [hu']
    rcases h with ⟨h1, h2, h3, h4⟩ | ⟨h1, h2, h3, h4⟩
    · left
      refine ⟨h1, ?_, ?_⟩
      · cases d <;> simp only [OLeg.plain] <;> omega
      · cases d
        · exact ⟨h3.trans (hd h1), h4⟩
        · exact ⟨h3.trans (hd h1), h4⟩
    · right
      refine ⟨h1, ?_, ?_⟩
      · cases d <;> simp only [OLeg.plain] <;> omega
      · cases d
        · exact ⟨h3, h4⟩
        · exact ⟨h3, h4⟩

/-- What shifting footpaths keeps. -/
structure Shifted (x y : Leg) : Prop where
  fr : y.fr = x.fr
  to : y.to = x.to
  uses : y.uses = x.uses
  dur : y.arr - y.dep = x.arr - x.dep
  le : y.arr ≤ x.arr
  ride : (∀ w, x.uses ≠ .foot w) → y = x

theorem Shifted.refl (x : Leg) : Shifted x x := ⟨rfl, rfl, rfl, rfl, Int.le_refl _, fun _ => rfl⟩

theorem Shifted.isRide {x y : Leg} (h : Shifted x y) : y.isRide = x.isRide := by unfold Leg.isRide; rw [h.uses]

/-- A footpath list that does not depend on the time. -/
def StaticFps (N : Net) : Prop := ∀ l t t', N.fps l t = N.fps l t'

theorem Shifted.ok {N : Net} (hs : StaticFps N) {Q : RcData} {x y : Leg} (h : Shifted x y) (hx : LegOk .bwd N Q x) : LegOk .bwd N Q y := by
  by_cases hf : ∀ w, x.uses ≠ .foot w
  · rw [h.ride hf]; exact hx
  · have : ∃ w, x.uses = .foot w := Classical.byContradiction fun hc => hf fun w hw => hc ⟨w, hw⟩
    obtain ⟨w, hw⟩ := this
    unfold LegOk at hx ⊢
    rw [h.uses]
    rw [hw] at hx ⊢
    obtain ⟨h1, h2, h3⟩ := hx
    refine ⟨h1, ?_, ?_⟩
    · have := h.dur
      rcases h2 with h2 | ⟨h2, h2'⟩
      · left; omega
      · right; exact ⟨h2, by omega⟩
    · rw [h.fr, h.to]
      rcases h3 with h3 | h3
      · exact Or.inl h3
      · right
        simp only at h3 ⊢
        rw [hs _ _ (-x.arr)]; exact h3

theorem shiftWalks_spec (r : Leg → Leg → Prop) (hr : ∀ x y, r x y → Joined x y) : ∀ (xs : List Leg) (o prev : Leg), Shifted o prev → Adj r (o :: xs) →
    Adj Joined (prev :: shiftWalks prev xs) ∧
    (∀ y ∈ shiftWalks prev xs, ∃ x ∈ xs, Shifted x y) ∧
    ((shiftWalks prev xs).map Leg.isRide = xs.map Leg.isRide) ∧
    (∀ y, (prev :: shiftWalks prev xs).getLast? = some y → ∃ x, (o :: xs).getLast? = some x ∧ Shifted x y) := by
  intro xs
  induction xs with
  | nil =>
    intro o prev ho _
    refine ⟨trivial, by simp [shiftWalks], rfl, ?_⟩
    intro y hy
    cases hy
    exact ⟨o, rfl, ho⟩
  | cons x xs ih =>
    intro o prev ho hadj
    obtain ⟨h1, h2⟩ := hadj
    have hj := hr _ _ h1
    obtain ⟨j1, j2, j3⟩ := hj
    have hle : prev.arr ≤ x.dep := Int.le_trans ho.le j2
    have hsh : Shifted x (shiftWalk prev x) ∧ prev.arr ≤ (shiftWalk prev x).dep := by
      unfold shiftWalk
      split
      · rename_i w hw
        refine ⟨⟨rfl, rfl, rfl, ?_, ?_, ?_⟩, Int.le_refl _⟩
        · simp only; omega
        · simp only; omega
        · intro hc; exact absurd hw (hc w)
      · exact ⟨Shifted.refl x, hle⟩
    obtain ⟨g1, g2, g3, g4⟩ := ih x (shiftWalk prev x) hsh.1 h2
    refine ⟨⟨⟨?_, hsh.2, ?_⟩, g1⟩, ?_, ?_, ?_⟩
    · rw [ho.to, hsh.1.fr]; exact j1
    · rw [ho.isRide, hsh.1.isRide]; exact j3
    · intro y hy
      rcases List.mem_cons.mp hy with rfl | hy
      · exact ⟨x, by simp, hsh.1⟩
      · obtain ⟨z, e1, e2⟩ := g2 y hy
        exact ⟨z, by simp [e1], e2⟩
    · show (shiftWalk prev x :: shiftWalks (shiftWalk prev x) xs).map Leg.isRide = _
      rw [List.map_cons, List.map_cons, g3, hsh.1.isRide]
    · intro y hy
      have hy' : (shiftWalk prev x :: shiftWalks (shiftWalk prev x) xs).getLast? = some y := by
        rw [← hy]; show _ = (prev :: shiftWalk prev x :: shiftWalks (shiftWalk prev x) xs).getLast?
        rw [List.getLast?_cons_cons]
      obtain ⟨z, e1, e2⟩ := g4 y hy'
      exact ⟨z, by rw [List.getLast?_cons_cons]; exact e1, e2⟩

theorem adj_mono {α : Type} {r r' : α → α → Prop} (h : ∀ x y, r x y → r' x y) {l : List α} (ha : Adj r l) : Adj r' l := by
  rw [adj_iff] at ha ⊢
  intro pre x y post he
  exact h _ _ (ha pre x y post he)

theorem count_rides (l l' : List Leg) (h : l.map Leg.isRide = l'.map Leg.isRide) : (l.filter Leg.isRide).length = (l'.filter Leg.isRide).length := by
  have e : ∀ l : List Leg, (l.filter Leg.isRide).length = (l.map Leg.isRide).count true := by
    intro l
    rw [← List.countP_eq_length_filter]
    rw [List.count, List.countP_map]
    congr 1
    funext x; simp
  rw [e, e, h]

theorem head_getLast {α : Type} {l : List α} (h : l ≠ []) : (∃ x, l.head? = some x) ∧ ∃ x, l.getLast? = some x := by
  cases l with
  | nil => exact absurd rfl h
  | cons a l => exact ⟨⟨a, rfl⟩, _, List.getLast?_cons⟩

/-- The presentation of legs that are in order. -/
theorem present_legs {d : Dir} {N : Net} (hst : StaticFps N) {Q : RcData} {dest : Loc} {s A : Int} {K : Nat} {L : List OLeg} (hne : L ≠ [])
    (hok' : ∀ x ∈ L, LegOk d N Q (x.plain d)) (hadj : Adj OJoined L) (hrides : (L.filter OLeg.isRide).length = K)
    (hhead : ∀ x, L.head? = some x → x.b = dest ∧ x.tb ≤ A) (hstart : ∀ x, L.getLast? = some x → s ≤ x.ta ∧ StartAt Q x.a) :
    Itinerary d N Q s K dest A (present d L) := by
  obtain ⟨⟨a, ha⟩, ⟨b, hb⟩⟩ := head_getLast hne
  obtain ⟨hd1, hd2⟩ := hhead a ha
  have hb' := hstart b hb
  have hcnt : ((L.map (OLeg.plain d)).filter Leg.isRide).length = K := by
    rw [List.filter_map, List.length_map, ← hrides]
    congr 2
    funext x; exact plain_isRide d x
  cases d with
  | fwd =>
    have hadj' : Adj Joined (present .fwd L) := by
      unfold present
      simp only
      rw [adj_reverse, adj_map]
      refine adj_mono ?_ hadj
      rintro x y ⟨h1, h2, h3⟩
      exact ⟨h1, h2, by rw [plain_isRide, plain_isRide]; exact h3.symm⟩
    refine ⟨?_, adj_iff.mp hadj', ?_, ⟨b.plain .fwd, ?_, hb'⟩, ⟨a.plain .fwd, ?_, hd2, hd1⟩⟩
    · intro x hx
      unfold present at hx
      simp only [List.mem_reverse, List.mem_map] at hx
      obtain ⟨y, hy, rfl⟩ := hx
      exact hok' y hy
    · unfold present
      simp only
      rw [List.filter_reverse, List.length_reverse]; exact hcnt
    · unfold present; simp only; rw [List.head?_reverse, List.getLast?_map, hb]; rfl
    · unfold present; simp only; rw [List.getLast?_reverse, List.head?_map, ha]; rfl
  | bwd =>
    cases L with
    | nil => exact absurd rfl hne
    | cons y ys =>
      obtain rfl : y = a := by cases ha; rfl
      have hadjr : Adj Joined (y.plain .bwd :: ys.map (OLeg.plain .bwd)) := by
        rw [← List.map_cons, adj_map]
        refine adj_mono ?_ hadj
        rintro x z ⟨h1, h2, h3⟩
        refine ⟨?_, ?_, by rw [plain_isRide, plain_isRide]; exact h3⟩
        · exact h1.symm
        · simp only [OLeg.plain]; omega
      obtain ⟨g1, g2, g3, g4⟩ := shiftWalks_spec Joined (fun _ _ h => h) _ _ _ (Shifted.refl (y.plain .bwd)) hadjr
      have hp : present .bwd (y :: ys) = y.plain .bwd :: shiftWalks (y.plain .bwd) (ys.map (OLeg.plain .bwd)) := rfl
      refine ⟨?_, ?_, ?_, ⟨y.plain .bwd, by rw [hp]; rfl, ?_, hd1⟩, ?_⟩
      · intro x hx
        rw [hp] at hx
        rcases List.mem_cons.mp hx with rfl | hx
        · exact hok' y (by simp)
        · obtain ⟨z, e1, e2⟩ := g2 x hx
          obtain ⟨z', e3, rfl⟩ := List.mem_map.mp e1
          exact e2.ok hst (hok' z' (by simp [e3]))
      · rw [hp]; exact adj_iff.mp g1
      · rw [hp, ← hcnt]
        apply count_rides
        rw [List.map_cons, g3, List.map_cons, List.map_cons]
      · simp only [OLeg.plain]; omega
      · obtain ⟨-, z, hz⟩ := head_getLast (l := present .bwd (y :: ys)) (by rw [hp]; simp)
        obtain ⟨o, e1, e2⟩ := g4 z (by rw [← hp]; exact hz)
        have hb2 : o = b.plain .bwd := by
          rw [← List.map_cons, List.getLast?_map, hb] at e1
          cases e1; rfl
        subst hb2
        refine ⟨z, hz, ?_, ?_⟩
        · have := e2.le; have := hb'.1; simp only [OLeg.plain] at *; omega
        · have := hb'.2
          rw [e2.to]; exact this

theorem present_itinerary {d : Dir} {N : Net} (hN : NetOk N) (hst : StaticFps N) {Q : RcData} (hQ : RcSound N Q) {dest : Loc}
    (hd : N.intermodal = true → dest = N.endLoc) {s A : Int} {K : Nat} (hK : 1 ≤ K) {L : List OLeg}
    (h : BackOk (mkProblem d N) (mkRc d N Q) s K dest dest A L) : Itinerary d N Q s K dest A (present d L) := by
  obtain ⟨hok, hadj, hrides, hhead, hstart⟩ := h
  have hne : L ≠ [] := by rintro rfl; simp at hrides; omega
  refine present_legs hst hne (fun x hx => plain_ok hN hQ hd (hok x hx)) hadj hrides hhead ?_
  intro b hb
  rcases hstart with ⟨h0, _⟩ | ⟨x, h1, h2⟩
  · exact absurd h0 hne
  · rw [hb] at h1; cases h1; exact h2

/-- Reconstruction is sound for every label matrix. -/
theorem reconstruct_sound {d : Dir} {N : Net} (hN : NetOk N) (hst : StaticFps N) {Q : RcData} (hQ : RcSound N Q)
    {R : Nat → Loc → Int} (hR : ∀ k l, d.lo < R k l ∧ R k l ≤ d.hi) {s : Int} {K : Nat} (hK : 1 ≤ K) {dest : Loc}
    (hd : N.intermodal = true → dest = N.endLoc) {legs : List Leg} (h : reconstruct d N Q R s K dest = some legs) :
    Itinerary d N Q s K dest (R K dest) legs := by
  unfold reconstruct at h
  rw [Option.map_eq_some_iff] at h
  obtain ⟨L, h1, rfl⟩ := h
  refine present_itinerary hN hst hQ hd hK ?_
  have h2 : legsBack (mkProblem d N) (mkRc d N Q) R s K K dest (R K dest) = some L := by
    cases K with
    | zero => omega
    | succ k => exact h1
  exact (legsBack_spec (sane_of_ok d hN) (rcOk_of d hQ) hR K dest (R K dest) L (Nat.le_refl _) (fun _ => rfl) (Int.le_refl _) h2).1

end Nigiri.Raptor
