import Verif.Proofs.RaptorVia
import Verif.Proofs.NetJourney
import Verif.Proofs.NetTame
/-!
# Journeys with via stops in terms of the timetable
-/

namespace Nigiri.RaptorVia
open Nigiri.Raptor

theorem searchStops_loc (d : Dir) (w : Bool) (required : List Bool) (flags : List FlagData) (stops : List StopData) {x : Nat} (hx : x < stops.length) :
    ((searchStops d w required flags stops).getD x ⟨0, false, false, false⟩).loc =
      (stops.getD (stopIdx d stops.length x) ⟨0, false, false, false, false⟩).loc := by
  have hlt : stopIdx d stops.length x < stops.length := by unfold stopIdx; cases d <;> simp only <;> omega
  have := (searchStops_get d w required flags stops x _).mpr ⟨hx, stops[stopIdx d stops.length x], List.getElem?_eq_getElem hlt, rfl⟩
  rw [List.getD_eq_getElem?_getD, this, List.getD_eq_getElem?_getD, List.getElem?_eq_getElem hlt]
  rfl

theorem midOf_fwd (w : Bool) (required : List Bool) (flags : List FlagData) (stops : List StopData) (dep arr : Nat → Int) {i j : Nat}
    (hj : j < stops.length) : midOf (searchStops .fwd w required flags stops) dep arr i j = calls stops dep arr i j := by
  unfold midOf calls
  apply List.map_congr_left
  intro x hx
  rw [List.mem_range'_1] at hx
  rw [searchStops_loc _ _ _ _ _ (by omega)]
  rfl

theorem midOf_bwd (w : Bool) (required : List Bool) (flags : List FlagData) (stops : List StopData) (dep arr board alight : Nat → Int)
    (hbo : ∀ i, i < stops.length → board i = - arr (stops.length - 1 - i))
    (hal : ∀ i, i < stops.length → alight i = - dep (stops.length - 1 - i)) {i j : Nat} (hij : i < j) (hj : j < stops.length) :
    ((midOf (searchStops .bwd w required flags stops) board alight i j).map Presence.flip).reverse =
      calls stops dep arr (stops.length - 1 - j) (stops.length - 1 - i) := by
  apply List.ext_getElem
  · simp [midOf, calls]; omega
  · intro k h1 h2
    have hk : k < j - i - 1 := by simpa [midOf] using h1
    simp only [List.getElem_reverse, List.getElem_map, midOf, calls, List.getElem_range', List.length_map, List.length_range']
    rw [searchStops_loc _ _ _ _ _ (by omega), hbo _ (by omega), hal _ (by omega)]
    have e : stops.length - 1 - (i + 1 + 1 * (j - i - 1 - 1 - k)) = stops.length - 1 - j + 1 + 1 * k := by omega
    unfold Presence.flip
    simp only [stopIdx, e, Int.neg_neg]

theorem vehicleVia_fwd (N : Net) (stops : List StopData) (clasz : Nat) (secFlags : List (List Bool)) (hf : FlagsOk stops.length N.required secFlags)
    (dep arr : Nat → Int) {l : Loc} {t : Int} {m : Loc} {a : Int} {mid : List Presence}
    (hal : routeAllowed N.claszMask clasz N.required (secFlags.map registerFlag) = true)
    (h : RideOnV (searchStops .fwd N.wheelchair N.required (secFlags.map registerFlag) stops) dep arr l t m a mid) :
    ∃ td, t ≤ td ∧ VehicleRideVia N stops clasz secFlags dep arr l td m a mid := by
  obtain ⟨i, j, si, sj, hij, hi, hj, rfl, rfl, hb, ha, hsec, ht, rfl, rfl⟩ := h
  obtain ⟨hil, sdi, hi1, rfl⟩ := (searchStops_get _ _ _ _ _ _ _).mp hi
  obtain ⟨hjl, sdj, hj1, rfl⟩ := (searchStops_get _ _ _ _ _ _ _).mp hj
  have hperm : ∀ s, i ≤ s → s < j → N.claszMask.testBit clasz = true ∧ SectionPermitted N.required secFlags s := by
    intro s h1 h2
    apply (section_iff _ _ _ _ _ hf s (by omega)).mp
    refine ⟨hal, ?_⟩
    have hlt : s + 1 < stops.length := by omega
    have hget := (searchStops_get .fwd N.wheelchair N.required (secFlags.map registerFlag) stops (s + 1) _).mpr
      ⟨hlt, stops[s + 1], by simp [stopIdx, List.getElem?_eq_getElem hlt], rfl⟩
    have := hsec (s + 1) _ (by omega) (by omega) hget
    simpa [secIdx, stopIdx] using this
  exact ⟨dep i, ht, (hperm i (Nat.le_refl _) hij).1, i, j, sdi, sdj, hij, hi1, hj1, rfl, rfl, (canStart_fwd _ _).mp hb,
    (canFinish_fwd _ _).mp ha, fun s h1 h2 => (hperm s h1 h2).2, rfl, rfl, midOf_fwd _ _ _ _ _ _ hjl⟩

theorem vehicleVia_bwd (N : Net) (stops : List StopData) (clasz : Nat) (secFlags : List (List Bool)) (hf : FlagsOk stops.length N.required secFlags)
    (dep arr : Nat → Int) (board alight : Nat → Int) (hbo : ∀ i, i < stops.length → board i = - arr (stops.length - 1 - i))
    (hal' : ∀ i, i < stops.length → alight i = - dep (stops.length - 1 - i)) {l : Loc} {t : Int} {m : Loc} {a : Int} {mid : List Presence}
    (hal : routeAllowed N.claszMask clasz N.required (secFlags.map registerFlag) = true)
    (h : RideOnV (searchStops .bwd N.wheelchair N.required (secFlags.map registerFlag) stops) board alight l t m a mid) :
    ∃ ta, ta ≤ -t ∧ VehicleRideVia N stops clasz secFlags dep arr m (-a) l ta (mid.map Presence.flip).reverse := by
  obtain ⟨i, j, si, sj, hij, hi, hj, rfl, rfl, hb, ha, hsec, ht, rfl, rfl⟩ := h
  obtain ⟨hil, sdi, hi1, rfl⟩ := (searchStops_get _ _ _ _ _ _ _).mp hi
  obtain ⟨hjl, sdj, hj1, rfl⟩ := (searchStops_get _ _ _ _ _ _ _).mp hj
  have hperm : ∀ s, stops.length - 1 - j ≤ s → s < stops.length - 1 - i → N.claszMask.testBit clasz = true ∧ SectionPermitted N.required secFlags s := by
    intro s h1 h2
    apply (section_iff _ _ _ _ _ hf s (by omega)).mp
    refine ⟨hal, ?_⟩
    have hlt : s < stops.length := by omega
    have hlt' : stops.length - 1 - s < stops.length := by omega
    have hget := (searchStops_get .bwd N.wheelchair N.required (secFlags.map registerFlag) stops (stops.length - 1 - s) _).mpr
      ⟨hlt', stops[s], by
        simp only [stopIdx]
        rw [show stops.length - 1 - (stops.length - 1 - s) = s by omega]
        exact List.getElem?_eq_getElem hlt, rfl⟩
    have := hsec (stops.length - 1 - s) _ (by omega) (by omega) hget
    simp only [secIdx, stopIdx] at this
    rw [show stops.length - 1 - (stops.length - 1 - s) = s by omega] at this
    exact this
  exact ⟨arr (stops.length - 1 - i), by rw [hbo i hil] at ht; omega, (hperm (stops.length - 1 - j) (Nat.le_refl _) (by omega)).1,
    stops.length - 1 - j, stops.length - 1 - i, sdj, sdi, by omega, hj1, hi1, rfl, rfl, (canFinish_bwd _ _).mp ha,
    (canStart_bwd _ _).mp hb, fun s h1 h2 => (hperm s h1 h2).2, by rw [hal' j hjl]; omega, rfl,
    midOf_bwd _ _ _ _ _ _ _ _ hbo hal' hij hjl⟩

theorem rideVia_of {N : Net} (hN : NetOk N) {d : Dir} {l : Loc} {t : Int} {m : Loc} {a : Int} {mid : List Presence}
    (h : RideV (mkProblem d N) l t m a mid) : RideVia d N l t m a mid := by
  rcases h with ⟨r', hr', hal, tr, hact, hon⟩ | ⟨r', hr', hal, hon⟩
  · obtain ⟨r, hr, rfl⟩ := List.mem_map.mp (show r' ∈ N.routes.map (mkRoute d N) from hr')
    cases d with
    | fwd =>
      simp only [mkRoute, RouteData.flags, evTime, Dir.sgn, RouteData.evBoard, RouteData.evAlight, Int.one_mul] at hal hon
      obtain ⟨td, h1, h2⟩ := vehicleVia_fwd N r.stops r.clasz r.secFlags (hN.flags r hr) _ _ hal hon
      exact ⟨td, h1, Or.inl ⟨r, hr, tr.1, tr.2, hact.1, hact.2, h2⟩⟩
    | bwd =>
      obtain ⟨td, h1, h2⟩ := vehicleVia_bwd N r.stops r.clasz r.secFlags (hN.flags r hr) (fun i => (tr.2 - N.base) * 1440 + r.dep tr.1 i)
        (fun i => (tr.2 - N.base) * 1440 + r.arr tr.1 i) _ _
        (by intro i _; simp only [mkRoute, evTime, Dir.sgn, RouteData.evBoard]; omega)
        (by intro i _; simp only [mkRoute, evTime, Dir.sgn, RouteData.evAlight]; omega) hal hon
      exact ⟨td, h1, Or.inl ⟨r, hr, tr.1, tr.2, hact.1, hact.2, h2⟩⟩
  · obtain ⟨r, hr, rfl⟩ := List.mem_map.mp (show r' ∈ N.rts.map (mkRt d N) from hr')
    cases d with
    | fwd =>
      obtain ⟨td, h1, h2⟩ := vehicleVia_fwd N r.stops r.clasz r.secFlags (hN.rtFlags r hr) r.dep r.arr hal hon
      exact ⟨td, h1, Or.inr ⟨r, hr, h2⟩⟩
    | bwd =>
      obtain ⟨td, h1, h2⟩ := vehicleVia_bwd N r.stops r.clasz r.secFlags (hN.rtFlags r hr) r.dep r.arr _ _
        (by intro i _; rfl) (by intro i _; rfl) hal hon
      exact ⟨td, h1, Or.inr ⟨r, hr, h2⟩⟩

theorem viaReach_of {N : Net} (hN : NetOk N) {d : Dir} {bf : Loc → Int} {st : List (Loc × Int)} {k : Nat} {l : Loc} {t : Int} {T : List Presence}
    (h : ReadyV (mkProblem d N) bf st k l t T) : ViaReach d N bf st k l t T := by
  induction h with
  | start hx => exact .start hx
  | ride _ hr hc ih =>
    have hr' := rideVia_of hN hr
    cases hc with
    | stay h => exact .change ih hr' h
    | dest h1 h2 h3 => exact .dest ih hr' h1 h2 h3
    | walk h1 h2 h3 => exact .walk ih hr' h1 h2 h3
    | lastMile h1 h2 h3 => exact .lastMile ih hr' h1 h2 h3

/-- Conditions on a query with via stops. -/
structure ViaOk (N : Net) (vias : List ViaStop) (hasTd : Loc → Bool) : Prop where
  /-- stays are not negative -/
  stay : ∀ v ∈ vias, 0 ≤ v.stay
  /-- the footpaths of locations without time dependent footpaths do not depend on the time -/
  static : ∀ l, hasTd l = false → ∀ t, N.fps l t = N.fps l 0
  /-- no stay is required at a location with time dependent footpaths -/
  tdStay : ∀ l, hasTd l = true → ∀ v ∈ vias, v.isVia l = true → v.stay = 0

theorem saneV_of_ok (d : Dir) {N : Net} (hN : NetOk N) {vias : List ViaStop} {hasTd : Loc → Bool} (hv : ViaOk N vias hasTd) :
    SaneV (mkVProblem d N vias hasTd) where
  toSane := sane_of_ok d hN
  dwell := by
    intro r' hr' tr hact i hi0 hi
    obtain ⟨r, hr, rfl⟩ := List.mem_map.mp (show r' ∈ N.routes.map (mkRoute d N) from hr')
    have hlen : (mkRoute d N r).stops.length = r.stops.length := searchStops_length _ _ _ _ _
    rw [hlen] at hi
    have := (hN.times r hr tr.1 hact.1).2
    cases d with
    | fwd =>
      have := this i hi0 hi
      simp only [mkRoute, evTime, Dir.sgn, RouteData.evAlight, RouteData.evBoard]; simp only at this; omega
    | bwd =>
      have := this (r.stops.length - 1 - i) (by omega) (by omega)
      simp only [mkRoute, evTime, Dir.sgn, RouteData.evAlight, RouteData.evBoard]; simp only at this; omega
  rtDwell := by
    intro r' hr' i hi0 hi
    obtain ⟨r, hr, rfl⟩ := List.mem_map.mp (show r' ∈ N.rts.map (mkRt d N) from hr')
    have hlen : (mkRt d N r).stops.length = r.stops.length := searchStops_length _ _ _ _ _
    rw [hlen] at hi
    have := (hN.rtTimes r hr).2
    cases d with
    | fwd => exact this i hi0 hi
    | bwd =>
      have := this (r.stops.length - 1 - i) (by omega) (by omega)
      simp only [mkRt]; omega
  stay := hv.stay
  static := hv.static
  tdStay := hv.tdStay

end Nigiri.RaptorVia
