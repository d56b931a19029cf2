import Verif.Spec.Network
import Verif.Spec.Journey
/-!
# The rides of the search problem are the rides of the timetable
-/

namespace Nigiri.Raptor

theorem zipWith_all {α β γ : Type} (f : α → β → γ) (p : γ → Bool) (a : List α) (b : List β) :
    (List.zipWith f a b).all p = true ↔ ∀ (i : Nat) (x : α) (y : β), a[i]? = some x → b[i]? = some y → p (f x y) = true := by
  rw [List.all_eq_true]
  constructor
  · intro h i x y hx hy
    apply h
    rw [List.mem_iff_getElem?]
    refine ⟨i, ?_⟩
    rw [List.getElem?_zipWith, hx, hy]
  · intro h z hz
    rw [List.mem_iff_getElem?] at hz
    obtain ⟨i, hi⟩ := hz
    rw [List.getElem?_zipWith] at hi
    cases hx : a[i]? with
    | none => rw [hx] at hi; simp at hi
    | some x =>
      cases hy : b[i]? with
      | none => rw [hx, hy] at hi; simp at hi
      | some y =>
        rw [hx, hy] at hi
        simp at hi; subst hi
        exact h i x y hx hy

/-- The flag data of `register_route` and the test of `loop_routes` and `update_route` together decide
whether a section has the flag. -/
theorem flag_iff (sec : List Bool) (n x : Nat) (hl : sec.length = 0 ∨ sec.length = 1 ∨ sec.length + 1 = n) (hx : x + 1 < n) :
    ((loopFilter true (registerFlag sec)).1 = true ∧
      (if (loopFilter true (registerFlag sec)).2 then (registerFlag sec).sections.getD x false else true) = true) ↔ FlagOn sec x := by
  unfold FlagOn
  by_cases hall : sec.countP id = sec.length ∧ sec.length ≠ 0
  · have h1 : (registerFlag sec).all = true := by simp only [registerFlag, Bool.and_eq_true, decide_eq_true_eq]; exact hall
    have h2 : loopFilter true (registerFlag sec) = (true, false) := by simp [loopFilter, h1]
    rw [h2]
    simp only [true_and]
    have hm : ∀ b ∈ sec, b = true := by
      intro b hb
      have := (List.countP_eq_length.mp hall.1) b hb
      simpa using this
    constructor
    · intro _
      have hlt : (if sec.length = 1 then 0 else x) < sec.length := by split <;> omega
      rw [List.getD_eq_getElem?_getD, List.getElem?_eq_getElem hlt]
      exact hm _ (List.getElem_mem _)
    · intro _; rfl
  · have h1 : (registerFlag sec).all = false := by
      simp only [registerFlag, Bool.and_eq_false_iff, decide_eq_false_iff_not]
      by_cases h0 : sec.countP id = sec.length
      · right; intro h; exact hall ⟨h0, h⟩
      · left; exact h0
    by_cases hsome : sec.countP id ≠ 0
    · have h2 : (registerFlag sec).some = true := by simp only [registerFlag, decide_eq_true_eq]; exact hsome
      have h3 : loopFilter true (registerFlag sec) = (true, true) := by simp [loopFilter, h1, h2]
      have hs : (registerFlag sec).sections = sec := by
        simp only [registerFlag] at h1 h2 ⊢
        rw [if_pos (by rw [h1, h2]; rfl)]
      rw [h3]
      simp only [true_and, if_true]
      rw [hs]
      have hle : sec.countP id ≤ sec.length := List.countP_le_length
      have hne : sec.length ≠ 1 := by
        intro h; apply hall; omega
      rw [if_neg hne]
    · have h2 : (registerFlag sec).some = false := by simp only [registerFlag, decide_eq_false_iff_not]; exact hsome
      have h3 : loopFilter true (registerFlag sec) = (false, false) := by simp [loopFilter, h1, h2]
      rw [h3]
      simp only [Bool.false_eq_true, false_and, false_iff]
      intro h
      have hz : sec.countP id = 0 := Classical.not_not.mp hsome
      rw [List.countP_eq_zero] at hz
      rw [List.getD_eq_getElem?_getD] at h
      cases hg : sec[if sec.length = 1 then 0 else x]? with
      | none => rw [hg] at h; simp at h
      | some b =>
        rw [hg] at h
        simp at h; subst h
        exact hz true (List.mem_of_getElem? hg) rfl

theorem loopFilter_false (f : FlagData) : loopFilter false f = (true, false) := rfl

/-- Class filter, flag filter and section filter together. -/
theorem section_iff (mask clasz n : Nat) (required : List Bool) (secFlags : List (List Bool)) (hf : FlagsOk n required secFlags)
    (x : Nat) (hx : x + 1 < n) :
    (routeAllowed mask clasz required (secFlags.map registerFlag) = true ∧
      sectionOk required (secFlags.map registerFlag) x = true) ↔
    (mask.testBit clasz = true ∧ SectionPermitted required secFlags x) := by
  unfold routeAllowed filterPairs sectionOk claszAllowed
  rw [Bool.and_eq_true, zipWith_all, zipWith_all]
  constructor
  · rintro ⟨⟨h1, h2⟩, h3⟩
    refine ⟨h1, ?_⟩
    intro f sec hr hs
    have hm : (secFlags.map registerFlag)[f]? = some (registerFlag sec) := by rw [List.getElem?_map, hs]; rfl
    exact (flag_iff sec n x (hf.2 sec (List.mem_of_getElem? hs)) hx).mp ⟨h2 f _ _ hr hm, h3 f _ _ hr hm⟩
  · rintro ⟨h1, h2⟩
    have key : ∀ (i : Nat) (q : Bool) (y : FlagData), required[i]? = some q → (secFlags.map registerFlag)[i]? = some y →
        (loopFilter q y).1 = true ∧ (if (loopFilter q y).2 then y.sections.getD x false else true) = true := by
      intro i q y hq hy
      rw [List.getElem?_map] at hy
      cases hs : secFlags[i]? with
      | none => rw [hs] at hy; simp at hy
      | some sec =>
        rw [hs] at hy
        simp at hy; subst hy
        cases q with
        | false => rw [loopFilter_false]; exact ⟨rfl, rfl⟩
        | true => exact (flag_iff sec n x (hf.2 sec (List.mem_of_getElem? hs)) hx).mpr (h2 i sec hq hs)
    exact ⟨⟨h1, fun i q y hq hy => (key i q y hq hy).1⟩, fun i q y hq hy => (key i q y hq hy).2⟩

theorem searchStops_get (d : Dir) (w : Bool) (required : List Bool) (flags : List FlagData) (stops : List StopData) (i : Nat) (s : Stop) :
    (searchStops d w required flags stops)[i]? = some s ↔
      i < stops.length ∧ ∃ sd, stops[stopIdx d stops.length i]? = some sd ∧
        s = { loc := sd.loc, canBoard := sd.canStart d w, canAlight := sd.canFinish d w,
              secOk := sectionOk required flags (secIdx d stops.length i) } := by
  unfold searchStops
  simp only
  rw [List.getElem?_map]
  by_cases hi : i < stops.length
  · rw [List.getElem?_range hi]
    have hlt : stopIdx d stops.length i < stops.length := by unfold stopIdx; cases d <;> simp only <;> omega
    simp only [Option.map_some, Option.some.injEq, List.getD_eq_getElem?_getD, List.getElem?_eq_getElem hlt, Option.getD_some]
    constructor
    · intro h; exact ⟨hi, _, rfl, h.symm⟩
    · rintro ⟨_, sd, rfl, h⟩; exact h.symm
  · rw [List.getElem?_eq_none (by simpa using hi)]
    simp [hi]

theorem searchStops_length (d : Dir) (w : Bool) (required : List Bool) (flags : List FlagData) (stops : List StopData) :
    (searchStops d w required flags stops).length = stops.length := by
  simp [searchStops]

theorem canStart_fwd (s : StopData) (w : Bool) : s.canStart .fwd w = true ↔ MayBoard w s := by
  cases w <;> simp [StopData.canStart, MayBoard]
theorem canFinish_fwd (s : StopData) (w : Bool) : s.canFinish .fwd w = true ↔ MayAlight w s := by
  cases w <;> simp [StopData.canFinish, MayAlight]
theorem canStart_bwd (s : StopData) (w : Bool) : s.canStart .bwd w = true ↔ MayAlight w s := by
  cases w <;> simp [StopData.canStart, MayAlight]
theorem canFinish_bwd (s : StopData) (w : Bool) : s.canFinish .bwd w = true ↔ MayBoard w s := by
  cases w <;> simp [StopData.canFinish, MayBoard]

/-- Forward: rides on the search stops are rides of the vehicle. -/
theorem vehicle_fwd (N : Net) (stops : List StopData) (clasz : Nat) (secFlags : List (List Bool)) (hf : FlagsOk stops.length N.required secFlags)
    (dep arr : Nat → Int) (l : Loc) (t : Int) (m : Loc) (a : Int) :
    (routeAllowed N.claszMask clasz N.required (secFlags.map registerFlag) = true ∧
      RideOn (searchStops .fwd N.wheelchair N.required (secFlags.map registerFlag) stops) dep arr l t m a) ↔
    ∃ td, t ≤ td ∧ VehicleRide N stops clasz secFlags dep arr l td m a := by
  constructor
  · rintro ⟨hal, i, j, si, sj, hij, hi, hj, rfl, rfl, hb, ha, hsec, ht, rfl⟩
    obtain ⟨hil, sdi, hi1, rfl⟩ := (searchStops_get _ _ _ _ _ _ _).mp hi
    obtain ⟨hjl, sdj, hj1, rfl⟩ := (searchStops_get _ _ _ _ _ _ _).mp hj
    have hperm : ∀ s, i ≤ s → s < j → N.claszMask.testBit clasz = true ∧ SectionPermitted N.required secFlags s := by
      intro s h1 h2
      apply (section_iff _ _ _ _ _ hf s (by omega)).mp
      refine ⟨hal, ?_⟩
      have hlt : s + 1 < stops.length := by omega
      have hget := (searchStops_get .fwd N.wheelchair N.required (secFlags.map registerFlag) stops (s + 1) _).mpr
        ⟨hlt, stops[s + 1], by simp [stopIdx, List.getElem?_eq_getElem hlt], rfl⟩
      have := hsec (s + 1) _ (by omega) (by omega) hget
      simpa [secIdx, stopIdx] using this
    refine ⟨dep i, ht, (hperm i (Nat.le_refl _) hij).1, i, j, sdi, sdj, hij, hi1, hj1, rfl, rfl, (canStart_fwd _ _).mp hb,
      (canFinish_fwd _ _).mp ha, fun s h1 h2 => (hperm s h1 h2).2, rfl, rfl⟩
  · rintro ⟨td, ht, hm, i, j, si, sj, hij, hi, hj, rfl, rfl, hb, ha, hsec, rfl, rfl⟩
    have hjl : j < stops.length := (List.getElem?_eq_some_iff.mp hj).1
    have hs : ∀ s, i ≤ s → s < j → _ := fun s h1 h2 =>
      (section_iff N.claszMask clasz _ _ _ hf s (by omega)).mpr ⟨hm, hsec s h1 h2⟩
    refine ⟨(hs i (Nat.le_refl _) hij).1, i, j, _, _, hij, (searchStops_get _ _ _ _ _ _ _).mpr ⟨by omega, si, hi, rfl⟩,
      (searchStops_get _ _ _ _ _ _ _).mpr ⟨hjl, sj, hj, rfl⟩, rfl, rfl, (canStart_fwd _ _).mpr hb, (canFinish_fwd _ _).mpr ha, ?_, ht, rfl⟩
    intro x s h1 h2 hx
    obtain ⟨_, sd, _, rfl⟩ := (searchStops_get _ _ _ _ _ _ _).mp hx
    exact (hs (x - 1) (by omega) (by omega)).2

/-- Backward. -/
theorem vehicle_bwd (N : Net) (stops : List StopData) (clasz : Nat) (secFlags : List (List Bool)) (hf : FlagsOk stops.length N.required secFlags)
    (dep arr : Nat → Int) (board alight : Nat → Int) (hbo : ∀ i, i < stops.length → board i = - arr (stops.length - 1 - i))
    (hal' : ∀ i, i < stops.length → alight i = - dep (stops.length - 1 - i)) (l : Loc) (t : Int) (m : Loc) (a : Int) :
    (routeAllowed N.claszMask clasz N.required (secFlags.map registerFlag) = true ∧
      RideOn (searchStops .bwd N.wheelchair N.required (secFlags.map registerFlag) stops) board alight l t m a) ↔
    ∃ ta, ta ≤ -t ∧ VehicleRide N stops clasz secFlags dep arr m (-a) l ta := by
  constructor
  · rintro ⟨hal, i, j, si, sj, hij, hi, hj, rfl, rfl, hb, ha, hsec, ht, rfl⟩
    obtain ⟨hil, sdi, hi1, rfl⟩ := (searchStops_get _ _ _ _ _ _ _).mp hi
    obtain ⟨hjl, sdj, hj1, rfl⟩ := (searchStops_get _ _ _ _ _ _ _).mp hj
    have hperm : ∀ s, stops.length - 1 - j ≤ s → s < stops.length - 1 - i → N.claszMask.testBit clasz = true ∧ SectionPermitted N.required secFlags s := by
      intro s h1 h2
      apply (section_iff _ _ _ _ _ hf s (by omega)).mp
      refine ⟨hal, ?_⟩
      have hlt : s < stops.length := by omega
      have hlt' : stops.length - 1 - s < stops.length := by omega
      have hget := (searchStops_get .bwd N.wheelchair N.required (secFlags.map registerFlag) stops (stops.length - 1 - s) _).mpr
        ⟨hlt', stops[s], by
          simp only [stopIdx]
          rw [show stops.length - 1 - (stops.length - 1 - s) = s by omega]
          exact List.getElem?_eq_getElem hlt, rfl⟩
      have := hsec (stops.length - 1 - s) _ (by omega) (by omega) hget
      simp only [secIdx, stopIdx] at this
      rw [show stops.length - 1 - (stops.length - 1 - s) = s by omega] at this
      exact this
    refine ⟨arr (stops.length - 1 - i), by rw [hbo i hil] at ht; omega, (hperm (stops.length - 1 - j) (Nat.le_refl _) (by omega)).1,
      stops.length - 1 - j, stops.length - 1 - i, sdj, sdi, by omega, hj1, hi1, rfl, rfl, (canFinish_bwd _ _).mp ha,
      (canStart_bwd _ _).mp hb, fun s h1 h2 => (hperm s h1 h2).2, by rw [hal' j hjl]; omega, rfl⟩
  · rintro ⟨ta, ht, hm, i, j, si, sj, hij, hi, hj, rfl, rfl, hb, ha, hsec, hdep, rfl⟩
    have hjl : j < stops.length := (List.getElem?_eq_some_iff.mp hj).1
    have hs : ∀ s, i ≤ s → s < j → _ := fun s h1 h2 =>
      (section_iff N.claszMask clasz _ _ _ hf s (by omega)).mpr ⟨hm, hsec s h1 h2⟩
    have e1 : stops.length - 1 - (stops.length - 1 - j) = j := by omega
    have e2 : stops.length - 1 - (stops.length - 1 - i) = i := by omega
    refine ⟨(hs i (Nat.le_refl _) hij).1, stops.length - 1 - j, stops.length - 1 - i, _, _, by omega,
      (searchStops_get _ _ _ _ _ _ _).mpr ⟨by omega, sj, by simp only [stopIdx]; rw [e1]; exact hj, rfl⟩,
      (searchStops_get _ _ _ _ _ _ _).mpr ⟨by omega, si, by simp only [stopIdx]; rw [e2]; exact hi, rfl⟩, rfl, rfl,
      (canStart_bwd _ _).mpr ha, (canFinish_bwd _ _).mpr hb, ?_, by rw [hbo _ (by omega), e1]; omega, by rw [hal' _ (by omega), e2]; omega⟩
    intro x s h1 h2 hx
    obtain ⟨_, sd, _, rfl⟩ := (searchStops_get _ _ _ _ _ _ _).mp hx
    exact (hs (stops.length - 1 - x) (by omega) (by omega)).2

/-- The rides of the search problem are exactly the permitted rides of the timetable. -/
theorem ride_iff {N : Net} (hN : NetOk N) (d : Dir) (l : Loc) (t : Int) (m : Loc) (a : Int) :
    Ride (mkProblem d N) l t m a ↔ RideDir d N l t m a := by
  have hroute : ∀ r ∈ N.routes, ∀ (tr : Run),
      (((mkRoute d N r).allowed = true ∧ RideOn (mkRoute d N r).stops ((mkRoute d N r).board tr) ((mkRoute d N r).alight tr) l t m a) ↔
        match d with
        | .fwd => ∃ td, t ≤ td ∧ VehicleRide N r.stops r.clasz r.secFlags (fun i => (tr.2 - N.base) * 1440 + r.dep tr.1 i)
            (fun i => (tr.2 - N.base) * 1440 + r.arr tr.1 i) l td m a
        | .bwd => ∃ ta, ta ≤ -t ∧ VehicleRide N r.stops r.clasz r.secFlags (fun i => (tr.2 - N.base) * 1440 + r.dep tr.1 i)
            (fun i => (tr.2 - N.base) * 1440 + r.arr tr.1 i) m (-a) l ta) := by
    intro r hr tr
    cases d with
    | fwd =>
      have := vehicle_fwd N r.stops r.clasz r.secFlags (hN.flags r hr) (fun i => (tr.2 - N.base) * 1440 + r.dep tr.1 i)
        (fun i => (tr.2 - N.base) * 1440 + r.arr tr.1 i) l t m a
      rw [← this]
      simp only [mkRoute, RouteData.flags, evTime, Dir.sgn, RouteData.evBoard, RouteData.evAlight, Int.one_mul]
    | bwd =>
      exact vehicle_bwd N r.stops r.clasz r.secFlags (hN.flags r hr) (fun i => (tr.2 - N.base) * 1440 + r.dep tr.1 i)
        (fun i => (tr.2 - N.base) * 1440 + r.arr tr.1 i) _ _
        (by intro i _; simp only [mkRoute, evTime, Dir.sgn, RouteData.evBoard]; omega)
        (by intro i _; simp only [mkRoute, evTime, Dir.sgn, RouteData.evAlight]; omega) l t m a
  have hrt : ∀ r ∈ N.rts,
      (((mkRt d N r).allowed = true ∧ RideOn (mkRt d N r).stops (mkRt d N r).board (mkRt d N r).alight l t m a) ↔
        match d with
        | .fwd => ∃ td, t ≤ td ∧ VehicleRide N r.stops r.clasz r.secFlags r.dep r.arr l td m a
        | .bwd => ∃ ta, ta ≤ -t ∧ VehicleRide N r.stops r.clasz r.secFlags r.dep r.arr m (-a) l ta) := by
    intro r hr
    cases d with
    | fwd => exact vehicle_fwd N r.stops r.clasz r.secFlags (hN.rtFlags r hr) r.dep r.arr l t m a
    | bwd =>
      exact vehicle_bwd N r.stops r.clasz r.secFlags (hN.rtFlags r hr) r.dep r.arr _ _
        (by intro i _; rfl) (by intro i _; rfl) l t m a
  unfold Ride
  have e1 : (mkProblem d N).routes = N.routes.map (mkRoute d N) := rfl
  have e2 : (mkProblem d N).rts = N.rts.map (mkRt d N) := rfl
  rw [e1, e2]
  constructor
  · rintro (⟨r', hr', hal, tr, hact, hon⟩ | ⟨r', hr', hal, hon⟩)
    · obtain ⟨r, hr, rfl⟩ := List.mem_map.mp hr'
      have := (hroute r hr tr).mp ⟨hal, hon⟩
      cases d with
      | fwd => obtain ⟨td, h1, h2⟩ := this; exact ⟨td, h1, Or.inl ⟨r, hr, tr.1, tr.2, hact.1, hact.2, h2⟩⟩
      | bwd => obtain ⟨td, h1, h2⟩ := this; exact ⟨td, h1, Or.inl ⟨r, hr, tr.1, tr.2, hact.1, hact.2, h2⟩⟩
    · obtain ⟨r, hr, rfl⟩ := List.mem_map.mp hr'
      have := (hrt r hr).mp ⟨hal, hon⟩
      cases d with
      | fwd => obtain ⟨td, h1, h2⟩ := this; exact ⟨td, h1, Or.inr ⟨r, hr, h2⟩⟩
      | bwd => obtain ⟨td, h1, h2⟩ := this; exact ⟨td, h1, Or.inr ⟨r, hr, h2⟩⟩
  · intro h
    have : (∃ r ∈ N.routes, ∃ tr : Run, (tr.1 < r.nTr ∧ r.days tr.1 tr.2 = true) ∧
        ((mkRoute d N r).allowed = true ∧ RideOn (mkRoute d N r).stops ((mkRoute d N r).board tr) ((mkRoute d N r).alight tr) l t m a)) ∨
      (∃ r ∈ N.rts, ((mkRt d N r).allowed = true ∧ RideOn (mkRt d N r).stops (mkRt d N r).board (mkRt d N r).alight l t m a)) := by
      cases d with
      | fwd =>
        obtain ⟨td, h1, ⟨r, hr, t', D, h2, h3, h4⟩ | ⟨r, hr, h4⟩⟩ := h
        · exact Or.inl ⟨r, hr, (t', D), ⟨h2, h3⟩, (hroute r hr (t', D)).mpr ⟨td, h1, h4⟩⟩
        · exact Or.inr ⟨r, hr, (hrt r hr).mpr ⟨td, h1, h4⟩⟩
      | bwd =>
        obtain ⟨td, h1, ⟨r, hr, t', D, h2, h3, h4⟩ | ⟨r, hr, h4⟩⟩ := h
        · exact Or.inl ⟨r, hr, (t', D), ⟨h2, h3⟩, (hroute r hr (t', D)).mpr ⟨td, h1, h4⟩⟩
        · exact Or.inr ⟨r, hr, (hrt r hr).mpr ⟨td, h1, h4⟩⟩
    rcases this with ⟨r, hr, tr, h1, h2, h3⟩ | ⟨r, hr, h2, h3⟩
    · exact Or.inl ⟨mkRoute d N r, List.mem_map.mpr ⟨r, hr, rfl⟩, h2, tr, h1, h3⟩
    · exact Or.inr ⟨mkRt d N r, List.mem_map.mpr ⟨r, hr, rfl⟩, h2, h3⟩

end Nigiri.Raptor
