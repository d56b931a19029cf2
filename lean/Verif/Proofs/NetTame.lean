import Verif.Proofs.NetRide
import Verif.Proofs.Earliest
/-!
# A sane timetable gives a sane search problem
-/

namespace Nigiri.Raptor

theorem dep_le_arr {n : Nat} {dep arr : Nat → Int} (h : TimesOk n dep arr) (i j : Nat) (hij : i < j) (hj : j < n) : dep i ≤ arr j := by
  induction j with
  | zero => omega
  | succ j ih =>
    by_cases he : i = j
    · subst he; exact h.1 i hj
    · have h1 := ih (by omega) (by omega)
      have h2 := h.2 j (by omega) hj
      have h3 := h.1 j hj
      omega

theorem mkProblem_mem_routes {d : Dir} {N : Net} {r : Route} (h : r ∈ (mkProblem d N).routes) : ∃ r0 ∈ N.routes, r = mkRoute d N r0 := by
  obtain ⟨r0, h1, h2⟩ := List.mem_map.mp h; exact ⟨r0, h1, h2.symm⟩

theorem mkProblem_mem_rts {d : Dir} {N : Net} {r : RtTransport} (h : r ∈ (mkProblem d N).rts) : ∃ r0 ∈ N.rts, r = mkRt d N r0 := by
  obtain ⟨r0, h1, h2⟩ := List.mem_map.mp h; exact ⟨r0, h1, h2.symm⟩

theorem mkRoute_length (d : Dir) (N : Net) (r : RouteData) : (mkRoute d N r).stops.length = r.stops.length := searchStops_length _ _ _ _ _

theorem mkRt_length (d : Dir) (N : Net) (r : RtData) : (mkRt d N r).stops.length = r.stops.length := searchStops_length _ _ _ _ _

theorem searchStops_loc {d : Dir} {w : Bool} {required : List Bool} {flags : List FlagData} {stops : List StopData} {s : Stop}
    (h : s ∈ searchStops d w required flags stops) : ∃ sd ∈ stops, s.loc = sd.loc := by
  obtain ⟨i, hi⟩ := List.mem_iff_getElem?.mp h
  obtain ⟨_, sd, h1, rfl⟩ := (searchStops_get _ _ _ _ _ _ _).mp hi
  exact ⟨sd, List.mem_of_getElem? h1, rfl⟩

theorem sane_of_ok (d : Dir) {N : Net} (h : NetOk N) : Sane (mkProblem d N) where
  lohi := by cases d <;> simp [mkProblem, Dir.lo, Dir.hi]
  tripMono := by
    intro r hr tr hact i j hij hj
    obtain ⟨r0, hr0, rfl⟩ := mkProblem_mem_routes hr
    rw [mkRoute_length] at hj
    have ht := h.times r0 hr0 tr.1 hact.1
    cases d with
    | fwd =>
      have := dep_le_arr ht i j hij hj
      simp only [mkRoute, evTime, Dir.sgn, RouteData.evBoard, RouteData.evAlight]; omega
    | bwd =>
      have := dep_le_arr ht (r0.stops.length - 1 - j) (r0.stops.length - 1 - i) (by omega) (by omega)
      simp only [mkRoute, evTime, Dir.sgn, RouteData.evBoard, RouteData.evAlight]; omega
  rtMono := by
    intro r hr i j hij hj
    obtain ⟨r0, hr0, rfl⟩ := mkProblem_mem_rts hr
    rw [mkRt_length] at hj
    have ht := h.rtTimes r0 hr0
    cases d with
    | fwd => exact dep_le_arr ht i j hij hj
    | bwd =>
      have := dep_le_arr ht (r0.stops.length - 1 - j) (r0.stops.length - 1 - i) (by omega) (by omega)
      simp only [mkRt]; omega
  etSound := by
    intro r hr i t lim tr he
    obtain ⟨r0, hr0, rfl⟩ := mkProblem_mem_routes hr
    have := getEarliest_sound he
    exact ⟨⟨this.1, this.2.1⟩, this.2.2.1⟩
  transfer := h.transfer
  fps := h.fps
  endDist := h.endDist
  endTd := h.endTd

/-- The boarding (alighting) events of a route at one stop, in search direction: in order, and on the same
day for all trips. -/
structure Column (d : Dir) (n : Nat) (ev : Nat → Nat) : Prop where
  ord : ∀ t t', t < n → t' < n → d.before t t' → um d ev t ≤ um d ev t'
  day : ∀ t t', t < n → t' < n → ev t / 1440 = ev t' / 1440

theorem column_board {d : Dir} {r : RouteData} (h : Aligned r) (i : Nat) (hi : i + 1 < r.stops.length) : Column d r.nTr (fun t => r.evBoard d t i) := by
  cases d with
  | fwd =>
    refine ⟨fun t t' _ h2 hb => ?_, fun t t' h1 h2 => h.depDay t t' h1 h2 i hi⟩
    have := h.dep t t' hb h2 i hi
    simp only [um, Dir.sgn, RouteData.evBoard]; omega
  | bwd =>
    refine ⟨fun t t' h1 _ hb => ?_, fun t t' h1 h2 => h.arrDay t t' h1 h2 _ (by omega) (by omega)⟩
    have := h.arr t' t hb h1 (r.stops.length - 1 - i) (by omega) (by omega)
    simp only [um, Dir.sgn, RouteData.evBoard]; omega

theorem column_alight {d : Dir} {r : RouteData} (h : Aligned r) (i : Nat) (h0 : 0 < i) (hi : i < r.stops.length) : Column d r.nTr (fun t => r.evAlight d t i) := by
  cases d with
  | fwd =>
    refine ⟨fun t t' _ h2 hb => ?_, fun t t' h1 h2 => h.arrDay t t' h1 h2 i h0 hi⟩
    have := h.arr t t' hb h2 i h0 hi
    simp only [um, Dir.sgn, RouteData.evAlight]; omega
  | bwd =>
    refine ⟨fun t t' h1 _ hb => ?_, fun t t' h1 h2 => h.depDay t t' h1 h2 _ (by omega)⟩
    have := h.dep t' t hb h1 (r.stops.length - 1 - i) (by omega)
    simp only [um, Dir.sgn, RouteData.evAlight]; omega

/-- Runs of one column compare like (start day, order). -/
theorem column_lt_of_day {d : Dir} {n : Nat} {ev : Nat → Nat} (h : Column d n ev) {base D D' : Int} {t t' : Nat} (ht : t < n) (ht' : t' < n)
    (hD : d.sgn * D < d.sgn * D') : evTime d base D (ev t) < evTime d base D' (ev t') := by
  have hq := h.day t t' ht ht'
  have hu := um_diff d ev t t'
  rw [evTime_ot, evTime_ot]
  unfold ot eday
  unfold um at hu
  rw [hq]
  generalize ((ev t' / 1440 : Nat) : Int) = q
  rcases sgn_cases d with h | h <;> rw [h] at hu hD ⊢ <;> omega

theorem column_le_of_before {d : Dir} {n : Nat} {ev : Nat → Nat} (h : Column d n ev) {base D : Int} {t t' : Nat} (ht : t < n) (ht' : t' < n)
    (hb : t' = t ∨ d.before t t') : evTime d base D (ev t) ≤ evTime d base D (ev t') := by
  rcases hb with rfl | hb
  · exact Int.le_refl _
  · have hq := h.day t t' ht ht'
    have hu := h.ord t t' ht ht' hb
    rw [evTime_ot, evTime_ot]
    unfold ot eday
    unfold um at hu
    rw [hq]
    generalize ((ev t' / 1440 : Nat) : Int) = q
    rcases sgn_cases d with h | h <;> rw [h] at hu ⊢ <;> omega

theorem before_total (d : Dir) (t t' : Nat) : t' = t ∨ d.before t t' ∨ d.before t' t := by
  unfold Dir.before; cases d <;> simp only <;> omega

theorem tame_of_ok (d : Dir) {N : Net} (h : NetOk N) (hf : NetFifo N) : Tame (mkProblem d N) 7200 where
  toSane := sane_of_ok d h
  etLeast := by
    intro r hr i t lim tr hi he tr' hact ht'
    obtain ⟨r0, hr0, rfl⟩ := mkProblem_mem_routes hr
    have hi0 : i + 1 < r0.stops.length := by rwa [mkRoute_length] at hi
    have hs := getEarliest_sound (he : getEarliest d N.base r0 i t lim = some tr)
    have hfst := getEarliest_first hi0 he hact.1 hact.2 ht'
    have hal := hf.aligned r0 hr0
    have hq := (column_board (d := d) hal i hi0).day tr.1 tr'.1 hs.1 hact.1
    unfold eday at hfst
    rw [hq] at hfst
    have hcase : d.sgn * tr.2 < d.sgn * tr'.2 ∨ (tr.2 = tr'.2 ∧ (tr'.1 = tr.1 ∨ d.before tr.1 tr'.1)) := by
      rcases hfst with g | ⟨g1, g2⟩
      · left; rcases sgn_cases d with e | e <;> rw [e] at g ⊢ <;> omega
      · right; exact ⟨by omega, g2⟩
    constructor
    · rcases hcase with g | ⟨g1, g2⟩
      · exact Int.le_of_lt (column_lt_of_day (column_board (d := d) hal i hi0) (base := N.base) hs.1 hact.1 g)
      · have := column_le_of_before (column_board (d := d) hal i hi0) (base := N.base) (D := tr.2) hs.1 hact.1 g2
        show evTime d N.base tr.2 _ ≤ evTime d N.base tr'.2 _
        rw [← g1]; exact this
    · intro j hij hj
      rw [mkRoute_length] at hj
      have hc := column_alight (d := d) hal j (by omega) hj
      rcases hcase with g | ⟨g1, g2⟩
      · exact Int.le_of_lt (column_lt_of_day hc (base := N.base) hs.1 hact.1 g)
      · have := column_le_of_before hc (base := N.base) (D := tr.2) hs.1 hact.1 g2
        show evTime d N.base tr.2 _ ≤ evTime d N.base tr'.2 _
        rw [← g1]; exact this
  overtake := by
    intro r hr a b i ha hb hlt j hij hj
    obtain ⟨r0, hr0, rfl⟩ := mkProblem_mem_routes hr
    rw [mkRoute_length] at hj
    have hal := hf.aligned r0 hr0
    have hcb := column_board (d := d) hal i (by omega)
    have hca := column_alight (d := d) hal j (by omega) hj
    have hlt' : evTime d N.base a.2 (r0.evBoard d a.1 i) < evTime d N.base b.2 (r0.evBoard d b.1 i) := hlt
    show evTime d N.base a.2 (r0.evAlight d a.1 j) ≤ evTime d N.base b.2 (r0.evAlight d b.1 j)
    by_cases h1 : d.sgn * a.2 < d.sgn * b.2
    · exact Int.le_of_lt (column_lt_of_day hca (base := N.base) ha.1 hb.1 h1)
    · by_cases h2 : d.sgn * b.2 < d.sgn * a.2
      · have h2' := column_lt_of_day hcb (base := N.base) hb.1 ha.1 h2
        omega
      · have he : a.2 = b.2 := by rcases sgn_cases d with e | e <;> rw [e] at h1 h2 <;> omega
        rcases before_total d a.1 b.1 with g | g | g
        · have := column_le_of_before hca (base := N.base) (D := a.2) ha.1 hb.1 (Or.inl g)
          rw [← he]; exact this
        · have := column_le_of_before hca (base := N.base) (D := a.2) ha.1 hb.1 (Or.inr g)
          rw [← he]; exact this
        · have := column_le_of_before hcb (base := N.base) (D := a.2) hb.1 ha.1 (Or.inr g)
          rw [← he] at hlt'
          omega
  etComplete := by
    intro r hr i t lim tr hi hact hlo ht hw hl hhi
    obtain ⟨r0, hr0, rfl⟩ := mkProblem_mem_routes hr
    have hi0 : i + 1 < r0.stops.length := by rwa [mkRoute_length] at hi
    have hal := hf.aligned r0 hr0
    refine getEarliest_complete (d := d) (base := N.base) hi0 ?_ hact.1 hact.2 ht hw ?_
    · intro t t' h1 h2
      cases d with
      | fwd => exact hal.dep t t' h1 h2 i hi0
      | bwd => exact hal.arr t t' h1 h2 _ (by omega) (by omega)
    · have hlo' : d.lo < t := hlo
      have ht' : t ≤ evTime d N.base tr.2 (r0.evBoard d tr.1 i) := ht
      have hhi' : evTime d N.base tr.2 (r0.evBoard d tr.1 i) < d.hi := hhi
      have hl' : evTime d N.base tr.2 (r0.evBoard d tr.1 i) ≤ lim := hl
      unfold Dir.clamp; omega
  fpsFifo := fun l a a' l' w h => hf.fps l a a' l' w (by cases d <;> simp only [mkProblem, Dir.lo] at h <;> omega)
  endFifo := fun l a a' w h => hf.endTd l a a' w (by cases d <;> simp only [mkProblem, Dir.lo] at h <;> omega)
  routeLocs := by
    intro r hr s hs
    obtain ⟨r0, hr0, rfl⟩ := mkProblem_mem_routes hr
    obtain ⟨sd, h1, h2⟩ := searchStops_loc hs
    rw [h2]; exact h.locs r0 hr0 sd h1
  rtLocs := by
    intro r hr s hs
    obtain ⟨r0, hr0, rfl⟩ := mkProblem_mem_rts hr
    obtain ⟨sd, h1, h2⟩ := searchStops_loc hs
    rw [h2]; exact h.rtLocs r0 hr0 sd h1
  destLocs := h.destLocs
  endDest := fun hi => (h.endDest hi _).mpr rfl
  endStop := by
    intro hi
    constructor
    · intro r hr s hs
      obtain ⟨r0, hr0, rfl⟩ := mkProblem_mem_routes hr
      obtain ⟨i, hi'⟩ := List.getElem?_of_mem hs
      obtain ⟨-, s', h1, rfl⟩ := (searchStops_get _ _ _ _ _ _ _).mp hi'
      exact (h.endStop hi).1 r0 hr0 s' (List.mem_of_getElem? h1)
    · intro r hr s hs
      obtain ⟨r0, hr0, rfl⟩ := mkProblem_mem_rts hr
      obtain ⟨i, hi'⟩ := List.getElem?_of_mem hs
      obtain ⟨-, s', h1, rfl⟩ := (searchStops_get _ _ _ _ _ _ _).mp hi'
      exact (h.endStop hi).2 r0 hr0 s' (List.mem_of_getElem? h1)
  endFps := h.endFps

end Nigiri.Raptor
