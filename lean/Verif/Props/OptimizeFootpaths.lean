import Verif.Proofs.OptimizeFootpaths
import Verif.Props.Reconstruct
/-!
# Property C57: footpath optimisation keeps itineraries

`optimizeFootpaths N D legs` is the result of the pass that moves boarding and alighting stops along the vehicles
of a reconstructed journey.  `OptOk` and `Unrestricted` (`Verif.Spec.Itinerary`) are its conditions: default transfer
time settings, static footpaths, and no requirement of the query that restricts the vehicles used.

The full claim (every optimised itinerary is an itinerary) is false of the code without these conditions: see
`C57_wheelchair_ignored`, `C57_bicycle_ignored` and `C57_unadjusted_duration`.
-/

namespace Nigiri.Raptor

/-- None of the rides is restricted by the requirements of the query. -/
def FreeRides (N : Net) (legs : List Leg) : Prop := ∀ x ∈ legs, ∀ v i j, x.uses = .ride v i j → Unrestricted N v

/-- C57: an itinerary stays an itinerary for the same query, with the same rides, destination, start time and bound
on the arrival. -/
theorem C57_itinerary_partial (d : Dir) (N : Net) (Q : RcData) (D : OptData) (hD : OptOk d N Q D) (s : Int) (K : Nat) (dest : Loc) (A : Int) (legs : List Leg)
    (h : Itinerary d N Q s K dest A legs) (hf : FreeRides N legs) : Itinerary d N Q s K dest A (optimizeFootpaths N D legs) := by
  obtain ⟨h1, h2⟩ := optimize_ok hD (L := legs) ⟨fun x hx => ⟨h.ok x hx, hf x hx⟩, adj_iff.mpr h.joined⟩
  refine ⟨fun x hx => (h1.ok x hx).1, adj_iff.mp h1.adj, by rw [count_rides _ _ h2.kinds]; exact h.rides, ?_, ?_⟩
  · obtain ⟨x, hx, hc⟩ := h.first
    obtain ⟨x', g1, g2, g3⟩ := h2.head x hx
    refine ⟨x', g1, ?_⟩
    cases d with
    | fwd => exact ⟨Int.le_trans hc.1 g3, by rw [g2]; exact hc.2⟩
    | bwd => exact ⟨Int.le_trans hc.1 g3, by rw [g2]; exact hc.2⟩
  · obtain ⟨x, hx, hc⟩ := h.last
    obtain ⟨x', g1, g2, g3⟩ := h2.last x hx
    refine ⟨x', g1, ?_⟩
    cases d with
    | fwd => exact ⟨Int.le_trans g3 hc.1, by rw [g2]; exact hc.2⟩
    | bwd => exact ⟨Int.le_trans g3 hc.1, by rw [g2]; exact hc.2⟩

/-- C57: the journey does not depart earlier, does not arrive later, begins and ends at the same locations and has
the same sequence of rides and walks. -/
theorem C57_not_worse_partial (d : Dir) (N : Net) (Q : RcData) (D : OptData) (hD : OptOk d N Q D) (s : Int) (K : Nat) (dest : Loc) (A : Int) (legs : List Leg)
    (h : Itinerary d N Q s K dest A legs) (hf : FreeRides N legs) :
    ∃ x y x' y', legs.head? = some x ∧ legs.getLast? = some y ∧ (optimizeFootpaths N D legs).head? = some x' ∧ (optimizeFootpaths N D legs).getLast? = some y' ∧
      x.dep ≤ x'.dep ∧ y'.arr ≤ y.arr ∧ x'.fr = x.fr ∧ y'.to = y.to ∧ (optimizeFootpaths N D legs).map Leg.isRide = legs.map Leg.isRide := by
  obtain ⟨h1, h2⟩ := optimize_ok hD (L := legs) ⟨fun x hx => ⟨h.ok x hx, hf x hx⟩, adj_iff.mpr h.joined⟩
  obtain ⟨x, hx, _⟩ := h.first
  obtain ⟨y, hy, _⟩ := h.last
  obtain ⟨x', g1, g2, g3⟩ := h2.head x hx
  obtain ⟨y', e1, e2, e3⟩ := h2.last y hy
  exact ⟨x, y, x', y', hx, hy, g1, e1, g3, e3, g2, e2, h2.kinds⟩

/-- C57 for reported journeys: reconstruction followed by the optimisation yields an itinerary for the journey. -/
theorem C57_reported_partial (d : Dir) (N : Net) (hN : NetOk N) (hst : StaticFps N) (Q : RcData) (hQ : RcSound N Q) (D : OptData) (hD : OptOk d N Q D)
    (hfree : ∀ v, Unrestricted N v) (n : Nat) (qs : List Start) (hq : ∀ x ∈ allStarts qs, d.lo < x.2 ∧ x.2 ≤ d.hi)
    (dest : Loc) (K : Nat) (A : Int) (hr : (dest, K, A) ∈ reported d N n qs) (s : Int) (legs : List Leg)
    (h : reconstruct d N Q (search d N n qs).round s K dest = some legs) : Itinerary d N Q s K dest A (optimizeFootpaths N D legs) :=
  C57_itinerary_partial d N Q D hD s K dest A legs (C55_reported_partial d N hN hst Q hQ n qs hq dest K A hr s legs h) fun _ _ v _ _ _ => hfree v

/-! ## Example and counterexamples -/

namespace Opt

def st (l : Nat) : StopData := ⟨l, true, true, true, true⟩

/-- Line A 0 - 1 - 2 (one cannot alight at 1 with a wheelchair), line B 5 - 3 - 4 (no bicycles from 5 to 3), walks
from 1 to 5 in two and from 2 to 3 in ten minutes (plus `e`). -/
def lineA : RouteData := ⟨[st 0, ⟨1, true, true, true, false⟩, st 2], 1, fun _ s => 600 + 10 * s, fun _ s => 600 + 10 * s, fun _ d => d == 5, 3, [[true]]⟩
def lineB : RouteData := ⟨[st 5, st 3, st 4], 1, fun _ s => 625 + 10 * s, fun _ s => 625 + 10 * s, fun _ d => d == 5, 3, [[false, true]]⟩

def net (wheelchair bike : Bool) (e : Int) : Net where
  nLoc := 6
  routes := [lineA, lineB]
  rts := []
  base := 5
  wheelchair := wheelchair
  claszMask := 255
  required := [bike]
  transfer := fun _ => 2
  fps := fun l _ => if l = 2 then [(3, 10 + e)] else if l = 1 then [(5, 2 + e)] else []
  intermodal := false
  endDist := fun _ => none
  endTd := fun _ _ => none
  endLoc := 9
  isDest := fun l => l == 4
  lb := fun _ => some 0

def rc : RcData where
  fpsIn := fun _ => []
  dests := []
  offs := []
  isStart := fun l => l == 0
  startIntermodal := false
  ontrip := false
  startLoc := 8

def opt (e : Int) : OptData where
  startOffs := []
  destOffs := []
  fpsOut := fun l => if l = 2 then [(3, 10)] else if l = 1 then [(5, 2)] else []
  fpsIn := fun l => if l = 3 then [(2, 10)] else if l = 5 then [(1, 2)] else []
  adj := fun w => w + e
  skipOut := fun _ => false
  skipIn := fun _ => false
  better := fun x y => decide (x.1 < y.1)

def legs (e : Int) : List Leg :=
  [⟨0, 2, 600, 620, .ride (.trip 0 0 5) 0 2⟩, ⟨2, 3, 620, 630 + e, .foot (10 + e)⟩, ⟨3, 4, 635, 645, .ride (.trip 1 0 5) 1 2⟩]

/-- The transfer is moved to the shorter walk from 1 to 5. -/
example (wheelchair bike : Bool) : optimizeFootpaths (net wheelchair bike 0) (opt 0) (legs 0) =
    [⟨0, 1, 600, 610, .ride (.trip 0 0 5) 0 1⟩, ⟨1, 5, 610, 612, .foot 2⟩, ⟨5, 4, 625, 645, .ride (.trip 1 0 5) 0 2⟩] := by
  cases wheelchair <;> cases bike <;> decide +kernel

theorem legs_ok (wheelchair bike : Bool) (e : Int) (h0 : 0 ≤ e) (he : e ≤ 5) : Itinerary .fwd (net wheelchair bike e) rc 600 2 4 645 (legs e) where
  ok := by
    intro x hx
    simp only [legs, List.mem_cons, List.not_mem_nil, or_false] at hx
    rcases hx with rfl | rfl | rfl
    · refine ⟨lineA, rfl, by decide, by decide, show Nat.testBit 255 3 = true by decide, st 0, st 2, by decide, rfl, rfl, rfl, rfl, ?_, ?_, ?_, rfl, rfl⟩
      · unfold MayBoard; split <;> rfl
      · unfold MayAlight; split <;> rfl
      · intro s _ _ f sec hf hsec
        match f with
        | 0 => simp only [lineA] at hsec; cases hsec; rfl
        | f + 1 => simp [net] at hf
    · refine ⟨by omega, Or.inl ?_, Or.inr ?_⟩
      · simp only; omega
      · show ((3, 10 + e) : Loc × Int) ∈ [(3, 10 + e)]; simp
    · refine ⟨lineB, rfl, by decide, by decide, show Nat.testBit 255 3 = true by decide, st 3, st 4, by decide, rfl, rfl, rfl, rfl, ?_, ?_, ?_, rfl, rfl⟩
      · unfold MayBoard; split <;> rfl
      · unfold MayAlight; split <;> rfl
      · intro s h1 h2 f sec hf hsec
        obtain rfl : s = 1 := by omega
        match f with
        | 0 => simp only [lineB] at hsec; cases hsec; rfl
        | f + 1 => simp [net] at hf
  joined := by
    rw [← adj_iff]
    have h : (620 : Int) ≤ 620 ∧ (630 + e ≤ 635) := by omega
    refine ⟨⟨rfl, h.1, ?_⟩, ⟨rfl, h.2, ?_⟩, trivial⟩ <;> simp [Leg.isRide]
  rides := rfl
  first := ⟨_, rfl, by decide, rfl⟩
  last := ⟨⟨3, 4, 635, 645, .ride (.trip 1 0 5) 1 2⟩, rfl, by decide, rfl⟩

theorem opt_ok (wheelchair bike : Bool) : OptOk .fwd (net wheelchair bike 0) rc (opt 0) where
  startOffs := by intro o h; cases h
  destOffs := by intro o h; cases h
  fpsOut := by
    intro a b w h
    simp only [opt] at h
    unfold Footpath
    simp only [net]
    by_cases h1 : a = 2
    · subst h1; simp at h ⊢; obtain ⟨rfl, rfl⟩ := h; decide
    · by_cases h2 : a = 1
      · subst h2; simp at h ⊢; obtain ⟨rfl, rfl⟩ := h; decide
      · simp [h1, h2] at h
  fpsIn := by
    intro a b w h
    simp only [opt] at h
    unfold Footpath
    simp only [net]
    by_cases h1 : b = 3
    · subst h1; simp at h ⊢; obtain ⟨rfl, rfl⟩ := h; decide
    · by_cases h2 : b = 5
      · subst h2; simp at h ⊢; obtain ⟨rfl, rfl⟩ := h; decide
      · simp [h1, h2] at h
  adj := fun w => Int.add_zero w
  startStop := by intro h; cases h
  endStop := by intro h; cases h

theorem free (v : Vehicle) : Unrestricted (net false false 0) v := by
  refine ⟨fun s _ => ⟨id, id⟩, ?_⟩
  intro x _ f sec hf
  match f with
  | 0 => cases hf
  | f + 1 => simp [net] at hf

/-- The hypotheses of C57 can be met. -/
example : Itinerary .fwd (net false false 0) rc 600 2 4 645 (optimizeFootpaths (net false false 0) (opt 0) (legs 0)) :=
  C57_itinerary_partial _ _ _ _ (opt_ok false false) 600 2 4 645 _ (legs_ok false false 0 (by decide) (by decide)) fun _ _ v _ _ _ => free v

end Opt

/-- C57: the optimisation ignores wheelchair access.  It may let a wheelchair user alight where that is not
possible. -/
theorem C57_wheelchair_ignored : Itinerary .fwd (Opt.net true false 0) Opt.rc 600 2 4 645 (Opt.legs 0) ∧
    OptOk .fwd (Opt.net true false 0) Opt.rc (Opt.opt 0) ∧
    ∃ x ∈ optimizeFootpaths (Opt.net true false 0) (Opt.opt 0) (Opt.legs 0), ¬ LegOk .fwd (Opt.net true false 0) Opt.rc x := by
  refine ⟨Opt.legs_ok _ _ 0 (by decide) (by decide), Opt.opt_ok _ _, ⟨0, 1, 600, 610, .ride (.trip 0 0 5) 0 1⟩, by decide +kernel, ?_⟩
  rintro ⟨rd, e1, -, -, -, si, sj, -, -, e2, -, -, -, e3, -⟩
  cases e1; cases e2; cases e3

/-- C57: the optimisation ignores the required flags of sections.  It may lead a passenger with a bicycle onto a
section on which bicycles are not allowed. -/
theorem C57_bicycle_ignored : Itinerary .fwd (Opt.net false true 0) Opt.rc 600 2 4 645 (Opt.legs 0) ∧
    OptOk .fwd (Opt.net false true 0) Opt.rc (Opt.opt 0) ∧
    ∃ x ∈ optimizeFootpaths (Opt.net false true 0) (Opt.opt 0) (Opt.legs 0), ¬ LegOk .fwd (Opt.net false true 0) Opt.rc x := by
  refine ⟨Opt.legs_ok _ _ 0 (by decide) (by decide), Opt.opt_ok _ _, ⟨5, 4, 625, 645, .ride (.trip 1 0 5) 0 2⟩, by decide +kernel, ?_⟩
  rintro ⟨rd, e1, -, -, -, si, sj, -, -, -, -, -, -, -, e3, -⟩
  cases e1
  exact absurd (e3 0 (by decide) (by decide) 0 [false, true] rfl rfl) (by unfold FlagOn; decide)

/-- C57: with other than default transfer time settings (here one additional minute) the moved walk is stored with
the duration of the timetable, which is not the duration of the leg. -/
theorem C57_unadjusted_duration : Itinerary .fwd (Opt.net false false 1) Opt.rc 600 2 4 645 (Opt.legs 1) ∧
    ⟨1, 5, 610, 613, .foot 2⟩ ∈ optimizeFootpaths (Opt.net false false 1) (Opt.opt 1) (Opt.legs 1) ∧
    ¬ LegOk .fwd (Opt.net false false 1) Opt.rc ⟨1, 5, 610, 613, .foot 2⟩ := by
  refine ⟨Opt.legs_ok _ _ 1 (by decide) (by decide), by decide +kernel, ?_⟩
  rintro ⟨-, h | h, -⟩
  · exact absurd h (by decide)
  · exact absurd h.1 (by decide)

end Nigiri.Raptor
