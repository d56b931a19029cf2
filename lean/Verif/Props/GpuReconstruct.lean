import Verif.Proofs.GpuReconstruct
import Verif.Props.GpuSearch
import Verif.Props.Reconstruct
/-!
# Property C92: the journeys reconstructed on the GPU

`gpuJourney d N R K dest` is the journey that is added to the results for the destination `dest` and `K` rides from the labels `R`
(`Verif.Model.GpuReconstruct`): its destination, its arrival time and its legs, or `none` if no journey is added.
-/

namespace Nigiri.Gpu
open Nigiri.Raptor

/-- The labels of all rounds. -/
def labels (S : GState) (k : Nat) (l : Loc) : Word := S.mem.val (.round k l)

/-- A query that starts at the location `l`, with no first mile. -/
def startOnly (l : Loc) : RcData := ⟨fun _ => [], [], [], fun x => x == l, false, false, 0⟩

/-- Nothing else is reported with at most as many rides and no later arrival. -/
def GpuPareto (d : Dir) (N : Net) (n : Nat) (S : GState) (K : Nat) (A : Int) : Prop :=
  ∀ l' k' A', (l', k', A') ∈ gpuReported d N n S → k' ≤ K → A' ≤ A → k' = K ∧ A' = A

/-- The arrival at the destination (or, for a query with a last mile, at the place where it begins) is the reported one. -/
def ArrivesAt (N : Net) (dest : Loc) (A : Int) (dest' : Loc) (A' : Int) : Prop :=
  if N.intermodal = true ∧ dest = N.endLoc then ∃ w, A = A' + w ∧ (N.endDist dest' = some w ∨ N.endTd dest' A' = some w)
  else dest' = dest ∧ A' = A

/-- The last leg arrives (forward) or the first one departs (backward, times negated) exactly then. -/
def EndsAt (d : Dir) (legs : List Leg) (A : Int) : Prop :=
  match d with
  | .fwd => ∃ x, legs.getLast? = some x ∧ x.arr = A
  | .bwd => ∃ x, legs.head? = some x ∧ x.dep = -A

theorem labels_gt {d : Dir} {N : Net} (hN : NetOk N) {n : Nat} {qs : List Start} (hq : ∀ x ∈ allStarts qs, d.lo < x.2 ∧ x.2 ≤ d.hi) {S : GState}
    (hr : GpuRun d N n qs S) (k : Nat) (l : Loc) : d.lo < S.mem.row k l := by
  have h := runAll_sound (sane_of_ok d hN) hr hq k l
  by_cases hc : S.mem.row k l < d.hi
  · obtain ⟨j, _, hr⟩ := h.2 hc
    have := ready_ge (sane_of_ok d hN) (b := d.lo + 1) (fun x hx => by have := hq x hx; omega) hr
    show d.lo < (S.mem.val (.round k l)).t
    omega
  · have : d.lo < d.hi := by cases d <;> decide
    omega

/-- C92 (full statement: as below, without the limits of `RecFits` and for footpaths that depend on the time of day): whatever the schedule of
the threads, for every reported arrival within the limit of the query that is not dominated by another one, a journey is
reconstructed; a passenger can follow its legs; they begin at one of the start events and arrive at the reported time. -/
theorem C92_itinerary_partial (d : Dir) (N : Net) (hN : NetOk N) (hF : NetFifo N) (hst : StaticFps N) (hfit : RecFits N) (n : Nat) (hn : n ≤ 15)
    (qs : List Start) (hq : RangeQuery d N qs) (S : GState) (hr : GpuRun d N n qs S) (dest : Loc) (K : Nat) (A : Int)
    (hrep : (dest, K, A) ∈ gpuReported d N n S) (hA : ∀ q ∈ qs, A ≤ q.worst) (hbest : GpuPareto d N n S K A) :
    ∃ dest' legs A' x, gpuJourney d N (labels S) K dest = some (dest', A, legs) ∧ ArrivesAt N dest A dest' A' ∧ x ∈ allStarts qs ∧
      Itinerary d N (startOnly x.1) x.2 K dest' A' legs ∧ EndsAt d legs A' := by
  obtain ⟨h1, h2, h3, h4, h5, h6⟩ := (mem_gpuReported _ _ _ _ _ _ _).mp hrep
  have hsn := sane_of_ok d hN
  have hstarts := range_starts hq
  have hsnd := runAll_sound hsn hr hstarts
  have hAhi : A < d.hi := by
    have : (S.mem.val (.round K dest)).t ≤ d.hi := (hsnd K dest).1
    omega
  obtain ⟨hL, hZ⟩ := runAll_labels (W := A) (tame_of_ok d hN hF) rfl (show A ≤ d.hi by omega) hr hstarts hA
  have hnb : ∀ k x, k ≤ K → x ≤ A → ¬ Beaten (mkProblem d N) A S.mem k x := by
    rintro k x hk hx (hc | ⟨l', k', hl', hc⟩)
    · omega
    · have hrow : S.mem.row k' l' ≤ A := by omega
      have hf : Found (DestOf N) S.mem.st k' (S.mem.row k' l') := ⟨k', Nat.le_refl _, l', hl', Int.le_refl _⟩
      obtain ⟨l2, k2, A2, g1, g2, g3⟩ := gpu_found_reported hN hq hr (by omega) (by omega) hf
      obtain ⟨e1, e2⟩ := hbest l2 k2 A2 g1 (by omega) (by omega)
      omega
  have hA' : S.mem.row K dest = A := h5.symm
  obtain ⟨L, hrec, R⟩ := recBack_ok hN hfit (K := K) hL hZ hnb hAhi (labels_gt hN hstarts hr) (by omega) K dest 0 (Nat.le_refl _) (by omega)
    (fun h => absurd rfl h) (by omega) (fun h => by omega)
  have hne : L ≠ [] := by
    intro e
    have := R.rides
    rw [e] at this
    simp at this
    omega
  obtain ⟨⟨a, ha⟩, ⟨b, hb⟩⟩ := head_getLast hne
  have hlast := R.last
  rw [if_neg hne] at hlast
  obtain ⟨t0, b', hb', hbs, hbt⟩ := hlast
  rw [hb] at hb'
  cases hb'
  have hhead := R.head a ha
  rw [hA'] at hhead
  have hleg : ∀ dest' A', a.b = dest' → a.tb ≤ A' → Itinerary d N (startOnly b.a) t0 K dest' A' (hostLegs d L) := by
    intro dest' A' e1 e2
    rw [hostLegs_present R]
    refine present_legs hst hne (R.ok _) (adj_mono (fun _ _ h => h.1) R.adj) R.rides ?_ ?_
    · intro x hx; rw [ha] at hx; cases hx; exact ⟨e1, e2⟩
    · intro x hx; rw [hb] at hx; cases hx
      exact ⟨hbt, by simp [StartAt, startOnly]⟩
  have hend : ∀ A', a.tb = A' → EndsAt d (hostLegs d L) A' := by
    intro A' e
    rw [hostLegs_present R]
    cases L with
    | nil => exact absurd rfl hne
    | cons y ys =>
      cases ha
      cases d with
      | fwd => exact ⟨a.plain .fwd, by simp [present], e⟩
      | bwd => exact ⟨a.plain .bwd, by simp [present], by rw [← e]; rfl⟩
  have hj : gpuJourney d N (labels S) K dest = some (if N.intermodal && dest == N.endLoc then a.b else dest, A, hostLegs d L) := by
    unfold gpuJourney
    rw [show (labels S K dest).t = A from hA', if_neg h6, show recBack d N (labels S) K dest 0 = some L from hrec]
    cases L with
    | nil => exact absurd rfl hne
    | cons y ys => cases ha; rfl
  by_cases hc : N.intermodal = true ∧ dest = N.endLoc
  · rw [if_pos hc] at hhead
    obtain ⟨-, w, hw1, hw2⟩ := hhead
    refine ⟨a.b, _, a.tb, (b.a, t0), ?_, ?_, hbs, hleg _ _ rfl (Int.le_refl _), hend _ rfl⟩
    · rw [hj, hc.1, hc.2]; simp
    · unfold ArrivesAt; rw [if_pos hc]; exact ⟨w, hw1, hw2⟩
  · rw [if_neg hc] at hhead
    refine ⟨dest, _, A, (b.a, t0), ?_, ?_, hbs, hleg _ _ hhead.1 (by omega), hend _ hhead.2.1⟩
    · rw [hj, if_neg (by simpa using hc)]
    · unfold ArrivesAt; rw [if_neg hc]; exact ⟨rfl, rfl⟩

/-! ## A last mile of more than a day -/

/-- A kernel whose threads run one after the other. -/
theorem kernel_seq (ps : List Prog) (m : Mem) : Kernel ps m (runOrder ps (List.range ps.length) m) :=
  kernel_order ps _ (fun i hi => List.mem_range.mpr hi) List.nodup_range m

namespace LongWalk

/-- A daily trip from 0 (10:00) to 1 (10:20), and 25 hours from there to the destination. -/
def net : Net where
  nLoc := 10
  routes := [⟨[⟨0, true, true, true, true⟩, ⟨1, true, true, true, true⟩], 1, fun _ i => 600 + 20 * i, fun _ i => 600 + 20 * i, fun _ D => decide (0 ≤ D), 3, [[true], [true]]⟩]
  rts := []
  base := 5
  wheelchair := false
  claszMask := 255
  required := [false, false]
  transfer := fun _ => 2
  fps := fun _ _ => []
  intermodal := true
  endDist := fun l => if l = 1 then some 1500 else none
  endTd := fun _ _ => none
  endLoc := 9
  isDest := fun l => l == 9
  lb := fun _ => some 0

def q : Start := ⟨600, [(0, 600)], 600 + 7200⟩

abbrev P : Problem := mkProblem .fwd net
abbrev C : Codec := codec .fwd net
def seq (ps : List Prog) (m : Mem) : Mem := runOrder ps (List.range ps.length) m
def m0 : Mem := seq (q.starts.map (initStart C) ++ (List.range nTad).map (initTad q.worst)) (nextStart P C (init P C)).mem
def m1 : Mem := seq ((List.range P.nLoc).map (reuse P 1 1 m0)) m0
def m3 : Mem := seq ((arrivals P C 1 m1.mark (noMarks m1)).map arrive) (noMarks m1)
def m5 : Mem := seq (walks P 1 1 m3.mark (noMarks m3)) (noMarks m3)
def final : GState := ⟨m5, false⟩

theorem all_routes {p : RouteData → Prop}
    (h : p ⟨[⟨0, true, true, true, true⟩, ⟨1, true, true, true, true⟩], 1, fun _ i => 600 + 20 * i, fun _ i => 600 + 20 * i, fun _ D => decide (0 ≤ D), 3, [[true], [true]]⟩) :
    ∀ r ∈ net.routes, p r := by
  intro r hr
  simp only [net, List.mem_cons, List.not_mem_nil, or_false] at hr
  subst hr; exact h

theorem net_ok : NetOk net where
  times := by
    apply all_routes; intro t ht; refine ⟨?_, ?_⟩ <;> simp only [List.length_cons, List.length_nil] at * <;> intros <;> omega
  rtTimes := by intro r hr; cases hr
  flags := by apply all_routes; exact ⟨rfl, by decide⟩
  rtFlags := by intro r hr; cases hr
  transfer := by intro l; simp only [net]; omega
  fps := by intro l t l' w h; cases h
  endDist := by
    intro l w h
    simp only [net] at h
    split at h <;> cases h
    omega
  endTd := by intro l t w h; cases h
  locs := by apply all_routes; decide
  rtLocs := by intro r hr; cases hr
  destLocs := by
    intro l h
    have hl : l = 9 := by simpa [net] using h
    subst hl; decide
  endDest := by intro _ l; simp [net]
  endStop := by
    intro _
    refine ⟨?_, by intro r hr; cases hr⟩
    apply all_routes; decide
  endFps := by intro _ l t w h; cases h

theorem net_fifo : NetFifo net where
  aligned := by
    apply all_routes; constructor <;> intro t t' h1 h2 s h3 <;> intros <;>
      simp only [List.length_cons, List.length_nil] at * <;> omega
  fps := fun l a a' l' w _ h _ hm => ⟨w, hm, by omega⟩
  endTd := by intro l a a' w _ _ _ h; cases h

theorem range_query : RangeQuery .fwd net [q] where
  desc := by simp
  each := by
    intro q' hq
    simp only [List.mem_cons, List.not_mem_nil, or_false] at hq
    subst hq
    simp only [q, Dir.lo, Dir.hi, List.mem_singleton, forall_eq]; decide

theorem run : GpuRun .fwd net 1 [q] final :=
  .cons (.run (m := m0) (by simp [q]) (kernel_seq _ _)
    (.succ .zero (.full (m1 := m1) (m3 := m3) rfl (kernel_seq _ _) (by decide +kernel) (kernel_seq _ _) ⟨1, by decide +kernel⟩ (kernel_seq _ _)))) .nil

theorem journey : gpuJourney .fwd net (labels final) 1 9 = some (1, 2120, [⟨0, 1, 2040, 2060, .ride (.trip 0 0 6) 0 1⟩]) := by decide +kernel

end LongWalk

/-- C92: the limit of a day for walks is needed.  From stop 1, reached at 10:20, it is 25 hours to the destination: the arrival
(11:20 on the next day) is right, but the reconstructed ride is that of the next day, and the last mile only fits into 60 minutes. -/
theorem C92_long_walk_false : NetOk LongWalk.net ∧ NetFifo LongWalk.net ∧ StaticFps LongWalk.net ∧ RangeQuery .fwd LongWalk.net [LongWalk.q] ∧ ∃ S, GpuRun .fwd LongWalk.net 1 [LongWalk.q] S ∧ (9, 1, 2120) ∈ gpuReported .fwd LongWalk.net 1 S ∧
    gpuJourney .fwd LongWalk.net (labels S) 1 9 = some (1, 2120, [⟨0, 1, 2040, 2060, .ride (.trip 0 0 6) 0 1⟩]) ∧
    ∀ dest' legs A', gpuJourney .fwd LongWalk.net (labels S) 1 9 = some (dest', 2120, legs) → ArrivesAt LongWalk.net 9 2120 dest' A' → ¬ EndsAt .fwd legs A' := by
  refine ⟨LongWalk.net_ok, LongWalk.net_fifo, fun _ _ _ => rfl, LongWalk.range_query, LongWalk.final, LongWalk.run, by decide +kernel, LongWalk.journey, ?_⟩
  intro dest' legs A' h1 h2
  rw [LongWalk.journey] at h1
  cases h1
  rintro ⟨x, h3, h4⟩
  cases h3
  unfold ArrivesAt at h2
  rw [if_pos ⟨rfl, rfl⟩] at h2
  obtain ⟨w, e1, e2 | e2⟩ := h2
  · have e3 : (2060 : Int) = A' := h4
    simp [LongWalk.net] at e2
    omega
  · cases e2

/-! ## Examples -/

theorem Demo.rec_fits : RecFits Demo.net where
  space := by decide +kernel
  stops := by apply Demo.all_routes <;> decide
  rtStops := by decide
  days := by
    apply Demo.all_routes <;> intro t D h <;> simp only [Demo.lineA, Demo.lineB, Demo.lineC, Demo.lineD, Demo.days] at h <;> simp at h <;> omega
  transfer := by intro l; simp only [Demo.net]; omega
  fps := by
    intro l t l' w h
    simp only [Demo.net] at h
    split at h <;> simp at h
    omega
  endDist := by intro l w h; cases h
  endTd := by intro l t w h; cases h

theorem Demo.gpu_not {S : GState} (h : GpuRun .fwd Demo.net 8 Demo.qs S) {j : Nat} (hj : j ≤ 8) {A : Int} (hA : A ≤ 2040)
    (hno : (j = 1 ∧ A = 655) ∨ (j = 2 ∧ A = 649)) : ¬ GpuOffered .fwd Demo.net 8 S j A := by
  rw [C91_cpu .fwd Demo.net Demo.net_ok Demo.net_fifo 8 (by decide) Demo.qs Demo.range_query Demo.fits (fun _ _ => Demo.lb_ok _ _) S h j hj A (by
    intro q hq
    have : ∀ q ∈ Demo.qs, (2040 : Int) ≤ q.horizon := by decide
    exact Int.le_trans hA (this q hq))]
  rintro ⟨l, k, A', h1, h2, h3⟩
  rw [show reported .fwd Demo.net 8 Demo.qs = [(3, 1, 660), (3, 2, 650)] by decide +kernel] at h1
  simp only [List.mem_cons, List.not_mem_nil, or_false, Prod.mk.injEq] at h1
  omega

/-- In every execution of the demo, the journey with two rides is reported and reconstructed. -/
example (S : GState) (h : GpuRun .fwd Demo.net 8 Demo.qs S) :
    ∃ legs x, gpuJourney .fwd Demo.net (labels S) 2 3 = some (3, 650, legs) ∧ x ∈ allStarts Demo.qs ∧ Itinerary .fwd Demo.net (startOnly x.1) x.2 2 3 650 legs := by
  obtain ⟨l, k, A', h1, h2, h3⟩ := (C90_exact .fwd Demo.net Demo.net_ok Demo.net_fifo 8 (by decide) Demo.qs Demo.range_query Demo.fits S h 2 (by decide) 650 (by decide)).mpr
    ⟨⟨600, [(0, 600)], 600 + 1440⟩, by simp [Demo.qs], (0, 600), by simp, 2, 650, by omega, by omega, Demo.journey⟩
  have hn1 := Demo.gpu_not h (j := 1) (by decide) (A := 655) (by decide) (Or.inl ⟨rfl, rfl⟩)
  have hn2 := Demo.gpu_not h (j := 2) (by decide) (A := 649) (by decide) (Or.inr ⟨rfl, rfl⟩)
  have hk : k = 2 := by
    apply Classical.byContradiction
    intro hc
    exact hn1 ⟨l, k, A', h1, by omega, by omega⟩
  have hA : A' = 650 := by
    apply Classical.byContradiction
    intro hc
    exact hn2 ⟨l, k, A', h1, by omega, by omega⟩
  subst hk; subst hA
  have hl : l = 3 := by
    have := ((mem_gpuReported _ _ _ _ _ _ _).mp h1).2.1
    simpa [Demo.net] using this
  subst hl
  obtain ⟨dest', legs, A', x, g1, g2, g3, g4, -⟩ := C92_itinerary_partial .fwd Demo.net Demo.net_ok Demo.net_fifo Demo.static_fps Demo.rec_fits 8 (by decide) Demo.qs
    Demo.range_query S h 3 2 650 h1 (by decide) (by
      intro l' k' A' e1 e2 e3
      refine ⟨?_, ?_⟩
      · apply Classical.byContradiction
        intro hc
        exact hn1 ⟨l', k', A', e1, by omega, by omega⟩
      · apply Classical.byContradiction
        intro hc
        exact hn2 ⟨l', k', A', e1, by omega, by omega⟩)
  unfold ArrivesAt at g2
  rw [if_neg (by simp [Demo.net])] at g2
  obtain ⟨rfl, rfl⟩ := g2
  exact ⟨legs, x, g1, g3, g4⟩

end Nigiri.Gpu
