import Verif.Proofs.NetJourney
import Verif.Props.RaptorDemo
/-!
# Properties C18, C19, C20, C21, C23, C24, C44: the round based search

The specification (rides, journeys, sanity of a timetable) is in `Verif.Spec.Network`; it does not refer
to the search.  `search d N n qs` is the state of the search after all start times of the range query.
-/

namespace Nigiri.Raptor

/-- The state after a range query. -/
def search (d : Dir) (N : Net) (n : Nat) (qs : List Start) : State := runAll (mkProblem d N) n qs

/-- The reported arrivals: (destination, number of rides, time). -/
def reported (d : Dir) (N : Net) (n : Nat) (qs : List Start) : List (Loc × Nat × Int) :=
  results (mkProblem d N) n (search d N n qs)

/-! ## C18 -/

/-- C18: the boarding lookup returns a running trip that is not missed, does not depart later than the limit
and departs within six days. -/
theorem C18_sound (d : Dir) (base : Int) (r : RouteData) (i : Nat) (p lim : Int) (t : Nat) (day : Int)
    (h : getEarliest d base r i p lim = some (t, day)) :
    t < r.nTr ∧ r.days t day = true ∧ p ≤ evTime d base day (r.evBoard d t i) ∧
    d.clamp (evTime d base day (r.evBoard d t i)) ≤ lim ∧ evTime d base day (r.evBoard d t i) < p + 8640 :=
  getEarliest_sound h

example : getEarliest .fwd 5 Demo.lineA 1 640 5000 = some (1, 5) := by decide +kernel
example : getEarliest .fwd 5 Demo.lineA 1 700 5000 = some (0, 6) := by decide +kernel
example : getEarliest .bwd 5 Demo.lineA 0 (-640) 5000 = some (0, 5) := by decide +kernel

/-- C18: no running trip that can be caught departs before the returned one (in a backward search: arrives
later). -/
theorem C18_earliest (d : Dir) (base : Int) (r : RouteData) (hs : ∀ t t', t < t' → t' < r.nTr → ∀ i, i + 1 < r.stops.length →
      r.evBoard d t i % 1440 ≤ r.evBoard d t' i % 1440)
    (i : Nat) (hi : i + 1 < r.stops.length) (p lim : Int) (t : Nat) (day : Int)
    (h : getEarliest d base r i p lim = some (t, day)) (t' : Nat) (day' : Int) (ht' : t' < r.nTr) (ha' : r.days t' day' = true)
    (hp' : p ≤ evTime d base day' (r.evBoard d t' i)) :
    evTime d base day (r.evBoard d t i) ≤ evTime d base day' (r.evBoard d t' i) := by
  have h1 := getEarliest_sound h
  have hf := getEarliest_first hi h ht' ha' hp'
  clear hp' h
  generalize hx : r.evBoard d t i = x at *
  generalize hy : r.evBoard d t' i = y at *
  have hm : t' = t ∨ d.before t t' → d.sgn * ((x % 1440 : Nat) : Int) ≤ d.sgn * ((y % 1440 : Nat) : Int) := by
    rintro (rfl | g2)
    · rw [← hx, ← hy]; exact Int.le_refl _
    · cases d with
      | fwd => have := hs t t' g2 ht' i hi; simp only [Dir.sgn]; rw [hx, hy] at this; omega
      | bwd => have := hs t' t g2 h1.1 i hi; simp only [Dir.sgn]; rw [hx, hy] at this; omega
  simp only at hf
  unfold eday at hf
  unfold evTime
  rcases sgn_cases d with e | e <;> rw [e] at hm hf ⊢ <;> rcases hf with g | ⟨g1, g2⟩ <;>
    first
      | (have := hm g2; omega)
      | omega

theorem demo_sorted (d : Dir) : ∀ t t', t < t' → t' < Demo.lineA.nTr → ∀ i, i + 1 < Demo.lineA.stops.length →
    Demo.lineA.evBoard d t i % 1440 ≤ Demo.lineA.evBoard d t' i % 1440 := by
  intro t t' h1 h2 i h3
  cases d <;> simp only [Demo.lineA, RouteData.evBoard, List.length_cons, List.length_nil] at * <;> omega

example : evTime .fwd 5 5 (Demo.lineA.evBoard .fwd 1 1) ≤ evTime .fwd 5 6 (Demo.lineA.evBoard .fwd 0 1) :=
  C18_earliest .fwd 5 Demo.lineA (demo_sorted .fwd) 1 (by decide) 640 5000 1 5 (by decide +kernel) 0 6 (by decide) (by decide) (by decide)

/-- C18: the lookup fails only if no running trip departs within 7200 minutes and not later than the limit. -/
theorem C18_complete (d : Dir) (base : Int) (r : RouteData) (hs : ∀ t t', t < t' → t' < r.nTr → ∀ i, i + 1 < r.stops.length →
      r.evBoard d t i % 1440 ≤ r.evBoard d t' i % 1440)
    (i : Nat) (hi : i + 1 < r.stops.length) (p lim : Int) (h : getEarliest d base r i p lim = none)
    (t : Nat) (day : Int) (ht : t < r.nTr) (ha : r.days t day = true) (hp : p ≤ evTime d base day (r.evBoard d t i)) :
    p + 7200 < evTime d base day (r.evBoard d t i) ∨ lim < d.clamp (evTime d base day (r.evBoard d t i)) := by
  apply Classical.byContradiction
  intro hc
  have := getEarliest_complete hi (fun t t' a b => hs t t' a b i hi) ht ha hp (by omega) (lim := lim) (by omega)
  rw [h] at this
  cases this

example : getEarliest .fwd 5 Demo.lineA 1 640 650 = none := by decide +kernel

/-! ## C19 -/

/-- C19: every label of the search is realised by riding at most as many vehicles as its round says, from one
of the start events; labels of rounds `k ≥ 1` use at least one ride.  No assumption on the lower bounds, on
overtaking or on the order of the start times. -/
theorem C19_labels (d : Dir) (N : Net) (hN : NetOk N) (n : Nat) (qs : List Start)
    (hq : ∀ x ∈ allStarts qs, d.lo < x.2 ∧ x.2 ≤ d.hi) (k : Nat) (l : Loc) (hl : (search d N n qs).round k l ≠ d.hi) :
    ∃ j, j ≤ k ∧ (1 ≤ k → 1 ≤ j) ∧ Reach d N (allStarts qs) j l ((search d N n qs).round k l) := by
  have h := runAll_ok (sane_of_ok d hN) n qs hq k l
  have hle : (search d N n qs).round k l ≤ d.hi := h.1
  obtain ⟨j, ⟨h1, h2⟩, h3⟩ := h.2 (show (search d N n qs).round k l < d.hi by omega)
  exact ⟨j, h1, h2, ready_reach hN h3⟩

example : (search .fwd Demo.net 8 Demo.qs).round 1 2 = 622 := by decide +kernel

example : ∃ j, j ≤ 1 ∧ (1 ≤ 1 → 1 ≤ j) ∧ Reach .fwd Demo.net (allStarts Demo.qs) j 2 622 := by
  have h := C19_labels .fwd Demo.net Demo.net_ok 8 Demo.qs (by decide) 1 2 (by decide +kernel)
  rwa [show (search .fwd Demo.net 8 Demo.qs).round 1 2 = 622 by decide +kernel] at h

/-- C19: behind every reported arrival there is a journey from a start event with at most as many rides that
arrives no later. -/
theorem C19_reported (d : Dir) (N : Net) (hN : NetOk N) (n : Nat) (qs : List Start)
    (hq : ∀ x ∈ allStarts qs, d.lo < x.2 ∧ x.2 ≤ d.hi) (l : Loc) (k : Nat) (A : Int) (hr : (l, k, A) ∈ reported d N n qs) :
    N.isDest l = true ∧ 1 ≤ k ∧ k ≤ n ∧
    ∃ x ∈ allStarts qs, ∃ j A', 1 ≤ j ∧ j ≤ k ∧ A' ≤ A ∧ Journey d N j x.1 x.2 A' := by
  obtain ⟨_, h2, h3, h4, h5, h6⟩ := (mem_results _ _ _ _ _ _).mp hr
  refine ⟨h2, h3, h4, ?_⟩
  have h := runAll_ok (sane_of_ok d hN) n qs hq k l
  have hne : (runAll (mkProblem d N) n qs).round k l ≠ (mkProblem d N).hi := h6
  obtain ⟨j, ⟨g1, g2⟩, g3⟩ := h.2 (by have := h.1; omega)
  obtain ⟨x, hx, hc⟩ := ready_cont g3 (Cont.here (D := DestOf N) h2)
  rw [Nat.add_zero] at hc
  rcases cont_journey hN hc with ⟨e, _⟩ | ⟨n', A', e1, e2, e3, e4⟩
  · have := g2 h3; omega
  · exact ⟨x, hx, n', A', e1, by omega, by rw [h5]; exact e3, e4⟩

example : reported .fwd Demo.net 8 Demo.qs = [(3, 1, 660), (3, 2, 650)] := by decide +kernel

example : ∃ x ∈ allStarts Demo.qs, ∃ j A', 1 ≤ j ∧ j ≤ 2 ∧ A' ≤ 650 ∧ Journey .fwd Demo.net j x.1 x.2 A' :=
  (C19_reported .fwd Demo.net Demo.net_ok 8 Demo.qs (by decide) 3 2 650 (by decide +kernel)).2.2.2

/-! ## C20 -/

theorem rangeOk_of {d : Dir} {N : Net} (hN : NetOk N) {qs : List Start} (h : RangeQuery d N qs) (hlb : ∀ q ∈ qs, LbOk d N q.time q.horizon) :
    RangeOk (mkProblem d N) (DestOf N) 7200 qs :=
  ⟨h.desc, fun q hq => by
    obtain ⟨h1, h2, h3, h5⟩ := h.each q hq
    exact ⟨h1, h2, h3, by omega, fun x hx => ⟨(h5 x hx).1, (h5 x hx).2.1⟩, admissible_of_lbOk hN (hlb q hq)⟩⟩

theorem range_starts {d : Dir} {N : Net} {qs : List Start} (h : RangeQuery d N qs) : ∀ x ∈ allStarts qs, d.lo < x.2 ∧ x.2 ≤ d.hi := by
  intro x hx
  obtain ⟨q, hq, hx⟩ := List.mem_flatMap.mp hx
  have h1 := h.each q hq
  have h2 := h1.2.2.2 x hx
  exact ⟨by omega, h2.2.1⟩

theorem found_reported {d : Dir} {N : Net} (hN : NetOk N) {n : Nat} {qs : List Start} (h : RangeQuery d N qs) {K : Nat} {A : Int} (hK : K ≤ n)
    (hA : A < d.hi) (hf : Found (DestOf N) (search d N n qs) K A) : ∃ l k A', (l, k, A') ∈ reported d N n qs ∧ k ≤ K ∧ A' ≤ A := by
  obtain ⟨k, hk, l, hl, hr⟩ := hf
  have hs := runAll_ok (sane_of_ok d hN) n qs (range_starts h) k l
  have hne : (search d N n qs).round k l < d.hi := by omega
  refine ⟨l, k, _, (mem_results _ _ _ _ _ _).mpr ⟨hN.destLocs l hl, hl, ?_, by omega, rfl, ?_⟩, hk, hr⟩
  · apply Classical.byContradiction
    intro h0
    have hk0 : k = 0 := by omega
    subst hk0
    obtain ⟨j, ⟨g1, -⟩, g3⟩ := hs.2 hne
    have hj : j = 0 := by omega
    subst hj
    cases g3 with
    | start hx =>
      obtain ⟨q, hq, hx⟩ := List.mem_flatMap.mp hx
      have := ((h.each q hq).2.2.2 _ hx).2.2
      unfold DestOf at hl
      rw [hl] at this; cases this
  · show (search d N n qs).round k l ≠ d.hi
    omega

/-- C20: no journey from a start event, with at most `n` rides, that arrives within the horizon of its start
time, is better than everything reported: something is reported with at most as many rides that arrives no
later. -/
theorem C20_optimal (d : Dir) (N : Net) (hN : NetOk N) (hF : NetFifo N) (n : Nat) (qs : List Start) (hq : RangeQuery d N qs)
    (hlb : ∀ q ∈ qs, LbOk d N q.time q.horizon) (q : Start) (hqm : q ∈ qs) (x : Loc × Int) (hx : x ∈ q.starts)
    (j : Nat) (A : Int) (hj : Journey d N j x.1 x.2 A) (hjn : j ≤ n) (hA : A ≤ q.horizon) :
    ∃ l k A', (l, k, A') ∈ reported d N n qs ∧ k ≤ j ∧ A' ≤ A := by
  obtain ⟨j', A', h1, h2, h3, h4⟩ := journey_cont hN hj
  have hw := (hq.each q hqm).2.2.1
  have hwi : q.within 7200 = q.horizon := rfl
  have hho : q.horizon ≤ q.worst := by unfold Start.horizon; omega
  have := runAll_opt (tame_of_ok d hN hF) rfl (fun _ h => h) n qs (rangeOk_of hN hq hlb) q hqm x hx j' A' h4 (by omega) (by omega)
  obtain ⟨l, k, A'', g1, g2, g3⟩ := found_reported hN hq (by omega) (by omega) this
  exact ⟨l, k, A'', g1, by omega, by omega⟩

theorem Demo.rideA : NetRide Demo.net 0 602 2 620 :=
  Or.inl ⟨Demo.lineA, by simp [Demo.net], 0, 5, by decide, by decide, by decide, 0, 2, Demo.st 0, Demo.st 2, by decide, rfl, rfl, rfl, rfl,
    (by unfold MayBoard; decide), (by unfold MayAlight; decide), (by
      intro s _ _ f sec h1 h2
      match f, h1 with
      | 0, _ => simp only [Demo.lineA, List.getElem?_cons_zero, Option.some.injEq] at h2; subst h2; rfl
      | 1, h1 => cases h1
      | f + 2, h1 => cases h1), rfl, rfl⟩

theorem Demo.rideRt : NetRide Demo.net 2 640 3 650 :=
  Or.inr ⟨Demo.rt, by simp [Demo.net], by decide, 0, 1, Demo.st 2, Demo.st 3, by decide, rfl, rfl, rfl, rfl,
    (by unfold MayBoard; decide), (by unfold MayAlight; decide), (by
      intro s _ _ f sec h1 h2
      match f, h1 with
      | 0, _ => simp only [Demo.rt, List.getElem?_cons_zero, Option.some.injEq] at h2; subst h2; rfl
      | 1, h1 => cases h1
      | f + 2, h1 => cases h1), rfl, rfl⟩

/-- Line A to 2, change, the real-time transport to 3. -/
theorem Demo.journey : Journey .fwd Demo.net 2 0 600 650 :=
  .more (m := 2) (a := 620) ⟨602, by decide, Demo.rideA⟩ (Or.inl ⟨rfl, rfl⟩)
    (.last (m := 3) (a := 650) ⟨640, by decide, Demo.rideRt⟩ (Or.inl ⟨rfl, rfl⟩))

theorem journey_le {d : Dir} {N : Net} (hN : NetOk N) {n : Nat} {l : Loc} {t A : Int} (h : Journey d N n l t A) : t ≤ A := by
  obtain ⟨_, A', _, _, h3, h4⟩ := journey_cont hN h
  have := cont_le (sane_of_ok d hN) h4
  omega

/-- Without lower bounds the admissibility condition is always met. -/
theorem lbOk_zero {d : Dir} {N : Net} (hN : NetOk N) (h : ∀ l, N.lb l = some 0) (T0 W : Int) : LbOk d N T0 W where
  nonneg := by intro l x hx; rw [h] at hx; simp at hx; omega
  dest := fun _ l _ => h l
  journey := fun n l t A _ hj _ => ⟨0, h l, by have := journey_le hN hj; omega⟩
  onward := by
    intro m a A _ ho _
    obtain ⟨n, l', t', A', h1, h2, h3⟩ := onward_cont hN ho
    have := cont_le (sane_of_ok d hN) h3
    have := change_le (sane_of_ok d hN) h2
    exact ⟨0, h m, by omega⟩
  route := by intro r _ i j si sj _ _ _ _ _ _ _ _ hc; rw [h] at hc; cases hc
  rt := by intro r _ i j si sj _ _ _ _ _ _ _ _ hc; rw [h] at hc; cases hc

/-- A journey from one of the start events with at most `j` rides that arrives by `A`. -/
def Possible (d : Dir) (N : Net) (qs : List Start) (j : Nat) (A : Int) : Prop :=
  ∃ q ∈ qs, ∃ x ∈ q.starts, ∃ j' A', j' ≤ j ∧ A' ≤ A ∧ Journey d N j' x.1 x.2 A'

/-- Something is reported with at most `j` rides that arrives by `A`. -/
def Offered (d : Dir) (N : Net) (n : Nat) (qs : List Start) (j : Nat) (A : Int) : Prop :=
  ∃ l k A', (l, k, A') ∈ reported d N n qs ∧ k ≤ j ∧ A' ≤ A

example : Possible .fwd Demo.net Demo.qs 2 650 :=
  ⟨⟨600, [(0, 600)], 600 + 1440⟩, by simp [Demo.qs], (0, 600), by simp, 2, 650, by omega, by omega, Demo.journey⟩

/-- C19 and C20 together: within the horizon of all start times the search offers exactly what is possible, for
every number of rides and every arrival time. -/
theorem C20_exact (d : Dir) (N : Net) (hN : NetOk N) (hF : NetFifo N) (n : Nat) (qs : List Start) (hq : RangeQuery d N qs)
    (hlb : ∀ q ∈ qs, LbOk d N q.time q.horizon) (j : Nat) (hj : j ≤ n) (A : Int) (hA : ∀ q ∈ qs, A ≤ q.horizon) :
    Offered d N n qs j A ↔ Possible d N qs j A := by
  constructor
  · rintro ⟨l, k, A', h1, h2, h3⟩
    obtain ⟨-, -, -, x, hx, j', A'', g1, g2, g3, g4⟩ := C19_reported d N hN n qs (range_starts hq) l k A' h1
    obtain ⟨q, hqm, hx⟩ := List.mem_flatMap.mp hx
    exact ⟨q, hqm, x, hx, j', A'', by omega, by omega, g4⟩
  · rintro ⟨q, hqm, x, hx, j', A', h1, h2, h3⟩
    obtain ⟨l, k, A'', g1, g2, g3⟩ := C20_optimal d N hN hF n qs hq hlb q hqm x hx j' A' h3 (by omega) (by have := hA q hqm; omega)
    exact ⟨l, k, A'', g1, by omega, by omega⟩

theorem Demo.lb_ok (T0 W : Int) : LbOk .fwd Demo.net T0 W := lbOk_zero Demo.net_ok (fun _ => rfl) T0 W

example : Offered .fwd Demo.net 8 Demo.qs 2 650 :=
  (C20_exact .fwd Demo.net Demo.net_ok Demo.net_fifo 8 Demo.qs Demo.range_query (fun _ _ => Demo.lb_ok _ _) 2 (by decide) 650 (by decide)).mpr
    ⟨⟨600, [(0, 600)], 600 + 1440⟩, by simp [Demo.qs], (0, 600), by simp, 2, 650, by omega, by omega, Demo.journey⟩

/-- No journey with one ride arrives at 650: the search is exact, so this can be read off its result. -/
example : ¬ Possible .fwd Demo.net Demo.qs 1 655 := by
  rw [← C20_exact .fwd Demo.net Demo.net_ok Demo.net_fifo 8 Demo.qs Demo.range_query (fun _ _ => Demo.lb_ok _ _) 1 (by decide) 655 (by decide)]
  rintro ⟨l, k, A', h1, h2, h3⟩
  rw [show reported .fwd Demo.net 8 Demo.qs = [(3, 1, 660), (3, 2, 650)] by decide +kernel] at h1
  simp only [List.mem_cons, List.not_mem_nil, or_false, Prod.mk.injEq] at h1
  omega

/-- C20 for one-to-all searches (no destination, no lower bounds): whenever one can be at a location `l` at time
`t` after `j ≤ n` rides, there is a label for `l` in a round `k ≤ j` that is not later. -/
theorem C20_one_to_all (d : Dir) (N : Net) (hN : NetOk N) (hF : NetFifo N) (hi : N.intermodal = false) (hd : ∀ l, N.isDest l = false)
    (hlb : ∀ l, N.lb l = some 0) (n : Nat) (qs : List Start) (hq : RangeQuery d N qs) (q : Start) (hqm : q ∈ qs)
    (j : Nat) (l : Loc) (t : Int) (hr : Reach d N q.starts j l t) (hjn : j ≤ n) (ht : t ≤ q.horizon) :
    ∃ k, k ≤ j ∧ (search d N n qs).round k l ≤ t := by
  have hs := sane_of_ok d hN
  have hready : Ready (mkProblem d N) q.starts j l t := by
    clear hjn ht
    induction hr with
    | start hx => exact .start hx
    | walk _ h2 h3 ih =>
      rcases walk_change (d := d) h3 with hc | ⟨_, _, g2, _⟩
      · exact .ride ih ((ride_iff hN d _ _ _ _).mpr h2) hc
      · rw [hd] at g2; cases g2
    | dest _ _ _ h4 _ => rw [hd] at h4; cases h4
    | lastMile _ _ h3 _ _ => rw [hi] at h3; cases h3
  obtain ⟨x, hx, hc⟩ := ready_cont hready (Cont.here (D := fun l' => l' = l) rfl)
  rw [Nat.add_zero] at hc
  have hro : RangeOk (mkProblem d N) (fun l' => l' = l) 7200 qs := by
    refine ⟨hq.desc, fun q hq' => ?_⟩
    obtain ⟨h1, h2, h3, h5⟩ := hq.each q hq'
    refine ⟨h1, h2, h3, by omega, fun x hx => ⟨(h5 x hx).1, (h5 x hx).2.1⟩, ?_, ?_, ?_, ?_, ?_⟩
    · intro l x hx; have : N.lb l = some x := hx; rw [hlb] at this; simp at this; omega
    · intro n l t A _ _ hc _; exact ⟨0, hlb l, by have := cont_le hs hc; omega⟩
    · intro n m a l' t' A _ _ hch hc _; exact ⟨0, hlb m, by have := cont_le hs hc; have := change_le hs hch; omega⟩
    · intro r _ i j si sj _ _ _ _ _ _ _ _ _ _ _ _ hc; have : N.lb si.loc = none := hc; rw [hlb] at this; cases this
    · intro r _ i j si sj _ _ _ _ _ _ _ _ _ _ _ _ hc; have : N.lb si.loc = none := hc; rw [hlb] at this; cases this
  have hwi : q.within 7200 = q.horizon := rfl
  obtain ⟨k, h1, l', rfl, h3⟩ := runAll_opt (tame_of_ok d hN hF) rfl
    (fun l' h => by have : N.isDest l' = true := h; rw [hd] at this; cases this) n qs hro q hqm x hx j t hc ht hjn
  exact ⟨k, h1, h3⟩

/-- The demo timetable without destination. -/
def Demo.toAll : Net := { Demo.net with isDest := fun _ => false }

theorem Demo.toAll_ok : NetOk Demo.toAll :=
  { Demo.net_ok with destLocs := fun _ h => by (cases h), endDest := fun h => by (cases h), endStop := fun h => by (cases h), endFps := fun h => by (cases h) }

example : ∃ k, k ≤ 1 ∧ (search .fwd Demo.toAll 8 Demo.qs).round k 3 ≤ 660 :=
  C20_one_to_all .fwd Demo.toAll Demo.toAll_ok ⟨Demo.net_fifo.aligned, Demo.net_fifo.fps, Demo.net_fifo.endTd⟩ rfl (fun _ => rfl) (fun _ => rfl) 8
    Demo.qs ⟨Demo.range_query.desc, fun q hq => by
      have := Demo.range_query.each q hq
      exact ⟨this.1, this.2.1, this.2.2.1, fun x hx => ⟨(this.2.2.2 x hx).1, (this.2.2.2 x hx).2.1, rfl⟩⟩⟩
    ⟨600, [(0, 600)], 600 + 1440⟩ (by simp [Demo.qs]) 1 3 660
    (.walk (m := 2) (a := 620) (.start (l := 0) (t := 600) (by simp)) ⟨602, by decide, Demo.rideA⟩ (Or.inr ⟨40, by decide, rfl⟩))
    (by decide) (by decide)

/-! ## C21 -/

/-- The query without lower bounds. -/
def Net.noLb (N : Net) : Net := { N with lb := fun _ => some 0 }

theorem netOk_noLb {N : Net} (hN : NetOk N) : NetOk N.noLb :=
  ⟨hN.times, hN.rtTimes, hN.flags, hN.rtFlags, hN.transfer, hN.fps, hN.endDist, hN.endTd, hN.locs, hN.rtLocs, hN.destLocs, hN.endDest,
    hN.endStop, hN.endFps⟩

theorem netFifo_noLb {N : Net} (hF : NetFifo N) : NetFifo N.noLb := ⟨hF.aligned, hF.fps, hF.endTd⟩

theorem journey_noLb {d : Dir} {N : Net} {n : Nat} {l : Loc} {t A : Int} : Journey d N.noLb n l t A ↔ Journey d N n l t A := by
  constructor
  · intro h
    induction h with
    | last h1 h2 => exact .last h1 h2
    | more h1 h2 _ ih => exact .more h1 h2 ih
  · intro h
    induction h with
    | last h1 h2 => exact .last h1 h2
    | more h1 h2 _ ih => exact .more h1 h2 ih

/-- C21: with admissible lower bounds the search offers the same arrivals (for every number of rides and time
within the horizon) as without lower bounds. -/
theorem C21_pruning (d : Dir) (N : Net) (hN : NetOk N) (hF : NetFifo N) (n : Nat) (qs : List Start) (hq : RangeQuery d N qs)
    (hlb : ∀ q ∈ qs, LbOk d N q.time q.horizon) (j : Nat) (hj : j ≤ n) (A : Int) (hA : ∀ q ∈ qs, A ≤ q.horizon) :
    Offered d N n qs j A ↔ Offered d N.noLb n qs j A := by
  rw [C20_exact d N hN hF n qs hq hlb j hj A hA,
    C20_exact d N.noLb (netOk_noLb hN) (netFifo_noLb hF) n qs ⟨hq.desc, hq.each⟩
      (fun q _ => lbOk_zero (netOk_noLb hN) (fun _ => rfl) _ _) j hj A hA]
  unfold Possible
  simp only [journey_noLb]

/-! ## C44 -/

theorem rangeQuery_single {d : Dir} {N : Net} {qs : List Start} (h : RangeQuery d N qs) {q : Start} (hq : q ∈ qs) : RangeQuery d N [q] :=
  ⟨by simp, by intro q' hq'; rw [List.mem_singleton] at hq'; subst hq'; exact h.each _ hq⟩

/-- C44: after any number of start times the labels kept from later start times neither hide nor add anything:
an arrival is offered iff an independent search for one of the start times processed so far offers one that
is at least as good. -/
theorem C44_range (d : Dir) (N : Net) (hN : NetOk N) (hF : NetFifo N) (n : Nat) (qs : List Start) (hq : RangeQuery d N qs)
    (hlb : ∀ q ∈ qs, LbOk d N q.time q.horizon) (j : Nat) (hj : j ≤ n) (A : Int) (hA : ∀ q ∈ qs, A ≤ q.horizon) :
    Offered d N n qs j A ↔ ∃ q ∈ qs, Offered d N n [q] j A := by
  rw [C20_exact d N hN hF n qs hq hlb j hj A hA]
  have hone : ∀ q ∈ qs, (Offered d N n [q] j A ↔ Possible d N [q] j A) := fun q hqm =>
    C20_exact d N hN hF n [q] (rangeQuery_single hq hqm) (by simpa using hlb q hqm) j hj A (by simpa using hA q hqm)
  constructor
  · rintro ⟨q, hqm, h⟩
    exact ⟨q, hqm, (hone q hqm).mpr ⟨q, List.mem_singleton.mpr rfl, h⟩⟩
  · rintro ⟨q, hqm, ho⟩
    obtain ⟨q', hq', h⟩ : Possible d N [q] j A := (hone q hqm).mp ho
    rw [List.mem_singleton] at hq'; subst hq'
    exact ⟨q', hqm, h⟩

/-! ## C23, C24 -/

/-- C23, C24: the search rides exactly the rides the timetable and the query permit - class, required flags on
every section, boarding and alighting (for the wheelchair profile: with a wheelchair) - in both directions. -/
theorem C23_rides_exact (d : Dir) (N : Net) (hN : NetOk N) (l : Loc) (t : Int) (m : Loc) (a : Int) :
    Ride (mkProblem d N) l t m a ↔ RideDir d N l t m a := ride_iff hN d l t m a

/-- The timetable without the vehicles of forbidden classes, and the query without class filter. -/
def Net.onlyAllowed (N : Net) (all : Nat) : Net :=
  { N with
    routes := N.routes.filter fun r => N.claszMask.testBit r.clasz
    rts := N.rts.filter fun r => N.claszMask.testBit r.clasz
    claszMask := all }

theorem netOk_onlyAllowed {N : Net} (hN : NetOk N) (all : Nat) : NetOk (N.onlyAllowed all) where
  times := fun r hr => hN.times r (List.mem_filter.mp hr).1
  rtTimes := fun r hr => hN.rtTimes r (List.mem_filter.mp hr).1
  flags := fun r hr => hN.flags r (List.mem_filter.mp hr).1
  rtFlags := fun r hr => hN.rtFlags r (List.mem_filter.mp hr).1
  transfer := hN.transfer
  fps := hN.fps
  endDist := hN.endDist
  endTd := hN.endTd
  locs := fun r hr => hN.locs r (List.mem_filter.mp hr).1
  rtLocs := fun r hr => hN.rtLocs r (List.mem_filter.mp hr).1
  destLocs := hN.destLocs
  endDest := hN.endDest
  endStop := fun hi => ⟨fun r hr => (hN.endStop hi).1 r (List.mem_filter.mp hr).1, fun r hr => (hN.endStop hi).2 r (List.mem_filter.mp hr).1⟩
  endFps := hN.endFps

theorem netFifo_onlyAllowed {N : Net} (hF : NetFifo N) (all : Nat) : NetFifo (N.onlyAllowed all) :=
  ⟨fun r hr => hF.aligned r (List.mem_filter.mp hr).1, hF.fps, hF.endTd⟩

theorem netRide_onlyAllowed {N : Net} {all : Nat} (hall : ∀ c, N.claszMask.testBit c = true → all.testBit c = true)
    (x : Loc) (td : Int) (y : Loc) (ta : Int) : NetRide (N.onlyAllowed all) x td y ta ↔ NetRide N x td y ta := by
  unfold NetRide
  constructor
  · rintro (⟨r, hr, t, D, h1, h2, h3⟩ | ⟨r, hr, h3⟩)
    · have hr' := List.mem_filter.mp hr
      exact Or.inl ⟨r, hr'.1, t, D, h1, h2, hr'.2, h3.2⟩
    · have hr' := List.mem_filter.mp hr
      exact Or.inr ⟨r, hr'.1, hr'.2, h3.2⟩
  · rintro (⟨r, hr, t, D, h1, h2, h3⟩ | ⟨r, hr, h3⟩)
    · exact Or.inl ⟨r, List.mem_filter.mpr ⟨hr, h3.1⟩, t, D, h1, h2, hall _ h3.1, h3.2⟩
    · exact Or.inr ⟨r, List.mem_filter.mpr ⟨hr, h3.1⟩, hall _ h3.1, h3.2⟩

theorem journey_onlyAllowed {d : Dir} {N : Net} {all : Nat} (hall : ∀ c, N.claszMask.testBit c = true → all.testBit c = true)
    {n : Nat} {l : Loc} {t A : Int} : Journey d (N.onlyAllowed all) n l t A ↔ Journey d N n l t A := by
  have hr : ∀ {l t m a}, RideDir d (N.onlyAllowed all) l t m a ↔ RideDir d N l t m a := by
    intro l t m a
    unfold RideDir
    cases d <;> simp only [netRide_onlyAllowed hall]
  constructor
  · intro h
    induction h with
    | last h1 h2 => exact .last (hr.mp h1) h2
    | more h1 h2 _ ih => exact .more (hr.mp h1) h2 ih
  · intro h
    induction h with
    | last h1 h2 => exact .last (hr.mpr h1) h2
    | more h1 h2 _ ih => exact .more (hr.mpr h1) h2 ih

/-- C23: searching with a class filter offers exactly the arrivals that an unfiltered search offers in the
timetable from which all vehicles of forbidden classes have been removed. -/
theorem C23_class_filter (d : Dir) (N : Net) (all : Nat) (hall : ∀ c, N.claszMask.testBit c = true → all.testBit c = true)
    (hN : NetOk N) (hF : NetFifo N) (n : Nat) (qs : List Start) (hq : RangeQuery d N qs)
    (hlb : ∀ q ∈ qs, LbOk d N q.time q.horizon) (hlb' : ∀ q ∈ qs, LbOk d (N.onlyAllowed all) q.time q.horizon)
    (j : Nat) (hj : j ≤ n) (A : Int) (hA : ∀ q ∈ qs, A ≤ q.horizon) :
    Offered d N n qs j A ↔ Offered d (N.onlyAllowed all) n qs j A := by
  rw [C20_exact d N hN hF n qs hq hlb j hj A hA,
    C20_exact d (N.onlyAllowed all) (netOk_onlyAllowed hN all) (netFifo_onlyAllowed hF all) n qs ⟨hq.desc, hq.each⟩ hlb' j hj A hA]
  unfold Possible
  simp only [journey_onlyAllowed hall]

example : Offered .fwd (Demo.net.onlyAllowed 65535) 8 Demo.qs 2 650 := by
  refine (C23_class_filter .fwd Demo.net 65535 ?_ Demo.net_ok Demo.net_fifo 8 Demo.qs Demo.range_query (fun _ _ => Demo.lb_ok _ _)
    (fun _ _ => lbOk_zero (netOk_onlyAllowed Demo.net_ok _) (fun _ => rfl) _ _) 2 (by decide) 650 (by decide)).mp ?_
  · intro c hc
    show Nat.testBit (2 ^ 16 - 1) c = true
    have hc : Nat.testBit (2 ^ 8 - 1) c = true := hc
    rw [Nat.testBit_two_pow_sub_one] at hc ⊢
    simp only [decide_eq_true_eq] at hc ⊢; omega
  · exact ⟨3, 2, 650, by decide +kernel, by decide, by decide⟩

/-- A journey together with the (boarding location, alighting location) of its rides, in the order of the
search. -/
inductive JourneyLegs (d : Dir) (N : Net) : List (Loc × Loc) → Loc → Int → Int → Prop
  | last {l t m a A} : RideDir d N l t m a → Arrive N m a A →
      JourneyLegs d N [if d = .fwd then (l, m) else (m, l)] l t A
  | more {n l t m a l' t' A} : RideDir d N l t m a → Walk N m a l' t' → JourneyLegs d N n l' t' A →
      JourneyLegs d N ((if d = .fwd then (l, m) else (m, l)) :: n) l t A

/-- Some vehicle serves `x` at a stop where boarding is allowed and later `y` at a stop where alighting is
allowed. -/
def AccessAllowed (N : Net) (x y : Loc) : Prop :=
  ∃ stops, (stops ∈ N.routes.map (·.stops) ∨ stops ∈ N.rts.map (·.stops)) ∧
    ∃ (i j : Nat) (si sj : StopData), i < j ∧ stops[i]? = some si ∧ stops[j]? = some sj ∧ si.loc = x ∧ sj.loc = y ∧
      MayBoard N.wheelchair si ∧ MayAlight N.wheelchair sj

theorem netRide_access {N : Net} {x y : Loc} {td ta : Int} (h : NetRide N x td y ta) : AccessAllowed N x y := by
  rcases h with ⟨r, hr, t, D, _, _, _, i, j, si, sj, h0, g1, g2, h1, h2, h3, h4, _⟩ |
    ⟨r, hr, _, i, j, si, sj, h0, g1, g2, h1, h2, h3, h4, _⟩
  · exact ⟨r.stops, Or.inl (List.mem_map.mpr ⟨r, hr, rfl⟩), i, j, si, sj, h0, g1, g2, h1, h2, h3, h4⟩
  · exact ⟨r.stops, Or.inr (List.mem_map.mpr ⟨r, hr, rfl⟩), i, j, si, sj, h0, g1, g2, h1, h2, h3, h4⟩

theorem rideDir_access {d : Dir} {N : Net} {l m : Loc} {t a : Int} (h : RideDir d N l t m a) (x : Loc × Loc)
    (hx : x = if d = .fwd then (l, m) else (m, l)) : AccessAllowed N x.1 x.2 := by
  subst hx
  cases d with
  | fwd => obtain ⟨_, _, h⟩ := h; exact netRide_access h
  | bwd => obtain ⟨_, _, h⟩ := h; exact netRide_access h

theorem journey_legs {d : Dir} {N : Net} {n : Nat} {l : Loc} {t A : Int} (h : Journey d N n l t A) :
    ∃ legs, legs.length = n ∧ JourneyLegs d N legs l t A ∧ ∀ x ∈ legs, AccessAllowed N x.1 x.2 := by
  induction h with
  | last h1 h2 =>
    refine ⟨_, rfl, .last h1 h2, ?_⟩
    intro x hx
    exact rideDir_access h1 x (List.mem_singleton.mp hx)
  | more h1 h2 _ ih =>
    obtain ⟨legs, e, g1, g2⟩ := ih
    refine ⟨_, by rw [List.length_cons, e], .more h1 h2 g1, ?_⟩
    intro x hx
    rcases List.mem_cons.mp hx with hx | hx
    · exact rideDir_access h1 x hx
    · exact g2 x hx

/-- C24: behind every reported arrival there is a journey with at most that many rides, arriving no later,
all of whose rides board where boarding is allowed and alight where alighting is allowed for the profile. -/
theorem C24_restrictions (d : Dir) (N : Net) (hN : NetOk N) (n : Nat) (qs : List Start)
    (hq : ∀ x ∈ allStarts qs, d.lo < x.2 ∧ x.2 ≤ d.hi) (l : Loc) (k : Nat) (A : Int) (hr : (l, k, A) ∈ reported d N n qs) :
    ∃ x ∈ allStarts qs, ∃ legs A', legs.length ≤ k ∧ A' ≤ A ∧ JourneyLegs d N legs x.1 x.2 A' ∧
      ∀ y ∈ legs, AccessAllowed N y.1 y.2 := by
  obtain ⟨_, _, _, x, hx, j, A', _, h2, h3, h4⟩ := C19_reported d N hN n qs hq l k A hr
  obtain ⟨legs, e, g1, g2⟩ := journey_legs h4
  exact ⟨x, hx, legs, A', by omega, h3, g1, g2⟩

example : ∃ x ∈ allStarts Demo.qs, ∃ legs A', legs.length ≤ 2 ∧ A' ≤ 650 ∧ JourneyLegs .fwd Demo.net legs x.1 x.2 A' ∧
    ∀ y ∈ legs, AccessAllowed Demo.net y.1 y.2 :=
  C24_restrictions .fwd Demo.net Demo.net_ok 8 Demo.qs (by decide) 3 2 650 (by decide +kernel)

/-- Read the wheelchair bits as the ordinary ones. -/
def StopData.wheel (s : StopData) : StopData := { s with inAllowed := s.inWheelchair, outAllowed := s.outWheelchair }

/-- The timetable as seen by somebody with a wheelchair, for ordinary passengers. -/
def Net.wheel (N : Net) : Net :=
  { N with
    wheelchair := false
    routes := N.routes.map fun r => { r with stops := r.stops.map StopData.wheel }
    rts := N.rts.map fun r => { r with stops := r.stops.map StopData.wheel } }

theorem getElem?_wheel {l : List StopData} {i : Nat} {s : StopData} :
    (l.map StopData.wheel)[i]? = some s ↔ ∃ s', l[i]? = some s' ∧ s = s'.wheel := by
  rw [List.getElem?_map]
  cases l[i]? <;> simp [eq_comm]

theorem vehicle_wheel {N : Net} (hw : N.wheelchair = true) {stops : List StopData} {c : Nat} {f : List (List Bool)} {dep arr : Nat → Int}
    {x y : Loc} {td ta : Int} :
    VehicleRide N.wheel (stops.map StopData.wheel) c f dep arr x td y ta ↔ VehicleRide N stops c f dep arr x td y ta := by
  constructor
  · rintro ⟨h1, i, j, si, sj, h2, h3, h4, h5, h6, h7, h8, h9⟩
    obtain ⟨si', g1, rfl⟩ := getElem?_wheel.mp h3
    obtain ⟨sj', g2, rfl⟩ := getElem?_wheel.mp h4
    refine ⟨h1, i, j, si', sj', h2, g1, g2, h5, h6, ?_, ?_, h9⟩
    · unfold MayBoard; rw [if_pos hw]; exact h7
    · unfold MayAlight; rw [if_pos hw]; exact h8
  · rintro ⟨h1, i, j, si, sj, h2, h3, h4, h5, h6, h7, h8, h9⟩
    unfold MayBoard at h7; unfold MayAlight at h8
    rw [if_pos hw] at h7 h8
    exact ⟨h1, i, j, si.wheel, sj.wheel, h2, getElem?_wheel.mpr ⟨si, h3, rfl⟩, getElem?_wheel.mpr ⟨sj, h4, rfl⟩, h5, h6, h7, h8, h9⟩

theorem netRide_wheel {N : Net} (hw : N.wheelchair = true) {x y : Loc} {td ta : Int} :
    NetRide N.wheel x td y ta ↔ NetRide N x td y ta := by
  constructor
  · rintro (⟨r, hr, t, D, h1, h2, h3⟩ | ⟨r, hr, h3⟩)
    · obtain ⟨r, hr0, rfl⟩ := List.mem_map.mp hr
      exact Or.inl ⟨r, hr0, t, D, h1, h2, (vehicle_wheel hw).mp h3⟩
    · obtain ⟨r, hr0, rfl⟩ := List.mem_map.mp hr
      exact Or.inr ⟨r, hr0, (vehicle_wheel hw).mp h3⟩
  · rintro (⟨r, hr, t, D, h1, h2, h3⟩ | ⟨r, hr, h3⟩)
    · exact Or.inl ⟨_, List.mem_map.mpr ⟨r, hr, rfl⟩, t, D, h1, h2, (vehicle_wheel hw).mpr h3⟩
    · exact Or.inr ⟨_, List.mem_map.mpr ⟨r, hr, rfl⟩, (vehicle_wheel hw).mpr h3⟩

theorem journey_wheel {d : Dir} {N : Net} (hw : N.wheelchair = true) {n : Nat} {l : Loc} {t A : Int} :
    Journey d N.wheel n l t A ↔ Journey d N n l t A := by
  have hr : ∀ {l t m a}, RideDir d N.wheel l t m a ↔ RideDir d N l t m a := by
    intro l t m a
    unfold RideDir
    cases d <;> simp only [netRide_wheel hw]
  constructor
  · intro h
    induction h with
    | last h1 h2 => exact .last (hr.mp h1) h2
    | more h1 h2 _ ih => exact .more (hr.mp h1) h2 ih
  · intro h
    induction h with
    | last h1 h2 => exact .last (hr.mpr h1) h2
    | more h1 h2 _ ih => exact .more (hr.mpr h1) h2 ih

theorem netOk_wheel {N : Net} (hN : NetOk N) : NetOk N.wheel where
  times := by
    intro r hr
    obtain ⟨r, hr0, rfl⟩ := List.mem_map.mp hr
    simpa using hN.times r hr0
  rtTimes := by
    intro r hr
    obtain ⟨r, hr0, rfl⟩ := List.mem_map.mp hr
    simpa using hN.rtTimes r hr0
  flags := by
    intro r hr
    obtain ⟨r, hr0, rfl⟩ := List.mem_map.mp hr
    simpa [Net.wheel] using hN.flags r hr0
  rtFlags := by
    intro r hr
    obtain ⟨r, hr0, rfl⟩ := List.mem_map.mp hr
    simpa [Net.wheel] using hN.rtFlags r hr0
  transfer := hN.transfer
  fps := hN.fps
  endDist := hN.endDist
  endTd := hN.endTd
  locs := by
    intro r hr s hs
    obtain ⟨r, hr0, rfl⟩ := List.mem_map.mp hr
    obtain ⟨s, hs0, rfl⟩ := List.mem_map.mp hs
    exact hN.locs r hr0 s hs0
  rtLocs := by
    intro r hr s hs
    obtain ⟨r, hr0, rfl⟩ := List.mem_map.mp hr
    obtain ⟨s, hs0, rfl⟩ := List.mem_map.mp hs
    exact hN.rtLocs r hr0 s hs0
  destLocs := hN.destLocs
  endDest := hN.endDest
  endStop := by
    intro hi
    refine ⟨?_, ?_⟩
    · intro r hr s hs
      obtain ⟨r, hr0, rfl⟩ := List.mem_map.mp hr
      obtain ⟨s, hs0, rfl⟩ := List.mem_map.mp hs
      exact (hN.endStop hi).1 r hr0 s hs0
    · intro r hr s hs
      obtain ⟨r, hr0, rfl⟩ := List.mem_map.mp hr
      obtain ⟨s, hs0, rfl⟩ := List.mem_map.mp hs
      exact (hN.endStop hi).2 r hr0 s hs0
  endFps := hN.endFps

theorem netFifo_wheel {N : Net} (hF : NetFifo N) : NetFifo N.wheel where
  aligned := by
    intro r hr
    obtain ⟨r, hr0, rfl⟩ := List.mem_map.mp hr
    have h := hF.aligned r hr0
    exact ⟨by simpa using h.dep, by simpa using h.arr, by simpa using h.depDay, by simpa using h.arrDay⟩
  fps := hF.fps
  endTd := hF.endTd

/-- C24: a search for the wheelchair profile offers exactly what an ordinary search offers in the timetable
whose boarding and alighting permissions are those for wheelchairs. -/
theorem C24_wheelchair (d : Dir) (N : Net) (hw : N.wheelchair = true) (hN : NetOk N) (hF : NetFifo N) (n : Nat) (qs : List Start)
    (hq : RangeQuery d N qs) (hlb : ∀ q ∈ qs, LbOk d N q.time q.horizon) (hlb' : ∀ q ∈ qs, LbOk d N.wheel q.time q.horizon)
    (j : Nat) (hj : j ≤ n) (A : Int) (hA : ∀ q ∈ qs, A ≤ q.horizon) :
    Offered d N n qs j A ↔ Offered d N.wheel n qs j A := by
  rw [C20_exact d N hN hF n qs hq hlb j hj A hA,
    C20_exact d N.wheel (netOk_wheel hN) (netFifo_wheel hF) n qs ⟨hq.desc, hq.each⟩ hlb' j hj A hA]
  unfold Possible
  simp only [journey_wheel hw]

/-- In the demo timetable nobody with a wheelchair can get off. -/
example : reported .fwd { Demo.net with wheelchair := true } 8 Demo.qs = [] := by decide +kernel

end Nigiri.Raptor
