import Verif.Proofs.OneToAll
/-!
# Properties C61, C62: one-to-all searches

The specification (`Query.Gets`, `Query.Ok`) is in `Verif.Spec.OneToAll`.
-/

namespace Nigiri.Raptor.OneToAll
open Nigiri.Raptor Nigiri.Lb

/-! ## Arithmetic of the base day -/

theorem zero_bounds (q : Query) : -720 ≤ q.zero ∧ q.zero ≤ 720 := by
  have h : ∀ t : Int, -720 ≤ t - 1440 * roundDays t ∧ t - 1440 * roundDays t ≤ 720 := by
    intro t
    unfold roundDays
    simp only
    split
    · split <;> omega
    · split <;> omega
  have := h q.start
  unfold Query.zero
  rcases sgn_cases q.dir with e | e <;> rw [e] <;> omega

theorem rel_eq (q : Query) (x : Int) (h0 : -7200 ≤ x) (h1 : x ≤ 20000) : q.rel (q.start + q.dir.sgn * x) = q.zero + x := by
  have hz := zero_bounds q
  unfold Query.rel unixToDelta clampDelta stdClamp dayToUnix baseDay makeBase deltaMin deltaMax
  unfold Query.zero at *
  generalize roundDays q.start = r at *
  rcases sgn_cases q.dir with e | e <;> rw [e] at hz ⊢
  · rw [if_neg (by omega), if_neg (by omega)]; omega
  · rw [if_neg (by omega), if_neg (by omega)]; omega

theorem sgn_hi (d : Dir) : 32767 ≤ d.hi := by cases d <;> decide
theorem sgn_lo (d : Dir) : d.lo ≤ -32767 := by cases d <;> decide

theorem diffTo_eq (q : Query) (S : State) (l : Loc) (k : Nat) :
    diffTo q.dir q.intFrom S l q.start k = q.dir.sgn * (S.round k l - q.zero) := by
  unfold diffTo deltaToUnix dayToUnix baseDay makeBase Query.zero
  rcases sgn_cases q.dir with e | e <;> rw [e] <;> omega

theorem i16_eq {x : Int} (h0 : -32768 ≤ x) (h1 : x ≤ 32767) : i16 x = x := by unfold i16; omega

theorem net_free (q : Query) : Free (mkProblem q.dir q.net) := ⟨fun _ => rfl, rfl, fun _ => rfl, rfl⟩

theorem run_search (q : Query) : q.run = search q.dir q.net q.rounds [q.at] := rfl

theorem at_time (q : Query) : q.at.time = q.zero := by
  have := rel_eq q 0 (by omega) (by omega)
  rw [Int.mul_zero, Int.add_zero, Int.add_zero] at this
  exact this

theorem at_worst {q : Query} (h : q.Ok) : q.at.worst = q.zero + q.maxTravel := rel_eq q _ (by have := h.travel; omega) (by have := h.travel; omega)

theorem mem_starts {q : Query} (h : q.Ok) (x : Loc × Int) : x ∈ q.at.starts ↔ ∃ o ∈ q.offs, x.1 ∈ forEachMeta q.T q.mode o.1 ∧ x.2 = q.zero + o.2 := by
  show x ∈ q.starts ↔ _
  unfold Query.starts
  simp only [List.mem_flatMap, List.mem_map]
  constructor
  · rintro ⟨o, ho, l, hl, rfl⟩
    have := h.offs o ho
    exact ⟨o, ho, hl, rel_eq q _ (by omega) (by omega)⟩
  · rintro ⟨o, ho, hl, e⟩
    have := h.offs o ho
    refine ⟨o, ho, x.1, hl, ?_⟩
    rw [rel_eq q _ (by omega) (by omega), ← e]

theorem range_at {q : Query} (h : q.Ok) : RangeQuery q.dir q.net [q.at] where
  desc := by simp
  each := by
    intro y hy
    rw [List.mem_singleton] at hy
    subst hy
    have h1 := zero_bounds q
    have h2 := h.travel
    have h3 := sgn_hi q.dir
    have h4 := sgn_lo q.dir
    rw [at_time, at_worst h]
    refine ⟨by omega, by omega, by omega, fun x hx => ?_⟩
    obtain ⟨o, ho, _, e⟩ := (mem_starts h x).mp hx
    have := h.offs o ho
    exact ⟨by omega, by omega, rfl⟩

theorem reach_mono {d : Dir} {N : Net} {st st' : List (Loc × Int)} (h : ∀ x ∈ st, x ∈ st') {k : Nat} {l : Loc} {t : Int}
    (hr : Reach d N st k l t) : Reach d N st' k l t := by
  induction hr with
  | start hx => exact .start (h _ hx)
  | walk _ h2 h3 ih => exact .walk ih h2 h3
  | dest _ h2 h3 h4 ih => exact .dest ih h2 h3 h4
  | lastMile _ h2 h3 h4 ih => exact .lastMile ih h2 h3 h4

theorem reach_ge {d : Dir} {N : Net} (hN : NetOk N) {st : List (Loc × Int)} {b : Int} (hb : ∀ x ∈ st, b ≤ x.2) {k : Nat} {l : Loc} {t : Int}
    (hr : Reach d N st k l t) : b ≤ t := by
  induction hr with
  | start hx => exact hb _ hx
  | @walk k l t m a l' t' _ h2 h3 ih =>
    have h4 := ride_le (sane_of_ok d hN) ((ride_iff hN d _ _ _ _).mpr h2)
    rcases h3 with ⟨_, e⟩ | ⟨w, hw, e⟩
    · have := hN.transfer m; omega
    · have := hN.fps _ _ _ _ hw; omega
  | dest _ h2 _ _ ih =>
    have h4 := ride_le (sane_of_ok d hN) ((ride_iff hN d _ _ _ _).mpr h2)
    omega
  | lastMile _ h2 _ h4 ih =>
    have h5 := ride_le (sane_of_ok d hN) ((ride_iff hN d _ _ _ _).mpr h2)
    rcases h4 with h4 | h4
    · have := hN.endDist _ _ h4; omega
    · have := hN.endTd _ _ _ h4; omega

/-- A traveller's start events are those of the search. -/
theorem gets_iff {q : Query} (h : q.Ok) (k : Nat) (l : Loc) (x : Int) : q.Gets k l x ↔ Reach q.dir q.net q.at.starts k l (q.zero + x) := by
  constructor
  · rintro ⟨st, h1, h2⟩
    exact reach_mono (fun y hy => (mem_starts h y).mpr (h1 y hy)) h2
  · intro hr
    exact ⟨q.at.starts, fun y hy => (mem_starts h y).mp hy, hr⟩

theorem gets_nonneg {q : Query} (h : q.Ok) {k : Nat} {l : Loc} {x : Int} (hg : q.Gets k l x) : 0 ≤ x := by
  have := reach_ge h.net (b := q.zero) (fun y hy => by
    obtain ⟨o, ho, _, e⟩ := (mem_starts h y).mp hy
    have := h.offs o ho
    omega) ((gets_iff h k l x).mp hg)
  omega

/-- The label of a round, as minutes of travel. -/
def Query.label (q : Query) (k : Nat) (l : Loc) : Int := q.run.round k l - q.zero

theorem label_sound {q : Query} (h : q.Ok) {k : Nat} {l : Loc} (hl : q.run.round k l ≠ q.dir.hi) :
    ∃ j, j ≤ k ∧ (1 ≤ k → 1 ≤ j) ∧ q.Gets j l (q.label k l) := by
  obtain ⟨j, h1, h2, h3⟩ := C19_labels q.dir q.net h.net q.rounds [q.at] (range_starts (range_at h)) k l (by rw [← run_search]; exact hl)
  refine ⟨j, h1, h2, (gets_iff h _ _ _).mpr ?_⟩
  rw [← run_search] at h3
  have e : allStarts [q.at] = q.at.starts := by simp [allStarts]
  rw [e] at h3
  unfold Query.label
  rwa [show q.zero + (q.run.round k l - q.zero) = q.run.round k l by omega]

theorem label_inv {q : Query} (h : q.Ok) {M : Int} (hM : ∀ l, q.net.transfer l ≤ M) (hM' : ∀ l t l' w, (l', w) ∈ q.net.fps l t → w ≤ M) :
    Inv (mkProblem q.dir q.net) (q.zero + q.maxTravel) M q.rounds q.run := by
  have h1 := zero_bounds q
  have h2 := h.travel
  have h3 := sgn_hi q.dir
  have h4 := sgn_lo q.dir
  have hhi : q.zero + q.maxTravel < (mkProblem q.dir q.net).hi := by show _ < q.dir.hi; omega
  have hlo : (mkProblem q.dir q.net).lo ≤ q.zero + q.maxTravel := by show q.dir.lo ≤ _; omega
  exact (inv_begin hhi q.at (at_worst h)).rounds (net_free q) hhi hlo hM hM' q.rounds

theorem label_range {q : Query} (h : q.Ok) {k : Nat} {l : Loc} (hl : q.run.round k l ≠ q.dir.hi) : 0 ≤ q.label k l ∧ q.label k l ≤ 17200 := by
  obtain ⟨j, h1, h2, h3⟩ := label_sound h hl
  have h0 := gets_nonneg h h3
  refine ⟨h0, ?_⟩
  have ht := h.travel
  by_cases hk : 1 ≤ k
  · rcases (label_inv h h.transfer h.fps).lim k l hk with g | g
    · exact absurd g hl
    · unfold Query.label; omega
  · have : j = 0 := by omega
    subst this
    cases (gets_iff h _ _ _).mp h3 with
    | start hx =>
      obtain ⟨o, ho, _, e⟩ := (mem_starts h _).mp hx
      have := h.offs o ho
      simp only at e
      omega

theorem mem_forEach {q : Query} (h : q.Ok) (l : Loc) (transfers k : Nat) (x : Int) :
    (k, x) ∈ forEachRound q.dir q.intFrom q.run l q.start transfers ↔ k ≤ transfers + 1 ∧ q.run.round k l ≠ q.dir.hi ∧ x = q.label k l := by
  unfold forEachRound
  simp only [List.mem_map, List.mem_filter, List.mem_range, decide_eq_true_eq, Prod.mk.injEq]
  have hv : ∀ k', q.run.round k' l ≠ q.dir.hi → i16 (durationTo q.dir (diffTo q.dir q.intFrom q.run l q.start k')) = q.label k' l := by
    intro k' hk'
    have := label_range h hk'
    have e : (durationTo q.dir (diffTo q.dir q.intFrom q.run l q.start k')) = q.label k' l := by
      rw [diffTo_eq]
      unfold Query.label
      cases q.dir <;> simp only [Dir.sgn, durationTo] <;> omega
    rw [e, i16_eq (by omega) (by omega)]
  constructor
  · rintro ⟨k', ⟨h1, h2⟩, rfl, e⟩
    exact ⟨by omega, h2, by rw [← e, hv k' h2]⟩
  · rintro ⟨h1, h2, e⟩
    exact ⟨k, ⟨by omega, h2⟩, rfl, by rw [hv k h2, e]⟩

/-! ## The theorems -/

/-- C61: every reported travel time is possible: one gets to the stop in exactly this time, with at most `k` rides (at least
one if `k ≥ 1`). -/
theorem C61_sound (q : Query) (h : q.Ok) (l : Loc) (transfers k : Nat) (x : Int)
    (hm : (k, x) ∈ forEachRound q.dir q.intFrom q.run l q.start transfers) :
    k ≤ transfers + 1 ∧ ∃ j, j ≤ k ∧ (1 ≤ k → 1 ≤ j) ∧ q.Gets j l x := by
  obtain ⟨h1, h2, h3⟩ := (mem_forEach h l transfers k x).mp hm
  obtain ⟨j, g1, g2, g3⟩ := label_sound h h2
  exact ⟨h1, j, g1, g2, by rw [h3]; exact g3⟩

/-- C61: if one can get to a stop within the maximal travel time, a travel time that is not longer is reported for at most as
many rides. -/
theorem C61_complete (q : Query) (h : q.Ok) (l : Loc) (transfers j : Nat) (x : Int) (hj : j ≤ transfers + 1) (hjn : j ≤ min q.maxTransfers 14 + 1)
    (hx : x ≤ q.maxTravel) (hg : q.Gets j l x) :
    ∃ k y, (k, y) ∈ forEachRound q.dir q.intFrom q.run l q.start transfers ∧ k ≤ j ∧ y ≤ x := by
  have hz := zero_bounds q
  have ht := h.travel
  have hhi := sgn_hi q.dir
  obtain ⟨k, h1, h2⟩ := C20_one_to_all q.dir q.net h.net h.fifo rfl (fun _ => rfl) (fun _ => rfl) q.rounds [q.at] (range_at h) q.at (by simp) j l _
    ((gets_iff h _ _ _).mp hg) hjn (by unfold Start.horizon; rw [at_time, at_worst h]; omega)
  rw [← run_search] at h2
  refine ⟨k, q.label k l, (mem_forEach h l transfers k _).mpr ⟨by omega, by omega, rfl⟩, h1, ?_⟩
  unfold Query.label; omega

/-- C61: within the maximal travel time more rides are reported only if they are faster. -/
theorem C61_rounds (q : Query) (h : q.Ok) (l : Loc) (transfers k k' : Nat) (x x' : Int)
    (hm : (k, x) ∈ forEachRound q.dir q.intFrom q.run l q.start transfers) (hm' : (k', x') ∈ forEachRound q.dir q.intFrom q.run l q.start transfers)
    (hk : k < k') (hx : x ≤ q.maxTravel) : x' < x := by
  obtain ⟨_, h2, h3⟩ := (mem_forEach h l transfers k x).mp hm
  obtain ⟨_, g2, g3⟩ := (mem_forEach h l transfers k' x').mp hm'
  have hi := label_inv h h.transfer h.fps
  have hk' : k' ≤ q.rounds := by
    apply Classical.byContradiction
    intro hc
    exact g2 (hi.high k' l (by omega))
  unfold Query.label at h3 g3
  rcases hi.desc k k' l hk hk' (by omega) with g | g
  · exact absurd g g2
  · omega

/-- C62: the travel times reported for `k ≥ 1` exceed the maximal one at most by the duration of the last walk. -/
theorem C62_limit_partial (q : Query) (h : q.Ok) (M : Int) (hM : ∀ l, q.net.transfer l ≤ M) (hM' : ∀ l t l' w, (l', w) ∈ q.net.fps l t → w ≤ M)
    (l : Loc) (transfers k : Nat) (x : Int) (hk : 1 ≤ k) (hm : (k, x) ∈ forEachRound q.dir q.intFrom q.run l q.start transfers) :
    x ≤ q.maxTravel + max 0 M := by
  obtain ⟨_, h2, h3⟩ := (mem_forEach h l transfers k x).mp hm
  unfold Query.label at h3
  rcases (label_inv h hM hM').lim k l hk with g | g
  · exact absurd g h2
  · omega

/-- What `get_fastest_one_to_all_offsets` returns, in terms of the reported travel times: the one with the most rides;
negated for a backward search. -/
theorem fastest_eq {q : Query} (h : q.Ok) (l : Loc) (transfers : Nat) :
    ((∀ k, k ≤ transfers + 1 → q.run.round k l = q.dir.hi) ∧ getFastest q.dir q.intFrom q.run l q.start transfers = (32767, 255)) ∨
    ∃ k, k ≤ transfers + 1 ∧ q.run.round k l ≠ q.dir.hi ∧ (∀ k', k < k' → k' ≤ transfers + 1 → q.run.round k' l = q.dir.hi) ∧
      getFastest q.dir q.intFrom q.run l q.start transfers = (q.dir.sgn * q.label k l, k) := by
  unfold getFastest
  cases hf : (List.range (transfers + 2)).reverse.find? (fun k => decide (q.run.round k l ≠ q.dir.hi)) with
  | none =>
    left
    refine ⟨?_, rfl⟩
    intro k hk
    have := List.find?_eq_none.mp hf k (by simp; omega)
    simpa using this
  | some k =>
    right
    have hp := List.find?_some hf
    simp only [decide_eq_true_eq] at hp
    have hm := List.mem_of_find?_eq_some hf
    simp only [List.mem_reverse, List.mem_range] at hm
    have hr := label_range h hp
    refine ⟨k, by omega, hp, ?_, ?_⟩
    · intro k' hk hk'
      obtain ⟨_, as, bs, e, hn⟩ := List.find?_eq_some_iff_append.mp hf
      have hsplit : k' ∈ as := by
        have hmem : k' ∈ as ++ k :: bs := by rw [← e]; simp; omega
        have hsort : ((List.range (transfers + 2)).reverse).Pairwise (fun a b => b < a) := by
          rw [List.pairwise_reverse]; exact List.pairwise_lt_range
        rw [e] at hsort
        rw [List.mem_append] at hmem
        rcases hmem with g | g
        · exact g
        · exfalso
          rw [List.mem_cons] at g
          rcases g with g | g
          · omega
          · have := (List.pairwise_cons.mp (List.pairwise_append.mp hsort).2.1).1 k' g
            omega
      have := hn k' hsplit
      simpa using this
    · simp only [Prod.mk.injEq, and_true]
      rw [diffTo_eq]
      have e : q.dir.sgn * (q.run.round k l - q.zero) = q.dir.sgn * q.label k l := rfl
      rw [e]
      refine i16_eq ?_ ?_ <;> rcases sgn_cases q.dir with s | s <;> rw [s] <;> omega

/-- C61: if a stop can be reached within the maximal travel time with at most `transfers` changes, the fastest way to it is
returned: its travel time (negated for a backward search) and the smallest number of rides with which this time is possible. -/
theorem C61_fastest (q : Query) (h : q.Ok) (l : Loc) (transfers j : Nat) (x : Int) (hj : j ≤ transfers + 1)
    (hn : transfers ≤ min q.maxTransfers 14) (hx : x ≤ q.maxTravel) (hg : q.Gets j l x) :
    ∃ k y, getFastest q.dir q.intFrom q.run l q.start transfers = (q.dir.sgn * y, k) ∧ k ≤ transfers + 1 ∧ q.Gets k l y ∧
      (∀ j' x', j' ≤ transfers + 1 → q.Gets j' l x' → y ≤ x') ∧ (∀ j', q.Gets j' l y → k ≤ j') := by
  obtain ⟨k0, y0, g1, g2, g3⟩ := C61_complete q h l transfers j x hj (by omega) hx hg
  obtain ⟨m1, m2, m3⟩ := (mem_forEach h l transfers k0 y0).mp g1
  rcases fastest_eq h l transfers with ⟨hno, _⟩ | ⟨k, hk, hne, hmax, heq⟩
  · exact absurd (hno k0 m1) m2
  · have hmem : (k, q.label k l) ∈ forEachRound q.dir q.intFrom q.run l q.start transfers := (mem_forEach h l transfers k _).mpr ⟨hk, hne, rfl⟩
    -- any reported time within the limit is not shorter
    have hbest : ∀ k' y', (k', y') ∈ forEachRound q.dir q.intFrom q.run l q.start transfers → y' ≤ q.maxTravel → k' ≤ k ∧ (k' < k → q.label k l < y') ∧ (k' = k → y' = q.label k l) := by
      intro k' y' hm' hy'
      obtain ⟨p1, p2, p3⟩ := (mem_forEach h l transfers k' y').mp hm'
      refine ⟨?_, ?_, ?_⟩
      · apply Classical.byContradiction
        intro hc
        exact p2 (hmax k' (by omega) p1)
      · intro hlt; exact C61_rounds q h l transfers k' k y' _ hm' hmem hlt hy'
      · intro e; rw [p3, e]
    have h0 := hbest k0 y0 g1 (by omega)
    have hlim : q.label k l ≤ q.maxTravel := by
      by_cases hc : k0 < k
      · have := h0.2.1 hc; omega
      · have := h0.2.2 (by omega); omega
    have hall : ∀ j' x', j' ≤ transfers + 1 → q.Gets j' l x' → q.label k l ≤ x' ∧ (x' = q.label k l → k ≤ j') := by
      intro j' x' hj' hg'
      by_cases hc : x' ≤ q.maxTravel
      · obtain ⟨k', y', p1, p2, p3⟩ := C61_complete q h l transfers j' x' hj' (by omega) hc hg'
        have hb := hbest k' y' p1 (by omega)
        by_cases hlt : k' < k
        · have := hb.2.1 hlt; exact ⟨by omega, by omega⟩
        · have := hb.2.2 (by omega); exact ⟨by omega, by omega⟩
      · exact ⟨by omega, by omega⟩
    obtain ⟨i, i1, i2, i3⟩ := label_sound h hne
    have hik : i = k := by
      have := (hall i _ (by omega) i3).2 rfl
      omega
    refine ⟨k, q.label k l, heq, hk, hik ▸ i3, fun j' x' a b => (hall j' x' a b).1, ?_⟩
    intro j' hg'
    by_cases hc : j' ≤ transfers + 1
    · exact (hall j' _ hc hg').2 rfl
    · omega

/-- C61: if nothing is returned, the stop cannot be reached within the maximal travel time. -/
theorem C61_unreachable (q : Query) (h : q.Ok) (l : Loc) (transfers : Nat) (hn : transfers ≤ min q.maxTransfers 14)
    (hf : (getFastest q.dir q.intFrom q.run l q.start transfers).2 = 255) (ht : transfers < 254) (j : Nat) (x : Int) (hj : j ≤ transfers + 1)
    (hg : q.Gets j l x) : q.maxTravel < x := by
  apply Classical.byContradiction
  intro hc
  obtain ⟨k, y, e, hk, _⟩ := C61_fastest q h l transfers j x hj hn (by omega) hg
  rw [e] at hf
  simp only at hf
  omega

/-! ## The demo timetable: from station 0 at 10:00 on day 5 -/

def stations : Tt := ⟨4, fun _ => none, fun _ => [], fun _ => [], fun _ => false, fun _ => [], fun _ => [], [], []⟩

def demo (maxTravel : Int) : Query := ⟨.fwd, stations, 0, fun _ => Demo.net, 5 * 1440 + 600, .exact, [(0, 0)], 7, maxTravel⟩

theorem demo_ok (m : Int) (h0 : 0 ≤ m) (h1 : m ≤ 7200) : (demo m).Ok where
  net := ⟨Demo.net_ok.times, Demo.net_ok.rtTimes, Demo.net_ok.flags, Demo.net_ok.rtFlags, Demo.net_ok.transfer, Demo.net_ok.fps,
    fun _ _ h => by (cases h), fun _ _ _ h => by (cases h), Demo.net_ok.locs, Demo.net_ok.rtLocs, fun _ h => by (cases h),
    fun h => by (cases h), fun h => by (cases h), fun h => by (cases h)⟩
  fifo := ⟨Demo.net_fifo.aligned, Demo.net_fifo.fps, fun _ _ _ _ _ _ _ h => by (cases h)⟩
  offs := by intro o ho; simp only [demo, List.mem_singleton] at ho; subst ho; omega
  travel := ⟨h0, h1⟩
  transfer := fun l => by show (2 : Int) ≤ 10000; omega
  fps := by
    intro l t l' w h
    have h' : (l', w) ∈ (if l = 2 then [(3, 40)] else [] : List (Loc × Int)) := h
    split at h' <;> simp at h'
    omega

/-- To station 3 in 60 minutes with one ride and a walk, or in 52 minutes (with the transfer time) with two rides. -/
theorem demo_rounds : forEachRound .fwd 0 (demo 1440).run 3 (5 * 1440 + 600) 7 = [(1, 60), (2, 52)] := by decide +kernel

theorem demo_fastest : getFastest .fwd 0 (demo 1440).run 3 (5 * 1440 + 600) 7 = (52, 2) := by decide +kernel

theorem demo_gets : (demo 1440).Gets 1 3 60 :=
  ⟨[(0, 600)], by intro x hx; rw [List.mem_singleton] at hx; subst hx; exact ⟨(0, 0), by simp [demo], by decide, by decide⟩,
    .walk (m := 2) (a := 620) (.start (l := 0) (t := 600) (by simp)) ⟨602, by decide, Demo.rideA⟩ (Or.inr ⟨40, by decide, rfl⟩)⟩

example : ∃ j, j ≤ 2 ∧ (1 ≤ 2 → 1 ≤ j) ∧ (demo 1440).Gets j 3 52 :=
  (C61_sound (demo 1440) (demo_ok _ (by decide) (by decide)) 3 7 2 52 (by show _ ∈ forEachRound .fwd 0 (demo 1440).run 3 (5 * 1440 + 600) 7; rw [demo_rounds]; simp)).2

example : ∃ k y, getFastest .fwd 0 (demo 1440).run 3 (5 * 1440 + 600) 7 = (1 * y, k) ∧ k ≤ 8 ∧ (demo 1440).Gets k 3 y ∧
    (∀ j' x', j' ≤ 8 → (demo 1440).Gets j' 3 x' → y ≤ x') ∧ (∀ j', (demo 1440).Gets j' 3 y → k ≤ j') :=
  C61_fastest (demo 1440) (demo_ok _ (by decide) (by decide)) 3 7 1 60 (by decide) (by decide) (by decide) demo_gets

/-- With a single ride nothing faster than 60 minutes: read off the result. -/
example (x : Int) (h : (demo 1440).Gets 1 3 x) : 60 ≤ x := by
  have hf : getFastest .fwd 0 (demo 1440).run 3 (5 * 1440 + 600) 0 = (60, 1) := by decide +kernel
  obtain ⟨k, y, e, _, _, h4, _⟩ := C61_fastest (demo 1440) (demo_ok _ (by decide) (by decide)) 3 0 1 60 (by decide) (by decide) (by decide) demo_gets
  have e' : ((60 : Int), 1) = (1 * y, k) := hf.symm.trans e
  simp only [Prod.mk.injEq] at e'
  have := h4 1 x (by decide) h
  omega

/-- Station 9 is not served. -/
example (j : Nat) (x : Int) (hj : j ≤ 8) (h : (demo 1440).Gets j 9 x) : 1440 < x :=
  C61_unreachable (demo 1440) (demo_ok _ (by decide) (by decide)) 9 7 (by decide) (by decide +kernel) (by decide) j x hj h

/-- The maximal travel time is not a limit for what is reported: with 30 minutes, station 3 is reported with 60 minutes (the
walk from station 2, which is reached in time, is not cut off), for two rides as well although one ride is enough.  The comment in the code says slower journeys are not found. -/
theorem C62_limit_false : forEachRound .fwd 0 (demo 30).run 3 (5 * 1440 + 600) 7 = [(1, 60), (2, 60)] ∧
    getFastest .fwd 0 (demo 30).run 3 (5 * 1440 + 600) 7 = (60, 2) := by decide +kernel

example : (60 : Int) ≤ 30 + max 0 40 :=
  C62_limit_partial (demo 30) (demo_ok _ (by decide) (by decide)) 40 (fun _ => by show (2 : Int) ≤ 40; omega) (by
    intro l t l' w h
    have h' : (l', w) ∈ (if l = 2 then [(3, 40)] else [] : List (Loc × Int)) := h
    split at h' <;> simp at h'
    omega) 3 7 1 60 (by decide)
    (by show _ ∈ forEachRound .fwd 0 (demo 30).run 3 (5 * 1440 + 600) 7; rw [C62_limit_false.1]; simp)

/-! Beyond the maximal travel time the returned way need not be the fastest. -/

def lineE : RouteData := ⟨[Demo.st 0, Demo.st 1], 1, fun _ s => 600 + 10 * s, fun _ s => 600 + 10 * s, Demo.days, 3, [[true], []]⟩
def lineF : RouteData := ⟨[Demo.st 1, Demo.st 2], 1, fun _ s => 614 + 6 * s, fun _ s => 614 + 6 * s, Demo.days, 3, [[true], []]⟩

def demo2 : Query :=
  ⟨.fwd, stations, 0, fun _ => { Demo.net with routes := [lineE, lineF], rts := [], fps := fun l _ => if l = 1 then [(3, 30)] else if l = 2 then [(3, 45)] else [] },
    5 * 1440 + 600, .exact, [(0, 0)], 7, 25⟩

/-- Station 3 can be reached in 40 minutes, but the "fastest" travel time returned is 65 minutes with two rides. -/
theorem C62_fastest_false : forEachRound .fwd 0 demo2.run 3 (5 * 1440 + 600) 7 = [(1, 40), (2, 65)] ∧
    getFastest .fwd 0 demo2.run 3 (5 * 1440 + 600) 7 = (65, 2) := by decide +kernel

/-! A backward search: to station 3 at 11:00, walking from station 2 against the direction of search. -/

def demo3 : Query := ⟨.bwd, stations, 0, fun _ => { Demo.net with fps := fun l _ => if l = 3 then [(2, 40)] else [] }, 5 * 1440 + 660, .exact, [(3, 0)], 7, 1440⟩

/-- `get_fastest_one_to_all_offsets` returns a negative duration, `for_each_one_to_all_round_time` positive ones. -/
theorem demo3_rounds : forEachRound .bwd 0 demo3.run 0 (5 * 1440 + 660) 7 = [(2, 60)] ∧
    getFastest .bwd 0 demo3.run 0 (5 * 1440 + 660) 7 = (-60, 2) := by decide +kernel

end Nigiri.Raptor.OneToAll
