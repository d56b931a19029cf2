import Verif.Spec.EndToEnd
import Verif.Props.Raptor
import Verif.Props.StartTimes
import Verif.Props.Search
/-!
# The search driver with RAPTOR: proofs
-/

namespace Nigiri.EndToEnd
open Nigiri.Raptor Nigiri.Search Nigiri.StartTimes

/-- `Trip` in the times of the algorithm. -/
def TripD (d : Dir) (N : Net) (entries : List (Loc × Int)) (T : Int) (j : Nat) (A : Int) : Prop :=
  ∃ l x, (l, x) ∈ entries ∧ Journey d N j l (toDelta d N T + x) (toDelta d N A)

theorem rel_eq (d : Dir) (N : Net) (T : Int) : rel d N T = toDelta d N T := by
  unfold rel toDelta
  cases d <;> simp only [Dir.sgn] <;> omega

theorem trip_iff {d : Dir} {N : Net} {entries : List (Loc × Int)} {T : Int} {j : Nat} {A : Int} : Trip d N entries T j A ↔ TripD d N entries T j A := by
  unfold Trip TripD
  rw [rel_eq, rel_eq]

/-! ## Times -/

theorem toDelta_toUnix (d : Dir) (N : Net) (x : Int) : toDelta d N (toUnix d N x) = x := by
  unfold toDelta toUnix
  cases d <;> simp only [Dir.sgn] <;> omega

theorem toUnix_toDelta (d : Dir) (N : Net) (x : Int) : toUnix d N (toDelta d N x) = x := by
  unfold toDelta toUnix
  cases d <;> simp only [Dir.sgn] <;> omega

theorem toDelta_inj {d : Dir} {N : Net} {a b : Int} (h : toDelta d N a = toDelta d N b) : a = b := by
  rw [← toUnix_toDelta d N a, h, toUnix_toDelta]

theorem ahead_iff (d : Dir) (N : Net) (a b : Int) : Ahead d a b ↔ toDelta d N b ≤ toDelta d N a := by
  unfold toDelta
  cases d <;> simp only [Ahead, Dir.sgn] <;> omega

theorem worst_delta (d : Dir) (N : Net) (direct maxTravel t : Int) :
    toDelta d N (worst d direct maxTravel t) = toDelta d N t + min direct maxTravel + 1 := by
  unfold toDelta worst
  cases d <;> simp only [Dir.sgn] <;> omega

theorem contains_delta (d : Dir) (N : Net) (iv : Interval) (T : Int) :
    iv.contains T = true ↔ toDelta d N (edge d iv) ≤ toDelta d N T ∧ toDelta d N T < toDelta d N (ontripStart d iv) := by
  rw [contains_iff]
  unfold toDelta
  cases d <;> simp only [edge, ontripStart, Dir.sgn] <;> omega

/-- A journey goes in search direction, and takes some time in a backward search. -/
def Proper (d : Dir) (N : Net) (a : Crit) : Prop :=
  toDelta d N a.start ≤ toDelta d N a.dest ∧ (d = .bwd → toDelta d N a.start < toDelta d N a.dest)

theorem dom_iff {d : Dir} {N : Net} {a c : Crit} (h : Proper d N a) :
    a.dominates c = true ↔ a.transfers ≤ c.transfers ∧ toDelta d N c.start ≤ toDelta d N a.start ∧ toDelta d N a.dest ≤ toDelta d N c.dest := by
  unfold Crit.dominates
  obtain ⟨h1, h2⟩ := h
  unfold toDelta at *
  cases d with
  | fwd =>
    simp only [Dir.sgn] at *
    rw [if_pos (by omega)]
    simp only [Bool.and_eq_true, decide_eq_true_eq]
    omega
  | bwd =>
    have h2 := h2 rfl
    simp only [Dir.sgn] at *
    rw [if_neg (by omega)]
    simp only [Bool.and_eq_true, decide_eq_true_eq]
    omega

theorem travel_delta {d : Dir} {N : Net} {a : Crit} (h : Proper d N a) : a.travelTime = toDelta d N a.dest - toDelta d N a.start := by
  obtain ⟨h1, -⟩ := h
  unfold Crit.travelTime
  unfold toDelta at *
  cases d <;> simp only [Dir.sgn] at * <;> omega

/-! ## Journeys -/

theorem journey_pos {d : Dir} {N : Net} {j : Nat} {l : Loc} {t A : Int} (h : Journey d N j l t A) : 1 ≤ j := by
  cases h <;> omega

theorem ride_earlier {d : Dir} {N : Net} {l m : Loc} {t t' a : Int} (h : RideDir d N l t m a) (ht : t' ≤ t) : RideDir d N l t' m a := by
  cases d with
  | fwd =>
    obtain ⟨dep, h1, h2⟩ := h
    exact ⟨dep, by omega, h2⟩
  | bwd =>
    obtain ⟨dep, h1, h2⟩ := h
    exact ⟨dep, by omega, h2⟩

theorem journey_earlier {d : Dir} {N : Net} {j : Nat} {l : Loc} {t t' A : Int} (h : Journey d N j l t A) (ht : t' ≤ t) : Journey d N j l t' A := by
  cases h with
  | last h1 h2 => exact .last (ride_earlier h1 ht) h2
  | more h1 h2 h3 => exact .more (ride_earlier h1 ht) h2 h3

theorem trip_earlier {d : Dir} {N : Net} {entries : List (Loc × Int)} {T T' : Int} {j : Nat} {A : Int} (h : TripD d N entries T j A)
    (ht : toDelta d N T' ≤ toDelta d N T) : TripD d N entries T' j A := by
  obtain ⟨l, x, h1, h2⟩ := h
  exact ⟨l, x, h1, journey_earlier h2 (by omega)⟩

theorem ride_departure {d : Dir} {N : Net} {l m : Loc} {t a : Int} (h : RideDir d N l t m a) :
    ∃ dep, t ≤ dep ∧ RideDir d N l dep m a ∧ Departure d N l (toUnix d N dep) := by
  cases d with
  | fwd =>
    obtain ⟨dep, h1, h2⟩ := h
    refine ⟨dep, h1, ⟨dep, Int.le_refl _, h2⟩, ?_⟩
    rcases h2 with ⟨r, hr, tr, day, g1, g2, g3, i, k, si, sk, g4, g5, g6, g7, g8, g9, g10, g11, g12, g13⟩ |
      ⟨r, hr, g3, i, k, si, sk, g4, g5, g6, g7, g8, g9, g10, g11, g12, g13⟩
    · refine Or.inl ⟨r, hr, i, tr, si, day, g5, g7, ⟨?_, ?_⟩, g1, g2, ?_⟩
      · have := (List.getElem?_eq_some_iff.mp g6).1; omega
      · unfold MayBoard at g9; split at g9 <;> simp_all
      · simp only [toUnix, Dir.sgn, g12]; omega
    · refine Or.inr ⟨r, hr, i, si, g5, g7, ⟨?_, ?_⟩, ?_⟩
      · have := (List.getElem?_eq_some_iff.mp g6).1; omega
      · unfold MayBoard at g9; split at g9 <;> simp_all
      · simp only [toUnix, Dir.sgn, g12]; omega
  | bwd =>
    obtain ⟨arr, h1, h2⟩ := h
    refine ⟨-arr, by omega, ⟨arr, by omega, h2⟩, ?_⟩
    rcases h2 with ⟨r, hr, tr, day, g1, g2, g3, i, k, si, sk, g4, g5, g6, g7, g8, g9, g10, g11, g12, g13⟩ |
      ⟨r, hr, g3, i, k, si, sk, g4, g5, g6, g7, g8, g9, g10, g11, g12, g13⟩
    · refine Or.inl ⟨r, hr, k, tr, sk, day, g6, g8, ⟨by omega, ?_⟩, g1, g2, ?_⟩
      · unfold MayAlight at g10; split at g10 <;> simp_all
      · simp only [toUnix, Dir.sgn, g13]; omega
    · refine Or.inr ⟨r, hr, k, sk, g6, g8, ⟨by omega, ?_⟩, ?_⟩
      · unfold MayAlight at g10; split at g10 <;> simp_all
      · simp only [toUnix, Dir.sgn, g13]; omega

theorem journey_departure {d : Dir} {N : Net} {j : Nat} {l : Loc} {t A : Int} (h : Journey d N j l t A) :
    ∃ dep, t ≤ dep ∧ Journey d N j l dep A ∧ Departure d N l (toUnix d N dep) := by
  cases h with
  | last h1 h2 =>
    obtain ⟨dep, g1, g2, g3⟩ := ride_departure h1
    exact ⟨dep, g1, .last g2 h2, g3⟩
  | more h1 h2 h3 =>
    obtain ⟨dep, g1, g2, g3⟩ := ride_departure h1
    exact ⟨dep, g1, .more g2 h2 h3, g3⟩

/-! ## The setting -/

section
variable {d : Dir} {N : Net} {n : Nat} {entries : List (Loc × Int)} {maxOff : Int} {E : Env Raptor.State}

theorem Setup.fitsD (h : Setup d N n entries maxOff E) (T : Int) (h1 : E.q.startIv.from' - 3601 ≤ T) (h2 : T ≤ E.q.startIv.to' + 3600) :
    d.lo < toDelta d N T ∧ toDelta d N T + 7201 + maxOff < d.hi := by
  have := h.fits T h1 h2
  rwa [rel_eq] at this

theorem Setup.later (h : Setup d N n entries maxOff E) {T : Int} {j : Nat} {A : Int} (ht : TripD d N entries T j A) :
    toDelta d N T ≤ toDelta d N A ∧ (d = .bwd → toDelta d N T < toDelta d N A) := by
  obtain ⟨l, x, h1, h2⟩ := id ht
  have h3 := journey_le h.net h2
  have h4 := (h.offsets _ h1).1
  simp only at h4
  refine ⟨by omega, fun hd => ?_⟩
  have h5 := h.takes hd T j A (trip_iff.mpr ht)
  have : toDelta d N T ≠ toDelta d N A := fun he => h5 (toDelta_inj he)
  omega

/-- `time_at_stop_` is after the offset. -/
def EvOk (d : Dir) (N : Net) (entries : List (Loc × Int)) (e : Ev) : Prop :=
  ∃ w, (e.stop, w) ∈ entries ∧ toDelta d N e.timeAtStop = toDelta d N e.timeAtStart + w

/-- The journey continues a start event. -/
def EvJny (d : Dir) (N : Net) (e : Ev) (j : Nat) (A : Int) : Prop := Journey d N j e.stop (toDelta d N e.timeAtStop) (toDelta d N A)

/-- Maximal duration. -/
def lim (E : Env Raptor.State) : Int := min E.direct E.q.maxTravel

/-- The state of the algorithm is that after the given start times. -/
structure AlgoOk (d : Dir) (N : Net) (n : Nat) (entries : List (Loc × Int)) (E : Env Raptor.State) (S : Raptor.State) (qs : List Raptor.Start) : Prop where
  state : nextStart (mkProblem d N) S = nextStart (mkProblem d N) (runAll (mkProblem d N) n qs)
  range : RangeQuery d N qs
  worst : ∀ q ∈ qs, q.worst = q.time + lim E + 1
  offs : ∀ q ∈ qs, ∀ x ∈ q.starts, ∃ w, (x.1, w) ∈ entries ∧ x.2 = q.time + w

theorem algoOk_reset (S : Raptor.State) : AlgoOk d N n entries E (resetArrivals d S) [] :=
  ⟨rfl, ⟨List.Pairwise.nil, by simp⟩, by simp, by simp⟩

theorem algoOk_init : AlgoOk d N n entries E (init (mkProblem d N)) [] :=
  ⟨rfl, ⟨List.Pairwise.nil, by simp⟩, by simp, by simp⟩

/-- The time is in range. -/
def Fits (d : Dir) (N : Net) (maxOff T : Int) : Prop := d.lo < toDelta d N T ∧ toDelta d N T + 7201 + maxOff < d.hi

/-- The trip behind an offered journey. -/
def Backed (d : Dir) (N : Net) (n : Nat) (entries : List (Loc × Int)) (start : Int) (x : Loc × Nat × Int) : Prop :=
  N.isDest x.1 = true ∧ x.2.1 + 1 ≤ n ∧ ∃ j A, j ≤ x.2.1 + 1 ∧ toDelta d N A ≤ toDelta d N x.2.2 ∧ TripD d N entries start j A

/-- One start time. -/
theorem exec_spec (h : Setup d N n entries maxOff E) {S : Raptor.State} {qs : List Raptor.Start} (hS : AlgoOk d N n entries E S qs)
    {g : List Ev} {t : Int} (hg : ∀ e ∈ g, EvOk d N entries e ∧ e.timeAtStart = t) (ht : Fits d N maxOff t)
    (hq : ∀ q ∈ qs, toDelta d N t ≤ q.time) :
    (∃ q, q.time = toDelta d N t ∧ AlgoOk d N n entries E (exec d N n S t (g.map fun e => (e.stop, e.timeAtStop)) (worst d E.direct E.q.maxTravel t)).1 (qs ++ [q])) ∧
    (∀ x ∈ (exec d N n S t (g.map fun e => (e.stop, e.timeAtStop)) (worst d E.direct E.q.maxTravel t)).2, Backed d N n entries t x) ∧
    (∀ e ∈ g, ∀ j A, EvJny d N e j A → j ≤ n → toDelta d N A ≤ toDelta d N t + lim E →
      ∃ x ∈ (exec d N n S t (g.map fun e => (e.stop, e.timeAtStop)) (worst d E.direct E.q.maxTravel t)).2, x.2.1 + 1 ≤ j ∧ toDelta d N x.2.2 ≤ toDelta d N A) := by
  unfold exec
  simp only [List.map_map]
  generalize hqd : (⟨toDelta d N t, g.map ((fun x => (x.1, toDelta d N x.2)) ∘ fun e => (e.stop, e.timeAtStop)), toDelta d N (worst d E.direct E.q.maxTravel t)⟩ : Raptor.Start) = q
  have hw := worst_delta d N E.direct E.q.maxTravel t
  have htime : q.time = toDelta d N t := by rw [← hqd]
  have hworst : q.worst = q.time + lim E + 1 := by rw [← hqd]; exact hw
  have hstarts : ∀ x ∈ q.starts, ∃ w, (x.1, w) ∈ entries ∧ x.2 = q.time + w := by
    rw [← hqd]
    intro x hx
    obtain ⟨e, he, rfl⟩ := List.mem_map.mp hx
    obtain ⟨⟨w, h1, h2⟩, h3⟩ := hg e he
    exact ⟨w, h1, by simp only [Function.comp]; rw [h2, h3]⟩
  have hmem : ∀ e ∈ g, (e.stop, toDelta d N e.timeAtStop) ∈ q.starts := by
    rw [← hqd]
    intro e he
    exact List.mem_map.mpr ⟨e, he, rfl⟩
  clear hqd hw
  obtain ⟨hm0, hm1, hdir⟩ := h.travel
  have hlim : 0 ≤ lim E ∧ lim E ≤ 7200 := by unfold lim; omega
  have hrun : runOne (mkProblem d N) n S q = runAll (mkProblem d N) n (qs ++ [q]) := by
    unfold runAll
    rw [List.foldl_append]
    show runOne (mkProblem d N) n S q = runOne (mkProblem d N) n (runAll (mkProblem d N) n qs) q
    unfold runOne
    rw [hS.state]
  have hoffs : ∀ q' ∈ qs ++ [q], ∀ x ∈ q'.starts, ∃ w, (x.1, w) ∈ entries ∧ x.2 = q'.time + w := by
    intro q' hq'
    rcases List.mem_append.mp hq' with hq' | hq'
    · exact hS.offs q' hq'
    · rw [List.mem_singleton] at hq'; subst hq'; exact hstarts
  have hwor : ∀ q' ∈ qs ++ [q], q'.worst = q'.time + lim E + 1 := by
    intro q' hq'
    rcases List.mem_append.mp hq' with hq' | hq'
    · exact hS.worst q' hq'
    · rw [List.mem_singleton] at hq'; subst hq'; exact hworst
  have hahead : ∀ q' ∈ qs ++ [q], q.time ≤ q'.time := by
    intro q' hq'
    rcases List.mem_append.mp hq' with hq' | hq'
    · have := hq q' hq'; omega
    · rw [List.mem_singleton] at hq'; subst hq'; exact Int.le_refl _
  have hrange : RangeQuery d N (qs ++ [q]) := by
    constructor
    · rw [List.pairwise_append]
      refine ⟨hS.range.desc, List.pairwise_singleton _ _, ?_⟩
      intro q' hq' q'' hq''
      rw [List.mem_singleton] at hq''
      subst hq''
      have := hq q' hq'
      have := hS.worst q' hq'
      omega
    · intro q' hq'
      rcases List.mem_append.mp hq' with hq' | hq'
      · exact hS.range.each q' hq'
      · rw [List.mem_singleton] at hq'; subst hq'
        obtain ⟨f1, f2⟩ := ht
        refine ⟨by omega, by omega, ?_, ?_⟩
        · rw [hworst, htime]
          have := h.offNonneg
          omega
        · intro x hx
          obtain ⟨w, h1, h2⟩ := hstarts x hx
          have h3 := h.offsets _ h1
          simp only at h3
          exact ⟨by omega, by omega, h3.2.2.2⟩
  refine ⟨⟨q, htime, ⟨by rw [hrun], hrange, hwor, hoffs⟩⟩, ?_, ?_⟩
  · intro x hx
    obtain ⟨⟨l, k, a⟩, hr, rfl⟩ := List.mem_map.mp hx
    rw [hrun] at hr
    obtain ⟨h1, h2, h3, y, hy, j, A', h4, h5, h6, h7⟩ := C19_reported d N h.net n (qs ++ [q]) (range_starts hrange) l k a hr
    obtain ⟨q', hq', hy⟩ := List.mem_flatMap.mp hy
    obtain ⟨w, h8, h9⟩ := hoffs q' hq' y hy
    have h10 := hahead q' hq'
    refine ⟨h1, by simp only; omega, j, toUnix d N A', by simp only; omega, ?_, y.1, w, h8, ?_⟩
    · simp only [toDelta_toUnix]; exact h6
    · rw [toDelta_toUnix]
      exact journey_earlier h7 (by omega)
  · intro e he j A hj hjn hA
    have hhor : toDelta d N A ≤ q.horizon := by unfold Raptor.Start.horizon; omega
    obtain ⟨l, k, A', g1, g2, g3⟩ := C20_optimal d N h.net h.fifo n (qs ++ [q]) hrange
      (fun q' hq' => h.lb _ _ (by unfold Raptor.Start.horizon; omega)) q (by simp) _ (hmem e he) j (toDelta d N A) hj hjn hhor
    obtain ⟨_, g4, _⟩ := C19_reported d N h.net n (qs ++ [q]) (range_starts hrange) l k A' g1
    refine ⟨(l, k - 1, toUnix d N A'), ?_, ?_, ?_⟩
    · rw [hrun]
      exact List.mem_map.mpr ⟨(l, k, A'), g1, rfl⟩
    · simp only; omega
    · simp only [toDelta_toUnix]; exact g3

/-! ## One search of an interval -/

/-- Later groups have other times. -/
theorem groups_strict {l : List Ev} (h : l.Pairwise fun a b => Ahead d a.timeAtStart b.timeAtStart) :
    (groups l).Pairwise fun g g' => ∀ a ∈ g, ∀ b ∈ g', toDelta d N b.timeAtStart < toDelta d N a.timeAtStart := by
  induction l with
  | nil => exact List.Pairwise.nil
  | cons e es ih =>
    rw [List.pairwise_cons] at h
    have ih := ih h.2
    have hsame := groups_same es
    have hmem : ∀ g ∈ groups es, ∀ b ∈ g, toDelta d N b.timeAtStart ≤ toDelta d N e.timeAtStart :=
      fun g hg b hb => (ahead_iff d N _ _).mp (h.1 b (mem_groups hg hb))
    unfold groups
    split
    · next f g gs hgr =>
      rw [hgr] at ih hsame hmem
      rw [List.pairwise_cons] at ih
      split
      · next he =>
        rw [List.pairwise_cons]
        refine ⟨?_, ih.2⟩
        intro g' hg' a ha b hb
        rcases List.mem_cons.mp ha with rfl | ha
        · rw [he]; exact ih.1 g' hg' f (by simp) b hb
        · exact ih.1 g' hg' a ha b hb
      · next he =>
        rw [List.pairwise_cons]
        refine ⟨?_, List.pairwise_cons.mpr ih⟩
        intro g' hg' a ha b hb
        rw [List.mem_singleton] at ha
        subst ha
        have hf := hmem (f :: g) (by simp) f (by simp)
        have hne : toDelta d N a.timeAtStart ≠ toDelta d N f.timeAtStart := fun h => he (toDelta_inj h)
        rcases List.mem_cons.mp hg' with rfl | hg'
        · have := (hsame (f :: g) (by simp)).2 b hb f (by simp)
          rw [this]; omega
        · have := ih.1 g' hg' f (by simp) b hb
          omega
    · next hgr =>
      cases hgs : groups es with
      | nil => exact List.pairwise_singleton _ _
      | cons g gs =>
        cases g with
        | nil => exact absurd rfl (hsame [] (by rw [hgs]; simp)).1
        | cons f g => exact absurd hgs (hgr f g gs)

/-- The trip behind a result. -/
def Real (d : Dir) (N : Net) (n : Nat) (entries : List (Loc × Int)) (r : Jny) : Prop := Backed d N n entries r.crit.start (r.dest, r.crit.transfers, r.crit.dest)

theorem Setup.proper (h : Setup d N n entries maxOff E) {r : Jny} (hr : Real d N n entries r) : Proper d N r.crit := by
  obtain ⟨-, -, j, A, -, h2, h3⟩ := hr
  have := h.later h3
  simp only at h2
  exact ⟨by omega, fun hd => by have := this.2 hd; omega⟩

theorem Setup.weaken (h : Setup d N n entries maxOff E) {rs : List Jny} (hrs : ∀ r ∈ rs, Real d N n entries r) {c c' : Crit} (hb : HasBetter rs c)
    (h1 : c.transfers ≤ c'.transfers) (h2 : toDelta d N c'.start ≤ toDelta d N c.start) (h3 : toDelta d N c.dest ≤ toDelta d N c'.dest) : HasBetter rs c' := by
  obtain ⟨r, hr, hd⟩ := hb
  have hp := h.proper (hrs r hr)
  rw [dom_iff hp] at hd
  exact ⟨r, hr, (dom_iff hp).mpr (by omega)⟩

/-- Everything that continues a start event is covered by the results. -/
def EvCov (d : Dir) (N : Net) (n : Nat) (E : Env Raptor.State) (rs : List Jny) (e : Ev) : Prop :=
  ∀ j A, EvJny d N e j A → j ≤ n → toDelta d N A ≤ toDelta d N e.timeAtStart + lim E → HasBetter rs ⟨e.timeAtStart, A, j - 1⟩

/-- Fast journeys in the interval are reconstructed. -/
def Recd (E : Env Raptor.State) (iv : Interval) (r : Jny) : Prop :=
  r.error = false ∧ (E.q.ontrip = true ∨ iv.contains r.crit.start = true → r.crit.travelTime < E.direct → r.reconstructed = true)

theorem tryReconstruct_recd {rec : Raptor.State → Jny → Bool} (ha : E.algo = raptorAlgo d N n rec) (hrec : ∀ s j, rec s j = true) (a : Raptor.State)
    (iv : Interval) (j : Jny) (hj : j.error = false) : Recd E iv (tryReconstruct E a iv j) := by
  have hr : ∀ s j, E.algo.reconstruct s j = true := by intro s j; rw [ha]; exact hrec s j
  unfold Recd tryReconstruct
  by_cases hc : (!j.reconstructed && !j.error && (E.q.ontrip || iv.contains j.crit.start) && decide (j.crit.travelTime < E.direct)) = true
  · rw [if_pos hc, if_pos (hr _ _)]
    exact ⟨hj, fun _ _ => rfl⟩
  · rw [if_neg hc]
    refine ⟨hj, fun h1 h2 => ?_⟩
    cases hre : j.reconstructed
    · exfalso
      apply hc
      simp only [hre, hj, h2, decide_true, Bool.not_false, Bool.true_and, Bool.and_true, Bool.or_eq_true]
      exact h1
    · rfl

/-- The results after a start time. -/
theorem stepResults_cov (h : Setup d N n entries maxOff E) {s : Search.State Raptor.State} {qs : List Raptor.Start} (hS : AlgoOk d N n entries E s.algo qs)
    (hres : ResOk E s.results) (hreal : ∀ r ∈ s.results, Real d N n entries r) {e : Ev} {g : List Ev}
    (hg : ∀ x ∈ e :: g, EvOk d N entries x ∧ x.timeAtStart = e.timeAtStart) (ht : Fits d N maxOff e.timeAtStart) (hq : ∀ q ∈ qs, toDelta d N e.timeAtStart ≤ q.time) :
    (∀ r ∈ stepResults d E s e (e :: g), Real d N n entries r) ∧
    (∀ c, HasBetter s.results c → HasBetter (stepResults d E s e (e :: g)) c) ∧
    (∀ x ∈ e :: g, EvCov d N n E (stepResults d E s e (e :: g)) x) ∧
    ((∀ r ∈ s.results, Recd E s.iv r) → ∀ r ∈ stepResults d E s e (e :: g), Recd E s.iv r) := by
  obtain ⟨rec, ha, hrec⟩ := h.algo
  have hex : E.algo.exec = exec d N n := by rw [ha]; rfl
  obtain ⟨-, h2, h3⟩ := exec_spec h hS hg ht hq
  unfold stepResults
  rw [hex]
  generalize exec d N n s.algo e.timeAtStart ((e :: g).map fun e => (e.stop, e.timeAtStop)) (worst d E.direct E.q.maxTravel e.timeAtStart) = o at *
  obtain ⟨a1, a2, a3⟩ := addAll_spec e.timeAtStart o.2 hres.anti
  have hcrit := fun j => (tryReconstruct_crit E o.1 s.iv j).1
  have hreal' : ∀ r ∈ addAll e.timeAtStart o.2 s.results, Real d N n entries r := by
    intro r hr
    rcases a2 r hr with hr | ⟨x, hx, rfl⟩
    · exact hreal r hr
    · exact h2 x hx
  refine ⟨?_, ?_, ?_, ?_⟩
  · intro r hr
    obtain ⟨r0, hr0, rfl⟩ := List.mem_map.mp hr
    unfold Real
    rw [hcrit, (tryReconstruct_crit E o.1 s.iv r0).2]
    exact hreal' r0 hr0
  · intro c hc
    rw [hasBetter_map hcrit]
    exact a3 c (Or.inl hc)
  · intro x hx j A hj hjn hA
    rw [hasBetter_map hcrit]
    have hxt := (hg x hx).2
    rw [hxt] at hA ⊢
    obtain ⟨y, hy, g1, g2⟩ := h3 x hx j A hj hjn hA
    apply a3
    right
    refine ⟨y, hy, ?_⟩
    have hp : Proper d N (offered e.timeAtStart y).crit := h.proper (r := offered e.timeAtStart y) (h2 y hy)
    rw [dom_iff hp]
    exact ⟨by simp only [offered]; omega, Int.le_refl _, g2⟩
  · intro hr0 r hr
    obtain ⟨r0, hr1, rfl⟩ := List.mem_map.mp hr
    apply tryReconstruct_recd ha hrec
    rcases a2 r0 hr1 with hr | ⟨x, hx, rfl⟩
    · exact (hr0 r0 hr).1
    · rfl

/-- What a search of an interval achieves. -/
structure Searched (d : Dir) (N : Net) (n : Nat) (entries : List (Loc × Int)) (E : Env Raptor.State) (qs : List Raptor.Start) (s : Search.State Raptor.State)
    (evs : List Ev) (o : Search.State Raptor.State) : Prop where
  algo : ∃ qs', AlgoOk d N n entries E o.algo qs' ∧ ∀ q ∈ qs', q ∈ qs ∨ ∃ e ∈ evs, q.time = toDelta d N e.timeAtStart
  real : ∀ r ∈ o.results, Real d N n entries r
  keep : ∀ c, HasBetter s.results c → HasBetter o.results c
  recd : (∀ r ∈ s.results, Recd E s.iv r) → ∀ r ∈ o.results, Recd E s.iv r
  cov : (o.iv = s.iv ∧ ∀ e ∈ evs, EvCov d N n E o.results e) ∨
    ∃ c ∈ evs, o.iv = cutIv d s.iv c.timeAtStart ∧ ∀ e ∈ evs, toDelta d N c.timeAtStart ≤ toDelta d N e.timeAtStart → EvCov d N n E o.results e

theorem fold_spec (h : Setup d N n entries maxOff E) : ∀ (gs : List (List Ev)) (s : Search.State Raptor.State) (qs : List Raptor.Start),
    AlgoOk d N n entries E s.algo qs → ResOk E s.results → (∀ r ∈ s.results, Real d N n entries r) →
    gs.Pairwise (fun g g' => ∀ a ∈ g, ∀ b ∈ g', toDelta d N b.timeAtStart < toDelta d N a.timeAtStart) →
    (∀ g ∈ gs, g ≠ [] ∧ ∀ a ∈ g, ∀ b ∈ g, a.timeAtStart = b.timeAtStart) →
    (∀ g ∈ gs, ∀ e ∈ g, EvOk d N entries e ∧ Fits d N maxOff e.timeAtStart ∧ ∀ q ∈ qs, toDelta d N e.timeAtStart ≤ q.time) →
    Searched d N n entries E qs s gs.flatten (gs.foldl (searchStart d E) (s, false)).1 := by
  intro gs
  induction gs with
  | nil =>
    intro s qs h1 _ h3 _ _ _
    exact ⟨⟨qs, h1, fun q hq => Or.inl hq⟩, h3, fun c hc => hc, fun hr => hr, Or.inl ⟨rfl, by simp⟩⟩
  | cons g gs ih =>
    intro s qs h1 h2 h3 hp hne hev
    rw [List.pairwise_cons] at hp
    obtain ⟨hg0, hgs⟩ := hne g (by simp)
    match g, hg0 with
    | e :: g, _ =>
      have hg : ∀ x ∈ e :: g, EvOk d N entries x ∧ x.timeAtStart = e.timeAtStart :=
        fun x hx => ⟨(hev (e :: g) (by simp) x hx).1, hgs x hx e (by simp)⟩
      have hfit := (hev (e :: g) (by simp) e (by simp)).2.1
      have hqs := (hev (e :: g) (by simp) e (by simp)).2.2
      obtain ⟨k1, k2, k3, k4⟩ := stepResults_cov h h1 h2 h3 hg hfit hqs
      obtain ⟨⟨q, hqt, hq⟩, -, -⟩ := exec_spec h h1 hg hfit hqs
      obtain ⟨rec, ha, hrec⟩ := h.algo
      have hex : E.algo.exec = exec d N n := by rw [ha]; rfl
      rw [← hex] at hq
      rw [List.foldl_cons]
      have hnew : ∀ q' ∈ qs ++ [q], q' ∈ qs ∨ ∃ e' ∈ ((e :: g) :: gs).flatten, q'.time = toDelta d N e'.timeAtStart := by
        intro q' hq'
        rcases List.mem_append.mp hq' with hq' | hq'
        · exact Or.inl hq'
        · rw [List.mem_singleton] at hq'; subst hq'
          exact Or.inr ⟨e, by simp, hqt⟩
      by_cases hst : Stops d E s e (e :: g)
      · have hstep : searchStart d E (s, false) (e :: g) = ({ s with algo := (E.algo.exec s.algo e.timeAtStart ((e :: g).map fun e : Ev => (e.stop, e.timeAtStop)) (worst d E.direct E.q.maxTravel e.timeAtStart)).1, results := stepResults d E s e (e :: g), iv := cutIv d s.iv e.timeAtStart }, true) := by
          simp only [searchStart, Bool.false_eq_true, if_false]
          unfold Stops stepResults at hst
          rw [if_pos hst]
          rfl
        rw [hstep, searchStart_stopped]
        refine ⟨⟨_, hq, hnew⟩, k1, k2, k4, Or.inr ⟨e, by simp, rfl, ?_⟩⟩
        intro x hx hxt
        rw [List.flatten_cons] at hx
        rcases List.mem_append.mp hx with hx | hx
        · exact k3 x hx
        · obtain ⟨g', hg', hx⟩ := List.mem_flatten.mp hx
          have := hp.1 g' hg' e (by simp) x hx
          omega
      · have hstep : searchStart d E (s, false) (e :: g) = ({ s with algo := (E.algo.exec s.algo e.timeAtStart ((e :: g).map fun e : Ev => (e.stop, e.timeAtStop)) (worst d E.direct E.q.maxTravel e.timeAtStart)).1, results := stepResults d E s e (e :: g) }, false) := by
          simp only [searchStart, Bool.false_eq_true, if_false]
          unfold Stops stepResults at hst
          rw [if_neg hst]
          rfl
        rw [hstep]
        have := ih { s with algo := (E.algo.exec s.algo e.timeAtStart ((e :: g).map fun e : Ev => (e.stop, e.timeAtStop)) (worst d E.direct E.q.maxTravel e.timeAtStart)).1, results := stepResults d E s e (e :: g) }
          (qs ++ [q]) hq (stepResults_ok h2) k1 hp.2 (fun g' hg' => hne g' (by simp [hg'])) (by
            intro g' hg' x hx
            have hx' := hev g' (by simp [hg']) x hx
            refine ⟨hx'.1, hx'.2.1, ?_⟩
            intro q' hq'
            rcases List.mem_append.mp hq' with hq' | hq'
            · exact hx'.2.2 q' hq'
            · rw [List.mem_singleton] at hq'; subst hq'
              have := hp.1 g' hg' e (by simp) x hx
              omega)
        obtain ⟨⟨qs', m1, m2⟩, m3, m4, m5, m6⟩ := this
        refine ⟨⟨qs', m1, ?_⟩, m3, fun c hc => m4 c (k2 c hc), fun hr => m5 (k4 hr), ?_⟩
        · intro q' hq'
          rcases m2 q' hq' with hq' | ⟨x, hx, hxt⟩
          · exact hnew q' hq'
          · exact Or.inr ⟨x, by rw [List.flatten_cons]; exact List.mem_append_right _ hx, hxt⟩
        · have hold : ∀ rs, (∀ c, HasBetter (stepResults d E s e (e :: g)) c → HasBetter rs c) → ∀ x ∈ e :: g, EvCov d N n E rs x :=
            fun rs hrs x hx j A g1 g2 g3 => hrs _ (k3 x hx j A g1 g2 g3)
          rcases m6 with ⟨m6, m7⟩ | ⟨t, m8, m6, m7⟩
          · refine Or.inl ⟨m6, ?_⟩
            intro x hx
            rw [List.flatten_cons] at hx
            rcases List.mem_append.mp hx with hx | hx
            · exact hold _ m4 x hx
            · exact m7 x hx
          · refine Or.inr ⟨t, by rw [List.flatten_cons]; exact List.mem_append_right _ m8, m6, ?_⟩
            intro x hx hxt
            rw [List.flatten_cons] at hx
            rcases List.mem_append.mp hx with hx | hx
            · exact hold _ m4 x hx
            · exact m7 x hx hxt

theorem searchInterval_cov (h : Setup d N n entries maxOff E) {s : Search.State Raptor.State} {qs : List Raptor.Start}
    (h1 : AlgoOk d N n entries E s.algo qs) (h2 : ResOk E s.results) (h3 : ∀ r ∈ s.results, Real d N n entries r)
    (h4 : s.starts.Pairwise fun a b => Ahead d a.timeAtStart b.timeAtStart)
    (h5 : ∀ e ∈ s.starts, EvOk d N entries e ∧ Fits d N maxOff e.timeAtStart ∧ ∀ q ∈ qs, toDelta d N e.timeAtStart ≤ q.time) :
    Searched d N n entries E qs s s.starts (searchInterval d E s) := by
  have := fold_spec h (groups s.starts) s qs h1 h2 h3 (groups_strict h4) (groups_same _) (fun g hg e he => h5 e (mem_groups hg he))
  rwa [groups_flatten] at this

end

end Nigiri.EndToEnd
