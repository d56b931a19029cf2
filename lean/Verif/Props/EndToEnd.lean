import Verif.Proofs.EndToEndLoop
import Verif.Props.RaptorDemo
import Verif.Props.LbGraph
/-!
# C46: a query returns exactly the best trips

The search driver (`search::execute`), the start times (`get_starts`) and RAPTOR together: the theorems are about the
result of `execute` and about trips of a traveller in the timetable, for every timetable, query and clock, and for
every number of extensions of the interval.
-/

namespace Nigiri.EndToEnd
open Nigiri.Raptor Nigiri.Search Nigiri.StartTimes

variable {d : Dir} {N : Net} {n : Nat} {entries : List (Loc × Int)} {maxOff : Int} {E : Env Raptor.State}

/-! ## Specification -/

/-- `a` is not before `b` in search direction. -/
def NotBefore (d : Dir) (a b : Int) : Prop := match d with
  | .fwd => b ≤ a
  | .bwd => a ≤ b

/-- `T` is a time of the interval. -/
def During (iv : Interval) (T : Int) : Prop := iv.from' ≤ T ∧ T < iv.to'

/-- `T` is after the interval (backward search: before it). -/
def Beyond (d : Dir) (iv : Interval) (T : Int) : Prop := match d with
  | .fwd => iv.to' ≤ T
  | .bwd => T < iv.from'

/-- Minutes between `T` and `A` in search direction. -/
def Span (d : Dir) (T A : Int) : Int := match d with
  | .fwd => A - T
  | .bwd => T - A

/-! ## Proofs -/

theorem notBefore_iff (d : Dir) (N : Net) (a b : Int) : NotBefore d a b ↔ toDelta d N b ≤ toDelta d N a := ahead_iff d N a b

theorem span_eq (d : Dir) (N : Net) (T A : Int) : Span d T A = toDelta d N A - toDelta d N T := by
  unfold Span toDelta
  cases d <;> simp only [Dir.sgn] <;> omega

theorem during_iff (d : Dir) (N : Net) (iv : Interval) (T : Int) :
    During iv T ↔ toDelta d N (edge d iv) ≤ toDelta d N T ∧ toDelta d N T < toDelta d N (ontripStart d iv) := by
  rw [← contains_delta, StartTimes.contains_iff]
  rfl

theorem beyond_iff (d : Dir) (N : Net) (iv : Interval) (T : Int) : Beyond d iv T ↔ toDelta d N (ontripStart d iv) ≤ toDelta d N T := by
  unfold Beyond toDelta
  cases d <;> simp only [ontripStart, Dir.sgn] <;> omega

/-- What is known at the end. -/
structure Final (d : Dir) (N : Net) (n : Nat) (entries : List (Loc × Int)) (E : Env Raptor.State) (r : Result) (found : List Jny) : Prop where
  anti : ParetoSet.Antichain Jny.dom found
  real : ∀ j ∈ found, Real d N n entries j
  mem : ∀ j, j ∈ r.journeys ↔ j ∈ found ∧ (E.q.ontrip = false → r.iv.contains j.crit.start = true ∧ j.crit.travelTime ≤ E.q.maxTravel) ∧ j.crit.travelTime < E.direct
  cov : ∀ T j A, Scope d N E r.iv T → TripD d N entries T j A → j ≤ n → toDelta d N A ≤ toDelta d N T + lim E → HasBetter found ⟨T, A, j - 1⟩
  point : E.q.ontrip = true → ∀ j ∈ found, E.q.start = .point j.crit.start

theorem final (h : Setup d N n entries maxOff E) (hv : Valid E.tt E.q) (hslow : SlowUnmarked E) (hx : Extensible E.q → Extendable d entries E) (ho : E.overlap = false)
    {m : Nat} {r : Result} (hr : execute d E (init (mkProblem d N)) m = some r) : ∃ found, Final d N n entries E r found := by
  obtain ⟨l, u, iv0, s0, hi, hl, hj, hiv⟩ := final_state h hv (fun he => hx ((ext_iff _).mp he)) ho hr
  obtain ⟨hres, hfrom, -⟩ := hi.spec
  obtain ⟨h1, h2, -⟩ := hl.search h hi.res hi.sorted (fun hon => (hi.point hon).2)
  refine ⟨(searchInterval d E s0).results, hres.anti, fun j hj => (h1 j hj).1, ?_, ?_, ?_⟩
  · intro j
    rw [hj, finish_mem hslow, hiv]
    constructor
    · rintro ⟨g1, g2, g3⟩
      exact ⟨g1, fun hon => ⟨(g3 hon).1, (g3 hon).2.2⟩, hres.fast j g1 g2⟩
    · rintro ⟨g1, g2, g3⟩
      refine ⟨g1, ?_, fun hon => ⟨(g2 hon).1, g3, (g2 hon).2⟩⟩
      refine (h1 j g1).2.2 ?_ g3
      cases hon : E.q.ontrip
      · exact Or.inr (g2 hon).1
      · exact Or.inl rfl
  · intro T j A hsc ht hjn hA
    rw [hiv] at hsc
    exact h2 T j A hsc ht hjn hA
  · intro hon j hj
    obtain ⟨he, hst⟩ := hi.point hon
    rcases hfrom j hj with ⟨e, g1, g2⟩ | ⟨r0, g1, -⟩
    · rw [← g2]; exact hst e g1
    · rw [he] at g1; cases g1

theorem trip_pos {T : Int} {j : Nat} {A : Int} (h : TripD d N entries T j A) : 1 ≤ j := by
  obtain ⟨_, _, _, hj⟩ := h
  exact journey_pos hj

/-- Elements of an antichain that dominate each other are the same. -/
theorem anti_eq {l : List Jny} (h : ParetoSet.Antichain Jny.dom l) {a b : Jny} (ha : a ∈ l) (hb : b ∈ l) (hd : Jny.dom a b = true) : a = b := by
  unfold ParetoSet.Antichain at h
  induction l with
  | nil => cases ha
  | cons x l ih =>
    rw [List.pairwise_cons] at h
    rcases List.mem_cons.mp ha with ha' | ha' <;> rcases List.mem_cons.mp hb with hb' | hb'
    · rw [ha', hb']
    · subst ha'; have := (h.1 b hb').1; rw [this] at hd; cases hd
    · subst hb'; have := (h.1 a ha').2; rw [this] at hd; cases hd
    · exact ih h.2 ha' hb'

theorem Final.exact (h : Setup d N n entries maxOff E) {r : Result} {found : List Jny} (hF : Final d N n entries E r found) {y : Jny} (hy : y ∈ r.journeys)
    {T : Int} {j : Nat} {A : Int} (ht : TripD d N entries T j A) (h1 : toDelta d N y.crit.start ≤ toDelta d N T) (h2 : j ≤ y.crit.transfers + 1)
    (h3 : toDelta d N A ≤ toDelta d N y.crit.dest) (h4 : E.q.ontrip = true → T = y.crit.start ∧ toDelta d N A ≤ toDelta d N T + E.q.maxTravel) :
    T = y.crit.start ∧ j = y.crit.transfers + 1 ∧ A = y.crit.dest := by
  obtain ⟨g1, g2, g3⟩ := (hF.mem y).mp hy
  have hreal := hF.real y g1
  have hp := h.proper hreal
  rw [travel_delta hp] at g2 g3
  have hn : y.crit.transfers + 1 ≤ n := hreal.2.1
  have hpos := trip_pos ht
  have hlim : toDelta d N A ≤ toDelta d N y.crit.start + lim E ∨ (E.q.ontrip = true ∧ toDelta d N A ≤ toDelta d N T + lim E) := by
    cases hon : E.q.ontrip
    · left
      have := (g2 hon).2
      unfold lim; omega
    · right
      have := h4 hon
      rw [this.1] at *
      refine ⟨rfl, ?_⟩
      unfold lim; omega
  -- a better journey among the results is this one
  have key : ∀ T', toDelta d N y.crit.start ≤ toDelta d N T' → HasBetter found ⟨T', A, j - 1⟩ → toDelta d N T' ≤ toDelta d N y.crit.start ∧
      y.crit.transfers + 1 ≤ j ∧ toDelta d N y.crit.dest ≤ toDelta d N A := by
    rintro T' hT' ⟨z, hz, hd⟩
    have hpz := h.proper (hF.real z hz)
    rw [dom_iff hpz] at hd
    simp only at hd
    have : z = y := anti_eq hF.anti hz g1 ((dom_iff hpz).mpr (by omega))
    subst this
    omega
  have fin : ∀ T', toDelta d N y.crit.start ≤ toDelta d N T' → toDelta d N T' ≤ toDelta d N T → HasBetter found ⟨T', A, j - 1⟩ → (T' = T ∨ toDelta d N y.crit.start < toDelta d N T') →
      T = y.crit.start ∧ j = y.crit.transfers + 1 ∧ A = y.crit.dest := by
    intro T' k1 k2 k3 k4
    obtain ⟨e1, e2, e3⟩ := key T' k1 k3
    rcases k4 with rfl | k4
    · exact ⟨toDelta_inj (d := d) (N := N) (by omega), by omega, toDelta_inj (d := d) (N := N) (by omega)⟩
    · omega
  cases hon : E.q.ontrip
  · have hc := (contains_delta d N _ _).mp (g2 hon).1
    by_cases hle : toDelta d N T ≤ toDelta d N (ontripStart d r.iv)
    · refine fin T h1 (Int.le_refl _) (hF.cov T j A ⟨(by rw [hon]; intro h; cases h), fun _ => ⟨by omega, hle⟩⟩ ht (by omega) ?_) (Or.inl rfl)
      rcases hlim with hl | ⟨hl, -⟩
      · omega
      · rw [hon] at hl; cases hl
    · refine fin (ontripStart d r.iv) (by omega) (by omega) (hF.cov _ j A ⟨(by rw [hon]; intro h; cases h), fun _ => ⟨by omega, Int.le_refl _⟩⟩ (trip_earlier ht (by omega)) (by omega) ?_) (Or.inr (by omega))
      rcases hlim with hl | ⟨hl, -⟩
      · omega
      · rw [hon] at hl; cases hl
  · have hst := hF.point hon y g1
    refine fin T h1 (Int.le_refl _) (hF.cov T j A ⟨fun _ => by rw [(h4 hon).1]; exact hst, by rw [hon]; intro h; cases h⟩ ht (by omega) ?_) (Or.inl rfl)
    rcases hlim with hl | ⟨-, hl⟩
    · rw [(h4 hon).1]; exact hl
    · exact hl

/-! ## Theorems -/

/-- C46 (sound): every returned journey is a trip of the timetable that leaves at exactly the reported time, arrives
at exactly the reported time and has exactly the reported number of transfers. -/
theorem C46_sound (h : Setup d N n entries maxOff E) (hv : Valid E.tt E.q) (hslow : SlowUnmarked E) (hx : Extensible E.q → Extendable d entries E) (ho : E.overlap = false)
    (m : Nat) (r : Result) (hr : execute d E (init (mkProblem d N)) m = some r) (y : Jny) (hy : y ∈ r.journeys)
    (hmt : (∃ t, E.q.start = .point t) → y.crit.travelTime ≤ E.q.maxTravel) :
    Trip d N entries y.crit.start (y.crit.transfers + 1) y.crit.dest ∧ y.crit.transfers + 1 ≤ n ∧ N.isDest y.dest = true := by
  obtain ⟨found, hF⟩ := final h hv hslow hx ho hr
  have hreal := hF.real y ((hF.mem y).mp hy).1
  have hp := h.proper hreal
  obtain ⟨g1, g2, j, A, g3, g4, g5⟩ := id hreal
  simp only at g1 g2 g3 g4
  obtain ⟨e1, e2, e3⟩ := hF.exact h hy g5 (Int.le_refl _) g3 g4 (by
    intro hon
    have : ∃ t, E.q.start = .point t := by
      unfold Query.ontrip at hon
      cases hs : E.q.start with
      | interval iv => rw [hs] at hon; cases hon
      | point t => exact ⟨t, rfl⟩
    have := hmt this
    rw [travel_delta hp] at this
    exact ⟨rfl, by omega⟩)
  rw [← e2, ← e3]
  exact ⟨trip_iff.mpr g5, by omega, g1⟩

/-- C46 (optimal): for a returned journey of an interval query, no trip that leaves no earlier, arrives no later and
has no more transfers is better in any of the three: it has the same times and the same number of transfers. -/
theorem C46_optimal (h : Setup d N n entries maxOff E) (hv : Valid E.tt E.q) (hslow : SlowUnmarked E) (hx : Extensible E.q → Extendable d entries E) (ho : E.overlap = false)
    (hq : ∃ iv, E.q.start = .interval iv) (m : Nat) (r : Result) (hr : execute d E (init (mkProblem d N)) m = some r) (y : Jny) (hy : y ∈ r.journeys)
    (T : Int) (j : Nat) (A : Int) (ht : Trip d N entries T j A) (h1 : NotBefore d T y.crit.start) (h2 : j ≤ y.crit.transfers + 1) (h3 : NotBefore d y.crit.dest A) :
    T = y.crit.start ∧ j = y.crit.transfers + 1 ∧ A = y.crit.dest := by
  obtain ⟨found, hF⟩ := final h hv hslow hx ho hr
  obtain ⟨iv, hq⟩ := hq
  have hon : E.q.ontrip = false := by simp [Query.ontrip, hq]
  exact hF.exact h hy (trip_iff.mp ht) ((notBefore_iff d N _ _).mp h1) h2 ((notBefore_iff d N _ _).mp h3) (by rw [hon]; intro h; cases h)

/-- C46 (complete): for every trip that leaves in the returned interval, has at most `n` rides, is faster than the
direct connection and not longer than the maximum travel time, a journey is returned that leaves no earlier, arrives no
later and has no more transfers, unless such a trip leaves after the returned interval. -/
theorem C46_complete (h : Setup d N n entries maxOff E) (hv : Valid E.tt E.q) (hslow : SlowUnmarked E) (hx : Extensible E.q → Extendable d entries E) (ho : E.overlap = false)
    (hq : ∃ iv, E.q.start = .interval iv) (m : Nat) (r : Result) (hr : execute d E (init (mkProblem d N)) m = some r)
    (T : Int) (j : Nat) (A : Int) (ht : Trip d N entries T j A) (hT : During r.iv T) (hj : j ≤ n) (h1 : Span d T A < E.direct) (h2 : Span d T A ≤ E.q.maxTravel) :
    (∃ y ∈ r.journeys, NotBefore d y.crit.start T ∧ NotBefore d A y.crit.dest ∧ y.crit.transfers + 1 ≤ j) ∨
    (∃ T' j' A', Trip d N entries T' j' A' ∧ Beyond d r.iv T' ∧ NotBefore d A A' ∧ j' ≤ j) := by
  obtain ⟨found, hF⟩ := final h hv hslow hx ho hr
  obtain ⟨iv, hq⟩ := hq
  have hon : E.q.ontrip = false := by simp [Query.ontrip, hq]
  rw [span_eq d N] at h1 h2
  rw [during_iff d N] at hT
  rw [trip_iff] at ht
  have hpos := trip_pos ht
  obtain ⟨z, hz, hd⟩ := hF.cov T j A ⟨(by rw [hon]; intro h; cases h), fun _ => ⟨hT.1, by omega⟩⟩ ht hj (by unfold lim; omega)
  have hp := h.proper (hF.real z hz)
  rw [dom_iff hp] at hd
  simp only at hd
  by_cases hc : r.iv.contains z.crit.start = true
  · left
    refine ⟨z, (hF.mem z).mpr ⟨hz, fun _ => ⟨hc, ?_⟩, ?_⟩, (notBefore_iff d N _ _).mpr hd.2.1, (notBefore_iff d N _ _).mpr hd.2.2, by omega⟩ <;> (rw [travel_delta hp]; omega)
  · right
    rw [contains_delta d N] at hc
    obtain ⟨-, -, j', A', g3, g4, g5⟩ := hF.real z hz
    simp only at g3 g4
    exact ⟨z.crit.start, j', A', trip_iff.mpr g5, (beyond_iff d N _ _).mpr (by omega), (notBefore_iff d N _ _).mpr (by omega), by omega⟩

/-- C46 (fixed start time, complete): for every trip that leaves at the given time and is within the limits, a journey
is returned that arrives no later and has no more transfers. -/
theorem C46_point_complete (h : Setup d N n entries maxOff E) (hv : Valid E.tt E.q) (hslow : SlowUnmarked E) (hx : Extensible E.q → Extendable d entries E) (ho : E.overlap = false)
    (T : Int) (hq : E.q.start = .point T) (m : Nat) (r : Result) (hr : execute d E (init (mkProblem d N)) m = some r)
    (j : Nat) (A : Int) (ht : Trip d N entries T j A) (hj : j ≤ n) (h1 : Span d T A < E.direct) (h2 : Span d T A ≤ E.q.maxTravel) :
    ∃ y ∈ r.journeys, y.crit.start = T ∧ NotBefore d A y.crit.dest ∧ y.crit.transfers + 1 ≤ j := by
  obtain ⟨found, hF⟩ := final h hv hslow hx ho hr
  have hon : E.q.ontrip = true := by simp [Query.ontrip, hq]
  rw [span_eq d N] at h1 h2
  rw [trip_iff] at ht
  have hpos := trip_pos ht
  obtain ⟨z, hz, hd⟩ := hF.cov T j A ⟨fun _ => hq, by rw [hon]; intro h; cases h⟩ ht hj (by unfold lim; omega)
  have hp := h.proper (hF.real z hz)
  have hs := hF.point hon z hz
  rw [hq] at hs
  injection hs with hs
  rw [dom_iff hp] at hd
  simp only at hd
  refine ⟨z, (hF.mem z).mpr ⟨hz, (by rw [hon]; intro h; cases h), ?_⟩, hs.symm, (notBefore_iff d N _ _).mpr hd.2.2, by omega⟩
  rw [travel_delta hp]
  omega

/-- C46 (fixed start time, optimal): no trip that leaves at the given time, within the maximum travel time, arrives
earlier with no more transfers or has fewer transfers and arrives no later than a returned journey. -/
theorem C46_point_optimal (h : Setup d N n entries maxOff E) (hv : Valid E.tt E.q) (hslow : SlowUnmarked E) (hx : Extensible E.q → Extendable d entries E) (ho : E.overlap = false)
    (T : Int) (hq : E.q.start = .point T) (m : Nat) (r : Result) (hr : execute d E (init (mkProblem d N)) m = some r) (y : Jny) (hy : y ∈ r.journeys)
    (j : Nat) (A : Int) (ht : Trip d N entries T j A) (h1 : Span d T A ≤ E.q.maxTravel) (h2 : j ≤ y.crit.transfers + 1) (h3 : NotBefore d y.crit.dest A) :
    j = y.crit.transfers + 1 ∧ A = y.crit.dest := by
  obtain ⟨found, hF⟩ := final h hv hslow hx ho hr
  have hon : E.q.ontrip = true := by simp [Query.ontrip, hq]
  have hs := hF.point hon y ((hF.mem y).mp hy).1
  rw [hq] at hs
  injection hs with hs
  rw [span_eq d N] at h1
  exact (hF.exact h hy (trip_iff.mp ht) (by rw [hs]; exact Int.le_refl _) h2 ((notBefore_iff d N _ _).mp h3) (fun _ => ⟨hs, by omega⟩)).2

/-- C46 (lower bounds): the assumption on the lower bounds is met by the ones that the search computes. -/
theorem C46_lower_bounds (d : Dir) (T : Lb.Tt) (hT : Lb.TtOk T) (q : Lb.Qry) (hq : Lb.QryOk T q) (useRt : Bool) (has : Nat → Bool) (N : Net)
    (hA : Lb.Agrees d T q N) (hN : NetOk N) (hu : T.rts ≠ [] → useRt = true)
    (hlb : ∀ dists, Lb.lowerBounds T d q useRt has = some dists → ∀ l, N.lb l = Lb.lbOf dists l)
    (hfp : ∀ l t l' w, (l', w) ∈ N.fps l t → l < T.nLoc) (hed : ∀ l w, N.endDist l = some w → l < T.nLoc)
    (het : ∀ l t w, N.endTd l t = some w → l < T.nLoc) (hnear : Lb.Near d N T.root) : ∀ T0 W, W ≤ T0 + 7200 → LbOk d N T0 W := by
  obtain ⟨dists, h1, h2⟩ := Lb.C22_admissible d T hT q hq useRt has
  intro T0 W hW
  exact h2 N hA hN hu (hlb dists h1) hfp hed het hnear T0 W (by omega)

/-! ## Example -/

namespace Demo
open Nigiri.Raptor.Demo

/-- Leave between 9:50 and 10:30 on day 5, one minute to location 0. -/
def query : Query := ⟨.interval ⟨7790, 7830⟩, 3, false, true, none, false, 600⟩

def env (q : Query) : Env Raptor.State where
  tt := ⟨⟨7200, 14400⟩, 0⟩
  q := q
  direct := 500
  starts := fun st b l => getStarts .fwd net st [(0, 1)] [] 60 b l
  overlap := false
  algo := raptorAlgo .fwd net 4 fun _ _ => true
  timeout := fun _ => false
  slow := fun _ => []

theorem setup (q : Query) (hq : q = query ∨ q = { query with start := .point 7790 }) : Setup .fwd net 4 [(0, 1)] 60 (env q) where
  net := net_ok
  fifo := net_fifo
  lb := fun T0 W _ => Raptor.Demo.lb_ok T0 W
  algo := ⟨_, rfl, fun _ _ => rfl⟩
  starts := fun _ _ _ => rfl
  offsets := by
    intro e he
    simp only [List.mem_cons, List.not_mem_nil, or_false] at he
    subst he
    decide
  offNonneg := by decide
  travel := by rcases hq with rfl | rfl <;> decide
  takes := by intro h; cases h
  fits := by
    have hb : (net).base = 5 := rfl
    rcases hq with rfl | rfl <;> intro T h1 h2 <;> simp only [env, query, Query.startIv, rel, Dir.lo, Dir.hi, hb] at * <;> omega

theorem extendable : Extendable .fwd [(0, 1)] (env query) := ⟨by decide, (by intro m h; cases h), by decide, Or.inr rfl⟩

theorem valid : Valid (env query).tt query := ⟨by unfold Ok; decide, by unfold Ok; decide, by intro m h; cases h⟩

/-- The interval is extended from 9:50 - 10:30 to 9:50 - 14:30; three journeys are found, the second one with a change
to the real-time transport. -/
example : (execute .fwd (env query) (init (mkProblem .fwd net)) 20).map (fun r => (r.journeys.map (fun y => (y.crit, y.dest)), r.iv)) =
    some ([(⟨7801, 7860, 0⟩, 3), (⟨7801, 7850, 1⟩, 3), (⟨7861, 7920, 0⟩, 3)], ⟨7790, 8070⟩) := by
  decide +kernel

/-- With a fixed start time at 9:50. -/
example : (execute .fwd (env { query with start := .point 7790 }) (init (mkProblem .fwd net)) 20).map (fun r => (r.journeys.map (fun y => (y.crit, y.dest)), r.iv)) =
    some ([(⟨7790, 7860, 0⟩, 3), (⟨7790, 7850, 1⟩, 3)], ⟨7790, 7790⟩) := by
  decide +kernel

/-- The trip with one change (line A 10:02 - 10:20, 2 minutes, real-time transport 10:40 - 10:50) exists. -/
example : Trip .fwd net [(0, 1)] 7801 2 7850 := by
  have h : (execute .fwd (env query) (init (mkProblem .fwd net)) 20).any (fun r => decide (⟨⟨7801, 7850, 1⟩, 3, true, false⟩ ∈ r.journeys)) = true := by decide +kernel
  rw [Option.any_eq_true_iff_get] at h
  obtain ⟨h1, h2⟩ := h
  exact (C46_sound (setup query (Or.inl rfl)) valid (by intro iv j h; cases h) (fun _ => extendable) rfl 20 _ (Option.some_get h1).symm
    ⟨⟨7801, 7850, 1⟩, 3, true, false⟩ (of_decide_eq_true h2) (by rintro ⟨t, h⟩; cases h)).1

end Demo

/-- Finding: with a fixed start time the maximum travel time is not checked; here it is 59 minutes, and journeys of 60
and 70 minutes are returned. -/
theorem C46_max_travel_counterexample :
    (execute .fwd (Demo.env { Demo.query with start := .point 7790, maxTravel := 59 }) (init (mkProblem .fwd Raptor.Demo.net)) 20).map
      (fun r => r.journeys.map fun y => y.crit.travelTime) = some [70, 60] := by
  decide +kernel

end Nigiri.EndToEnd
