import Verif.Proofs.PongRun
import Verif.Proofs.PongSet
/-!
# One turn of the ping-pong search (proofs)
-/

namespace Nigiri.Raptor.Pong

/-- No journey is as good in all respects and better in one. -/
def Optimal (P : Problem) (acc : List (Loc × Int)) (K : Nat) (dep A : Int) : Prop :=
  Feas P acc K dep A ∧ ∀ k dep' A', Feas P acc k dep' A' → k ≤ K → dep ≤ dep' → A' ≤ A → k = K ∧ dep' = dep ∧ A' = A

/-- If a footpath at the end of a journey with `k + 1` rides leads across the horizon, there is a journey with no more
rides that does not need to. -/
def NoStraddle (P : Problem) (acc : List (Loc × Int)) (K : Nat) (s w : Int) : Prop :=
  ∀ k l t m a d x, k < K → Ready P (startsAt acc s) k l t → Ride P l t m a → a ≤ w → P.isDest d = true → (d, x) ∈ P.fps m a → w < a + x →
    ∃ k' A', k' ≤ k + 1 ∧ A' ≤ w ∧ Feas P acc k' s A'

/-- The number of rounds of the first search. -/
abbrev Cfg.N (C : Cfg) : Nat := nRounds C.maxTransfers

/-- What does not depend on the start time. -/
structure Cfg.Base (C : Cfg) : Prop where
  pair : Pair C.P C.P' C.acc C.acc' 7200
  bound : C.P.bound = none
  lb : ∀ l, C.P'.lb l = some 0
  move : ∀ k s A, Feas C.P C.acc k s A → s < A
  travel : 0 ≤ C.maxTravel

/-- What is needed for one start time. -/
structure Cfg.At (C : Cfg) (s : Int) : Prop where
  from' : C.s0 ≤ s
  lo : C.P.lo < s
  hi : s + C.look < C.P.hi
  acc : ∀ x ∈ C.acc, s + x.2 ≤ C.P.hi
  acc' : ∀ x ∈ C.acc', C.P.lo + x.2 ≤ s
  adm : Admissible C.P (Dst C.P) s (s + C.look)
  straddle : NoStraddle C.P C.acc (nRounds C.maxTransfers) s (s + C.look)

/-- The results so far. -/
structure Cfg.Res (C : Cfg) (res : List PJ) : Prop where
  anti : ParetoSet.Antichain pongLe res
  opt : ∀ x ∈ res, Optimal C.P C.acc (x.transfers + 1) x.dest x.start ∧ x.transfers + 1 ≤ C.N ∧ C.s0 ≤ x.dest
  status : (∀ s j, C.recon s j = true) → ∀ x ∈ res, x.status = .ok

theorem Cfg.Base.order {C : Cfg} (hB : C.Base) {res : List PJ} (h : C.Res res) : ∀ x ∈ res, x.dest < x.start :=
  fun x hx => hB.move _ _ _ (h.opt x hx).1.1

theorem Cfg.Base.look {C : Cfg} (hB : C.Base) : 0 ≤ C.look ∧ C.look ≤ 7200 := by
  have := hB.travel
  unfold Cfg.look; omega

/-- The same journey, whether or not it has been reconstructed. -/
def Same (a b : PJ) : Prop := a.start = b.start ∧ a.dest = b.dest ∧ a.transfers = b.transfers

/-- A journey of the first search. -/
structure Cfg.Hit (C : Cfg) (s : Int) (R : State) (y : PJ) : Prop where
  start : y.start = s
  rounds : y.transfers + 1 ≤ C.N
  feas : ∃ k, k ≤ y.transfers + 1 ∧ Feas C.P C.acc k s y.dest
  nd : NonDom C.P R (y.transfers + 1) y.dest
  le : y.dest ≤ s + C.look

section
variable {C : Cfg}

theorem nRounds_le (m : Nat) : nRounds m ≤ 15 := by unfold nRounds; omega

theorem nRounds_of {t m : Nat} (h : t + 1 ≤ nRounds m) : nRounds t = t + 1 := by
  have := nRounds_le m
  unfold nRounds; omega

theorem Cfg.Base.ping (hB : C.Base) {s : Int} (hs : C.At s) : Ping C.P C.acc C.N s (s + C.look) (C.ping s) := by
  have hl := hB.look
  have := ping_facts hB.pair.tame hB.bound hB.pair.pos C.N (s := s) (worst := s + C.look) hs.lo (by omega) hs.hi (by omega) hs.acc
    (by rw [Int.min_eq_left (by omega)]; exact hs.adm)
  rw [Int.min_eq_left (by omega)] at this
  exact this

/-- A label of the first search at a destination. -/
theorem Cfg.Base.label (hB : C.Base) {s : Int} (hs : C.At s) {k : Nat} {d : Loc} (hd : C.P.isDest d = true) (hk : k ≤ C.N) (hlt : (C.ping s).round k d < C.P.hi) :
    1 ≤ k ∧ (∃ j, j ≤ k ∧ Feas C.P C.acc j s ((C.ping s).round k d)) ∧
    ((C.ping s).round k d ≤ s + C.look ∨ ∃ k' A', k' ≤ k ∧ A' ≤ s + C.look ∧ Feas C.P C.acc k' s A') := by
  have hp := hB.ping hs
  obtain ⟨j, ⟨h1, h2⟩, hr⟩ := (hp.sound k d).2 hlt
  have hf : Feas C.P C.acc j s ((C.ping s).round k d) := feas_ready.mpr ⟨d, hd, hr⟩
  have hj := hB.pair.feas_pos hf
  refine ⟨by omega, ⟨j, h1, hf⟩, ?_⟩
  have hst : ∀ x ∈ startsAt C.acc s, C.P.lo < x.2 := by
    intro x hx
    obtain ⟨w, g1, g2⟩ := mem_startsAt.mp hx
    have := hB.pair.pos _ g1
    have := hs.lo
    simp only at *
    omega
  have hsti : ∀ x ∈ startsAt C.acc s, x.2 ≤ C.P.hi := by
    intro x hx
    obtain ⟨w, g1, g2⟩ := mem_startsAt.mp hx
    have := hs.acc _ g1
    simp only at *
    omega
  have hrow := runOne_hor hB.pair.tame hst C.N (S := init C.P) (by intro k l; simp [init]) ⟨s, startsAt C.acc s, s + C.look⟩ (fun x hx => hx) hsti
    (fun k l _ => Or.inl (Int.le_refl _)) k d (by omega)
  rcases hrow with g | g | g
  · have g : C.P.hi ≤ (C.ping s).round k d := g
    omega
  · exact Or.inl g
  · obtain ⟨-, g | ⟨m, a, x, g1, ⟨j, l, t, g2, g3, g4⟩, g5, g6⟩⟩ := g.dest hd hB.pair.endDest
    · exact Or.inl g
    · have g6 : (C.ping s).round k d = a + x := g6
      by_cases hx : a + x ≤ s + C.look
      · left; omega
      · obtain ⟨k', A', e1, e2, e3⟩ := hs.straddle j l t m a d x (show j < C.N by omega) g3 g4 g1 hd g5 (by omega)
        exact Or.inr ⟨k', A', by omega, e2, e3⟩

theorem Cfg.Base.journeys (hB : C.Base) {s : Int} (hs : C.At s) {y : PJ} (hy : y ∈ C.pingJourneys s (C.ping s)) :
    ∃ k d, C.P.isDest d = true ∧ 1 ≤ k ∧ k ≤ C.N ∧ y = ⟨s, (C.ping s).round k d, k - 1, .pending⟩ ∧ (C.ping s).round k d < C.P.hi := by
  unfold Cfg.pingJourneys at hy
  rw [List.mem_map] at hy
  obtain ⟨⟨d, k, A⟩, h1, h2⟩ := hy
  obtain ⟨-, g2, g3, g4, g5, g6⟩ := (mem_results _ _ _ _ _ _).mp h1
  have := ((hB.ping hs).sound k d).1
  refine ⟨k, d, g2, g3, g4, ?_, by omega⟩
  rw [← h2]
  simp only [g5]

/-- The results of the first search. -/
theorem Cfg.Base.hits (hB : C.Base) {s : Int} (hs : C.At s) :
    (∀ y ∈ addAll C.dir (C.pingJourneys s (C.ping s)) [], C.Hit s (C.ping s) y) ∧
    ParetoSet.Antichain pingLe (addAll C.dir (C.pingJourneys s (C.ping s)) []) ∧
    ∀ k A, k ≤ C.N → Feas C.P C.acc k s A → A ≤ s + C.look → ∃ y ∈ addAll C.dir (C.pingJourneys s (C.ping s)) [], y.transfers + 1 ≤ k ∧ y.dest ≤ A := by
  have hp := hB.ping hs
  have hord : ∀ x ∈ C.pingJourneys s (C.ping s), x.start < x.dest := by
    intro x hx
    obtain ⟨k, d, h1, h2, h3, h4, h5⟩ := hB.journeys hs hx
    obtain ⟨-, ⟨j, -, hf⟩, -⟩ := hB.label hs h1 h3 h5
    have := hB.move _ _ _ hf
    rw [h4]; exact this
  obtain ⟨ha, hsub, hcov⟩ := addAll_ping C.dir _ hord
  have hfind : ∀ k d, C.P.isDest d = true → k ≤ C.N → (C.ping s).round k d < C.P.hi →
      ∃ y ∈ addAll C.dir (C.pingJourneys s (C.ping s)) [], y.transfers + 1 ≤ k ∧ y.dest ≤ (C.ping s).round k d ∧ y.start = s := by
    intro k d hd hk hlt
    obtain ⟨hk1, -, -⟩ := hB.label hs hd hk hlt
    obtain ⟨y, hy, hle⟩ := hcov ⟨s, (C.ping s).round k d, k - 1, .pending⟩ (by
      unfold Cfg.pingJourneys
      rw [List.mem_map]
      refine ⟨(d, k, (C.ping s).round k d), ?_, rfl⟩
      exact (mem_results _ _ _ _ _ _).mpr ⟨hB.pair.tame.destLocs d hd, hd, hk1, hk, rfl, by omega⟩)
    rw [pingLe_iff] at hle
    obtain ⟨k', d', -, -, -, h4, -⟩ := hB.journeys hs (hsub y hy)
    refine ⟨y, hy, ?_, hle.2.2, by rw [h4]⟩
    have := hle.1
    simp only at this
    omega
  refine ⟨?_, ha, ?_⟩
  · intro y hy
    obtain ⟨k, d, h1, h2, h3, h4, h5⟩ := hB.journeys hs (hsub y hy)
    obtain ⟨-, ⟨j, hj, hf⟩, hle⟩ := hB.label hs h1 h3 h5
    have htr : y.transfers + 1 = k := by rw [h4]; simp only; omega
    have hdest : y.dest = (C.ping s).round k d := by rw [h4]
    have hstart : y.start = s := by rw [h4]
    have hle : y.dest ≤ s + C.look := by
      rcases hle with hle | ⟨k', A', e1, e2, e3⟩
      · omega
      · apply Classical.byContradiction
        intro hc
        obtain ⟨k2, g1, d2, g2, g3⟩ := hp.found k' A' e3 e2 (by omega)
        have := hs.hi
        obtain ⟨z, hz, f1, f2, f3⟩ := hfind k2 d2 g2 (by omega) (by omega)
        have := ParetoSet.antichain_mem ha (fun a => pingLe_iff.mpr (by omega)) hz hy (pingLe_iff.mpr (by omega))
        rw [pingLe_iff] at this
        omega
    refine ⟨hstart, by omega, ⟨j, by omega, by rw [hdest]; exact hf⟩, ⟨?_, ?_⟩, hle⟩
    · intro k' hk' d' hd'
      apply Classical.byContradiction
      intro hc
      obtain ⟨z, hz, e1, e2, e3⟩ := hfind k' d' hd' (by omega) (by omega)
      have := ParetoSet.antichain_mem ha (fun a => pingLe_iff.mpr (by omega)) hz hy (pingLe_iff.mpr (by omega))
      rw [pingLe_iff] at this
      omega
    · intro k' hk' d' hd'
      apply Classical.byContradiction
      intro hc
      obtain ⟨z, hz, e1, e2, e3⟩ := hfind k' d' hd' (by omega) (by omega)
      have := ParetoSet.antichain_mem ha (fun a => pingLe_iff.mpr (by omega)) hz hy (pingLe_iff.mpr (by omega))
      rw [pingLe_iff] at this
      omega
  · intro k A hk hf hA
    obtain ⟨k', g1, d, g2, g3⟩ := hp.found k A hf hA hk
    have := hs.hi
    obtain ⟨y, hy, e1, e2, -⟩ := hfind k' d g2 (by omega) (by omega)
    exact ⟨y, hy, by omega, by omega⟩

/-- The second search for one result of the first. -/
theorem Cfg.Base.pongOne (hB : C.Base) {s : Int} (hs : C.At s) {y : PJ} (hy : C.Hit s (C.ping s) y) {K0 : Nat} {done : List Int} {S : State}
    (hS : PInv C.P' C.acc' s K0 done S) (hK0 : y.transfers + 1 ≤ K0) (hdone : ∀ A0 ∈ done, A0 ≤ y.dest) {res : List PJ} (hres : C.Res res) :
    ∃ S' res' x, C.pongOne s (C.ping s) S res y = some (S', res', x) ∧ PInv C.P' C.acc' s (y.transfers + 1) (y.dest :: done) S' ∧ C.Res res' ∧
      s ≤ x ∧ (∃ z ∈ res', z.transfers = y.transfers ∧ z.start = y.dest ∧ z.dest = x) ∧ ∀ z ∈ res, ∃ z' ∈ res', Same z' z := by
  obtain ⟨kf, hkf, hfeas⟩ := hy.feas
  have hsA := hB.move _ _ _ hfeas
  have hl := hB.look
  obtain ⟨r1, r2, r3⟩ := hB.pair.pong_run hB.lb (hB.ping hs) hy.le hy.rounds hy.nd (by omega) (by omega) hs.hi hs.lo hs.acc' hS hK0 hdone
  have hpg := hB.ping hs
  have hnd := hy.nd
  have hyN := hy.rounds
  have hyle := hy.le
  unfold Cfg.pongOne
  simp only
  rw [nRounds_of hy.rounds, hy.start]
  generalize hSd : runOne (C.P'.setBound (some (pingBound C.P' (C.ping s) (y.transfers + 1)))) (y.transfers + 1) S
    { time := -y.dest, starts := startsAt C.acc' (-y.dest), worst := -s } = S' at *
  generalize hK : y.transfers + 1 = K at *
  -- anything as good as the result of the first search has as many rides and the same arrival
  have hsame : ∀ k dep A', Feas C.P C.acc k dep A' → k ≤ K → s ≤ dep → A' ≤ y.dest → k = K ∧ A' = y.dest := by
    intro k dep A' hf hk hdep hA'
    obtain ⟨k2, f1, d2, f2, f3⟩ := hpg.found k A' (hB.pair.feas_earlier hf hdep) (by omega) (by omega)
    have hk2 : k2 = K := by
      by_cases hc : k2 < K
      · have := hnd.1 k2 hc d2 f2; omega
      · omega
    have := hnd.2 k2 (by omega) d2 f2
    omega
  have hmem : ∀ x, x ∈ C.pongJourneys y.dest K S' ↔ ∃ d, C.P'.isDest d = true ∧ S'.round K d < C.P'.hi ∧ x = ⟨y.dest, -S'.round K d, y.transfers, .pending⟩ := by
    intro x
    unfold Cfg.pongJourneys
    rw [List.mem_map]
    constructor
    · rintro ⟨⟨d, k, v⟩, h1, h2⟩
      obtain ⟨-, g2, g3, g4, g5, g6⟩ := (mem_results _ _ _ _ _ _).mp h1
      have := (r1.sound k d).1
      obtain ⟨e1, -, -⟩ := r2 k d g4 g2 (by omega)
      subst e1
      refine ⟨d, g2, by omega, ?_⟩
      rw [← h2]
      simp only [g5, ← hK, Nat.add_sub_cancel]
    · rintro ⟨d, h1, h2, h3⟩
      refine ⟨(d, K, S'.round K d), ?_, ?_⟩
      · exact (mem_results _ _ _ _ _ _).mpr ⟨hB.pair.tame'.destLocs d h1, h1, by omega, Nat.le_refl _, rfl, by omega⟩
      · rw [h3]; simp only [← hK, Nat.add_sub_cancel]
  have hord : ∀ x ∈ C.pongJourneys y.dest K S', x.dest < x.start := by
    intro x hx
    obtain ⟨d, h1, h2, h3⟩ := (hmem x).mp hx
    obtain ⟨-, e2, -⟩ := r2 K d (Nat.le_refl _) h1 h2
    have := hB.move _ _ _ e2
    rw [h3]; exact this
  obtain ⟨ha, hsub, hcov⟩ := addAll_pong C.dir _ res hord (hB.order hres) hres.anti
  generalize addAll C.dir (C.pongJourneys y.dest K S') res = res1 at *
  -- all are optimal
  have hopt : ∀ z ∈ res1, Optimal C.P C.acc (z.transfers + 1) z.dest z.start ∧ z.transfers + 1 ≤ C.N ∧ C.s0 ≤ z.dest := by
    intro z hz
    rcases hsub z hz with g | g
    · exact hres.opt z g
    · obtain ⟨d, h1, h2, h3⟩ := (hmem z).mp g
      obtain ⟨-, e2, e3⟩ := r2 K d (Nat.le_refl _) h1 h2
      have htr : z.transfers + 1 = K := by rw [h3]; exact hK
      have hst : z.start = y.dest := by rw [h3]
      have hde : z.dest = -S'.round K d := by rw [h3]
      rw [htr, hst, hde]
      refine ⟨⟨e2, ?_⟩, hyN, by have := hs.from'; omega⟩
      intro k dep' A' hf hk hdep hA'
      obtain ⟨q1, q2⟩ := hsame k dep' A' hf hk (by omega) hA'
      refine ⟨q1, ?_, q2⟩
      obtain ⟨d', f1, f2⟩ := r3 k dep' A' hf hk hA' (by omega)
      obtain ⟨u, hu, hle⟩ := hcov ⟨y.dest, -S'.round K d', y.transfers, .pending⟩ (Or.inr ((hmem _).mpr ⟨d', f1, by
        have := hB.pair.dual.hi; have := hs.lo; omega, rfl⟩))
      rw [pongLe_iff] at hle
      simp only at hle
      have hback := ParetoSet.antichain_mem ha (fun a => pongLe_iff.mpr (by omega)) hu hz (pongLe_iff.mpr (by omega))
      rw [pongLe_iff] at hback
      omega
  -- there is a match
  obtain ⟨d0, hd0, hv0⟩ := r3 kf s y.dest hfeas hkf (Int.le_refl _) (Int.le_refl _)
  have hlt0 : S'.round K d0 < C.P'.hi := by have := hB.pair.dual.hi; have := hs.lo; omega
  obtain ⟨-, hf0, hs0⟩ := r2 K d0 (Nat.le_refl _) hd0 hlt0
  have hmatch : ∃ z ∈ res1, z.transfers = y.transfers ∧ z.start = y.dest := by
    obtain ⟨z, hz, hle⟩ := hcov ⟨y.dest, -S'.round K d0, y.transfers, .pending⟩ (Or.inr ((hmem _).mpr ⟨d0, hd0, hlt0, rfl⟩))
    rw [pongLe_iff] at hle
    simp only at hle
    obtain ⟨q1, q2⟩ := hsame _ _ _ (hopt z hz).1.1 (by omega) (by omega) hle.2.1
    exact ⟨z, hz, by omega, q2⟩
  generalize hU : useMatch (C.recon s) y.transfers y.dest res1 = o
  cases o with
  | none =>
    obtain ⟨z, hz, h1, h2⟩ := hmatch
    exact absurd ⟨h1, h2⟩ (useMatch_none hU z hz)
  | some p =>
    obtain ⟨res2, x⟩ := p
    obtain ⟨l1, m, l2, e1, e2, e3, e4, e5⟩ := useMatch_some hU
    have hm : m ∈ res1 := by rw [e1]; simp
    have hmo := hopt m hm
    rw [e3, e4, hK] at hmo
    -- every other element belongs to another journey
    have hx : s ≤ x := by
      apply Classical.byContradiction
      intro hc
      have := hmo.1.2 K _ y.dest hf0 (Nat.le_refl _) (by omega) (Int.le_refl _)
      omega
    obtain ⟨t1, t2, t3⟩ := settle_times (C.recon s) m
    refine ⟨S', res2, x, rfl, r1, ⟨?_, ?_, ?_⟩, hx, ⟨m.settle (C.recon s), by rw [e2]; simp, by omega, by omega, by omega⟩, ?_⟩
    · unfold ParetoSet.Antichain at ha ⊢
      rw [e1] at ha
      rw [e2]
      rw [List.pairwise_append, List.pairwise_cons] at ha ⊢
      have hL : ∀ z, pongLe (m.settle (C.recon s)) z = pongLe m z := by
        intro z; unfold pongLe; rw [t1, t2, t3]
      have hR : ∀ z, pongLe z (m.settle (C.recon s)) = pongLe z m := by
        intro z; unfold pongLe; rw [t1, t2, t3]
      refine ⟨ha.1, ⟨?_, ha.2.1.2⟩, ?_⟩
      · intro z hz
        rw [hL, hR]; exact ha.2.1.1 z hz
      · intro z hz w hw
        rcases List.mem_cons.mp hw with rfl | hw
        · rw [hL, hR]; exact ha.2.2 z hz m (by simp)
        · exact ha.2.2 z hz w (by simp [hw])
    · intro z hz
      rw [e2, List.mem_append, List.mem_cons] at hz
      rcases hz with hz | rfl | hz
      · exact hopt z (by rw [e1]; simp [hz])
      · rw [t1, t2, t3]; exact hopt m hm
      · exact hopt z (by rw [e1]; simp [hz])
    · intro hrec z hz
      have hother : ∀ z ∈ res1, z ∉ res → z.transfers = m.transfers ∧ z.start = m.start ∧ z.dest = m.dest := by
        intro z hz hn
        rcases hsub z hz with g | g
        · exact absurd g hn
        · obtain ⟨d, h1, h2, h3⟩ := (hmem z).mp g
          have hzo := (hopt z hz).1
          have htr : z.transfers = y.transfers := by rw [h3]
          have hst : z.start = y.dest := by rw [h3]
          rw [htr, hst, hK] at hzo
          refine ⟨by omega, by omega, ?_⟩
          by_cases hc : z.dest ≤ m.dest
          · have := hzo.2 K m.dest y.dest hmo.1.1 (Nat.le_refl _) hc (Int.le_refl _); omega
          · have := hmo.1.2 K z.dest y.dest hzo.1 (Nat.le_refl _) (by omega) (Int.le_refl _); omega
      unfold ParetoSet.Antichain at ha
      rw [e1, List.pairwise_append, List.pairwise_cons] at ha
      rw [e2, List.mem_append, List.mem_cons] at hz
      rcases hz with hz | rfl | hz
      · by_cases hin : z ∈ res
        · exact hres.status hrec z hin
        · obtain ⟨q1, q2, q3⟩ := hother z (by rw [e1]; simp [hz]) hin
          have := (ha.2.2 z hz m (by simp)).1
          rw [show pongLe z m = true from pongLe_iff.mpr (by omega)] at this
          cases this
      · unfold PJ.settle
        split
        · simp only; rw [if_pos (hrec _ _)]
        · rename_i hne
          by_cases hin : m ∈ res
          · exact hres.status hrec m hin
          · exfalso
            rcases hsub m hm with g | g
            · exact hin g
            · obtain ⟨d, -, -, h3⟩ := (hmem m).mp g
              exact hne (by rw [h3])
      · by_cases hin : z ∈ res
        · exact hres.status hrec z hin
        · obtain ⟨q1, q2, q3⟩ := hother z (by rw [e1]; simp [hz]) hin
          have := (ha.2.1.1 z hz).1
          rw [show pongLe m z = true from pongLe_iff.mpr (by omega)] at this
          cases this
    · intro z hz
      obtain ⟨u, hu, hle⟩ := hcov z (Or.inl hz)
      rw [pongLe_iff] at hle
      have hzo := (hres.opt z hz).1
      have huo := (hopt u hu).1.1
      have hSame : Same u z := by
        have := hzo.2 _ _ _ huo (by omega) hle.2.2 hle.2.1
        exact ⟨this.2.2, this.2.1, by omega⟩
      rw [e1, List.mem_append, List.mem_cons] at hu
      rcases hu with hu | rfl | hu
      · exact ⟨u, by rw [e2]; simp [hu], hSame⟩
      · exact ⟨u.settle (C.recon s), by rw [e2]; simp, by unfold Same at *; rw [t1, t2, t3]; exact hSame⟩
      · exact ⟨u, by rw [e2]; simp [hu], hSame⟩

end

end Nigiri.Raptor.Pong
