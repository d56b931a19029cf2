import Verif.Proofs.Reconstruct
import Verif.Proofs.NetJourney
/-!
# Reconstruction does not fail for journeys that are not dominated (proofs)
-/

namespace Nigiri.Raptor

/-- A marked label and a ride: the next label, or a strictly better arrival. -/
theorem lab_step {P : Problem} {win T0 W : Int} {D : Loc → Prop} (ht : Tame P win) (hbn : P.bound = none) (hadm : Admissible P D T0 W) (hdl : DestLb P)
    (hW : W < P.hi) (hT0 : P.lo < T0) (hwin : W ≤ T0 + win) {S0 : State} {N : Nat}
    (hinv : ∀ j, RunInv P W S0 j) (hlow : ∀ j i l, T0 ≤ (rounds P S0 j).round i l) (hlowt : ∀ j l, T0 ≤ (rounds P S0 j).tmp l)
    {j : Nat} {l : Loc} {t : Int} {m : Loc} {a : Int} {l' : Loc} {t' A : Int} {n : Nat} (hlab : Lab P S0 j l t) (hride : Ride P l t m a)
    (hch : Change P m a l' t') (hcont : Cont P D n l' t' A) (hAW : A ≤ W) (hjN : j + 1 ≤ N) :
    (∃ i, i ≤ j + 1 ∧ (rounds P S0 N).round i l' ≤ t') ∨
    ∃ k, k ≤ j + 1 ∧ ∃ d, P.isDest d = true ∧ (rounds P S0 N).round k d < A := by
  have hkeep : ∀ j, j ≤ N → ∀ i l, (rounds P S0 N).round i l ≤ (rounds P S0 j).round i l := by
    intro j hj i l
    by_cases hij : i ≤ j
    · rw [(hinv N).low i l (by omega), (hinv j).low i l hij]; omega
    · rw [(hinv j).high i l (by omega)]; exact (hinv N).mono i l
  obtain ⟨hnd, hmark, hval⟩ := hlab
  have hany := ride_touch hride hmark
  have heq : rounds P S0 (j + 1) = roundStep P (j + 1) (rounds P S0 j) := by
    show (if (rounds P S0 j).done then _ else _) = _
    rw [if_neg (by simp [hnd])]
  obtain ⟨B, hB1, hB2, hB3, hB4, hB5, hB6, hgood, hrel, hhit⟩ := roundStep_live ht hdl (Int.le_of_lt hW) (hinv j).T (hinv j).bestReal hany
  rw [← heq] at hgood hrel hhit
  have hTt : T0 ≤ t := Int.le_trans (hlow j j l) hval
  have hta := ride_le ht.toSane hride
  have hat := change_le ht.toSane hch
  have htA := cont_le ht.toSane hcont
  have hbad : (rounds P S0 (j + 1)).tad (j + 1) < A → ∃ k, k ≤ j + 1 ∧ ∃ d, P.isDest d = true ∧ (rounds P S0 N).round k d < A := by
    intro hlt
    rcases hgood.T (j + 1) with g | ⟨k', g1, d, g2, g3⟩
    · omega
    · exact ⟨k', g1, d, g2, by have := hkeep (j + 1) hjN k' d; omega⟩
  by_cases hAt : A ≤ B.tad (j + 1)
  · obtain ⟨hm1, hm2⟩ := scanAll_complete ht hadm j (rounds P S0 j) B.best B.tad (fun l => Int.lt_of_lt_of_le hT0 (hlow j j l))
      hmark hval hTt (by have := hlow j j l; omega) hride hch hcont hAW hW hAt (fun y _ => within_none (by rw [hbn]; rfl) _ _ _)
    obtain ⟨x, hx0, hx2, hx1⟩ : ∃ x, 0 ≤ x ∧ t' + x ≤ A ∧ ((P.intermodal = true → l' ≠ P.endLoc) → P.lb l' = some x) := by
      by_cases he : P.intermodal = true → l' ≠ P.endLoc
      · obtain ⟨x, g1, g2⟩ := hadm.cont n l' t' A he (by omega) hcont hAW
        exact ⟨x, hadm.nonneg _ _ g1, g2, fun _ => g1⟩
      · exact ⟨0, Int.le_refl _, by omega, fun h => absurd h he⟩
    rcases hhit hm1 (ride_loc ht hride) (by rw [hB6]; exact hm2) (by omega) (by omega)
        (by have h1 := hlowt (j + 1) m; rw [hrel.tmp] at h1; omega) hch hx0 hx2 hx1 (fun _ => within_none (by rw [hbn]; rfl) _ _ _) with hb | hb
    · left
      rcases (hinv (j + 1)).bestReal l' with g | ⟨i, g1, g2⟩
      · omega
      · exact ⟨i, g1, by have := hkeep (j + 1) hjN i l'; omega⟩
    · exact Or.inr (hbad hb)
  · right; apply hbad
    have := hrel.tad (j + 1)
    omega

/-- Something at least as good as a journey with `K` rides that arrives at `A`: known before, or with strictly
fewer rides, or strictly earlier. -/
def Dominated (D : Loc → Prop) (S R : State) (K : Nat) (A : Int) : Prop :=
  Found D S K A ∨ (∃ k, k < K ∧ ∃ d, D d ∧ R.round k d ≤ A) ∨ ∃ k, k ≤ K ∧ ∃ d, D d ∧ R.round k d < A

theorem Dominated.mono {D : Loc → Prop} {S R : State} {K : Nat} {A A' : Int} (h : Dominated D S R K A') (hA : A' ≤ A) : Dominated D S R K A := by
  rcases h with ⟨k, h1, d, h2, h3⟩ | ⟨k, h1, d, h2, h3⟩ | ⟨k, h1, d, h2, h3⟩
  · exact Or.inl ⟨k, h1, d, h2, by omega⟩
  · exact Or.inr (Or.inl ⟨k, h1, d, h2, by omega⟩)
  · exact Or.inr (Or.inr ⟨k, h1, d, h2, by omega⟩)

/-- The facts about the run of a start time that follows earlier ones. -/
structure RunFacts (P : Problem) (D : Loc → Prop) (M : Nat) (S : State) (q : Start) (W : Int) : Prop where
  cov : Cov P D M W (runOne P M S q)
  /-- every ready time that can be continued in time is covered by a label -/
  label : ∀ k l t, Ready P q.starts k l t → ∀ n A, Cont P D n l t A → A ≤ W → k + n ≤ M →
    (∃ i, i ≤ k ∧ (runOne P M S q).round i l ≤ t) ∨ Dominated D S (runOne P M S q) (k + n) A
  found : ∀ x ∈ q.starts, ∀ n A, Cont P D n x.1 x.2 A → A ≤ W → n ≤ M → Found D (runOne P M S q) n A

theorem runFacts {P : Problem} {win : Int} {D : Loc → Prop} (ht : Tame P win) (hbn : P.bound = none) (q : Start) {W : Int} (hWq : W ≤ q.worst) (hadm : Admissible P D q.time W)
    (hD : ∀ d, P.isDest d = true → D d) (hW : W < P.hi) (hT0 : P.lo < q.time) (hTW : q.time ≤ W) (hwin : W ≤ q.time + win)
    {S : State} {M : Nat} (hT : TadOk P W S) (hcov : Cov P D M W S)
    (hlow : ∀ j i l, q.time ≤ (rounds P (begin P S q) j).round i l)
    (hlowt : ∀ j l, q.time ≤ (rounds P (begin P S q) j).tmp l) : RunFacts P D M S q W := by
  obtain ⟨r1, r2, r3, r4⟩ := runOne_opt (N := M) ht q hWq hadm hD hW hT0 hTW hwin hT hcov hlow hlowt (inReach_none hbn _ _ _ _)
  refine ⟨r2, ?_, r4⟩
  have hdl := destLb_of hadm hD hTW
  have hinv := runInv_all ht hdl hT hWq (Int.le_of_lt hW)
  obtain ⟨h1, h2, h3, h4, h5, h6, h7⟩ := begin_facts P S q
  intro k l t hr
  show ∀ n A, Cont P D n l t A → A ≤ W → k + n ≤ M →
    (∃ i, i ≤ k ∧ (rounds P (begin P S q) M).round i l ≤ t) ∨ Dominated D S (rounds P (begin P S q) M) (k + n) A
  induction hr with
  | @start l t hx =>
    intro n A _ _ _
    left
    refine ⟨0, Nat.le_refl _, Int.le_trans ((hinv M).mono 0 l) (h7 (l, t) hx).2⟩
  | @ride k l t m a l' t' hr hride hch ih =>
    intro n A hc hA hM
    have hc1 : Cont P D (n + 1) l t A := .ride hride hch hc
    have hta := cont_le ht.toSane hc1
    have hstep : ∀ i, i ≤ k → Lab P (begin P S q) i l t →
        (∃ i, i ≤ k + 1 ∧ (rounds P (begin P S q) M).round i l' ≤ t') ∨ Dominated D S (rounds P (begin P S q) M) (k + 1 + n) A := by
      intro i hi hlab
      rcases lab_step (N := M) ht hbn hadm hdl hW hT0 hwin hinv hlow hlowt hlab hride hch hc hA (by omega) with ⟨i', g1, g2⟩ | ⟨k', g1, d, g2, g3⟩
      · exact Or.inl ⟨i', by omega, g2⟩
      · exact Or.inr (Or.inr (Or.inr ⟨k', by omega, d, hD d g2, g3⟩))
    have hold : ∀ i, i ≤ k → S.round i l ≤ t → Dominated D S (rounds P (begin P S q) M) (k + 1 + n) A := by
      intro i hi hs
      exact Or.inl ((hcov i l (n + 1) A t hs hc1 hA (by omega)).mono (by omega) (fun _ _ => Int.le_refl _))
    rcases ih (n + 1) A hc1 hA (by omega) with ⟨i, hi, hv⟩ | hdom
    · rcases (hinv M).rows i l (by omega) with g | g | g | g
      · rw [g] at hv
        by_cases h0 : 1 ≤ i
        · rw [h1 i l h0] at hv; exact Or.inr (hold i hi hv)
        · have hi0 : i = 0 := by omega
          subst hi0
          rcases h5 l with e | e
          · rw [e] at hv; exact Or.inr (hold 0 hi hv)
          · exact hstep 0 hi ⟨h4, e, hv⟩
      · exact hstep i hi ⟨g.1, g.2.1, Int.le_trans g.2.2 hv⟩
      · right
        by_cases hne : P.intermodal = true ∧ l = P.endLoc
        · exact Or.inr (Or.inl ⟨i, by omega, l, hD l (by rw [hne.2]; exact ht.endDest hne.1), by omega⟩)
        obtain ⟨x, hx1, hx2⟩ := hadm.cont (n + 1) l t A (fun hi he => hne ⟨hi, he⟩) (Int.le_trans (hlow M i l) hv) hc1 hA
        have hx := hadm.nonneg _ _ hx1
        have : (rounds P (begin P S q) M).tad i < A := by
          apply Classical.byContradiction
          intro hcn
          rw [show lbOk (P.lb l) ((rounds P (begin P S q) M).round i l) ((rounds P (begin P S q) M).tad i) = true from
            (lbOk_iff _ _ _).mpr ⟨by omega, x, hx1, by omega⟩] at g
          cases g
        rcases (hinv M).T i with e | ⟨k', e1, d, e2, e3⟩
        · omega
        · exact Or.inr (Or.inr ⟨k', by omega, d, hD d e2, by omega⟩)
      · right
        exact Or.inr (Or.inl ⟨i, by omega, l, hD l g, by omega⟩)
    · right
      rw [show k + 1 + n = k + (n + 1) by omega]; exact hdom

/-- Processing some start times keeps what the next ones need. -/
theorem runAll_prefix {P : Problem} {win : Int} {D : Loc → Prop} (ht : Tame P win) (hbn : P.bound = none) (hD : ∀ d, P.isDest d = true → D d) (M : Nat)
    (qs : List Start) (h : RangeOk P D win qs) :
    ∀ (mid done todo : List Start), done ++ mid ++ todo = qs → ∀ S : State,
      (∀ k' l, S.round k' l ≤ P.hi ∧ (S.round k' l < P.hi → Rdy P (allStarts done) k' l (S.round k' l))) →
      (∀ q ∈ mid ++ todo, TadOk P (q.within win) S ∧ Cov P D M (q.within win) S) →
      (∀ k' l, (mid.foldl (runOne P M) S).round k' l ≤ P.hi ∧ ((mid.foldl (runOne P M) S).round k' l < P.hi →
        Rdy P (allStarts (done ++ mid)) k' l ((mid.foldl (runOne P M) S).round k' l))) ∧
      (∀ q ∈ todo, TadOk P (q.within win) (mid.foldl (runOne P M) S) ∧ Cov P D M (q.within win) (mid.foldl (runOne P M) S)) := by
  intro mid
  induction mid with
  | nil => intro done todo he S h1 h2; simpa using ⟨h1, h2⟩
  | cons q mid ih =>
    intro done todo he S hS hcov
    simp only [List.foldl_cons]
    have he' : done ++ q :: (mid ++ todo) = qs := by rw [← he]; simp
    have hq : q ∈ qs := by rw [← he']; simp
    obtain ⟨e1, e2, e3, e4, e5, e6⟩ := h.each q hq
    have hdesc := h.desc
    rw [← he'] at hdesc
    rw [List.pairwise_append] at hdesc
    obtain ⟨d1, d2, d3⟩ := hdesc
    rw [List.pairwise_cons] at d2
    have hst : ∀ x ∈ allStarts (done ++ [q]), q.time ≤ x.2 := by
      intro x hx
      unfold allStarts at hx
      rw [List.mem_flatMap] at hx
      obtain ⟨q', hq', hx⟩ := hx
      rw [List.mem_append, List.mem_singleton] at hq'
      rcases hq' with hq' | rfl
      · have := (d3 q' hq' q (by simp)).1
        have := ((h.each q' (by rw [← he']; simp [hq'])).2.2.2.2.1 x hx).1
        omega
      · exact (e5 x hx).1
    have hqs : ∀ x ∈ q.starts, x ∈ allStarts (done ++ [q]) := by
      intro x hx; unfold allStarts; rw [List.mem_flatMap]; exact ⟨q, by simp, hx⟩
    have hS' : ∀ k' l, S.round k' l ≤ P.hi ∧ (S.round k' l < P.hi → Rdy P (allStarts (done ++ [q])) k' l (S.round k' l)) := by
      intro k' l
      refine ⟨(hS k' l).1, fun hlt => rdy_mono ?_ ((hS k' l).2 hlt)⟩
      intro x hx; unfold allStarts at *; rw [List.flatMap_append, List.mem_append]; exact Or.inl hx
    have hlow := rounds_low ht.toSane e1 (by omega) hst hS' q hqs (fun x hx => (e5 x hx).2)
    obtain ⟨c1, c2⟩ := hcov q (by simp)
    obtain ⟨r1, r2, r3, r4⟩ := runOne_opt (N := M) ht q (W := q.within win) (by unfold Start.within; omega) e6 hD (by unfold Start.within; omega) e1 (by unfold Start.within; omega) (by unfold Start.within; omega) c1 c2 hlow
      (rounds_lowt ht.toSane e1 (by omega) hst hS' q hqs (fun x hx => (e5 x hx).2)) (inReach_none hbn _ _ _ _)
    have hsnd := (runOne_ok ht.toSane (st := allStarts (done ++ [q])) (fun x hx => by have := hst x hx; omega) M hS' q hqs (fun x hx => (e5 x hx).2)).round
    have := ih (done ++ [q]) todo (by simp [← he]) (runOne P M S q) hsnd (by
      intro q' hq'
      have : q'.within win ≤ q.within win := by
        have := d2.1 q' hq'
        unfold Start.within; omega
      exact ⟨tadOk_weaken r1 this, cov_weaken r2 this⟩)
    simpa using this

theorem ready_single {P : Problem} {st : List (Loc × Int)} {k : Nat} {l : Loc} {t : Int} (h : Ready P st k l t) : ∃ x ∈ st, Ready P [x] k l t := by
  induction h with
  | start hx => exact ⟨_, hx, .start (List.mem_singleton.mpr rfl)⟩
  | ride _ h2 h3 ih => obtain ⟨x, hx, h⟩ := ih; exact ⟨x, hx, .ride h h2 h3⟩

/-- What is known after the start times `done` and then `q`: all labels are realised, and a label from which the
destination can be reached as well as with the best journey belongs to the current start time and its round. -/
theorem label_exact {P : Problem} {win : Int} {D : Loc → Prop} (ht : Tame P win) (hbn : P.bound = none) (hD : ∀ d, P.isDest d = true → D d) (M : Nat)
    (done : List Start) (q : Start) (h : RangeOk P D win (done ++ [q])) :
    RunFacts P D M (runAll P M done) q (q.within win) ∧
    ∀ k l n A, (runAll P M (done ++ [q])).round k l < P.hi → Cont P D n l ((runAll P M (done ++ [q])).round k l) A → A ≤ q.within win → k + n ≤ M →
      Ready P q.starts k l ((runAll P M (done ++ [q])).round k l) ∨ Dominated D (runAll P M done) (runAll P M (done ++ [q])) (k + n) A := by
  have hpre := runAll_prefix ht hbn hD M (done ++ [q]) h done [] [q] (by simp) (init P) (by intro k' l; simp [init]) (by
      intro q' hq'
      have hW := (h.each q' hq').2.2.1
      refine ⟨fun i => Or.inl ?_, ?_⟩
      · show q'.within win ≤ P.hi; unfold Start.within; omega
      · intro i l n A t hr hc hA _
        have : P.hi ≤ t := hr
        have := cont_le ht.toSane hc
        unfold Start.within at hA
        omega)
  obtain ⟨hS, hcov⟩ := hpre
  obtain ⟨c1, c2⟩ := hcov q (by simp)
  obtain ⟨e1, e2, e3, e4, e5, e6⟩ := h.each q (by simp)
  have hdesc := h.desc
  rw [List.pairwise_append] at hdesc
  obtain ⟨d1, -, d3⟩ := hdesc
  have hst : ∀ x ∈ allStarts (done ++ [q]), q.time ≤ x.2 := by
    intro x hx
    unfold allStarts at hx
    rw [List.mem_flatMap] at hx
    obtain ⟨q', hq', hx⟩ := hx
    rw [List.mem_append, List.mem_singleton] at hq'
    rcases hq' with hq' | rfl
    · have := (d3 q' hq' q (by simp)).1
      have := ((h.each q' (by simp [hq'])).2.2.2.2.1 x hx).1
      omega
    · exact (e5 x hx).1
  have hqs : ∀ x ∈ q.starts, x ∈ allStarts (done ++ [q]) := by
    intro x hx; unfold allStarts; rw [List.mem_flatMap]; exact ⟨q, by simp, hx⟩
  have hS' : ∀ k' l, (runAll P M done).round k' l ≤ P.hi ∧ ((runAll P M done).round k' l < P.hi →
      Rdy P (allStarts (done ++ [q])) k' l ((runAll P M done).round k' l)) := by
    intro k' l
    refine ⟨(hS k' l).1, fun hlt => rdy_mono ?_ ((hS k' l).2 hlt)⟩
    intro x hx; unfold allStarts at *; rw [List.flatMap_append, List.mem_append]; exact Or.inl hx
  have hlow := rounds_low ht.toSane e1 (by omega) hst hS' q hqs (fun x hx => (e5 x hx).2)
  have hlowt := rounds_lowt ht.toSane e1 (by omega) hst hS' q hqs (fun x hx => (e5 x hx).2)
  have F := runFacts (M := M) ht hbn q (W := q.within win) (by unfold Start.within; omega) e6 hD (by unfold Start.within; omega) e1
    (by unfold Start.within; omega) (by unfold Start.within; omega) c1 c2 hlow hlowt
  refine ⟨F, ?_⟩
  have heq : runAll P M (done ++ [q]) = runOne P M (runAll P M done) q := by unfold runAll; rw [List.foldl_append]; rfl
  have hsnd := (runOne_ok ht.toSane (st := allStarts (done ++ [q])) (fun x hx => by have := hst x hx; omega) M hS' q hqs (fun x hx => (e5 x hx).2)).round
  rw [heq]
  intro k l n A hlt hc hA hM
  obtain ⟨j, ⟨j1, j2⟩, hr⟩ := (hsnd k l).2 hlt
  obtain ⟨x, hx, hr1⟩ := ready_single hr
  unfold allStarts at hx
  rw [List.mem_flatMap] at hx
  obtain ⟨q', hq', hx⟩ := hx
  obtain ⟨y, hy, hcx⟩ := ready_cont hr1 hc
  rw [List.mem_singleton] at hy; subst hy
  rw [List.mem_append, List.mem_singleton] at hq'
  rcases hq' with hq' | rfl
  · right; left
    have hw : q.within win ≤ q'.within win := by
      have := d3 q' hq' q (by simp)
      unfold Start.within; omega
    exact (runAll_opt ht hbn hD M done ⟨d1, fun q hq => h.each q (by simp [hq])⟩ q' hq' y hx (j + n) A hcx (by omega) (by omega)).mono (by omega) (fun _ _ => Int.le_refl _)
  · by_cases hjk : j = k
    · left; subst hjk
      exact ready_mono (by intro z hz; rw [List.mem_singleton] at hz; subst hz; exact hx) hr1
    · right; right; left
      obtain ⟨k', g1, g2⟩ := F.found y hx (j + n) A hcx hA (by omega)
      exact ⟨k', by omega, g2⟩

theorem cont_mono {P : Problem} {D : Loc → Prop} {n : Nat} {l : Loc} {t t' A : Int} (h : Cont P D n l t A) (ht : t' ≤ t) :
    ∃ A', A' ≤ A ∧ Cont P D n l t' A' := by
  cases h with
  | here hd => exact ⟨t', ht, .here hd⟩
  | ride h1 h2 h3 =>
    refine ⟨A, Int.le_refl _, .ride ?_ h2 h3⟩
    rcases h1 with ⟨r, hr, hal, tr, ha, i, j, si, sj, g1, g2, g3, g4, g5, g6, g7, g8, g9, g10⟩ | ⟨r, hr, hal, i, j, si, sj, g1, g2, g3, g4, g5, g6, g7, g8, g9, g10⟩
    · exact Or.inl ⟨r, hr, hal, tr, ha, i, j, si, sj, g1, g2, g3, g4, g5, g6, g7, g8, by omega, g10⟩
    · exact Or.inr ⟨r, hr, hal, i, j, si, sj, g1, g2, g3, g4, g5, g6, g7, g8, by omega, g10⟩

/-- The query data of search and reconstruction belong together; no time-dependent footpaths or offsets. -/
structure RcMatch (P : Problem) (Q : RcQuery) : Prop extends RcOk P Q where
  fps : ∀ l m w t, (m, w) ∈ Q.fpsIn l ↔ (l, w) ∈ P.fps m t
  noTd : ∀ l t, P.endTd l t = none
  dests : ∀ m w, P.endDist m = some w → w < kMaxFootpath ∧ HasOffset Q.dests m w
  destsLe : ∀ m w, HasOffset Q.dests m w → ∃ w', w' ≤ w ∧ P.endDist m = some w'
  exits : ExitAll P Q

/-- The start events of the query come from its start locations. -/
def StartsFrom (Q : RcQuery) (q : Start) : Prop :=
  ∀ x ∈ q.starts,
    if Q.startIntermodal = true then ∃ w, HasOffset Q.offs x.1 w ∧ q.time + w ≤ x.2
    else Q.isStart x.1 = true ∨ ∃ m w, (m, w) ∈ Q.fpsIn x.1 ∧ Q.isStart m = true ∧ (if Q.ontrip = true then q.time + w ≤ x.2 else q.time + w = x.2)

theorem startLeg_isSome {P : Problem} {Q : RcQuery} {q : Start} (hst : StartsFrom Q q) {r0 : Loc → Int} {l : Loc} {ta : Int}
    (hx : (l, r0 l) ∈ q.starts) (hge : q.time ≤ r0 l) (hta : r0 l ≤ ta) (hhi : r0 l < P.hi) : (startLeg P Q r0 q.time l ta).isSome = true := by
  have h := hst _ hx
  simp only at h
  unfold startLeg
  by_cases hi : Q.startIntermodal = true
  · rw [if_pos hi] at h ⊢
    obtain ⟨w, ⟨ls, h1, h2⟩, h3⟩ := h
    refine findSome_isSome (a := (ls, w)) h1 ?_
    rw [if_pos ⟨by simpa using h2, by simp only; omega⟩]; rfl
  · rw [if_neg hi] at h ⊢
    by_cases hs : Q.isStart l = true
    · rw [if_pos ⟨hs, by omega⟩]; rfl
    · rw [if_neg (fun hc => hs hc.1)]
      rcases h with h | ⟨m, w, h1, h2, h3⟩
      · exact absurd h hs
      · refine findSome_isSome (a := (m, w)) h1 ?_
        rw [if_pos ⟨h2, by omega, h3⟩]; rfl

theorem checkFp_isSome {P : Problem} {Q : RcQuery} {rk : Loc → Int} {l m : Loc} {curr w : Int} {u : OUses}
    (h : (rideInto P Q rk m (curr - w)).isSome = true) : (checkFp P Q rk l curr m w u).isSome = true := by
  unfold checkFp; rw [Option.isSome_map]; exact h

theorem destLeg_isSome {P : Problem} {Q : RcQuery} {rk : Loc → Int} {l : Loc} {curr : Int} {o : List Loc × Int} (ho : o.2 < kMaxFootpath) {m : Loc} (hm : m ∈ o.1)
    (h : (checkFp P Q rk l curr m o.2 (.offset o.2)).isSome = true) : (destLeg P Q rk l curr o).isSome = true := by
  unfold destLeg
  rw [if_neg (by omega)]
  refine foldl_hit (fun acc : Option (OLeg × OLeg) => acc.isSome = true) _ _ _ m hm ?_ ?_
  · intro acc
    cases hc : checkFp P Q rk l curr m o.2 (.offset o.2) with
    | none => rw [hc] at h; cases h
    | some x => rfl
  · intro acc a hacc
    cases checkFp P Q rk l curr a o.2 (.offset o.2) with
    | none => exact hacc
    | some x => rfl

/-- If a ride leads to a label, its legs are found. -/
theorem getLegs_isSome {P : Problem} {win : Int} (ht : Tame P win) {Q : RcQuery} (hQ : RcMatch P Q) {R : Nat → Loc → Int} {last : Bool} {k : Nat} {l l0 m : Loc}
    {t0 a : Int} (hr : Ride P l0 t0 m a) (hch : Change P m a l (R (k + 1) l)) (hv : R k l0 ≤ t0) (hhi : R k l0 ≤ P.hi)
    (hlast : last = true → P.isDest l = true ∧ (P.intermodal = true → l = P.endLoc))
    (hmore : last = false → P.intermodal = false → P.isDest l = false) (hmore' : last = false → P.intermodal = true → l ≠ P.endLoc) :
    (getLegs P Q R last (k + 1) l).isSome = true := by
  have hinto := rideInto_isSome hQ.toRcOk hQ.exits hr hv hhi
  have hmend : P.intermodal = true → m ≠ P.endLoc := by
    intro hi
    rcases hr with ⟨r, hr, -, tr, -, i, j, si, sj, -, -, hj, -, hm, -⟩ | ⟨r, hr, -, i, j, si, sj, -, -, hj, -, hm, -⟩
    · rw [← hm]; exact (ht.endStop hi).1 r hr sj (List.mem_of_getElem? hj)
    · rw [← hm]; exact (ht.endStop hi).2 r hr sj (List.mem_of_getElem? hj)
  unfold getLegs
  simp only [Nat.add_sub_cancel]
  by_cases hil : P.intermodal = true ∧ last = true
  · rw [if_pos hil]
    have hl := (hlast hil.2).2 hil.1
    rcases hch with ⟨h1, -⟩ | ⟨w, h1, -⟩ | ⟨-, -, w, h1, h2⟩
    · exact absurd (h1.symm.trans hl) (hmend hil.1)
    · rw [hl] at h1; exact absurd h1 (ht.endFps hil.1 _ _ _)
    · rw [hQ.noTd] at h1
      have h1 : P.endDist m = some w := by simpa using h1
      obtain ⟨g1, ls, g2, g3⟩ := hQ.dests m w h1
      refine findSome_isSome (a := (ls, w)) g2 (destLeg_isSome g1 g3 (checkFp_isSome ?_))
      rw [show R (k + 1) l - w = a by omega]; exact hinto
  · rw [if_neg hil]
    split
    · rfl
    · rename_i hnone
      rcases hch with ⟨rfl, h1⟩ | ⟨w, h1, h2⟩ | ⟨hi, h1, -⟩
      · exfalso
        have hw : (if last = true then 0 else P.transfer l) = (if P.intermodal = false ∧ P.isDest l = true then 0 else P.transfer l) := by
          cases hla : last with
          | true =>
            have hi : P.intermodal = false := by
              cases hi : P.intermodal with
              | false => rfl
              | true => exact absurd ⟨hi, hla⟩ hil
            rw [if_pos rfl, if_pos ⟨hi, (hlast hla).1⟩]
          | false =>
            rw [if_neg (by simp)]
            by_cases hc : P.intermodal = false ∧ P.isDest l = true
            · rw [hmore hla hc.1] at hc; simp at hc
            · rw [if_neg hc]
        rw [hw] at hnone
        have := checkFp_isSome (l := l) (w := if P.intermodal = false ∧ P.isDest l = true then 0 else P.transfer l)
          (curr := R (k + 1) l) (u := .foot (if P.intermodal = false ∧ P.isDest l = true then 0 else P.transfer l))
          (by rw [show R (k + 1) l - (if P.intermodal = false ∧ P.isDest l = true then 0 else P.transfer l) = a by omega]; exact hinto)
        rw [hnone] at this
        cases this
      · refine findSome_isSome (a := (m, w)) ((hQ.fps l m w a).mpr h1) (checkFp_isSome ?_)
        rw [show R (k + 1) l - w = a by omega]; exact hinto
      · exfalso
        cases hla : last with
        | true => exact hil ⟨hi, hla⟩
        | false => exact hmore' hla hi h1

/-- The legs that are found continue to the label. -/
theorem getLegs_change {P : Problem} (hs : Sane P) {Q : RcQuery} (hQ : RcMatch P Q) {R : Nat → Loc → Int}
    (hR : ∀ k l, P.lo < R k l ∧ R k l ≤ P.hi) {last : Bool} {k : Nat} {l : Loc} (hlast : last = true → P.isDest l = true ∧ (P.intermodal = true → l = P.endLoc))
    {x y : OLeg} (h : getLegs P Q R last k l = some (x, y)) : ∃ p, p ≤ R k l ∧ Change P y.b y.tb l p := by
  unfold getLegs at h
  have hrk := fun l => (hR (k - 1) l).1
  have hcurr := (hR k l).2
  simp only at h
  split at h
  · rename_i hi
    obtain ⟨o, ho, h1⟩ := List.exists_of_findSome?_eq_some h
    obtain ⟨m, hm, h2⟩ := destLeg_spec h1
    obtain ⟨rfl, g1, g2, -, -⟩ := checkFp_spec hs hQ.toRcOk hrk hcurr (hQ.destPos o ho) h2
    obtain ⟨w', e1, e2⟩ := hQ.destsLe m o.2 ⟨o.1, ho, hm⟩
    refine ⟨y.tb + w', by omega, Or.inr (Or.inr ⟨hi.1, (hlast hi.2).2 hi.1, w', Or.inl ?_, rfl⟩)⟩
    rw [g1]; exact e2
  · rename_i hil
    split at h
    · rename_i r hr
      cases h
      have hpos : 0 ≤ if last = true then 0 else P.transfer l := by have := hs.transfer l; split <;> omega
      obtain ⟨rfl, g1, g2, -, -⟩ := checkFp_spec hs hQ.toRcOk hrk hcurr hpos hr
      refine ⟨y.tb + (if P.intermodal = false ∧ P.isDest y.b = true then 0 else P.transfer y.b), ?_, Or.inl ⟨g1.symm, rfl⟩⟩
      rw [g1]
      have := hs.transfer l
      by_cases hl : last = true
      · have hi : P.intermodal = false := by
          cases hi : P.intermodal with
          | false => rfl
          | true => exact absurd ⟨hi, hl⟩ hil
        rw [if_pos ⟨hi, (hlast hl).1⟩]
        rw [if_pos hl] at g2; omega
      · rw [if_neg hl] at g2
        split <;> omega
    · obtain ⟨fp, hfp, h1⟩ := List.exists_of_findSome?_eq_some h
      obtain ⟨rfl, g1, g2, -, -⟩ := checkFp_spec hs hQ.toRcOk hrk hcurr (hQ.fpsPos l fp.1 fp.2 hfp) h1
      refine ⟨y.tb + fp.2, by omega, Or.inr (Or.inl ⟨fp.2, ?_, rfl⟩)⟩
      rw [g1]; exact (hQ.fps l fp.1 fp.2 _).mp hfp

/-- Reconstruction succeeds for every journey that is not dominated. -/
theorem legsBack_isSome {P : Problem} {win : Int} {D : Loc → Prop} (ht : Tame P win) (hbn : P.bound = none) (hD : ∀ d, P.isDest d = true ↔ D d) (M : Nat)
    (done : List Start) (q : Start) (h : RangeOk P D win (done ++ [q])) {Q : RcQuery} (hQ : RcMatch P Q) (hst : StartsFrom Q q)
    {K : Nat} {A : Int} (hK : K ≤ M) (hA : A ≤ q.within win)
    (hnd : ¬ Dominated D (runAll P M done) (runAll P M (done ++ [q])) K A)
    (hR : ∀ k l, P.lo < (runAll P M (done ++ [q])).round k l ∧ (runAll P M (done ++ [q])).round k l ≤ P.hi) (dest : Loc)
    (hdest : P.isDest dest = true ∧ (P.intermodal = true → dest = P.endLoc)) :
    ∀ (k : Nat) (l : Loc) (ta A' : Int) (n : Nat), k + n = K → (k = K → l = dest) → A' ≤ A → (runAll P M (done ++ [q])).round k l ≤ ta →
      Cont P D n l ((runAll P M (done ++ [q])).round k l) A' →
      (legsBack P Q (runAll P M (done ++ [q])).round q.time K k l ta).isSome = true := by
  obtain ⟨F, hex⟩ := label_exact ht hbn (fun d => (hD d).mp) M done q h
  obtain ⟨e1, e2, e3, e4, e5, e6⟩ := h.each q (by simp)
  have heq : runAll P M (done ++ [q]) = runOne P M (runAll P M done) q := by unfold runAll; rw [List.foldl_append]; rfl
  have hWhi : q.within win < P.hi := by unfold Start.within; omega
  intro k
  induction k with
  | zero =>
    intro l ta A' n hkn _ hA' hta hc
    have hle := cont_le ht.toSane hc
    rcases hex 0 l n A' (by omega) hc (by omega) (by omega) with hr | hdom
    · cases hr with
      | start hx =>
        exact startLeg_isSome hst hx (e5 _ hx).1 hta (by omega)
    · exact absurd (by rw [hkn] at hdom; exact hdom.mono hA') hnd
  | succ k ih =>
    intro l ta A' n hkn hl hA' hta hc
    have hle := cont_le ht.toSane hc
    rcases hex (k + 1) l n A' (by omega) hc (by omega) (by omega) with hr | hdom
    · generalize hp : (runAll P M (done ++ [q])).round (k + 1) l = p at *
      cases hr with
      | @ride _ l0 t0 m a _ _ hr hride hch =>
        have hc1 : Cont P D (n + 1) l0 t0 A' := .ride hride hch hc
        have hlab : (runAll P M (done ++ [q])).round k l0 ≤ t0 := by
          rcases F.label k l0 t0 hr (n + 1) A' hc1 (by omega) (by omega) with ⟨i, g1, g2⟩ | hdom
          · rw [← heq] at g2
            by_cases hik : i = k
            · rw [← hik]; exact g2
            · exfalso
              have := F.cov i l0 (n + 1) A' t0 (by rw [← heq]; exact g2) hc1 (by omega) (by omega)
              rw [← heq] at this
              obtain ⟨k', g3, d, g4, g5⟩ := this
              exact hnd (Or.inr (Or.inl ⟨k', by omega, d, g4, by omega⟩))
          · rw [← heq] at hdom
            exact absurd (by rw [show k + (n + 1) = K by omega] at hdom; exact hdom.mono hA') hnd
        have hlast : decide (k + 1 = K) = true → P.isDest l = true ∧ (P.intermodal = true → l = P.endLoc) := by
          intro hd; rw [hl (by simpa using hd)]; exact hdest
        have hnotdest : decide (k + 1 = K) = false → P.isDest l = false := by
          intro hd
          have hd : k + 1 ≠ K := by simpa using hd
          cases hdl : P.isDest l with
          | false => rfl
          | true => exact absurd (Or.inr (Or.inl ⟨k + 1, by omega, l, (hD l).mp hdl, by omega⟩)) hnd
        have hsome := getLegs_isSome (R := (runAll P M (done ++ [q])).round) (k := k) (last := decide (k + 1 = K)) ht hQ hride
          (by rw [hp]; exact hch) hlab (hR k l0).2 hlast
          (fun hd _ => hnotdest hd) (fun hd hi he => by
            have := hnotdest hd
            rw [he, ht.endDest hi] at this; cases this)
        unfold legsBack
        cases hg : getLegs P Q (runAll P M (done ++ [q])).round (decide (k + 1 = K)) (k + 1) l with
        | none => rw [hg] at hsome; cases hsome
        | some xy =>
          obtain ⟨x, y⟩ := xy
          simp only [Option.isSome_map]
          obtain ⟨p', hp', hch'⟩ := getLegs_change ht.toSane hQ hR hlast hg
          obtain ⟨g1, g2, g3, g4, g5, g6, g7, g8, g9, g10⟩ := getLegs_spec ht.toSane hQ.toRcOk hR hg
          obtain ⟨A'', hA'', hc'⟩ := cont_mono hc (show p' ≤ p by omega)
          have hyr : Ride P y.a ((runAll P M (done ++ [q])).round k y.a) y.b y.tb := by
            unfold OLegOk at g9
            unfold OLeg.isRide at g7
            split at g9
            · exact oride_ride g9 g8
            · rename_i hu; rw [hu] at g7; cases g7
            · rename_i hu; rw [hu] at g7; cases g7
          exact ih y.a y.ta A'' (n + 1) (by omega) (by omega) (by omega) g8 (.ride hyr hch' hc')
    · exact absurd (by rw [hkn] at hdom; exact hdom.mono hA') hnd

end Nigiri.Raptor
