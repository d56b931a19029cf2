import Verif.Proofs.PongDual
/-!
# The labels of the first search bound the second (proofs)
-/

namespace Nigiri.Raptor

/-- After alighting at a station its label is at most one transfer later, even if the station is pruned. -/
theorem transferAt_row {P : Problem} (hs : Sane P) (hbn : P.bound = none) {k : Nat} {S : State} {m : Loc} {a : Int} (htmp : S.tmp m ≤ a)
    (hhi : a < P.hi) (hlo : P.lo ≤ a) :
    (transferAt P k S m).round k m ≤ a + P.transfer m ∨ (transferAt P k S m).best m ≤ a + P.transfer m := by
  have htr := hs.transfer m
  have hc : P.clamp (S.tmp m + transferTime P m) ≤ a + P.transfer m := by
    apply clamp_le_of_le
    · unfold transferTime; split <;> omega
    · omega
  unfold transferAt
  rw [if_neg (by omega)]
  unfold applyUpd
  rw [hbn]
  split
  · split
    · left; simp only [updRound_row, if_pos]; exact hc
    · left; simp only [Option.isNone_none, if_true, updRound_row]; omega
  · right; omega

theorem roundStep_alight {P : Problem} {win W : Int} (ht : Tame P win) (hbn : P.bound = none) (hdl : DestLb P) (hW : W ≤ P.hi) {S : State} {k : Nat}
    (hT : TadOk P W S) (hB : BestReal P k S)
    (hany : (!(P.routes.any fun r => touches S.mark r.stops) && !(P.rts.any fun r => touches S.mark r.stops)) = false)
    {m : Loc} {a : Int}
    (hm : (scanAll P (k + 1) S (fun i => min (S.round (k + 1) i) (S.best i)) (tadOfBest P (k + 1) (fun i => min (S.round (k + 1) i) (S.best i)) S.tad)).mark m = true)
    (htmp : (scanAll P (k + 1) S (fun i => min (S.round (k + 1) i) (S.best i)) (tadOfBest P (k + 1) (fun i => min (S.round (k + 1) i) (S.best i)) S.tad)).tmp m ≤ a)
    (hml : m < P.nLoc) (hhi : a < P.hi) (hlo : P.lo ≤ a) :
    (roundStep P (k + 1) S).round (k + 1) m ≤ a + P.transfer m ∨ (roundStep P (k + 1) S).best m ≤ a + P.transfer m := by
  let best := fun i => min (S.round (k + 1) i) (S.best i)
  let tad := tadOfBest P (k + 1) best S.tad
  let sc := scanAll P (k + 1) S best tad
  let S0 : State := { round := S.round, best := best, tmp := sc.tmp, mark := fun _ => false, tad := tad, done := false }
  have hg : Good P W (k + 1) S0 := good_begin ht hW hT hB sc.tmp
  let prev := marked P sc.mark
  have hprev : P.intermodal = true → ∀ i ∈ prev, i ≠ P.endLoc := fun hi i h => scanAll_mark ht hi _ _ _ _ (List.mem_filter.mp h).2
  let S1 := prev.foldl (transferAt P (k + 1)) S0
  let S2 := if P.intermodal then prev.foldl (endAt P (k + 1)) S1 else S1
  let S3 := prev.foldl (footpathsAt P (k + 1)) S2
  have heq : roundStep P (k + 1) S = S3 := by
    unfold roundStep
    simp only
    rw [if_neg (by rw [hany]; simp)]
  have hS1 : Good P W (k + 1) S1 ∧ Rel P (k + 1) S0 S1 := foldl_good _ prev (fun S a ha h => transferAt_good hdl S a (fun hi => hprev hi a ha) h) S0 hg
  have hS2 : Good P W (k + 1) S2 ∧ Rel P (k + 1) S1 S2 := by
    show Good P W (k + 1) (if P.intermodal then prev.foldl (endAt P (k + 1)) S1 else S1) ∧
      Rel P (k + 1) S1 (if P.intermodal then prev.foldl (endAt P (k + 1)) S1 else S1)
    split
    · rename_i him
      exact foldl_good _ prev (fun S a _ h => endAt_good (ht.endDest him) S a h) S1 hS1.1
    · exact ⟨hS1.1, .refl _ _ _⟩
  have hS3 : Good P W (k + 1) S3 ∧ Rel P (k + 1) S2 S3 := foldl_good _ prev (fun S a _ h => footpathsAt_good ht hdl S a h) S2 hS2.1
  have hmem : m ∈ prev := by
    show m ∈ marked P sc.mark
    unfold marked; rw [List.mem_filter]
    exact ⟨by simpa using hml, hm⟩
  have hQ : ∀ S S' : State, (S.round (k + 1) m ≤ a + P.transfer m ∨ S.best m ≤ a + P.transfer m) → Rel P (k + 1) S S' →
      (S'.round (k + 1) m ≤ a + P.transfer m ∨ S'.best m ≤ a + P.transfer m) := by
    intro S S' h hr
    rcases h with h | h
    · left; have := hr.row m; omega
    · right; have := hr.best m; omega
  rw [heq]
  refine hQ _ _ (hQ _ _ ?_ hS2.2) hS3.2
  apply foldl_good_hit _ _ hQ prev (fun S a ha h => transferAt_good hdl S a (fun hi => hprev hi a ha) h) m hmem S0 hg
  intro S' _ hr
  exact transferAt_row ht.toSane hbn (by rw [hr.tmp]; exact htmp) hhi hlo

/-- A marked label and a ride: the label of the station where one alights, or a strictly better arrival. -/
theorem lab_alight {P : Problem} {win T0 W : Int} {D : Loc → Prop} (ht : Tame P win) (hbn : P.bound = none) (hadm : Admissible P D T0 W) (hdl : DestLb P)
    (hW : W < P.hi) (hT0 : P.lo < T0) (hwin : W ≤ T0 + win) {S0 : State} {N : Nat}
    (hinv : ∀ j, RunInv P W S0 j) (hlow : ∀ j i l, T0 ≤ (rounds P S0 j).round i l)
    {j : Nat} {l : Loc} {t : Int} {m : Loc} {a : Int} {l' : Loc} {t' A : Int} {n : Nat} (hlab : Lab P S0 j l t) (hride : Ride P l t m a)
    (hch : Change P m a l' t') (hcont : Cont P D n l' t' A) (hAW : A ≤ W) (hjN : j + 1 ≤ N) :
    P.hi ≤ a + P.transfer m ∨ (∃ i, i ≤ j + 1 ∧ (rounds P S0 N).round i m ≤ a + P.transfer m) ∨
    ∃ k, k ≤ j + 1 ∧ ∃ d, P.isDest d = true ∧ (rounds P S0 N).round k d < A := by
  have hkeep : ∀ j, j ≤ N → ∀ i l, (rounds P S0 N).round i l ≤ (rounds P S0 j).round i l := by
    intro j hj i l
    by_cases hij : i ≤ j
    · rw [(hinv N).low i l (by omega), (hinv j).low i l hij]; omega
    · rw [(hinv j).high i l (by omega)]; exact (hinv N).mono i l
  obtain ⟨hnd, hmark, hval⟩ := hlab
  have hany := ride_touch hride hmark
  have heq : rounds P S0 (j + 1) = roundStep P (j + 1) (rounds P S0 j) := by
    show (if (rounds P S0 j).done then _ else _) = _
    rw [if_neg (by simp [hnd])]
  obtain ⟨B, hB1, hB2, hB3, hB4, hB5, hB6, hgood, hrel, -⟩ := roundStep_live ht hdl (Int.le_of_lt hW) (hinv j).T (hinv j).bestReal hany
  rw [← heq] at hgood hrel
  have hTt : T0 ≤ t := Int.le_trans (hlow j j l) hval
  have hta := ride_le ht.toSane hride
  have hat := change_le ht.toSane hch
  have htA := cont_le ht.toSane hcont
  by_cases hAt : A ≤ B.tad (j + 1)
  · obtain ⟨hm1, hm2⟩ := scanAll_complete ht hadm j (rounds P S0 j) B.best B.tad (fun l => Int.lt_of_lt_of_le hT0 (hlow j j l))
      hmark hval hTt (by have := hlow j j l; omega) hride hch hcont hAW hW hAt (fun y _ => within_none (by rw [hbn]; rfl) _ _ _)
    rw [hB2, hB3] at hm1 hm2
    have := roundStep_alight ht hbn hdl (Int.le_of_lt hW) (hinv j).T (hinv j).bestReal hany hm1 hm2 (ride_loc ht hride) (by omega) (by omega)
    rw [← heq] at this
    rcases this with g | g
    · right; left
      exact ⟨j + 1, Nat.le_refl _, Int.le_trans (hkeep (j + 1) hjN _ _) g⟩
    · rcases (hinv (j + 1)).bestReal m with e | ⟨i, e1, e2⟩
      · left; omega
      · right; left
        exact ⟨i, e1, by have := hkeep (j + 1) hjN i m; omega⟩
  · right; right
    rcases hgood.T (j + 1) with g | ⟨k', g1, d, g2, g3⟩
    · have := hrel.tad (j + 1); omega
    · exact ⟨k', g1, d, g2, by have := hkeep (j + 1) hjN k' d; have := hrel.tad (j + 1); omega⟩

/-- The first search from one start time: what its labels cover. -/
structure Ping (P : Problem) (acc : List (Loc × Int)) (N : Nat) (s W : Int) (R : State) : Prop where
  /-- labels are realised -/
  sound : ∀ k l, R.round k l ≤ P.hi ∧ (R.round k l < P.hi → Rdy P (startsAt acc s) k l (R.round k l))
  found : ∀ k A, Feas P acc k s A → A ≤ W → k ≤ N → Found (Dst P) R k A
  start : ∀ x ∈ acc, R.round 0 x.1 ≤ s + x.2
  label : ∀ k l t, Ready P (startsAt acc s) k l t → ∀ n A, Cont P (Dst P) n l t A → A ≤ W → k + n ≤ N →
    (∃ i, i ≤ k ∧ R.round i l ≤ t) ∨ (∃ k', k' < k + n ∧ ∃ d, Dst P d ∧ R.round k' d ≤ A) ∨ ∃ k', k' ≤ k + n ∧ ∃ d, Dst P d ∧ R.round k' d < A
  alight : ∀ k l t, Ready P (startsAt acc s) k l t → ∀ m a, Ride P l t m a → ∀ l' t', Change P m a l' t' → ∀ n A, Cont P (Dst P) n l' t' A →
    A ≤ W → k + 1 + n ≤ N →
    P.hi ≤ a + P.transfer m ∨ (∃ i, i ≤ k + 1 ∧ R.round i m ≤ a + P.transfer m) ∨
    (∃ k', k' < k + 1 + n ∧ ∃ d, Dst P d ∧ R.round k' d ≤ A) ∨ ∃ k', k' ≤ k + 1 + n ∧ ∃ d, Dst P d ∧ R.round k' d < A

theorem cov_init {P : Problem} (hs : Sane P) (D : Loc → Prop) (N : Nat) {W : Int} (hW : W < P.hi) : Cov P D N W (init P) := by
  intro i l n A t hr hc hA _
  have : P.hi ≤ t := hr
  have := cont_le hs hc
  omega

/-- The first search covers everything. -/
theorem ping_facts {P : Problem} {win : Int} (ht : Tame P win) (hbn : P.bound = none) {acc : List (Loc × Int)} (hpos : ∀ x ∈ acc, 0 ≤ x.2)
    (N : Nat) {s worst : Int} (hlo : P.lo < s) (hsw : s ≤ worst) (hhi : worst < P.hi) (hwin : 0 ≤ win) (hst : ∀ x ∈ acc, s + x.2 ≤ P.hi)
    (hadm : Admissible P (Dst P) s (min worst (s + win))) :
    Ping P acc N s (min worst (s + win)) (runOne P N (init P) ⟨s, startsAt acc s, worst⟩) := by
  have hst' : ∀ x ∈ startsAt acc s, s ≤ x.2 ∧ x.2 ≤ P.hi := by
    intro x hx
    obtain ⟨w, h1, h2⟩ := mem_startsAt.mp hx
    have := hpos _ h1
    have := hst _ h1
    simp only at *
    omega
  have hS : ∀ k' l, (init P).round k' l ≤ P.hi ∧ ((init P).round k' l < P.hi → Rdy P (startsAt acc s) k' l ((init P).round k' l)) := by
    intro k' l; simp [init]
  let q : Start := ⟨s, startsAt acc s, worst⟩
  have hlow := rounds_low ht.toSane hlo (by omega) (fun x hx => (hst' x hx).1) hS q (fun x hx => hx) (fun x hx => (hst' x hx).2)
  have hlowt := rounds_lowt ht.toSane hlo (by omega) (fun x hx => (hst' x hx).1) hS q (fun x hx => hx) (fun x hx => (hst' x hx).2)
  have hsnd := runOne_ok ht.toSane (st := startsAt acc s) (fun x hx => by have := (hst' x hx).1; omega) N hS q (fun x hx => hx) (fun x hx => (hst' x hx).2)
  have hW : min worst (s + win) < P.hi := by omega
  have hT : TadOk P (min worst (s + win)) (init P) := fun i => Or.inl (Int.le_of_lt hW)
  have hcov := cov_init ht.toSane (Dst P) N hW
  have F : RunFacts P (Dst P) N (init P) q (min worst (s + win)) :=
    runFacts ht hbn q (by show min worst (s + win) ≤ worst; omega) hadm (fun _ h => h) hW hlo
      (by show s ≤ min worst (s + win); omega) (by show min worst (s + win) ≤ s + win; omega) hT hcov hlow hlowt
  have hdl := destLb_of hadm (fun _ h => h) (by omega)
  have hinv := runInv_all (q := q) ht hdl hT (by show min worst (s + win) ≤ worst; omega) (Int.le_of_lt hW)
  obtain ⟨h1, h2, h3, h4, h5, h6, h7⟩ := begin_facts P (init P) q
  have hnone : ∀ K A, A ≤ min worst (s + win) → ¬ Found (Dst P) (init P) K A := by
    rintro K A hA ⟨k, -, d, -, hd⟩
    have : P.hi ≤ A := hd
    omega
  have hlab : ∀ k l t, Ready P (startsAt acc s) k l t → ∀ n A, Cont P (Dst P) n l t A → A ≤ min worst (s + win) → k + n ≤ N →
    (∃ i, i ≤ k ∧ (runOne P N (init P) q).round i l ≤ t) ∨ (∃ k', k' < k + n ∧ ∃ d, Dst P d ∧ (runOne P N (init P) q).round k' d ≤ A) ∨
      ∃ k', k' ≤ k + n ∧ ∃ d, Dst P d ∧ (runOne P N (init P) q).round k' d < A := by
    intro k l t hr n A hc hA hN
    rcases F.label k l t hr n A hc hA hN with g | g | g | g
    · exact Or.inl g
    · exact absurd g (hnone _ _ hA)
    · exact Or.inr (Or.inl g)
    · exact Or.inr (Or.inr g)
  refine ⟨hsnd.round, ?_, ?_, hlab, ?_⟩
  · rintro k A ⟨x, hx, hc⟩ hA hk
    exact F.found (x.1, s + x.2) (mem_startsAt.mpr ⟨x.2, hx, rfl⟩) k A hc hA hk
  · intro x hx
    exact Int.le_trans ((hinv N).mono 0 x.1) (h7 (x.1, s + x.2) (mem_startsAt.mpr ⟨x.2, hx, rfl⟩)).2
  · intro k l t hr m a hride l' t' hch n A hc hA hN
    have hc1 : Cont P (Dst P) (n + 1) l t A := .ride hride hch hc
    have hta := cont_le ht.toSane hc1
    have hstep' : ∀ i, i ≤ k → Lab P (begin P (init P) q) i l t →
        P.hi ≤ a + P.transfer m ∨ (∃ i, i ≤ k + 1 ∧ (runOne P N (init P) q).round i m ≤ a + P.transfer m) ∨
          (∃ k', k' < k + 1 + n ∧ ∃ d, Dst P d ∧ (runOne P N (init P) q).round k' d ≤ A) ∨
          ∃ k', k' ≤ k + 1 + n ∧ ∃ d, Dst P d ∧ (runOne P N (init P) q).round k' d < A := by
      intro i hi hl
      rcases lab_alight (N := N) ht hbn hadm hdl hW hlo (by omega) hinv hlow hl hride hch hc hA (by omega) with g | ⟨i', g1, g2⟩ | ⟨k', g1, g2⟩
      · exact Or.inl g
      · exact Or.inr (Or.inl ⟨i', by omega, g2⟩)
      · exact Or.inr (Or.inr (Or.inr ⟨k', by omega, g2⟩))
    rcases hlab k l t hr (n + 1) A hc1 hA (by omega) with ⟨i, hi, hv⟩ | ⟨k', g1, g2⟩ | ⟨k', g1, g2⟩
    · have hinit : ¬ (init P).round i l ≤ t := by
        intro hc
        have : P.hi ≤ t := hc
        omega
      rcases (hinv N).rows i l (by omega) with g | g | g | g
      · have hv' : (rounds P (begin P (init P) q) N).round i l ≤ t := hv
        rw [g] at hv'
        by_cases h0 : 1 ≤ i
        · rw [h1 i l h0] at hv'; exact absurd hv' hinit
        · have hi0 : i = 0 := by omega
          subst hi0
          rcases h5 l with e | e
          · rw [e] at hv'; exact absurd hv' hinit
          · exact hstep' 0 hi ⟨h4, e, hv'⟩
      · exact hstep' i hi ⟨g.1, g.2.1, Int.le_trans g.2.2 hv⟩
      · right; right
        by_cases hne : P.intermodal = true ∧ l = P.endLoc
        · exact Or.inl ⟨i, by omega, l, (by show P.isDest l = true; rw [hne.2]; exact ht.endDest hne.1), Int.le_trans hv hta⟩
        obtain ⟨x, hx1, hx2⟩ := hadm.cont (n + 1) l t A (fun hi he => hne ⟨hi, he⟩) (Int.le_trans (hlow N i l) hv) hc1 hA
        have hx := hadm.nonneg _ _ hx1
        have : (rounds P (begin P (init P) q) N).tad i < A := by
          apply Classical.byContradiction
          intro hcn
          have hv' : (rounds P (begin P (init P) q) N).round i l ≤ t := hv
          rw [show lbOk (P.lb l) ((rounds P (begin P (init P) q) N).round i l) ((rounds P (begin P (init P) q) N).tad i) = true from
            (lbOk_iff _ _ _).mpr ⟨by omega, x, hx1, by omega⟩] at g
          cases g
        rcases (hinv N).T i with e | ⟨k', e1, d, e2, e3⟩
        · omega
        · exact Or.inr ⟨k', by omega, d, e2, Int.lt_of_le_of_lt e3 this⟩
      · right; right; left
        exact ⟨i, by omega, l, g, Int.le_trans hv hta⟩
    · exact Or.inr (Or.inr (Or.inl ⟨k', by omega, g2⟩))
    · exact Or.inr (Or.inr (Or.inr ⟨k', by omega, g2⟩))

end Nigiri.Raptor
