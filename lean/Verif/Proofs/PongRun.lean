import Verif.Proofs.PongHorizon
/-!
# One backward search of the ping-pong search (proofs)
-/

namespace Nigiri.Raptor

theorem admissible_zero {P : Problem} (hs : Sane P) (h : ∀ l, P.lb l = some 0) (D : Loc → Prop) (T0 W : Int) : Admissible P D T0 W where
  nonneg := by intro l x hx; rw [h l] at hx; cases hx; omega
  cont := by
    intro n l t A _ _ hc _
    exact ⟨0, h l, by have := cont_le hs hc; omega⟩
  alight := by
    intro n m a l' t' A _ _ hch hc _
    exact ⟨0, h m, by have := cont_le hs hc; have := change_le hs hch; omega⟩
  route := by
    intro r _ i j si sj _ _ _ n a l' t' A _ _ _ _ hn
    rw [h] at hn; cases hn
  rt := by
    intro r _ i j si sj _ _ _ n a l' t' A _ _ _ _ hn
    rw [h] at hn; cases hn

theorem rdy_setBound {P : Problem} {b : Option (Nat → Loc → Int)} {st : List (Loc × Int)} {k : Nat} {l : Loc} {t : Int} :
    Rdy (P.setBound b) st k l t ↔ Rdy P st k l t :=
  ⟨fun ⟨j, h1, h2⟩ => ⟨j, h1, ready_setBound.mp h2⟩, fun ⟨j, h1, h2⟩ => ⟨j, h1, ready_setBound.mpr h2⟩⟩

/-- The start events of the arrivals searched so far. -/
def backStarts (acc' : List (Loc × Int)) (done : List Int) : List (Loc × Int) := done.flatMap fun A => startsAt acc' (-A)

theorem mem_backStarts {acc' : List (Loc × Int)} {done : List Int} {x : Loc × Int} :
    x ∈ backStarts acc' done ↔ ∃ A ∈ done, x ∈ startsAt acc' (-A) := by
  unfold backStarts; rw [List.mem_flatMap]

theorem ready_back {P' : Problem} {acc' : List (Loc × Int)} {done : List Int} {k : Nat} {l : Loc} {t : Int}
    (h : Ready P' (backStarts acc' done) k l t) : ∃ A ∈ done, Ready P' (startsAt acc' (-A)) k l t := by
  induction h with
  | start hx =>
    obtain ⟨A, h1, h2⟩ := mem_backStarts.mp hx
    exact ⟨A, h1, .start h2⟩
  | ride _ h2 h3 ih =>
    obtain ⟨A, h1, h4⟩ := ih
    exact ⟨A, h1, .ride h4 h2 h3⟩

/-- The state of the backward search after the arrivals `done`. -/
structure PInv (P' : Problem) (acc' : List (Loc × Int)) (s : Int) (K : Nat) (done : List Int) (S : State) : Prop where
  sound : ∀ k l, S.round k l ≤ P'.hi ∧ (S.round k l < P'.hi → Rdy P' (backStarts acc' done) k l (S.round k l))
  tad : TadOk P' (-s) S
  cov : Cov P' (Dst P') K (-s) S
  row : ∀ k l, 1 ≤ k → P'.hi ≤ S.round k l ∨ S.round k l ≤ -s

theorem pinv_init {P' : Problem} (hs : Sane P') (acc' : List (Loc × Int)) {s : Int} (K : Nat) (h : -s < P'.hi) : PInv P' acc' s K [] (init P') where
  sound := by intro k l; simp [init]
  tad := fun i => Or.inl (Int.le_of_lt h)
  cov := cov_init hs _ K h
  row := fun _ _ _ => Or.inl (Int.le_refl _)

section
variable {P P' : Problem} {acc acc' : List (Loc × Int)} {win : Int}

theorem Pair.pong_run (h : Pair P P' acc acc' win) (hlb : ∀ l, P'.lb l = some 0) {N K K0 : Nat} {s W A : Int} {R : State} (hp : Ping P acc N s W R) (hA : A ≤ W) (hK : K ≤ N)
    (hnd : NonDom P R K A) (hsA : s ≤ A) (hwin : W ≤ s + win) (hW : W < P.hi) (hs : P.lo < s) (hst : ∀ x ∈ acc', P.lo + x.2 ≤ s)
    {done : List Int} {S : State} (hS : PInv P' acc' s K0 done S) (hKK : K ≤ K0) (hdone : ∀ A0 ∈ done, A0 ≤ A) :
    PInv P' acc' s K (A :: done) (runOne (P'.setBound (some (pingBound P' R K))) K S ⟨-A, startsAt acc' (-A), -s⟩) ∧
    (∀ k d, k ≤ K → Dst P' d → (runOne (P'.setBound (some (pingBound P' R K))) K S ⟨-A, startsAt acc' (-A), -s⟩).round k d < P'.hi →
      k = K ∧ Feas P acc K (-(runOne (P'.setBound (some (pingBound P' R K))) K S ⟨-A, startsAt acc' (-A), -s⟩).round k d) A ∧
        s ≤ -(runOne (P'.setBound (some (pingBound P' R K))) K S ⟨-A, startsAt acc' (-A), -s⟩).round k d) ∧
    ∀ k' dep A', Feas P acc k' dep A' → k' ≤ K → A' ≤ A → s ≤ dep →
      ∃ d, Dst P' d ∧ (runOne (P'.setBound (some (pingBound P' R K))) K S ⟨-A, startsAt acc' (-A), -s⟩).round K d ≤ -dep := by
  generalize hQ : P'.setBound (some (pingBound P' R K)) = Q
  have hlo' := h.dual.lo
  have hhi' := h.dual.hi
  have hqhi : Q.hi = P'.hi := by rw [← hQ]; rfl
  have hqlo : Q.lo = P'.lo := by rw [← hQ]; rfl
  have htQ : Tame Q win := by rw [← hQ]; exact tame_setBound h.tame' _
  have hmem : ∀ x ∈ startsAt acc' (-A), x ∈ backStarts acc' (A :: done) := fun x hx => mem_backStarts.mpr ⟨A, by simp, hx⟩
  have hge : ∀ x ∈ backStarts acc' (A :: done), -A ≤ x.2 := by
    intro x hx
    obtain ⟨A0, h1, h2⟩ := mem_backStarts.mp hx
    obtain ⟨w, h3, h4⟩ := mem_startsAt.mp h2
    have := h.pos' _ h3
    have : A0 ≤ A := by
      rcases List.mem_cons.mp h1 with rfl | h1
      · omega
      · exact hdone A0 h1
    simp only at *
    omega
  have hle : ∀ x ∈ startsAt acc' (-A), x.2 ≤ Q.hi := by
    intro x hx
    obtain ⟨w, h3, h4⟩ := mem_startsAt.mp hx
    have := hst _ h3
    simp only at *
    omega
  have hsnd0 : ∀ k l, S.round k l ≤ Q.hi ∧ (S.round k l < Q.hi → Rdy Q (backStarts acc' (A :: done)) k l (S.round k l)) := by
    intro k l
    rw [hqhi]
    refine ⟨(hS.sound k l).1, fun hlt => ?_⟩
    rw [← hQ]
    refine rdy_setBound.mpr (rdy_mono (fun x hx => ?_) ((hS.sound k l).2 hlt))
    obtain ⟨A0, h1, h2⟩ := mem_backStarts.mp hx
    exact mem_backStarts.mpr ⟨A0, by simp [h1], h2⟩
  let q : Start := ⟨-A, startsAt acc' (-A), -s⟩
  have hT0 : Q.lo < -A := by omega
  have hT0h : -A ≤ Q.hi := by omega
  have hlow := rounds_low htQ.toSane hT0 hT0h hge hsnd0 q hmem hle
  have hlowt := rounds_lowt htQ.toSane hT0 hT0h hge hsnd0 q hmem hle
  have hok : ∀ n, SoundSt Q (backStarts acc' (A :: done)) n (runOne Q n S q) := fun n =>
    runOne_ok htQ.toSane (fun x hx => by have := hge x hx; omega) n hsnd0 q hmem hle
  have hreach : InReach Q (Dst P') K (-s) (begin Q S q) := by
    rw [← hQ]
    refine h.reach hp hA hK hnd ?_ hs
    rw [hQ]
    intro j l t hlab htl
    obtain ⟨-, -, hv⟩ := hlab
    have hv' : (runOne Q j S q).round j l ≤ t := hv
    obtain ⟨j', ⟨h1, -⟩, h2⟩ := ((hok j).round j l).2 (by omega)
    rw [← hQ] at h2
    obtain ⟨A0, h3, h4⟩ := ready_back (ready_setBound.mp h2)
    refine ⟨A0, ?_, j', h1, _, ?_, h4⟩
    · rcases List.mem_cons.mp h3 with rfl | h1
      · omega
      · exact hdone A0 h1
    · rw [hQ]; exact hv'
  have hcovQ : ∀ {K S}, Cov P' (Dst P') K (-s) S ↔ Cov Q (Dst P') K (-s) S := by
    intro K S
    constructor
    · intro hc i l n A t h1 h2 h3 h4
      rw [← hQ] at h2
      exact hc i l n A t h1 (cont_setBound.mp h2) h3 h4
    · intro hc i l n A t h1 h2 h3 h4
      refine hc i l n A t h1 ?_ h3 h4
      rw [← hQ]; exact cont_setBound.mpr h2
  have hdst : ∀ d, Q.isDest d = P'.isDest d := by intro d; rw [← hQ]; rfl
  have htad : ∀ {S}, TadOk P' (-s) S ↔ TadOk Q (-s) S := by
    intro S; unfold TadOk; simp only [hdst]
  obtain ⟨g1, g2, g3, g4⟩ := runOne_opt (N := K) htQ q (W := -s) (Int.le_refl _)
    (admissible_zero htQ.toSane (by intro l; rw [← hQ]; exact hlb l) (Dst P') _ _) (fun d hd => by rw [hdst] at hd; exact hd) (by omega) hT0
    (by show -A ≤ -s; omega) (by show -s ≤ -A + win; omega) (htad.mp hS.tad)
    (hcovQ.mp (fun i l n A t h1 h2 h3 h4 => hS.cov i l n A t h1 h2 h3 (by omega))) hlow hlowt hreach
  have hrow := runOne_hor htQ (fun x hx => by have := hge x hx; omega) K hsnd0 q hmem hle (by
    intro k l hk
    rcases hS.row k l hk with g | g
    · left; omega
    · right; left; exact g)
  have hrow' : ∀ k l, 1 ≤ k → P'.hi ≤ (runOne Q K S q).round k l ∨ (runOne Q K S q).round k l ≤ -s := by
    intro k l hk
    rcases hrow k l hk with g | g | ⟨g, -⟩
    · left; omega
    · right; exact g
    · rw [← hQ] at g; cases g
  have hsnd : ∀ k l, (runOne Q K S q).round k l ≤ P'.hi ∧ ((runOne Q K S q).round k l < P'.hi → Rdy P' (backStarts acc' (A :: done)) k l ((runOne Q K S q).round k l)) := by
    intro k l
    rw [← hqhi]
    refine ⟨((hok K).round k l).1, fun hlt => ?_⟩
    have := ((hok K).round k l).2 hlt
    generalize (runOne Q K S q).round k l = v at *
    rw [← hQ] at this
    exact rdy_setBound.mp this
  -- labels at the end of the backward search
  have hlabel : ∀ k d, k ≤ K → Dst P' d → (runOne Q K S q).round k d < P'.hi →
      k = K ∧ Feas P acc K (-(runOne Q K S q).round k d) A ∧ s ≤ -(runOne Q K S q).round k d := by
    intro k d hk hd hlt
    have hbound := hrow' k d
    obtain ⟨j, ⟨hj1, hj2⟩, hr⟩ := (hsnd k d).2 hlt
    generalize (runOne Q K S q).round k d = v at *
    obtain ⟨A0, hA0, hr⟩ := ready_back hr
    have hA0 : A0 ≤ A := by
      rcases List.mem_cons.mp hA0 with rfl | h1
      · omega
      · exact hdone A0 h1
    have hf : Feas P' acc' j (-A0) v := feas_ready.mpr ⟨d, hd, hr⟩
    have hj := h.symm.feas_pos hf
    have hv : v ≤ -s := by
      rcases hbound (by omega) with g | g <;> omega
    obtain ⟨k1, s1, e1, e2, e3⟩ := h.symm.flip hf
    have e3' := h.feas_earlier e3 (show s ≤ -v by omega)
    obtain ⟨k2, f1, d2, f2, f3⟩ := hp.found k1 (-s1) e3' (by omega) (by omega)
    have hk2 : k2 = K := by
      by_cases hc : k2 < K
      · have := hnd.1 k2 hc d2 f2; omega
      · omega
    have := hnd.2 k2 (by omega) d2 f2
    have hs1 : -s1 = A := by omega
    have hk1 : k1 = K := by omega
    subst hk1
    rw [hs1] at e3
    exact ⟨by omega, e3, by omega⟩
  refine ⟨⟨hsnd, htad.mpr g1, hcovQ.mpr g2, hrow'⟩, hlabel, ?_⟩
  intro k' dep A' hf hk' hA' hdep
  obtain ⟨k1, s1, e1, e2, e3⟩ := h.flip hf
  have e3' := h.symm.feas_earlier e3 (show -A ≤ -A' by omega)
  obtain ⟨x, hx, hc⟩ := e3'
  obtain ⟨k2, f1, d, f2, f3⟩ := g4 (x.1, -A + x.2) (mem_startsAt.mpr ⟨x.2, hx, rfl⟩) k1 (-s1) (by rw [← hQ]; exact cont_setBound.mpr hc) (by omega) (by omega)
  have := (hlabel k2 d (by omega) f2 (by omega)).1
  subst this
  exact ⟨d, f2, Int.le_trans f3 (by omega)⟩

end

end Nigiri.Raptor
