import Verif.Spec.OneToAll
import Verif.Props.Raptor
/-!
# One-to-all searches (proofs)
-/

namespace Nigiri.Raptor.OneToAll
open Nigiri.Raptor

/-- The problem of a one-to-all search. -/
structure Free (P : Problem) : Prop where
  dest : ∀ l, P.isDest l = false
  inter : P.intermodal = false
  lb : ∀ l, P.lb l = some 0
  bound : P.bound = none

/-- Arrivals found in a scan are within the limit. -/
def TmpOk (P : Problem) (W : Int) (tmp : Loc → Int) : Prop := ∀ m, tmp m = P.hi ∨ tmp m ≤ W

theorem alightAt_tmp {P : Problem} {W : Int} {w : Loc → Int → Bool} {l : Loc} {t : Int} {sc : Scan} (h : TmpOk P W sc.tmp) :
    TmpOk P W (alightAt P W w l t sc).tmp := by
  unfold alightAt
  split
  · rename_i hc
    intro m
    simp only [upd]
    split
    · right
      rw [Bool.and_eq_true] at hc
      have := ((lbOk_iff _ _ _).mp hc.1).1
      omega
    · exact h m
  · exact h

theorem scanRoute_tmp {P : Problem} {W : Int} {r : Route} {rk best : Loc → Int} {w : Loc → Int → Bool} {prev : Loc → Bool} :
    ∀ (ss : List Stop) (i : Nat) (et : Option Run) (sc : Scan), TmpOk P W sc.tmp →
      TmpOk P W (scanRoute P r rk best W w prev ss i et sc).tmp := by
  intro ss
  induction ss with
  | nil => intro i et sc h; exact h
  | cons s rest ih =>
    intro i et sc h
    have ha : TmpOk P W (arrive P r rk best W w i s (filterEt i s none et) sc).1.tmp := by
      unfold arrive
      split
      · exact h
      · split
        · simp only
          split
          · exact alightAt_tmp h
          · exact h
        · exact h
    unfold scanRoute
    simp only
    split
    · exact ih _ _ _ ha
    · split
      · exact ha
      · exact ih _ _ _ ha

theorem scanRt_tmp {P : Problem} {W : Int} {r : RtTransport} {rk : Loc → Int} {w : Loc → Int → Bool} {prev : Loc → Bool} :
    ∀ (ss : List Stop) (i : Nat) (et : Bool) (sc : Scan), TmpOk P W sc.tmp →
      TmpOk P W (scanRt P r rk W w prev ss i et sc).tmp := by
  intro ss
  induction ss with
  | nil => intro i et sc h; exact h
  | cons s rest ih =>
    intro i et sc h
    have ha : TmpOk P W (if i ≠ 0 && (filterEt i s false et) && s.canAlight then alightAt P W w s.loc (P.clamp (r.alight i)) sc else sc).tmp := by
      split
      · exact alightAt_tmp h
      · exact h
    unfold scanRt
    simp only
    split
    · exact ha
    · split
      · exact ih _ _ _ ha
      · exact ih _ _ _ ha

theorem scanAll_tmp {P : Problem} {W : Int} {k : Nat} {S : State} {best : Loc → Int} {tad : Nat → Int} (ht : tad k = W)
    (h : TmpOk P W S.tmp) : TmpOk P W (scanAll P k S best tad).tmp := by
  unfold scanAll
  simp only
  rw [ht]
  refine foldl_inv (fun sc : Scan => TmpOk P W sc.tmp) _ _ _ ?_ (fun sc r _ hs => scanRt_tmp _ _ _ _ hs)
  exact foldl_inv (fun sc : Scan => TmpOk P W sc.tmp) _ _ _ h (fun sc r _ hs => scanRoute_tmp _ _ _ _ hs)

/-- Invariant of the label updates in round `k`, which began with the best times `b0` and the labels `r0`; `M` is the
longest walk. -/
structure Upd (P : Problem) (W M : Int) (k : Nat) (b0 : Loc → Int) (r0 : Nat → Loc → Int) (S : State) : Prop where
  tad : ∀ i, S.tad i = W
  other : ∀ i l, i ≠ k → S.round i l = r0 i l
  best : ∀ l, S.best l ≤ b0 l
  fresh : ∀ l, S.round k l = P.hi ∨ S.round k l < b0 l
  good : ∀ l, S.round k l ≤ W → S.best l ≤ S.round k l
  lim : ∀ l, S.round k l = P.hi ∨ S.round k l ≤ max W (W + M)
  tmp : TmpOk P W S.tmp

theorem Upd.applyUpd {P : Problem} (hP : Free P) {W M : Int} {k : Nat} {b0 : Loc → Int} {r0 : Nat → Loc → Int} {S : State}
    (h : Upd P W M k b0 r0 S) {l : Loc} {t : Int} (ht : t = P.hi ∨ t ≤ max W (W + M)) (ht' : t ≤ P.hi) :
    Upd P W M k b0 r0 (applyUpd P k S l t) := by
  unfold Raptor.applyUpd
  split
  · rename_i hlt
    split
    · rename_i hok
      rw [Bool.and_eq_true, h.tad] at hok
      have hle := ((lbOk_iff _ _ _).mp hok.1).1
      refine ⟨?_, ?_, ?_, ?_, ?_, ?_, h.tmp⟩
      · intro i; simp only; rw [if_neg (by rw [hP.dest]; simp)]; exact h.tad i
      · intro i l' hi; simp only [updRound_other _ _ _ _ _ _ hi]; exact h.other i l' hi
      · intro l'; simp only [upd]; split
        · rename_i e; subst e; have := h.best l'; omega
        · exact h.best l'
      · intro l'; simp only [updRound_row]; split
        · rename_i e; subst e; have := h.best l'; omega
        · exact h.fresh l'
      · intro l'; simp only [updRound_row, upd]; split
        · intro _; omega
        · exact h.good l'
      · intro l'; simp only [updRound_row]; split
        · right; omega
        · exact h.lim l'
    · rename_i hok
      have hgt : W < t := by
        apply Classical.byContradiction
        intro hc
        apply hok
        rw [within_none (by rw [hP.bound]; rfl), h.tad, Bool.and_true]
        exact (lbOk_iff _ _ _).mpr ⟨by omega, 0, hP.lb l, by omega⟩
      rw [if_pos (by rw [hP.bound]; rfl)]
      refine ⟨h.tad, ?_, h.best, ?_, ?_, ?_, h.tmp⟩
      · intro i l' hi; simp only [updRound_other _ _ _ _ _ _ hi]; exact h.other i l' hi
      · intro l'; simp only [updRound_row]; split
        · rename_i e; subst e; have := h.best l'; omega
        · exact h.fresh l'
      · intro l'; simp only [updRound_row]; split
        · rename_i e; subst e; intro hm; have := h.good l' (by omega); omega
        · exact h.good l'
      · intro l'; simp only [updRound_row]; split
        · rename_i e; subst e; have := h.lim l'; omega
        · exact h.lim l'
  · exact h

theorem Upd.transferAt {P : Problem} (hP : Free P) {W M : Int} {k : Nat} {b0 : Loc → Int} {r0 : Nat → Loc → Int} {S : State}
    (h : Upd P W M k b0 r0 S) (hhi : W < P.hi) (hlo : P.lo ≤ W) (hM : ∀ l, P.transfer l ≤ M) (i : Loc) :
    Upd P W M k b0 r0 (transferAt P k S i) := by
  unfold Raptor.transferAt
  split
  · exact h
  · rename_i hne
    have h1 := h.tmp i
    have h2 := hM i
    have h3 : transferTime P i = P.transfer i := by
      unfold transferTime; rw [hP.dest]; simp
    refine h.applyUpd hP ?_ ?_
    · rw [h3]; unfold Problem.clamp; omega
    · unfold Problem.clamp; omega

theorem Upd.footpathsAt {P : Problem} (hP : Free P) {W M : Int} {k : Nat} {b0 : Loc → Int} {r0 : Nat → Loc → Int} {S : State}
    (h : Upd P W M k b0 r0 S) (hhi : W < P.hi) (hlo : P.lo ≤ W) (hM : ∀ l t l' w, (l', w) ∈ P.fps l t → w ≤ M) (i : Loc) :
    Upd P W M k b0 r0 (footpathsAt P k S i) := by
  unfold Raptor.footpathsAt
  split
  · exact h
  · rename_i hne
    have h1 := h.tmp i
    refine (foldl_inv (fun S' : State => Upd P W M k b0 r0 S' ∧ S'.tmp = S.tmp) _ _ _ ⟨h, rfl⟩ ?_).1
    rintro S' fp hfp ⟨g, gt⟩
    refine ⟨?_, by rw [applyUpd_tmp, gt]⟩
    have h2 := hM _ _ _ _ hfp
    refine g.applyUpd hP ?_ ?_
    · rw [gt]; unfold Problem.clamp; omega
    · unfold Problem.clamp; omega

/-- Invariant of the search after `k` rounds. -/
structure Inv (P : Problem) (W M : Int) (k : Nat) (S : State) : Prop where
  tad : ∀ i, S.tad i = W
  tmp : TmpOk P W S.tmp
  hi : ∀ l, S.best l ≤ P.hi
  high : ∀ i l, k < i → S.round i l = P.hi
  good : ∀ i l, i ≤ k → S.round i l ≤ W → S.best l ≤ S.round i l
  desc : ∀ i j l, i < j → j ≤ k → S.round i l ≤ W → S.round j l = P.hi ∨ S.round j l < S.round i l
  lim : ∀ i l, 1 ≤ i → S.round i l = P.hi ∨ S.round i l ≤ max W (W + M)

theorem tadOfBest_free {P : Problem} (hP : Free P) (k : Nat) (best : Loc → Int) (tad : Nat → Int) : tadOfBest P k best tad = tad := by
  unfold tadOfBest marked
  rw [show (List.range P.nLoc).filter P.isDest = [] from List.filter_eq_nil_iff.mpr (fun a _ => by rw [hP.dest]; simp)]
  rfl

theorem Inv.step {P : Problem} (hP : Free P) {W M : Int} {k : Nat} {S : State} (h : Inv P W M k S) (hhi : W < P.hi) (hlo : P.lo ≤ W)
    (hM : ∀ l, P.transfer l ≤ M) (hM' : ∀ l t l' w, (l', w) ∈ P.fps l t → w ≤ M) : Inv P W M (k + 1) (roundStep P (k + 1) S) := by
  have hb : (fun i => min (S.round (k + 1) i) (S.best i)) = S.best := by
    funext l
    have h1 := h.high (k + 1) l (by omega)
    have h2 := h.hi l
    rw [h1]; omega
  unfold roundStep
  simp only
  rw [hb, tadOfBest_free hP]
  split
  · refine ⟨h.tad, h.tmp, h.hi, ?_, ?_, ?_, h.lim⟩
    · intro i l hi; exact h.high i l (by omega)
    · intro i l hi hW
      by_cases hik : i ≤ k
      · exact h.good i l hik hW
      · have := h.high i l (by omega); simp only at hW; omega
    · intro i j l hij hj hW
      by_cases hjk : j ≤ k
      · exact h.desc i j l hij hjk hW
      · left; exact h.high j l (by omega)
  · rw [if_neg (by rw [hP.inter]; simp)]
    have htmp : TmpOk P W (scanAll P (k + 1) S S.best S.tad).tmp := scanAll_tmp (h.tad _) h.tmp
    have h0 : ∀ S0 : State, S0.round = S.round → S0.best = S.best → S0.tmp = (scanAll P (k + 1) S S.best S.tad).tmp → S0.tad = S.tad →
        Upd P W M (k + 1) S.best S.round S0 := by
      intro S0 e1 e2 e3 e4
      refine ⟨?_, ?_, ?_, ?_, ?_, ?_, ?_⟩
      · rw [e4]; exact h.tad
      · intro i l _; rw [e1]
      · intro l; rw [e2]; omega
      · intro l; rw [e1]; left; exact h.high _ l (by omega)
      · intro l hW; rw [e1, h.high _ l (by omega)] at hW; omega
      · intro l; rw [e1]; left; exact h.high _ l (by omega)
      · rw [e3]; exact htmp
    have hgen : ∀ S0, Upd P W M (k + 1) S.best S.round S0 → Upd P W M (k + 1) S.best S.round
        ((marked P (scanAll P (k + 1) S S.best S.tad).mark).foldl (footpathsAt P (k + 1))
          ((marked P (scanAll P (k + 1) S S.best S.tad).mark).foldl (transferAt P (k + 1)) S0)) := fun S0 hS0 =>
      foldl_inv _ _ _ _ (foldl_inv _ _ _ _ hS0 (fun S' a _ hu => hu.transferAt hP hhi hlo hM a)) (fun S' a _ hu => hu.footpathsAt hP hhi hlo hM' a)
    have hfin := hgen { round := S.round, best := S.best, tmp := (scanAll P (k + 1) S S.best S.tad).tmp, mark := fun _ => false, tad := S.tad, done := false }
      (by apply h0 <;> rfl)
    refine ⟨hfin.tad, hfin.tmp, ?_, ?_, ?_, ?_, ?_⟩
    · intro l; exact Int.le_trans (hfin.best l) (h.hi l)
    · intro i l hi; rw [hfin.other i l (by omega)]; exact h.high i l (by omega)
    · intro i l hi hW
      by_cases hik : i = k + 1
      · subst hik; exact hfin.good l hW
      · rw [hfin.other i l hik] at hW ⊢
        exact Int.le_trans (hfin.best l) (h.good i l (by omega) hW)
    · intro i j l hij hj hW
      by_cases hjk : j = k + 1
      · subst hjk
        rw [hfin.other i l (by omega)] at hW ⊢
        rcases hfin.fresh l with g | g
        · left; exact g
        · right; have := h.good i l (by omega) hW; omega
      · rw [hfin.other i l (by omega)] at hW ⊢
        rw [hfin.other j l (by omega)]
        exact h.desc i j l hij (by omega) hW
    · intro i l hi
      by_cases hik : i = k + 1
      · subst hik; exact hfin.lim l
      · rw [hfin.other i l hik]; exact h.lim i l hi

theorem Inv.weaken {P : Problem} {W M : Int} {k : Nat} {S : State} (h : Inv P W M k S) (hhi : W < P.hi) : Inv P W M (k + 1) S := by
  refine ⟨h.tad, h.tmp, h.hi, ?_, ?_, ?_, h.lim⟩
  · intro i l hi; exact h.high i l (by omega)
  · intro i l hi hW
    by_cases hik : i ≤ k
    · exact h.good i l hik hW
    · have := h.high i l (by omega); omega
  · intro i j l hij hj hW
    by_cases hjk : j ≤ k
    · exact h.desc i j l hij hjk hW
    · left; exact h.high j l (by omega)

theorem Inv.rounds {P : Problem} (hP : Free P) {W M : Int} {S : State} (h : Inv P W M 0 S) (hhi : W < P.hi) (hlo : P.lo ≤ W)
    (hM : ∀ l, P.transfer l ≤ M) (hM' : ∀ l t l' w, (l', w) ∈ P.fps l t → w ≤ M) (n : Nat) : Inv P W M n (Raptor.rounds P S n) := by
  induction n with
  | zero => exact h
  | succ n ih =>
    unfold Raptor.rounds
    simp only
    split
    · exact ih.weaken hhi
    · exact ih.step hP hhi hlo hM hM'

/-- The state after the start events. -/
theorem inv_begin {P : Problem} {W M : Int} (hhi : W < P.hi) (q : Start) (hW : q.worst = W) : Inv P W M 0 (applyWorst q.worst (q.starts.foldl addStart (nextStart P (init P)))) := by
  have hf := foldl_inv (fun S : State => (∀ i, S.tad i = P.hi) ∧ (∀ m, S.tmp m = P.hi) ∧ (∀ l, S.best l ≤ P.hi) ∧
      (∀ i l, 0 < i → S.round i l = P.hi) ∧ (∀ l, S.best l ≤ S.round 0 l)) addStart q.starts (nextStart P (init P))
    ⟨fun _ => rfl, fun _ => rfl, fun _ => Int.le_refl _, fun _ _ _ => rfl, fun _ => Int.le_refl _⟩ (by
      rintro S x hx ⟨h1, h2, h3, h4, h5⟩
      refine ⟨h1, h2, ?_, ?_, ?_⟩
      · intro l; simp only [addStart, upd]; split
        · rename_i e; subst e; have := h3 x.1; omega
        · exact h3 l
      · intro i l hi
        simp only [addStart]
        rw [updRound_other _ _ _ _ _ _ (by omega)]; exact h4 i l hi
      · intro l
        simp only [addStart, updRound_row, upd]
        split
        · rename_i e; subst e; have := h5 x.1; omega
        · exact h5 l)
  obtain ⟨h1, h2, h3, h4, h5⟩ := hf
  refine ⟨?_, ?_, h3, h4, ?_, ?_, ?_⟩
  · intro i; simp only [applyWorst]; rw [h1]; omega
  · intro m; left; exact h2 m
  · intro i l hi _
    have : i = 0 := by omega
    subst this; exact h5 l
  · intro i j l hij hj _; omega
  · intro i l hi; left; exact h4 i l (by omega)

end Nigiri.Raptor.OneToAll
