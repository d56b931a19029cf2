import Verif.Proofs.PongBounds
import Verif.Model.Pong
/-!
# Nothing needed is pruned by the bounds (proofs)
-/

namespace Nigiri.Raptor

theorem rowMin_le (R : State) {i k : Nat} (h : i ≤ k) (l : Loc) : rowMin R k l ≤ R.round i l := by
  induction k with
  | zero => rw [show i = 0 by omega]; exact Int.le_refl _
  | succ k ih =>
    show min (R.round (k + 1) l) (rowMin R k l) ≤ _
    by_cases hc : i ≤ k
    · have := ih hc; omega
    · rw [show i = k + 1 by omega]; omega

theorem ready_setBound {P : Problem} {b : Option (Nat → Loc → Int)} {st : List (Loc × Int)} {k : Nat} {l : Loc} {t : Int} :
    Ready (P.setBound b) st k l t ↔ Ready P st k l t := by
  constructor
  · intro h
    induction h with
    | start hx => exact .start hx
    | ride _ h2 h3 ih => exact .ride ih h2 h3
  · intro h
    induction h with
    | start hx => exact .start hx
    | ride _ h2 h3 ih => exact .ride ih h2 h3

theorem cont_setBound {P : Problem} {b : Option (Nat → Loc → Int)} {D : Loc → Prop} {n : Nat} {l : Loc} {t A : Int} :
    Cont (P.setBound b) D n l t A ↔ Cont P D n l t A := by
  constructor
  · intro h
    induction h with
    | here hd => exact .here hd
    | ride h1 h2 _ ih => exact .ride h1 h2 ih
  · intro h
    induction h with
    | here hd => exact .here hd
    | ride h1 h2 _ ih => exact .ride h1 h2 ih

theorem sane_setBound {P : Problem} (h : Sane P) (b : Option (Nat → Loc → Int)) : Sane (P.setBound b) :=
  ⟨h.lohi, h.tripMono, h.rtMono, h.etSound, h.transfer, h.fps, h.endDist, h.endTd⟩

theorem tame_setBound {P : Problem} {win : Int} (h : Tame P win) (b : Option (Nat → Loc → Int)) : Tame (P.setBound b) win :=
  ⟨sane_setBound h.toSane b, h.etLeast, h.overtake, h.etComplete, h.fpsFifo, h.endFifo, h.routeLocs, h.rtLocs, h.destLocs, h.endDest, h.endStop, h.endFps⟩

/-- Nothing reaches a destination with fewer rides as early, or with as many rides earlier. -/
def NonDom (P : Problem) (R : State) (K : Nat) (A : Int) : Prop :=
  (∀ k, k < K → ∀ d, Dst P d → A < R.round k d) ∧ ∀ k, k ≤ K → ∀ d, Dst P d → A ≤ R.round k d

theorem NonDom.not {P : Problem} {R : State} {K : Nat} {A A' : Int} (h : NonDom P R K A) (hA : A' ≤ A) {n : Nat} (hn : n ≤ K)
    (hd : (∃ k', k' < n ∧ ∃ d, Dst P d ∧ R.round k' d ≤ A') ∨ ∃ k', k' ≤ n ∧ ∃ d, Dst P d ∧ R.round k' d < A') : False := by
  rcases hd with ⟨k, h1, d, h2, h3⟩ | ⟨k, h1, d, h2, h3⟩
  · have := h.1 k (by omega) d h2; omega
  · have := h.2 k (by omega) d h2; omega

section
variable {P P' : Problem} {acc acc' : List (Loc × Int)} {win : Int}

/-- What the reverse search can use on the way to its end passes the test against the labels of the first search. -/
theorem Pair.reach (h : Pair P P' acc acc' win) {N K : Nat} {s W A : Int} {R : State} (hp : Ping P acc N s W R) (hA : A ≤ W) (hK : K ≤ N)
    (hnd : NonDom P R K A) {S0 : State}
    (hsnd : ∀ j l t, Lab (P'.setBound (some (pingBound P' R K))) S0 j l t → t < P'.hi →
      ∃ A0, A0 ≤ A ∧ ∃ j', j' ≤ j ∧ ∃ t0, t0 ≤ t ∧ Ready P' (startsAt acc' (-A0)) j' l t0) (hs : P.lo < s) :
    InReach (P'.setBound (some (pingBound P' R K))) (Dst P') K (-s) S0 := by
  intro j l t m a l' t' n A' hlab hride hch hcont hA' hN
  have hride : Ride P' l t m a := hride
  have hch : Change P' m a l' t' := hch
  have hcont := cont_setBound.mp hcont
  have hta := ride_le h.tame'.toSane hride
  have hat := change_le h.tame'.toSane hch
  have htA := cont_le h.tame'.toSane hcont
  obtain ⟨A0, hA0, j', hj', t0, ht0, hready⟩ := hsnd j l t hlab (by rw [h.dual.hi]; omega)
  obtain ⟨b, hb, hr'⟩ := h.dual.ride' _ _ _ _ hride
  have hsA : s ≤ -t := by omega
  -- what comes before in the first search
  have hbk := h.back (s := s) hcont hA'
  obtain ⟨i0, hi0, t3, ht3, hrm⟩ := h.back_step (n := n) (fun hi => (ride_end h.tame' hi hride).2) hch (Int.le_trans htA hA') (by
    rcases hbk with ⟨-, g⟩ | ⟨n0, g⟩
    · exact Or.inl g
    · exact Or.inr ⟨n0, g⟩)
  -- what comes after
  obtain ⟨k0, A'', hk0, hA'', hgo⟩ : ∃ k0 A'', k0 ≤ j ∧ A'' ≤ A ∧ ∀ x, x ≤ -a → Cont P (Dst P) (k0 + 1) m x A'' := by
    rcases h.forth hready (fun hi => (ride_end h.tame' hi hride).1) with hS | ⟨m0, b0, k0, A'', g1, g2, g3, g4, g5, g6⟩
    · obtain ⟨l3, t3, k0, A'', e1, e2, e3, e4⟩ := hS (-b) (by omega)
      exact ⟨k0, A'', by omega, by omega, fun x hx => .ride (ride_mono hr' hx) e3 e4⟩
    · exfalso
      obtain ⟨w', e1, e2⟩ := h.hacc.le m0 0 (by unfold Egr; rw [if_neg (by simp [g1])]; exact Or.inl ⟨g2, rfl⟩)
      obtain ⟨A3, e3, e4⟩ := cont_mono g6 (show s + w' ≤ b0 by omega)
      obtain ⟨k', f1, d, f2, f3⟩ := hp.found k0 A3 ⟨(m0, w'), e2, e4⟩ (by omega) (by omega)
      have := hnd.1 k' (by omega) d f2
      omega
  have htm := h.tame.transfer m
  have htl := h.tame.transfer l'
  show (decide (a ≤ -(rowMin R (K - (j + 1)) m) + P'.transfer m) = true) ∧
    ((P'.intermodal = true → l' ≠ P'.endLoc) → decide (t' ≤ -(rowMin R (K - (j + 1)) l') + P'.transfer l') = true)
  rw [decide_eq_true_eq, decide_eq_true_eq, h.dual.transfer, h.dual.transfer]
  refine ⟨?_, ?_⟩
  · rcases hp.label i0 m t3 hrm (k0 + 1) A'' (hgo t3 ht3) (by omega) (by omega) with ⟨i, g1, g2⟩ | g
    · have := rowMin_le R (show i ≤ K - (j + 1) by omega) m
      omega
    · exact (hnd.not hA'' (by omega) g).elim
  · intro hle
    have hstart : ∀ w, Egr P' l' w → w ≤ 0 → t' ≤ -(rowMin R (K - (j + 1)) l') + P.transfer l' := by
      intro w he hw
      obtain ⟨w', e1, e2⟩ := h.hacc.le l' w he
      have := hp.start (l', w') e2
      have := rowMin_le R (show 0 ≤ K - (j + 1) by omega) l'
      simp only at *
      omega
    rcases hbk with ⟨-, g⟩ | ⟨n0, hn0, l2, t2, a2, g1, g2, g3⟩
    · by_cases hi : P'.intermodal = true
      · exact absurd (h.endDest' hi l' g) (hle hi)
      · exact hstart 0 (by unfold Egr; rw [if_neg hi]; exact Or.inl ⟨g, rfl⟩) (Int.le_refl _)
    · -- ride to `l'`, then the reverse of the change
      have halight : ∀ l3 t3, Change P l' a2 l3 t3 → l3 = m → t3 ≤ -a → t' ≤ -(rowMin R (K - (j + 1)) l') + P.transfer l' := by
        intro l3 t3 hc he ht
        subst he
        rcases hp.alight n0 l2 t2 g1 l' a2 g2 l3 t3 hc (k0 + 1) A'' (hgo t3 ht) (by omega) (by omega) with e | ⟨i, e1, e2⟩ | e
        · have := (hp.sound 0 l').1
          have := rowMin_le R (show 0 ≤ K - (j + 1) by omega) l'
          omega
        · have := rowMin_le R (show i ≤ K - (j + 1) by omega) l'
          omega
        · exact (hnd.not hA'' (by omega) e).elim
      rcases hch with ⟨rfl, e⟩ | ⟨w, e1, e2⟩ | ⟨hi, e, -⟩
      · by_cases hd : P'.intermodal = false ∧ P'.isDest l' = true
        · exact hstart 0 (by unfold Egr; rw [if_neg (by simp [hd.1])]; exact Or.inl ⟨hd.2, rfl⟩) (Int.le_refl _)
        · rw [if_neg hd, h.dual.transfer] at e
          refine halight l' _ (Or.inl ⟨rfl, rfl⟩) rfl ?_
          split <;> omega
      · exact halight m (a2 + w) (Or.inr (Or.inl ⟨w, (h.dual.fps l' m w a2 a).mpr e1, rfl⟩)) rfl (by omega)
      · exact absurd e (hle hi)

end

end Nigiri.Raptor
