import Verif.Proofs.RaptorOpt
import Verif.Model.Pong
import Verif.Proofs.NetJourney
import Verif.Proofs.ReconstructComplete
/-!
# Searching forwards and backwards (proofs)

`Dual P P'`: `P'` is the search problem of the flipped query; its times are the negated times of `P`.
-/

namespace Nigiri.Raptor

/-- The destinations of a search. -/
abbrev Dst (P : Problem) : Loc → Prop := fun l => P.isDest l = true

/-- From station `m` the end of the query is `w` minutes away. -/
def Egr (P : Problem) (m : Loc) (w : Int) : Prop :=
  if P.intermodal = true then P.endDist m = some w
  else (P.isDest m = true ∧ w = 0) ∨ ∃ d, P.isDest d = true ∧ (d, w) ∈ P.fps m 0

/-- `P'` is `P` with time and direction reversed. -/
structure Dual (P P' : Problem) : Prop where
  lo : P'.lo = - P.hi
  hi : P'.hi = - P.lo
  ride : ∀ l t m a, Ride P l t m a → ∃ b, t ≤ b ∧ Ride P' m (-a) l (-b)
  ride' : ∀ l t m a, Ride P' l t m a → ∃ b, t ≤ b ∧ Ride P m (-a) l (-b)
  transfer : ∀ l, P'.transfer l = P.transfer l
  fps : ∀ l m w t t', (m, w) ∈ P.fps l t ↔ (l, w) ∈ P'.fps m t'
  noTd : ∀ l t, P.endTd l t = none
  noTd' : ∀ l t, P'.endTd l t = none

theorem Dual.symm {P P' : Problem} (h : Dual P P') : Dual P' P where
  lo := by rw [h.hi]; omega
  hi := by rw [h.lo]; omega
  ride := h.ride'
  ride' := h.ride
  transfer := fun l => (h.transfer l).symm
  fps := fun l m w t t' => (h.fps m l w t' t).symm
  noTd := h.noTd'
  noTd' := h.noTd

/-- The places where the search begins and the time it takes to get there: those from which the reverse search
can end. -/
structure Acc (P' : Problem) (acc : List (Loc × Int)) : Prop where
  le : ∀ l w, Egr P' l w → ∃ w', w' ≤ w ∧ (l, w') ∈ acc
  ge : ∀ l w, (l, w) ∈ acc → ∃ w', w' ≤ w ∧ Egr P' l w'


theorem mem_startsAt {acc : List (Loc × Int)} {s : Int} {x : Loc × Int} : x ∈ startsAt acc s ↔ ∃ w, (x.1, w) ∈ acc ∧ x.2 = s + w := by
  unfold startsAt
  rw [List.mem_map]
  constructor
  · rintro ⟨y, hy, rfl⟩; exact ⟨y.2, hy, rfl⟩
  · rintro ⟨w, hw, h⟩; exact ⟨(x.1, w), hw, by rw [← h]⟩

/-- A journey with `k` rides for which one leaves at `s` and arrives at `A`. -/
def Feas (P : Problem) (acc : List (Loc × Int)) (k : Nat) (s A : Int) : Prop :=
  ∃ x ∈ acc, Cont P (Dst P) k x.1 (s + x.2) A

theorem ride_mono {P : Problem} {l : Loc} {t t' : Int} {m : Loc} {a : Int} (h : Ride P l t m a) (ht : t' ≤ t) : Ride P l t' m a := by
  rcases h with ⟨r, hr, hal, tr, ha, i, j, si, sj, g1, g2, g3, g4, g5, g6, g7, g8, g9, g10⟩ | ⟨r, hr, hal, i, j, si, sj, g1, g2, g3, g4, g5, g6, g7, g8, g9, g10⟩
  · exact Or.inl ⟨r, hr, hal, tr, ha, i, j, si, sj, g1, g2, g3, g4, g5, g6, g7, g8, by omega, g10⟩
  · exact Or.inr ⟨r, hr, hal, i, j, si, sj, g1, g2, g3, g4, g5, g6, g7, g8, by omega, g10⟩

/-- Reaching the end from a station. -/
theorem egr_change {P P' : Problem} {win : Int} (ht : Tame P win) (hd : Dual P P') {m : Loc} {w : Int} (h : Egr P m w) (a : Int) :
    ∃ d, Dst P d ∧ Change P m a d (a + w) := by
  unfold Egr at h
  split at h
  · rename_i hi
    exact ⟨P.endLoc, ht.endDest hi, Or.inr (Or.inr ⟨hi, rfl, w, Or.inl h, rfl⟩)⟩
  · rename_i hi
    rcases h with ⟨h1, rfl⟩ | ⟨d, h1, h2⟩
    · exact ⟨m, h1, Or.inl ⟨rfl, by rw [if_pos ⟨by simpa using hi, h1⟩]⟩⟩
    · exact ⟨d, h1, Or.inr (Or.inl ⟨w, (hd.symm.fps d m w 0 a).mp ((hd.fps m d w 0 0).mp h2), rfl⟩)⟩

/-- A change that leads to the end. -/
theorem change_egr {P P' : Problem} {win : Int} (ht : Tame P win) (hd : Dual P P') {m : Loc} {a : Int} {l' : Loc} {t' : Int} (hm : P.intermodal = true → ∀ l, P.isDest l = true → l = P.endLoc)
    (hme : P.intermodal = true → m ≠ P.endLoc)
    (hc : Change P m a l' t') (hl : Dst P l') : ∃ w, Egr P m w ∧ t' = a + w := by
  unfold Egr
  rcases hc with ⟨rfl, rfl⟩ | ⟨w, h1, rfl⟩ | ⟨hi, rfl, w, h1, rfl⟩
  · by_cases hi : P.intermodal = true
    · exact absurd (hm hi l' hl) (hme hi)
    · refine ⟨0, ?_, ?_⟩
      · rw [if_neg hi]; exact Or.inl ⟨hl, rfl⟩
      · rw [if_pos ⟨by simpa using hi, hl⟩]
  · refine ⟨w, ?_, rfl⟩
    by_cases hi : P.intermodal = true
    · have := hm hi l' hl
      rw [this] at h1
      exact absurd h1 (ht.endFps hi _ _ _)
    · rw [if_neg hi]
      exact Or.inr ⟨l', hl, (hd.symm.fps l' m w 0 0).mp ((hd.fps m l' w a 0).mp h1)⟩
  · rw [hd.noTd] at h1
    refine ⟨w, ?_, rfl⟩
    rw [if_pos hi]
    simpa using h1

/-- What is needed of a pair of search problems. -/
structure Pair (P P' : Problem) (acc acc' : List (Loc × Int)) (win : Int) : Prop where
  dual : Dual P P'
  tame : Tame P win
  tame' : Tame P' win
  hacc : Acc P' acc
  hacc' : Acc P acc'
  pos : ∀ x ∈ acc, 0 ≤ x.2
  pos' : ∀ x ∈ acc', 0 ≤ x.2
  endDest : P.intermodal = true → ∀ l, P.isDest l = true → l = P.endLoc
  endDest' : P'.intermodal = true → ∀ l, P'.isDest l = true → l = P'.endLoc
  noDest : ∀ x ∈ acc, P.isDest x.1 = false
  noDest' : ∀ x ∈ acc', P'.isDest x.1 = false
  accLoc : ∀ x ∈ acc, P'.intermodal = true → x.1 ≠ P'.endLoc
  accLoc' : ∀ x ∈ acc', P.intermodal = true → x.1 ≠ P.endLoc

theorem Pair.symm {P P' : Problem} {acc acc' : List (Loc × Int)} {win : Int} (h : Pair P P' acc acc' win) : Pair P' P acc' acc win where
  dual := h.dual.symm
  tame := h.tame'
  tame' := h.tame
  hacc := h.hacc'
  hacc' := h.hacc
  pos := h.pos'
  pos' := h.pos
  endDest := h.endDest'
  endDest' := h.endDest
  noDest := h.noDest'
  noDest' := h.noDest
  accLoc := h.accLoc'
  accLoc' := h.accLoc

section
variable {P P' : Problem} {acc acc' : List (Loc × Int)} {win : Int}

/-- Ready at the beginning of the search. -/
theorem Pair.start (h : Pair P P' acc acc' win) {m : Loc} {w s : Int} (he : Egr P' m w) :
    ∃ t, t ≤ s + w ∧ Ready P (startsAt acc s) 0 m t := by
  obtain ⟨w', h1, h2⟩ := h.hacc.le m w he
  exact ⟨s + w', by omega, .start (mem_startsAt.mpr ⟨w', h2, rfl⟩)⟩

/-- A change of the reverse search, seen from the search: either nothing was ridden before, or a vehicle arrives. -/
theorem Pair.back_step (h : Pair P P' acc acc' win) {s : Int} {m : Loc} {a : Int} {l' : Loc} {t' : Int} {n : Nat} (hme : P'.intermodal = true → m ≠ P'.endLoc)
    (hc : Change P' m a l' t') (hs : t' ≤ -s)
    (hp : Dst P' l' ∨ ∃ n0, n0 < n ∧ ∃ l2 t2 a2, Ready P (startsAt acc s) n0 l2 t2 ∧ Ride P l2 t2 l' a2 ∧ a2 ≤ -t') :
    ∃ i, i ≤ n ∧ ∃ t3, t3 ≤ -a ∧ Ready P (startsAt acc s) i m t3 := by
  have hleave : ∀ w, Egr P' m w → t' = a + w → ∃ i, i ≤ n ∧ ∃ t3, t3 ≤ -a ∧ Ready P (startsAt acc s) i m t3 := by
    intro w h1 h2
    obtain ⟨t, g1, g2⟩ := h.start (s := s) h1
    exact ⟨0, by omega, t, by omega, g2⟩
  rcases hp with hD | ⟨n0, hn, l2, t2, a2, h1, h2, h3⟩
  · obtain ⟨w, g1, g2⟩ := change_egr h.tame' h.dual.symm h.endDest' hme hc hD
    exact hleave w g1 g2
  · have hle : P'.intermodal = true → l' ≠ P'.endLoc := by
      intro hi
      obtain ⟨b, -, hr⟩ := h.dual.ride _ _ _ _ h2
      exact (ride_end h.tame' hi hr).1
    rcases hc with ⟨rfl, g⟩ | ⟨w, g, g2⟩ | ⟨hi, g, -⟩
    · by_cases hd : P'.intermodal = false ∧ P'.isDest l' = true
      · rw [if_pos hd] at g
        exact hleave 0 (by unfold Egr; rw [if_neg (by simp [hd.1])]; exact Or.inl ⟨hd.2, rfl⟩) g
      · rw [if_neg hd, h.dual.transfer] at g
        refine ⟨n0 + 1, by omega, _, ?_, .ride h1 h2 (Or.inl ⟨rfl, rfl⟩)⟩
        have := h.tame.transfer l'
        split <;> omega
    · exact ⟨n0 + 1, by omega, a2 + w, by omega, .ride h1 h2 (Or.inr (Or.inl ⟨w, (h.dual.fps l' m w a2 a).mpr g, rfl⟩))⟩
    · exact absurd g (hle hi)

/-- Whatever the reverse search continues with on the way to its end can be ridden from there. -/
theorem Pair.back (h : Pair P P' acc acc' win) {s : Int} {n : Nat} {l' : Loc} {t' A' : Int} (hc : Cont P' (Dst P') n l' t' A') (hA : A' ≤ -s) :
    (n = 0 ∧ Dst P' l') ∨ ∃ n0, n0 < n ∧ ∃ l2 t2 a2, Ready P (startsAt acc s) n0 l2 t2 ∧ Ride P l2 t2 l' a2 ∧ a2 ≤ -t' := by
  induction hc with
  | here hd => exact Or.inl ⟨rfl, hd⟩
  | @ride n l t m a l' t' A hr hch hc ih =>
    right
    obtain ⟨b, hb, hr'⟩ := h.dual.ride' _ _ _ _ hr
    have hs : t' ≤ -s := Int.le_trans (cont_le h.tame'.toSane hc) hA
    have hme := fun hi => (ride_end h.tame' hi hr).2
    obtain ⟨i, hi, t3, h3, h4⟩ := h.back_step (n := n) hme hch hs (by
      rcases ih hA with ⟨-, g⟩ | ⟨n0, g⟩
      · exact Or.inl g
      · exact Or.inr ⟨n0, g⟩)
    exact ⟨i, by omega, m, t3, -b, h4, ride_mono hr' h3, by omega⟩

/-- A place reached by the reverse search from the arrival `A`: from there one can go on to the destination, or
the reverse search has already passed its end. -/
theorem Pair.forth (h : Pair P P' acc acc' win) {A : Int} {k : Nat} {l : Loc} {t : Int} (hr : Ready P' (startsAt acc' (-A)) k l t)
    (hl : P'.intermodal = true → l ≠ P'.endLoc) :
    (∀ a2, a2 ≤ -t → ∃ l3 t3 k0 A'', k0 ≤ k ∧ A'' ≤ A ∧ Change P l a2 l3 t3 ∧ Cont P (Dst P) k0 l3 t3 A'') ∨
    ∃ m0 b0 k0 A'', P'.intermodal = false ∧ Dst P' m0 ∧ -t ≤ b0 ∧ k0 ≤ k ∧ A'' ≤ A ∧ Cont P (Dst P) k0 m0 b0 A'' := by
  induction hr with
  | @start l t hx =>
    left
    obtain ⟨w, h1, h2⟩ := mem_startsAt.mp hx
    simp only at h1 h2
    obtain ⟨w', g1, g2⟩ := h.hacc'.ge l w h1
    intro a2 ha
    obtain ⟨d, hd, hc⟩ := egr_change h.tame h.dual g2 a2
    exact ⟨d, a2 + w', 0, a2 + w', Nat.le_refl _, by omega, hc, .here hd⟩
  | @ride k l t m a l' t' hr hride hch ih =>
    have hta := ride_le h.tame'.toSane hride
    have hat := change_le h.tame'.toSane hch
    rcases ih (fun hi => (ride_end h.tame' hi hride).1) with hS | ⟨m0, b0, k0, A'', g1, g2, g3, g4, g5, g6⟩
    · obtain ⟨b, hb, hr'⟩ := h.dual.ride' _ _ _ _ hride
      obtain ⟨l3, t3, k0, A'', e1, e2, e3, e4⟩ := hS (-b) (by omega)
      have hcont : ∀ x, x ≤ -a → Cont P (Dst P) (k0 + 1) m x A'' := fun x hx => .ride (ride_mono hr' hx) e3 e4
      rcases hch with ⟨rfl, g⟩ | ⟨w, g, g2⟩ | ⟨hi, g, -⟩
      · by_cases hd : P'.intermodal = false ∧ P'.isDest l' = true
        · right
          rw [if_pos hd] at g
          exact ⟨l', -a, k0 + 1, A'', hd.1, hd.2, by omega, by omega, e2, hcont _ (Int.le_refl _)⟩
        · left
          rw [if_neg hd, h.dual.transfer] at g
          intro a2 ha
          refine ⟨l', _, k0 + 1, A'', by omega, e2, Or.inl ⟨rfl, rfl⟩, hcont _ ?_⟩
          have := h.tame.transfer l'
          split <;> omega
      · left
        intro a2 ha
        exact ⟨m, a2 + w, k0 + 1, A'', by omega, e2, Or.inr (Or.inl ⟨w, (h.dual.fps l' m w a2 a).mpr g, rfl⟩), hcont _ (by omega)⟩
      · exact absurd g (hl hi)
    · exact Or.inr ⟨m0, b0, k0, A'', g1, g2, by omega, by omega, g5, g6⟩

theorem Pair.feas_pos (h : Pair P P' acc acc' win) {k : Nat} {s A : Int} (hf : Feas P acc k s A) : 1 ≤ k := by
  obtain ⟨x, hx, hc⟩ := hf
  cases hc with
  | here hd => have := h.noDest x hx; rw [hd] at this; cases this
  | ride _ _ _ => omega

/-- Every journey can be found in reverse. -/
theorem Pair.flip (h : Pair P P' acc acc' win) {k : Nat} {s A : Int} (hf : Feas P acc k s A) :
    ∃ k' s', k' ≤ k ∧ s ≤ s' ∧ Feas P' acc' k' (-A) (-s') := by
  have hk := h.feas_pos hf
  obtain ⟨x, hx, hc⟩ := hf
  obtain ⟨w, hw, he⟩ := h.hacc.ge x.1 x.2 hx
  rcases h.symm.back (s := -A) hc (by omega) with ⟨g, -⟩ | ⟨n0, hn, l2, t2, a2, h1, h2, h3⟩
  · omega
  · obtain ⟨d, hd, hch⟩ := egr_change h.tame' h.dual.symm he a2
    have hr : Ready P' (startsAt acc' (-A)) (n0 + 1) d (a2 + w) := .ride h1 h2 hch
    obtain ⟨y, hy, hcy⟩ := ready_cont hr (Cont.here (D := Dst P') hd)
    obtain ⟨o, ho, hy2⟩ := mem_startsAt.mp hy
    refine ⟨n0 + 1, -(a2 + w), by omega, by omega, (y.1, o), ho, ?_⟩
    simp only
    rw [← hy2, show - -(a2 + w) = a2 + w by omega]
    exact hcy

theorem feas_mono {k : Nat} {s s' A : Int} (hf : Feas P acc k s A) (hs : s' ≤ s) : ∃ A', A' ≤ A ∧ Feas P acc k s' A' := by
  obtain ⟨x, hx, hc⟩ := hf
  obtain ⟨A', h1, h2⟩ := cont_mono hc (show s' + x.2 ≤ s + x.2 by omega)
  exact ⟨A', h1, x, hx, h2⟩

/-- With rides the arrival does not change when one leaves earlier. -/
theorem Pair.feas_earlier (h : Pair P P' acc acc' win) {k : Nat} {s s' A : Int} (hf : Feas P acc k s A) (hs : s' ≤ s) : Feas P acc k s' A := by
  have hk := h.feas_pos hf
  obtain ⟨x, hx, hc⟩ := hf
  refine ⟨x, hx, ?_⟩
  cases hc with
  | here hd => omega
  | ride h1 h2 h3 => exact .ride (ride_mono h1 (by omega)) h2 h3

theorem feas_ready {k : Nat} {s A : Int} : Feas P acc k s A ↔ ∃ d, Dst P d ∧ Ready P (startsAt acc s) k d A := by
  constructor
  · rintro ⟨x, hx, hc⟩
    have key : ∀ {n l t A}, Cont P (Dst P) n l t A → ∀ j, Ready P (startsAt acc s) j l t → ∃ d, Dst P d ∧ Ready P (startsAt acc s) (j + n) d A := by
      intro n l t A hc
      induction hc with
      | @here l t hd => intro j hr; exact ⟨l, hd, hr⟩
      | ride h1 h2 h3 ih =>
        intro j hr
        obtain ⟨d, g1, g2⟩ := ih (j + 1) (.ride hr h1 h2)
        exact ⟨d, g1, by rw [Nat.add_assoc, Nat.add_comm 1] at g2; exact g2⟩
    obtain ⟨d, g1, g2⟩ := key hc 0 (.start (mem_startsAt.mpr ⟨x.2, hx, rfl⟩))
    exact ⟨d, g1, by rw [Nat.zero_add] at g2; exact g2⟩
  · rintro ⟨d, hd, hr⟩
    obtain ⟨y, hy, hc⟩ := ready_cont hr (Cont.here (D := Dst P) hd)
    obtain ⟨o, ho, hy2⟩ := mem_startsAt.mp hy
    exact ⟨(y.1, o), ho, by simp only; rw [← hy2]; exact hc⟩

end

end Nigiri.Raptor
