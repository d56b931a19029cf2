import Verif.Props.TbQuery
import Verif.Proofs.TbComplete
/-!
# Property C54: optimality of the trip-based search
-/

namespace Nigiri.TB
open Raptor (Loc StopData)

/-! ## Marks -/

theorem construct_marks {tt : TT} {tbd : TbData} (hok : Ok tt tbd) (hreg : Regular tt tbd.prf) (Q : Query) (S : State) {r o i w : Nat}
    (hr : r < tt.routes.length) (ho : o < (tt.route r).nTr) (hi : i + 1 < (tt.route r).stops.length)
    (hw : LastWalk tt tbd.prf Q ((tt.route r).stop (i + 1)).loc w) :
    (construct tt tbd Q S).endReach (firstSeg tt (trFrom tt r + o) + i) = true ∧
    ∃ w', w' ≤ w ∧ (construct tt tbd Q S).distToDest (firstSeg tt (trFrom tt r + o) + i) = some w' := by
  -- one segment
  have inner : ∀ (d : Nat) (segs : List Nat) (S : State), (∀ s ∈ segs, (segs.foldl (markSeg d) S).endReach s = true ∧
      ∃ w', w' ≤ d ∧ (segs.foldl (markSeg d) S).distToDest s = some w') ∧ ∀ s d', (S.endReach s = true ∧ ∃ w', w' ≤ d' ∧ S.distToDest s = some w') →
      (segs.foldl (markSeg d) S).endReach s = true ∧ ∃ w', w' ≤ d' ∧ (segs.foldl (markSeg d) S).distToDest s = some w' := by
    intro d segs S
    have keep : ∀ (T : State) (a s d' : Nat), (T.endReach s = true ∧ ∃ w', w' ≤ d' ∧ T.distToDest s = some w') →
        (markSeg d T a).endReach s = true ∧ ∃ w', w' ≤ d' ∧ (markSeg d T a).distToDest s = some w' := by
      rintro T a s d' ⟨h1, w', h2, h3⟩
      simp only [markSeg, Raptor.upd]
      by_cases e : s = a
      · subst e
        simp only [if_true, h3]
        exact ⟨trivial, _, Nat.le_trans (Nat.min_le_left _ _) h2, rfl⟩
      · simp only [if_neg e]
        exact ⟨h1, w', h2, h3⟩
    refine ⟨(foldl_mark (fun _ => True) (fun s T => T.endReach s = true ∧ ∃ w', w' ≤ d ∧ T.distToDest s = some w') (markSeg d) segs S trivial
      (fun T a _ _ => ⟨trivial, ?_, fun a' h => keep T a a' d h⟩)).2.1, fun s d' hs => ?_⟩
    · simp only [markSeg, Raptor.upd, if_true]
      refine ⟨trivial, ?_⟩
      cases T.distToDest a with
      | none => exact ⟨d, Nat.le_refl _, rfl⟩
      | some d' => exact ⟨_, Nat.min_le_right _ _, rfl⟩
    · exact Raptor.foldl_inv (fun T : State => T.endReach s = true ∧ ∃ w', w' ≤ d' ∧ T.distToDest s = some w') _ _ _ hs (fun T a _ h => keep T a s d' h)
  have outer := (foldl_mark (fun _ => True) (fun (x : Loc × Nat) (T : State) => ∀ s ∈ destSegs tt tbd x.1, T.endReach s = true ∧
    ∃ w', w' ≤ x.2 ∧ T.distToDest s = some w') (markDest tt tbd) (destDists tt tbd Q) S.reset trivial
    (fun T x _ _ => ⟨trivial, (inner x.2 _ T).1, fun x' h s hs => (inner x.2 _ T).2 s x'.2 (h s hs)⟩)).2.1
  have hfirst := (preprocess_data hok.data).2.1 r o hr ho
  have hseg : firstSeg tt (trFrom tt r + o) + i ∈ destSegs tt tbd ((tt.route r).stop (i + 1)).loc := by
    unfold destSegs
    refine List.mem_flatMap.2 ⟨r, hreg.locRoutes r (i + 1) hi, List.mem_flatMap.2 ⟨i, List.mem_filter.2 ⟨List.mem_range.2 (by omega), ?_⟩, ?_⟩⟩
    · simp [hreg.alight _ (List.mem_of_getElem? (route_getElem hr)) (i + 1) (by omega) hi]
    · exact List.mem_map.2 ⟨o, List.mem_range.2 ho, by rw [hfirst]⟩
  have hdist : ∃ d, d ≤ w ∧ (((tt.route r).stop (i + 1)).loc, d) ∈ destDists tt tbd Q := by
    unfold LastWalk at hw
    unfold destDists
    by_cases hq : Q.dist = []
    · rw [if_pos hq] at hw ⊢
      rcases hw with ⟨h1, rfl⟩ | ⟨l, h1, h2⟩
      · exact ⟨0, Nat.le_refl _, List.mem_flatMap.2 ⟨_, h1, by simp⟩⟩
      · exact ⟨w, Nat.le_refl _, List.mem_flatMap.2 ⟨l, h1, List.mem_cons_of_mem _ (hreg.fpsIn _ _ _ h2)⟩⟩
    · rw [if_neg hq] at hw ⊢
      refine ⟨w, Nat.le_refl _, List.mem_filterMap.2 ⟨(some w, ((tt.route r).stop (i + 1)).loc), ?_, rfl⟩⟩
      rw [List.mem_zipIdx_iff_getElem?]
      rw [List.getD_eq_getElem?_getD] at hw
      cases hh : Q.dist[((tt.route r).stop (i + 1)).loc]? with
      | none => rw [hh] at hw; simp at hw
      | some x => rw [hh] at hw; simp only [Option.getD_some] at hw; subst hw; rfl
  obtain ⟨d, hd, hm⟩ := hdist
  obtain ⟨h1, w', h2, h3⟩ := outer _ hm _ hseg
  exact ⟨h1, w', Nat.le_trans h2 hd, h3⟩

/-! ## Arrivals below all bounds have been reported -/

structure Back (w : Int) (S : State) : Prop where
  mono : ∀ i j, i ≤ j → j < kMaxTransfers → S.tmin j ≤ S.tmin i
  back : ∀ n, n < kMaxTransfers → S.tmin n < w → ∃ m, m ≤ n ∧ S.parent m ≠ none ∧ S.tmin m = S.tmin n

theorem destUpd_back {w : Int} {S : State} (h : Back w S) (k q : Nat) (time : Int) : Back w (destUpd k q time S) := by
  have hk : kMaxTransfers = 14 := rfl
  have e : ∀ j, j < kMaxTransfers → (destUpd k q time S).tmin j = if k ≤ j ∧ S.tmin j > time then time else S.tmin j := by
    intro j hj
    simp only [destUpd]
    by_cases hc : k ≤ j ∧ S.tmin j > time
    · rw [if_pos hc, if_pos ⟨hc.1, by omega, hc.2⟩]
    · rw [if_neg hc, if_neg (fun x => hc ⟨x.1, x.2.2⟩)]
  have hp : ∀ m, S.parent m ≠ none → (destUpd k q time S).parent m ≠ none := by
    intro m hm
    simp only [destUpd]
    split
    · simp
    · exact hm
  refine ⟨?_, ?_⟩
  · intro i j hij hj
    rw [e i (by omega), e j hj]
    have := h.mono i j hij hj
    split <;> split <;> omega
  · intro n hn hlt
    rw [e n hn] at hlt ⊢
    by_cases hc : k ≤ n ∧ S.tmin n > time
    · rw [if_pos hc] at hlt ⊢
      have := h.mono k n hc.1 hn
      refine ⟨k, hc.1, ?_, ?_⟩
      · simp only [destUpd]
        rw [if_pos ⟨trivial, by omega, by omega⟩]
        simp
      · rw [e k (by omega), if_pos ⟨Nat.le_refl _, by omega⟩]
    · rw [if_neg hc] at hlt ⊢
      obtain ⟨m, h1, h2, h3⟩ := h.back n hn hlt
      refine ⟨m, h1, hp m h2, ?_⟩
      rw [e m (by omega), if_neg (by omega), h3]

theorem applyWorst_back {w worst : Int} {S : State} (h : Back w S) (hw : w ≤ worst) : Back w (applyWorst worst S) := by
  refine ⟨?_, ?_⟩
  · intro i j hij hj
    have := h.mono i j hij hj
    simp only [applyWorst]
    split <;> split <;> omega
  · intro n hn hlt
    simp only [applyWorst] at hlt ⊢
    by_cases hc : n < kMaxTransfers ∧ S.tmin n ≥ worst
    · rw [if_pos hc] at hlt; omega
    · rw [if_neg hc] at hlt ⊢
      obtain ⟨m, h1, h2, h3⟩ := h.back n hn hlt
      refine ⟨m, h1, ?_, ?_⟩
      · rw [if_neg (by omega)]; exact h2
      · rw [if_neg (by omega), h3]

theorem rounds_back (tt : TT) (tbd : TbData) (Q : Query) {w : Int} : ∀ (n k lo hi : Nat) (S : State), Back w S → Back w (rounds tt tbd Q n k lo hi S)
  | 0, _, _, _, _, h => h
  | n + 1, k, lo, hi, S, h => by
    unfold rounds
    by_cases hlo : lo = hi
    · rw [if_pos hlo]; exact h
    · rw [if_neg hlo]
      simp only
      refine rounds_back tt tbd Q n _ _ _ _ ?_
      unfold roundStep
      simp only
      refine Raptor.foldl_inv (Back w) _ _ _ ?_ ?_
      · refine Raptor.foldl_inv (Back w) _ _ _ ?_ ?_
        · refine Raptor.foldl_inv (Back w) _ _ _ h ?_
          intro T q _ hT
          unfold segDest
          split
          · exact hT
          · refine Raptor.foldl_inv (Back w) _ _ _ hT ?_
            intro T s _ hT
            split
            · exact destUpd_back hT _ _ _
            · exact hT
        · intro T q _ hT
          unfold segPrune
          split
          · exact hT
          · simp only
            split
            · exact ⟨hT.mono, hT.back⟩
            · exact hT
      · intro T q _ hT
        unfold segTransfers
        split
        · exact hT
        · exact ⟨hT.mono, hT.back⟩

theorem oneStart_back (tt : TT) (tbd : TbData) (Q : Query) (mt : Nat) {w : Int} {S : State} (h : Back w S) (starts : List (Loc × Nat)) {worst : Int}
    (hw : w ≤ worst) : Back w (oneStart tt tbd Q mt S starts worst).1 := by
  unfold oneStart execute
  refine rounds_back tt tbd Q _ _ _ _ _ (applyWorst_back ?_ hw)
  exact Raptor.foldl_inv (Back w) _ _ _ ⟨h.mono, h.back⟩ (fun T x _ hT => ⟨hT.mono, hT.back⟩)

/-! ## Histories -/

/-- The latest arrivals of interest of the calls after the last reset. -/
def worstsSince : List Step → List Int → List Int
  | [], acc => acc
  | .reset :: h, _ => worstsSince h []
  | .call _ worst :: h, acc => worstsSince h (acc ++ [worst])

theorem run_complete {tt : TT} {tbd : TbData} (hok : Ok tt tbd) (Q : Query) (mt : Nat) {w : Int} (hmax : w ≤ tMax) :
    ∀ (h : List Step) (S : State × List (Nat × Int)) (acc : List (Loc × Nat)) (ws : List Int) (H : List Ent), Explored tt tbd Q acc H S.1 →
      ((∀ x ∈ ws, w ≤ x) → Back w S.1) →
      let R := h.foldl (step tt tbd Q mt) S
      (∃ H', Explored tt tbd Q (startsSince h acc) H' R.1) ∧ ((∀ x ∈ worstsSince h ws, w ≤ x) → Back w R.1) ∧ SameMarks R.1 S.1
  | [], S, acc, ws, H, h1, h2 => ⟨⟨H, h1⟩, h2, rfl, rfl⟩
  | .reset :: h, S, acc, ws, H, h1, h2 => by
    obtain ⟨g1, g2, g3⟩ := run_complete hok Q mt hmax h (step tt tbd Q mt S .reset) [] [] [] (resetArrivals_explored tt tbd Q S.1)
      (fun _ => ⟨fun _ _ _ _ => Int.le_refl _, fun n _ hlt => by
        have : (step tt tbd Q mt S Step.reset).1.tmin n = tMax := rfl
        omega⟩)
    exact ⟨g1, g2, g3⟩
  | .call starts worst :: h, S, acc, ws, H, h1, h2 => by
    obtain ⟨E, h3, -⟩ := oneStart_explored hok h1 starts mt worst
    have hm := step_marks tt tbd Q mt S (.call starts worst)
    obtain ⟨g1, g2, g3⟩ := run_complete hok Q mt hmax h (step tt tbd Q mt S (.call starts worst)) (acc ++ starts) (ws ++ [worst]) (H ++ E) h3
      (fun hw => oneStart_back tt tbd Q mt (h2 fun x hx => hw x (List.mem_append_left _ hx)) starts (hw worst (List.mem_append_right _ (by simp))))
    exact ⟨g1, g2, g3.1.trans hm.1, g3.2.trans hm.2⟩

/-- C54: for timetables and queries as described by `Regular` and `QueryFit`, after any history of calls on a new engine the
results are optimal: for every journey of the timetable with `n` transfers from one of the start events since the last
reset that arrives at `A`, not after `W` and before the bounds given to the calls, there is a result with at most as many
transfers that arrives at `A` or earlier. -/
theorem C54_optimal (tt : TT) (tbd : TbData) (hok : Ok tt tbd) (hreg : Regular tt tbd.prf) (Q : Query) (maxTransfers : Nat) (h : List Step)
    (T0 W : Nat) (hfit : QueryFit tt tbd.prf Q (startsSince h []) T0 W) (n : Nat) (A : Int) (hn : n < kMaxTransfers)
    (hj : JourneyFrom tt tbd.prf Q (startsSince h []) (n + 1) A) (hW : A ≤ (W : Int)) (hmax : A < tMax) (hworst : ∀ w ∈ worstsSince h [], A < w) :
    ∃ m A', (m, A') ∈ (run tt tbd Q maxTransfers State.fresh h).2 ∧ m ≤ n ∧ A' ≤ A := by
  obtain ⟨e1, e2, e3⟩ := construct_rest tt tbd Q State.fresh
  obtain ⟨⟨H, hex⟩, hback, hmarks⟩ := run_complete hok Q maxTransfers (w := A + 1) (by omega) h (construct tt tbd Q State.fresh, []) [] [] []
    ⟨by simp only [e1]; rfl, fun p x hp => by simp at hp, by simp, by simp⟩
    (fun _ => ⟨fun i j _ _ => by simp only [e2]; exact Int.le_refl _, fun n _ hlt => by
      simp only [e2] at hlt
      have : State.fresh.tmin n = tMax := rfl
      omega⟩)
  have hb := hback (fun x hx => by have := hworst x hx; omega)
  have hctx : Ctx tt tbd Q (startsSince h []) T0 W H (run tt tbd Q maxTransfers State.fresh h).1 := by
    refine ⟨hok, hreg, hfit, hex, hb.mono, ?_⟩
    intro r o i w hr ho hi hw
    have := construct_marks hok hreg Q State.fresh hr ho hi hw
    unfold run
    rw [hmarks.1, hmarks.2]
    exact this
  have hle := all_found hctx (n + 1) (by omega) A hj hW
  simp only [Nat.add_sub_cancel] at hle
  obtain ⟨m, h1, h2, h3⟩ := hb.back n hn (by
    have : (h.foldl (step tt tbd Q maxTransfers) (construct tt tbd Q State.fresh, [])).1 = (run tt tbd Q maxTransfers State.fresh h).1 := rfl
    rw [this]; omega)
  obtain ⟨-, -, h4⟩ := run_inv hok Q maxTransfers h (construct tt tbd Q State.fresh, []) []
    (construct_inv hok Q State.fresh (fun _ => rfl) (fun _ _ => rfl)) (by intro x hx; simp at hx)
    (by intro n _ hp; simp only [e3] at hp; exact absurd rfl hp)
  refine ⟨m, _, h4 m (by omega) h2, h1, ?_⟩
  rw [h3]
  exact hle

/-! ## Example -/

/-- Lower bounds of zero are admissible. -/
theorem lb_zero {tt : TT} {prf : Nat} (hreg : Regular tt prf) {Q : Query} {W : Nat} (h0 : ∀ l, Q.lb l ≤ 0) :
    ∀ r o day i0 i A, r < tt.routes.length → o < (tt.route r).nTr → ((tt.route r).bits o).testBit day = true → 0 < i0 → i0 ≤ i →
    i < (tt.route r).stops.length → A ≤ (W : Int) →
    Raptor.Onward .fwd (net tt prf Q) ((tt.route r).stop i).loc ((day : Int) * 1440 + ((tt.route r).arr o i : Nat)) A →
    (day : Int) * 1440 + ((tt.route r).arr o i0 : Nat) + Q.lb ((tt.route r).stop i0).loc ≤ A := by
  intro r o day i0 i A hr ho _ h1 h2 h3 _ hon
  have ha := (hreg.trip hr ho).2.1 i0 i h1 h2 h3
  have hl := h0 ((tt.route r).stop i0).loc
  have : (day : Int) * 1440 + ((tt.route r).arr o i : Nat) ≤ A := by
    rcases hon with h | ⟨n, l, t, hw, hj⟩
    · obtain ⟨w, _, rfl⟩ := lastWalk_arrive.1 h
      omega
    · obtain ⟨w, _, rfl⟩ := changeWalk_walk.1 hw
      obtain ⟨r', o', d', j', q', n', A', hleg, _, rfl, haft⟩ := journey_after hj
      have := haft.le hreg
      have := hleg.dep_arr hreg
      have := hleg.time
      omega
  omega

namespace Demo54
open Demo37 (st)
open Demo53 (data)

/-- Line A: 0 at 10:00, 1 at 10:10, 2 at 10:40.  Line B, five minutes from station 1: 3 - 4 with trips at 10:30 and 11:40. -/
def tt : TT where
  routes := [⟨[st 0, st 1, st 2], 1, fun _ s => [0, 610, 640].getD s 0, fun _ s => [600, 610, 0].getD s 0, fun _ => 0b100000⟩,
    ⟨[st 3, st 4], 2, fun t _ => [660, 730].getD t 0, fun t _ => [630, 700].getD t 0, fun _ => 0b100000⟩]
  transfer := fun _ => 2
  fpsOut := fun _ l => [[], [(3, 5)], [], [(1, 5)]].getD l []
  fpsIn := fun _ l => [[], [(3, 5)], [], [(1, 5)]].getD l []
  locRoutes := fun l => [[0], [0], [0], [1], [1]].getD l []

def Q : Query := ⟨[], [4], fun _ => 0, 5⟩
def h : List Step := [.call [(0, 5 * 1440 + 590)] 100000]

theorem fp {p l l' w : Nat} (h : (l', w) ∈ tt.fpsOut p l) : (l = 1 ∧ l' = 3 ∨ l = 3 ∧ l' = 1) ∧ w = 5 := by
  match l with
  | 0 => simp [tt] at h
  | 1 => simp [tt] at h; simp [h]
  | 2 => simp [tt] at h
  | 3 => simp [tt] at h; simp [h]
  | n + 4 => simp [tt] at h

theorem routes {r : Route} (h : r ∈ tt.routes) : r = tt.route 0 ∨ r = tt.route 1 := by
  simp only [tt, List.mem_cons, List.not_mem_nil, or_false] at h
  exact h

theorem ok : Ok tt (data tt) := by
  have h : (data tt).prf = 0 := by decide +kernel
  have h' : (preprocess tt 0).isSome = true := by decide +kernel
  refine ⟨?_, ?_, ?_⟩
  · rw [h]
    refine ⟨?_, ?_, ?_, fun l => by show 2 ≤ 60000; decide, ?_⟩
    · intro r hr s hs u hu
      rcases routes hr with rfl | rfl
      · exact absurd hu (by show ¬ u + 1 < 1; omega)
      · have hu : u + 1 < 2 := hu
        have : u = 0 := by omega
        subst this
        have hs : s + 1 < 2 := hs
        have : s = 0 := by omega
        subst this
        decide
    · intro r hr
      rcases routes hr with rfl | rfl <;> decide
    · intro r hr
      rcases routes hr with rfl | rfl <;> decide
    · intro l x hx
      have := fp (l' := x.1) (w := x.2) hx
      omega
  · rw [h]
    unfold data
    cases e : preprocess tt 0 with
    | none => rw [e] at h'; simp at h'
    | some x => rfl
  · intro l x hx
    rw [h] at hx ⊢
    obtain ⟨h1, h2⟩ := fp (p := 0) (l := l) (l' := x.1) (w := x.2) hx
    obtain ⟨a, b⟩ := x
    simp only at h1 h2
    subst h2
    rcases h1 with ⟨rfl, rfl⟩ | ⟨rfl, rfl⟩ <;> simp [tt]

theorem reg : Regular tt (data tt).prf := by
  have hprf : (data tt).prf = 0 := by decide +kernel
  rw [hprf]
  have small : ∀ r ∈ tt.routes, ∀ t, t < r.nTr → ∀ i, i < r.stops.length → r.dep t i < 1440 ∧ r.arr t i < 1440 := by
    intro r hr
    rcases routes hr with rfl | rfl <;> decide
  refine ⟨rfl, ?_, ?_, ?_, ?_, ?_, ?_, fun l => by show 2 ≤ 30000; decide, ?_, ?_, ?_, ?_⟩
  · intro r hr i h0 hi
    have : ∀ r ∈ tt.routes, ∀ i, i < r.stops.length → (r.stop i).outAllowed = true := by
      intro r hr
      rcases routes hr with rfl | rfl <;> decide
    exact this r hr i hi
  · intro r hr
    rcases routes hr with rfl | rfl
    · refine ⟨fun t t' h1 h2 => ?_, fun t t' h1 h2 => ?_, fun t t' h1 h2 => ?_, fun t t' h1 h2 => ?_⟩
      · exact absurd (show t' < 1 from h2) (by omega)
      · exact absurd (show t' < 1 from h2) (by omega)
      · have h1 : t < 1 := h1
        have h2 : t' < 1 := h2
        have : t = 0 := by omega
        have : t' = 0 := by omega
        subst t t'
        exact fun _ _ => rfl
      · have h1 : t < 1 := h1
        have h2 : t' < 1 := h2
        have : t = 0 := by omega
        have : t' = 0 := by omega
        subst t t'
        exact fun _ _ _ => rfl
    · refine ⟨fun t t' h1 h2 => ?_, fun t t' h1 h2 => ?_, fun t t' h1 h2 s hs => ?_, fun t t' h1 h2 s h0 hs => ?_⟩
      · have h2 : t' < 2 := h2
        have : t = 0 := by omega
        have : t' = 1 := by omega
        subst t t'
        intro s hs
        show 630 % 1440 ≤ 700 % 1440
        decide
      · have h2 : t' < 2 := h2
        have : t = 0 := by omega
        have : t' = 1 := by omega
        subst t t'
        intro s _ hs
        show 660 % 1440 ≤ 730 % 1440
        decide
      · have a := (small (tt.route 1) (by simp [tt, TT.route]) t h1 s (by have : s + 1 < (tt.route 1).stops.length := hs; omega)).1
        have b := (small (tt.route 1) (by simp [tt, TT.route]) t' h2 s (by have : s + 1 < (tt.route 1).stops.length := hs; omega)).1
        show (tt.route 1).dep t s / 1440 = (tt.route 1).dep t' s / 1440
        omega
      · have a := (small (tt.route 1) (by simp [tt, TT.route]) t h1 s hs).2
        have b := (small (tt.route 1) (by simp [tt, TT.route]) t' h2 s hs).2
        show (tt.route 1).arr t s / 1440 = (tt.route 1).arr t' s / 1440
        omega
  · intro r hr t t' h1 h2
    rcases routes hr with rfl | rfl
    · exact absurd (show t' < 1 from h2) (by omega)
    · have h2 : t' < 2 := h2
      have : t = 0 := by omega
      have : t' = 1 := by omega
      subst t t'
      decide
  · intro r hr
    rcases routes hr with rfl | rfl
    · intro t ht
      have ht : t < 1 := ht
      have : t = 0 := by omega
      subst this
      unfold Raptor.TimesOk
      constructor
      · intro s hs
        have hs : s + 1 < 3 := hs
        match s with
        | 0 => decide
        | 1 => decide
        | s + 2 => omega
      · intro s h0 hs
        have hs : s + 1 < 3 := hs
        match s with
        | 0 => omega
        | 1 => decide
        | s + 2 => omega
    · intro t ht
      have ht : t < 2 := ht
      constructor
      · intro s hs
        match t with
        | 0 => show (630 : Int) ≤ 660; decide
        | 1 => show (700 : Int) ≤ 730; decide
        | t + 2 => omega
      · intro s h0 hs
        have hs : s + 1 < 2 := hs
        omega
  · intro r hr t ht i hi
    have := small r hr t ht i hi
    omega
  · intro r hr t ht d hd
    have hb : r.bits t = 0b100000 := by rcases routes hr with rfl | rfl <;> rfl
    rw [hb] at hd
    by_cases hd' : d < 6
    · unfold nBits; omega
    · rw [Nat.testBit_lt_two_pow (Nat.lt_of_lt_of_le (show 0b100000 < 2 ^ 6 by decide) (Nat.pow_le_pow_right (by decide) (by omega)))] at hd
      simp at hd
  · intro p l x hx
    have := fp (l' := x.1) (w := x.2) hx
    omega
  · intro r i hi
    match r with
    | 0 =>
      have hi : i < 3 := hi
      match i with
      | 0 => decide
      | 1 => decide
      | 2 => decide
      | i + 3 => omega
    | 1 =>
      have hi : i < 2 := hi
      match i with
      | 0 => decide
      | 1 => decide
      | i + 2 => omega
    | r + 2 => exact absurd hi (by simp [TT.route, tt])
  · intro l l' w hh
    obtain ⟨h1, rfl⟩ := fp hh
    rcases h1 with ⟨rfl, rfl⟩ | ⟨rfl, rfl⟩ <;> simp [tt]
  · intro m l l' w1 w2 h1 h2
    have a := fp h1
    have b := fp h2
    right
    refine ⟨by grind, ?_⟩
    show 2 ≤ w1 + w2
    omega

theorem fit : QueryFit tt (data tt).prf Q (startsSince h []) (5 * 1440 + 590) (6 * 1440) := by
  have hlast : ∀ {p m w : Nat}, LastWalk tt p Q m w → m = 4 := by
    intro p m w hw
    unfold LastWalk at hw
    rw [if_pos (show Q.dist = [] from rfl)] at hw
    rcases hw with ⟨h1, _⟩ | ⟨l, h1, h2⟩
    · simpa [Q] using h1
    · have := fp h2
      simp only [Q, List.mem_singleton] at h1
      grind
  refine ⟨?_, ?_, by decide, by decide, by decide, by decide, ?_, ?_, lb_zero reg fun _ => Int.le_refl _⟩
  · intro m l w w' h1 h2
    have := fp h1
    have := hlast h2
    omega
  · intro x hx
    simp only [startsSince, h, List.nil_append, List.mem_singleton] at hx
    subst hx
    decide
  · intro x hx w hw
    simp only [startsSince, h, List.nil_append, List.mem_singleton] at hx
    subst hx
    have := hlast hw
    simp at this
  · intro x hx l w hw
    simp only [startsSince, h, List.nil_append, List.mem_singleton] at hx
    subst hx
    have := fp hw
    omega

/-- The hypotheses of C54 are met by a journey with a change, and the search finds it. -/
example : (Ok tt (data tt) ∧ Regular tt (data tt).prf ∧ QueryFit tt (data tt).prf Q (startsSince h []) (5 * 1440 + 590) (6 * 1440)) ∧
    JourneyFrom tt (data tt).prf Q (startsSince h []) 2 (5 * 1440 + 660) ∧
    (run tt (data tt) Q 7 State.fresh h).2 = [(1, 5 * 1440 + 660)] := by
  refine ⟨⟨ok, reg, fit⟩, ⟨_, List.mem_singleton.2 rfl, ?_⟩, by decide +kernel⟩
  have l1 : Leg tt 0 ((5 * 1440 + 590 : Nat) : Int) 0 0 5 0 1 := ⟨by decide, by decide, by decide, by decide, by decide, by decide, by decide, by decide, by decide⟩
  have l2 : Leg tt 3 ((5 * 1440 + 615 : Nat) : Int) 1 0 5 0 1 := ⟨by decide, by decide, by decide, by decide, by decide, by decide, by decide, by decide, by decide⟩
  refine .more (l1.ride _ _) (changeWalk_walk.2 ⟨5, Or.inr ?_, rfl⟩) (.last (l2.ride _ _) (lastWalk_arrive.2 ⟨0, ?_, rfl⟩))
  · simp [tt, st, TT.route, Route.stop]
  · unfold LastWalk
    rw [if_pos (show Q.dist = [] from rfl)]
    exact Or.inl ⟨by decide, rfl⟩

/-- Line A: 0 at 10:00, 1 at 10:20, 2 at 10:25.  Line C: 1 at 10:23, 4 at 10:40.  Station 2 is ten minutes from station 4. -/
def ttWalk (fp : Bool) : TT where
  routes := [⟨[st 0, st 1, st 2], 1, fun _ s => [0, 620, 625].getD s 0, fun _ s => [600, 620, 0].getD s 0, fun _ => 0b100000⟩,
    ⟨[st 1, st 4], 1, fun _ _ => 640, fun _ _ => 623, fun _ => 0b100000⟩]
  transfer := fun _ => 2
  fpsOut := fun _ l => if fp then [[], [], [(4, 10)], [], [(2, 10)]].getD l [] else []
  fpsIn := fun _ l => if fp then [[], [], [(4, 10)], [], [(2, 10)]].getD l [] else []
  locRoutes := fun l => [[0], [0, 1], [0], [], [1]].getD l []

/-- C54 does not hold for queries with a last mile that can only be started where a vehicle stops (hence `QueryFit.dest`): the change
to line C, after which the last mile of 15 minutes from station 4 begins, is removed because station 4 is reached earlier on
foot.  Without the footpath the journey is found. -/
theorem C54_last_mile_counterexample :
    (run (ttWalk true) (data (ttWalk true)) ⟨[none, none, none, none, some 15], [], fun _ => 0, 5⟩ 7 State.fresh
      [.call [(0, 5 * 1440 + 590)] 100000]).2 = [] ∧
    (run (ttWalk false) (data (ttWalk false)) ⟨[none, none, none, none, some 15], [], fun _ => 0, 5⟩ 7 State.fresh
      [.call [(0, 5 * 1440 + 590)] 100000]).2 = [(1, 5 * 1440 + 655)] := by
  decide +kernel

end Demo54

end Nigiri.TB
