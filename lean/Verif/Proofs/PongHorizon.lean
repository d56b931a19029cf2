import Verif.Proofs.PongReach
/-!
# The horizon of a search (proofs)

No vehicle is left after the latest arrival given by the caller; only a walk at the end may go beyond it, if the search has no bounds.
-/

namespace Nigiri.Raptor

/-- A label beyond the horizon `w`: a walk that began before it. -/
def Over (P : Problem) (st : List (Loc × Int)) (w : Int) (k : Nat) (l : Loc) (t : Int) : Prop :=
  P.bound = none ∧ ∃ m a, a ≤ w ∧ Alt P st k m a ∧ Change P m a l t ∧ ¬ (P.intermodal = true ∧ l = P.endLoc)

structure Hor (P : Problem) (st : List (Loc × Int)) (w : Int) (S : State) : Prop where
  tad : ∀ i, S.tad i ≤ w
  tmp : ∀ l, P.hi ≤ S.tmp l ∨ S.tmp l ≤ w
  row : ∀ k l, 1 ≤ k → P.hi ≤ S.round k l ∨ S.round k l ≤ w ∨ Over P st w k l (S.round k l)

theorem lbOk_le {lb : Option Int} {t tad : Int} (h : lbOk lb t tad = true) : t ≤ tad := by
  unfold lbOk at h
  rw [Bool.and_eq_true, decide_eq_true_eq] at h
  exact h.1

/-- Arrivals are recorded up to the horizon only. -/
def ScanHor (P : Problem) (w : Int) (sc : Scan) : Prop := ∀ l, P.hi ≤ sc.tmp l ∨ sc.tmp l ≤ w

theorem alightAt_hor {P : Problem} {w : Int} {sc : Scan} (h : ScanHor P w sc) {tad : Int} (ht : tad ≤ w) (wi : Loc → Int → Bool) (l : Loc) (t : Int) :
    ScanHor P w (alightAt P tad wi l t sc) := by
  unfold alightAt
  split
  · rename_i hc
    rw [Bool.and_eq_true] at hc
    have := lbOk_le hc.1
    intro l'
    simp only [upd]
    split
    · right; omega
    · exact h l'
  · exact h

theorem scanRoute_hor {P : Problem} {w : Int} (r : Route) (rk best : Loc → Int) {tad : Int} (ht : tad ≤ w) (wi : Loc → Int → Bool) (prev : Loc → Bool)
    (rest : List Stop) (i : Nat) (et : Option Run) (sc : Scan) (h : ScanHor P w sc) : ScanHor P w (scanRoute P r rk best tad wi prev rest i et sc) := by
  induction rest generalizing i et sc with
  | nil => exact h
  | cons s rest ih =>
    have harr : ScanHor P w (arrive P r rk best tad wi i s (filterEt i s none et) sc).1 := by
      unfold arrive
      split
      · exact h
      · simp only
        split
        · split
          · exact alightAt_hor h ht _ _ _
          · exact h
        · exact h
    unfold scanRoute
    simp only
    split
    · exact ih _ _ _ harr
    · split
      · exact harr
      · exact ih _ _ _ harr

theorem scanRt_hor {P : Problem} {w : Int} (r : RtTransport) (rk : Loc → Int) {tad : Int} (ht : tad ≤ w) (wi : Loc → Int → Bool) (prev : Loc → Bool)
    (rest : List Stop) (i : Nat) (et : Bool) (sc : Scan) (h : ScanHor P w sc) : ScanHor P w (scanRt P r rk tad wi prev rest i et sc) := by
  induction rest generalizing i et sc with
  | nil => exact h
  | cons s rest ih =>
    have harr : ScanHor P w (if i ≠ 0 && filterEt i s false et && s.canAlight then
        alightAt P tad wi s.loc (P.clamp (r.alight i)) sc else sc) := by
      split
      · exact alightAt_hor h ht _ _ _
      · exact h
    unfold scanRt
    simp only
    split
    · exact harr
    · split
      · exact ih _ _ _ harr
      · exact ih _ _ _ harr

theorem scanAll_hor {P : Problem} {w : Int} (k : Nat) {S : State} (h : ∀ l, P.hi ≤ S.tmp l ∨ S.tmp l ≤ w) (best : Loc → Int) {tad : Nat → Int}
    (ht : ∀ i, tad i ≤ w) : ScanHor P w (scanAll P k S best tad) := by
  unfold scanAll
  simp only
  apply foldl_inv
  · apply foldl_inv
    · exact h
    · intro sc r _ hsc; exact scanRoute_hor r _ _ (ht k) _ _ _ _ _ _ hsc
  · intro sc r _ hsc; exact scanRt_hor r _ (ht k) _ _ _ _ _ _ hsc

section
variable {P : Problem} {st : List (Loc × Int)} {w : Int} {k : Nat}

theorem updTad_hor {tad : Nat → Int} (h : ∀ i, tad i ≤ w) (t : Int) : ∀ i, updTad tad k t i ≤ w :=
  fun i => Int.le_trans (updTad_le _ _ _ _) (h i)

theorem applyUpd_hor {S : State} (h : Hor P st w S) (l : Loc) (t : Int) (hc : t < P.hi → Over { P with bound := none } st w k l t) :
    Hor P st w (applyUpd P k S l t) := by
  have hc : P.bound = none → t < P.hi → Over P st w k l t := by
    intro hb hlt
    obtain ⟨-, m, a, h1, ⟨j, l0, t0, g1, g2, g3⟩, h3, h4⟩ := hc hlt
    refine ⟨hb, m, a, h1, ⟨j, l0, t0, g1, ?_, g3⟩, h3, h4⟩
    exact (ready_setBound (P := P) (b := none)).mp g2
  unfold applyUpd
  split
  · split
    · rename_i hok
      rw [Bool.and_eq_true] at hok
      have hle := lbOk_le hok.1
      have := h.tad k
      refine ⟨?_, h.tmp, ?_⟩
      · simp only
        split
        · exact updTad_hor h.tad _
        · exact h.tad
      · intro k' l' hk'
        simp only [updRound]
        split
        · right; left; omega
        · exact h.row k' l' hk'
    · split
      · rename_i hb
        rw [Option.isNone_iff_eq_none] at hb
        refine ⟨h.tad, h.tmp, ?_⟩
        intro k' l' hk'
        simp only [updRound]
        split
        · rename_i he
          obtain ⟨rfl, rfl⟩ := he
          by_cases hm : t ≤ S.round k' l'
          · rw [Int.min_eq_left hm]
            by_cases hlt : t < P.hi
            · exact Or.inr (Or.inr (hc hb hlt))
            · left; omega
          · rw [Int.min_eq_right (by omega)]
            exact h.row k' l' hk'
        · exact h.row k' l' hk'
      · exact h
  · exact h

theorem endWrite_hor {S : State} (h : Hor P st w S) (t : Int) (ht : t ≤ S.tad k) :
    Hor P st w { S with round := updRound S.round k P.endLoc t, best := upd S.best P.endLoc t, tad := updTad S.tad k t } := by
  have := h.tad k
  refine ⟨updTad_hor h.tad _, h.tmp, ?_⟩
  intro k' l' hk'
  simp only [updRound]
  split
  · right; left; omega
  · exact h.row k' l' hk'

theorem cand_hor (hs : Sane P) (hst : ∀ x ∈ st, P.lo < x.2) {S : State} (h : SoundSt P st k S) (hh : Hor P st w S) (i : Loc) (hi : S.tmp i ≠ P.hi)
    (l' : Loc) (d : Int) (hd : 0 ≤ d) (hc : Change P i (S.tmp i) l' (S.tmp i + d)) (hne : ¬ (P.intermodal = true ∧ l' = P.endLoc)) :
    P.clamp (S.tmp i + d) < P.hi → Over { P with bound := none } st w k l' (P.clamp (S.tmp i + d)) := by
  intro hlt
  have ht := h.tmp i
  have ha := ht.2 (by omega)
  have hw : S.tmp i ≤ w := by
    rcases hh.tmp i with g | g <;> omega
  have := alt_ge hs hst ha
  rw [clamp_of_lt (by omega) hlt]
  obtain ⟨j, l, t, g1, g2, g3⟩ := ha
  exact ⟨rfl, i, S.tmp i, hw, ⟨j, l, t, g1, (ready_setBound (P := P) (b := none)).mpr g2, g3⟩, hc, hne⟩

theorem transferAt_hor (hs : Sane P) (hst : ∀ x ∈ st, P.lo < x.2) {S : State} (h : SoundSt P st k S) (hh : Hor P st w S) (i : Loc)
    (hne : P.intermodal = true → i ≠ P.endLoc) : Hor P st w (transferAt P k S i) := by
  unfold transferAt
  split
  · exact hh
  · rename_i hi
    apply applyUpd_hor hh
    have hd : 0 ≤ transferTime P i := by
      unfold transferTime; have := hs.transfer i; split <;> omega
    refine cand_hor hs hst h hh i hi i (transferTime P i) hd (Or.inl ⟨rfl, ?_⟩) (fun hc => hne hc.1 hc.2)
    unfold transferTime
    congr 1
    by_cases h1 : P.intermodal = false <;> by_cases h2 : P.isDest i = true <;> simp [h1, h2]

theorem applyEnd_hor {S : State} (hh : Hor P st w S) (t : Int) : Hor P st w (applyEnd P k S t) := by
  unfold applyEnd
  split
  · rename_i hc; exact endWrite_hor hh _ hc
  · exact hh

theorem applyEndTd_hor {S : State} (hh : Hor P st w S) (t : Int) : Hor P st w (applyEndTd P k S t) := by
  unfold applyEndTd
  split
  · rename_i hc; exact endWrite_hor hh _ hc.1
  · exact hh

theorem endAt_hor {S : State} (hh : Hor P st w S) (i : Loc) : Hor P st w (endAt P k S i) := by
  unfold endAt
  split
  · exact hh
  · have h1 : Hor P st w (match P.endDist i with
      | some d => applyEnd P k S (P.clamp (S.tmp i + d))
      | none => S) := by
      cases P.endDist i with
      | none => exact hh
      | some d => exact applyEnd_hor hh _
    simp only
    cases P.endTd i (S.tmp i) with
    | none => exact h1
    | some d => exact applyEndTd_hor h1 _

theorem footpathsAt_hor {win : Int} (ht : Tame P win) (hst : ∀ x ∈ st, P.lo < x.2) {S : State} (h : SoundSt P st k S) (hh : Hor P st w S) (i : Loc) :
    Hor P st w (footpathsAt P k S i) := by
  have hs := ht.toSane
  unfold footpathsAt
  split
  · exact hh
  · rename_i hi
    suffices H : ∀ (fs : List (Loc × Int)) (S' : State), (∀ f ∈ fs, f ∈ P.fps i (S.tmp i)) → S'.tmp = S.tmp → SoundSt P st k S' → Hor P st w S' →
        Hor P st w (fs.foldl (fun S fp => applyUpd P k S fp.1 (P.clamp (S.tmp i + fp.2))) S') from
      H _ S (fun _ hf => hf) rfl h hh
    intro fs
    induction fs with
    | nil => intro S' _ _ _ h'; exact h'
    | cons f fs ih =>
      intro S' hf htmp h' hh'
      simp only [List.foldl_cons]
      have hmem := hf f (by simp)
      have hch : Change P i (S'.tmp i) f.1 (S'.tmp i + f.2) := Or.inr (Or.inl ⟨f.2, by rw [htmp]; exact hmem, rfl⟩)
      have hd := hs.fps i _ f.1 f.2 hmem
      refine ih _ (fun g hg => hf g (by simp [hg])) (by rw [applyUpd_tmp, htmp]) ?_ ?_
      · have := cand_ok hs hst h' i (by rw [htmp]; exact hi) f.1 f.2 hd hch
        exact applyUpd_ok h' f.1 _ this.1 this.2
      · apply applyUpd_hor hh'
        refine cand_hor hs hst h' hh' i (by rw [htmp]; exact hi) f.1 f.2 hd hch ?_
        rintro ⟨him, he⟩
        exact ht.endFps him _ _ f.2 (by rw [← he]; exact hmem)

theorem tadOfBest_hor {tad : Nat → Int} (h : ∀ i, tad i ≤ w) (best : Loc → Int) : ∀ i, tadOfBest P k best tad i ≤ w :=
  fun i => Int.le_trans (tadOfBest_le _ _ _ _ i) (h i)

theorem roundStep_hor {win : Int} (ht : Tame P win) (hst : ∀ x ∈ st, P.lo < x.2) {S : State} (h : SoundSt P st k S) (hh : Hor P st w S) :
    Hor P st w (roundStep P (k + 1) S) := by
  have hs := ht.toSane
  unfold roundStep
  simp only
  split
  · exact ⟨tadOfBest_hor hh.tad _, hh.tmp, hh.row⟩
  · have hsc := scanAll_ok hs hst h (fun i => min (S.round (k + 1) i) (S.best i))
      (tadOfBest P (k + 1) (fun i => min (S.round (k + 1) i) (S.best i)) S.tad)
    have hsh := scanAll_hor (P := P) (k + 1) hh.tmp (fun i => min (S.round (k + 1) i) (S.best i)) (tadOfBest_hor (P := P) (k := k + 1) hh.tad (fun i => min (S.round (k + 1) i) (S.best i)))
    have hprev : P.intermodal = true → ∀ i ∈ marked P (scanAll P (k + 1) S (fun i => min (S.round (k + 1) i) (S.best i))
        (tadOfBest P (k + 1) (fun i => min (S.round (k + 1) i) (S.best i)) S.tad)).mark, i ≠ P.endLoc :=
      fun hi i h => scanAll_mark ht hi _ _ _ _ (List.mem_filter.mp h).2
    refine (foldl_inv (fun S => SoundSt P st (k + 1) S ∧ Hor P st w S) _ _ _ ?_ ?_).2
    · split
      · rename_i him
        refine foldl_inv (fun S => SoundSt P st (k + 1) S ∧ Hor P st w S) _ _ _ ?_ ?_
        · refine foldl_inv (fun S => SoundSt P st (k + 1) S ∧ Hor P st w S) _ _ _ ⟨⟨h.round, hsc⟩, ⟨tadOfBest_hor hh.tad _, hsh, hh.row⟩⟩ ?_
          intro S' i hi h'
          exact ⟨transferAt_ok hs hst h'.1 i, transferAt_hor hs hst h'.1 h'.2 i (fun him => hprev him i hi)⟩
        · intro S' i _ h'
          exact ⟨endAt_ok hs hst him h'.1 i, endAt_hor h'.2 i⟩
      · refine foldl_inv (fun S => SoundSt P st (k + 1) S ∧ Hor P st w S) _ _ _ ⟨⟨h.round, hsc⟩, ⟨tadOfBest_hor hh.tad _, hsh, hh.row⟩⟩ ?_
        intro S' i hi h'
        exact ⟨transferAt_ok hs hst h'.1 i, transferAt_hor hs hst h'.1 h'.2 i (fun him => hprev him i hi)⟩
    · intro S' i _ h'; exact ⟨footpathsAt_ok hs hst h'.1 i, footpathsAt_hor ht hst h'.1 h'.2 i⟩

theorem rounds_hor {win : Int} (ht : Tame P win) (hst : ∀ x ∈ st, P.lo < x.2) {S : State} (h : SoundSt P st 0 S) (hh : Hor P st w S) (n : Nat) :
    Hor P st w (rounds P S n) := by
  induction n with
  | zero => exact hh
  | succ n ih =>
    have := rounds_ok ht.toSane hst h n
    unfold rounds
    simp only
    split
    · exact ih
    · exact roundStep_hor ht hst this ih

theorem foldl_addStart_round {S : State} (xs : List (Loc × Int)) : (∀ k l, 1 ≤ k → (xs.foldl addStart S).round k l = S.round k l) ∧
    (xs.foldl addStart S).tmp = S.tmp ∧ (xs.foldl addStart S).tad = S.tad := by
  induction xs generalizing S with
  | nil => exact ⟨fun _ _ _ => rfl, rfl, rfl⟩
  | cons x xs ih =>
    obtain ⟨h1, h2, h3⟩ := ih (S := addStart S x)
    refine ⟨?_, h2, h3⟩
    intro k l hk
    rw [List.foldl_cons, h1 k l hk]
    show updRound _ _ _ _ _ _ = _
    unfold updRound
    rw [if_neg (by omega)]

/-- The labels of a run. -/
theorem runOne_hor {win : Int} (ht : Tame P win) (hst : ∀ x ∈ st, P.lo < x.2) {S : State} (n : Nat)
    (h : ∀ k' l, S.round k' l ≤ P.hi ∧ (S.round k' l < P.hi → Rdy P st k' l (S.round k' l)))
    (q : Start) (hq : ∀ x ∈ q.starts, x ∈ st) (hqhi : ∀ x ∈ q.starts, x.2 ≤ P.hi)
    (hh : ∀ k l, 1 ≤ k → P.hi ≤ S.round k l ∨ S.round k l ≤ q.worst ∨ Over P st q.worst k l (S.round k l)) :
    ∀ k l, 1 ≤ k → P.hi ≤ (runOne P n S q).round k l ∨ (runOne P n S q).round k l ≤ q.worst ∨ Over P st q.worst k l ((runOne P n S q).round k l) := by
  have h0 := runOne_ok ht.toSane hst 0 h q hq hqhi
  obtain ⟨h1, h2, h3⟩ := foldl_addStart_round (S := nextStart P S) q.starts
  refine (rounds_hor ht hst h0 ?_ n).row
  refine ⟨?_, ?_, ?_⟩
  · intro i
    show min q.worst _ ≤ _
    omega
  · intro l
    left
    show P.hi ≤ (q.starts.foldl addStart (nextStart P S)).tmp l
    rw [h2]; exact Int.le_refl _
  · intro k l hk
    show _ ≤ (q.starts.foldl addStart (nextStart P S)).round k l ∨ (q.starts.foldl addStart (nextStart P S)).round k l ≤ _ ∨
      Over P st q.worst k l ((q.starts.foldl addStart (nextStart P S)).round k l)
    rw [h1 k l hk]
    exact hh k l hk

/-- At a destination only a footpath leads beyond the horizon. -/
theorem Over.dest {l : Loc} {t : Int} (h : Over P st w k l t) (hl : P.isDest l = true) (hend : P.intermodal = true → ∀ l, P.isDest l = true → l = P.endLoc) :
    P.intermodal = false ∧ (t ≤ w ∨ ∃ m a d, a ≤ w ∧ Alt P st k m a ∧ (l, d) ∈ P.fps m a ∧ t = a + d) := by
  obtain ⟨-, m, a, h1, h2, h3, h4⟩ := h
  have him : P.intermodal = false := by
    cases hi : P.intermodal with
    | false => rfl
    | true => exact absurd ⟨hi, hend hi l hl⟩ h4
  refine ⟨him, ?_⟩
  rcases h3 with ⟨rfl, g⟩ | ⟨d, g1, g2⟩ | ⟨g, -⟩
  · left; rw [if_pos ⟨him, hl⟩] at g; omega
  · exact Or.inr ⟨m, a, d, h1, h2, g1, g2⟩
  · rw [him] at g; cases g

end

end Nigiri.Raptor
