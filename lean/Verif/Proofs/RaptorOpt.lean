import Verif.Proofs.RaptorScan
/-!
# Optimality of the round based search (proofs)
-/

namespace Nigiri.Raptor

/-- Best known arrivals are either still the horizon or realised by a label at a destination. -/
def TadOk (P : Problem) (W : Int) (S : State) : Prop :=
  ∀ i, W ≤ S.tad i ∨ ∃ k', k' ≤ i ∧ ∃ d, P.isDest d = true ∧ S.round k' d ≤ S.tad i

/-- Invariant of the label updates in round `k`. -/
structure Good (P : Problem) (W : Int) (k : Nat) (S : State) : Prop where
  D : ∀ d, P.isDest d = true → S.tad k ≤ S.best d
  Dr : ∀ d, P.isDest d = true → S.tad k ≤ S.round k d
  M : ∀ l, S.best l ≤ S.round k l ∨ lbOk (P.lb l) (S.round k l) (S.tad k) = false
  T : TadOk P W S

/-- What updates in round `k` do to a state. -/
structure Rel (P : Problem) (k : Nat) (S0 S : State) : Prop where
  tmp : S.tmp = S0.tmp
  other : ∀ k' l, k' ≠ k → S.round k' l = S0.round k' l
  row : ∀ l, S.round k l ≤ S0.round k l
  best : ∀ l, S.best l ≤ S0.best l
  tad : ∀ i, S.tad i ≤ S0.tad i
  mark : ∀ l, S0.mark l = true → S.mark l = true
  done : S.done = S0.done
  RC : ∀ l, S.round k l = S0.round k l ∨ S.mark l = true ∨ lbOk (P.lb l) (S.round k l) (S.tad k) = false ∨ P.isDest l = true
  B : ∀ l, S.best l = S0.best l ∨ ((S.mark l = true ∨ P.isDest l = true) ∧ S.round k l ≤ S.best l)

theorem Rel.refl (P : Problem) (k : Nat) (S : State) : Rel P k S S where
  tmp := rfl
  other := fun _ _ _ => rfl
  row := fun _ => Int.le_refl _
  best := fun _ => Int.le_refl _
  tad := fun _ => Int.le_refl _
  mark := fun _ h => h
  done := rfl
  RC := fun _ => Or.inl rfl
  B := fun _ => Or.inl rfl

theorem lbOk_false_anti {lb : Option Int} {t tad tad' : Int} (h : lbOk lb t tad = false) (hd : tad' ≤ tad) : lbOk lb t tad' = false := by
  cases h' : lbOk lb t tad' with
  | false => rfl
  | true => rw [lbOk_anti h' (Int.le_refl _) hd] at h; cases h

theorem Rel.trans {P : Problem} {k : Nat} {S0 S1 S2 : State} (h1 : Rel P k S0 S1) (h2 : Rel P k S1 S2) : Rel P k S0 S2 where
  tmp := h2.tmp.trans h1.tmp
  other := fun k' l h => (h2.other k' l h).trans (h1.other k' l h)
  row := fun l => Int.le_trans (h2.row l) (h1.row l)
  best := fun l => Int.le_trans (h2.best l) (h1.best l)
  tad := fun i => Int.le_trans (h2.tad i) (h1.tad i)
  mark := fun l h => h2.mark l (h1.mark l h)
  done := h2.done.trans h1.done
  RC := by
    intro l
    rcases h2.RC l with h | h
    · rcases h1.RC l with g | g | g | g
      · exact Or.inl (h.trans g)
      · exact Or.inr (Or.inl (h2.mark l g))
      · right; right; left; rw [h]; exact lbOk_false_anti g (h2.tad k)
      · exact Or.inr (Or.inr (Or.inr g))
    · exact Or.inr h
  B := by
    intro l
    rcases h2.B l with h | h
    · rcases h1.B l with g | ⟨g1, g2⟩
      · exact Or.inl (h.trans g)
      · right
        refine ⟨?_, ?_⟩
        · rcases g1 with g | g
          · exact Or.inl (h2.mark l g)
          · exact Or.inr g
        · have := h2.row l; omega
    · exact Or.inr h

/-- Lower bound of a destination. -/
def DestLb (P : Problem) : Prop := ∀ d, P.isDest d = true → (P.intermodal = true → d ≠ P.endLoc) → P.lb d = some 0

theorem updRound_same (f : Nat → Loc → Int) (k : Nat) (l : Loc) (v : Int) : updRound f k l v k l = v := by
  unfold updRound; simp

theorem updRound_row (f : Nat → Loc → Int) (k : Nat) (l : Loc) (v : Int) (l' : Loc) :
    updRound f k l v k l' = if l' = l then v else f k l' := by
  unfold updRound; simp

theorem updRound_other (f : Nat → Loc → Int) (k : Nat) (l : Loc) (v : Int) (k' : Nat) (l' : Loc) (h : k' ≠ k) :
    updRound f k l v k' l' = f k' l' := by
  unfold updRound; simp [h]

theorem updRound_le {f : Nat → Loc → Int} {k : Nat} {l : Loc} {v : Int} (h : v ≤ f k l) (k' : Nat) (l' : Loc) :
    updRound f k l v k' l' ≤ f k' l' := by
  unfold updRound; split
  · rename_i hc; obtain ⟨rfl, rfl⟩ := hc; exact h
  · omega

/-- Lowering labels and lowering the bound to the value of a label at a destination. -/
theorem tadOk_upd {P : Problem} {W : Int} {S S' : State} {k : Nat} {t : Int} {d : Loc} (h : TadOk P W S)
    (hr : ∀ k' l, S'.round k' l ≤ S.round k' l)
    (htad : S'.tad = S.tad ∨ (S'.tad = updTad S.tad k t ∧ P.isDest d = true ∧ S'.round k d ≤ t)) : TadOk P W S' := by
  intro i
  have base : W ≤ S.tad i ∨ ∃ k', k' ≤ i ∧ ∃ d, P.isDest d = true ∧ S'.round k' d ≤ S.tad i := by
    rcases h i with h | ⟨k', hk', d, hd, h⟩
    · exact Or.inl h
    · exact Or.inr ⟨k', hk', d, hd, Int.le_trans (hr k' d) h⟩
  rcases htad with h1 | ⟨h1, h2, h3⟩
  · rw [h1]; exact base
  · rw [h1]
    simp only [updTad]
    by_cases hki : k ≤ i
    · rw [if_pos hki]
      by_cases hc : S.tad i ≤ t
      · rw [Int.min_eq_left hc]; exact base
      · rw [Int.min_eq_right (by omega)]
        exact Or.inr ⟨k, hki, d, h2, h3⟩
    · rw [if_neg hki]; exact base

theorem updTad_le (tad : Nat → Int) (k : Nat) (t : Int) (i : Nat) : updTad tad k t i ≤ tad i := by
  unfold updTad; split <;> omega

theorem updTad_self (tad : Nat → Int) (k : Nat) (t : Int) : updTad tad k t k ≤ t := by
  unfold updTad; simp; omega

theorem within_anti {P : Problem} {k : Nat} {l : Loc} {t t' : Int} (h : P.within k l t' = true) (ht : t ≤ t') :
    P.within k l t = true := by
  unfold Problem.within at *
  split
  · rfl
  · rename_i b hb
    rw [hb] at h
    simp only [decide_eq_true_eq] at h ⊢
    omega

theorem within_none {P : Problem} (h : P.bound.isNone = true) (k : Nat) (l : Loc) (t : Int) : P.within k l t = true := by
  unfold Problem.within
  rw [Option.isNone_iff_eq_none.mp h]

theorem applyUpd_good {P : Problem} (hdl : DestLb P) {W : Int} {k : Nat} {S : State} (h : Good P W k S) (l : Loc)
    (hl : P.intermodal = true → l ≠ P.endLoc) (t : Int) :
    Good P W k (applyUpd P k S l t) ∧ Rel P k S (applyUpd P k S l t) := by
  unfold applyUpd
  split
  · rename_i hbt
    split
    · rename_i hok
      rw [Bool.and_eq_true] at hok
      obtain ⟨hok, -⟩ := hok
      have htr : t ≤ S.round k l := by
        rcases h.M l with hm | hm
        · omega
        · apply Classical.byContradiction
          intro hc
          rw [lbOk_anti hok (by omega) (Int.le_refl _)] at hm
          cases hm
      have htad : ∀ i, (if P.isDest l = true then updTad S.tad k t else S.tad) i ≤ S.tad i := by
        intro i; split
        · exact updTad_le _ _ _ _
        · omega
      have htd : P.isDest l = true → (if P.isDest l = true then updTad S.tad k t else S.tad) k ≤ t := by
        intro hd; rw [if_pos hd]; exact updTad_self _ _ _
      refine ⟨⟨?_, ?_, ?_, ?_⟩, ?_⟩
      · intro d hd
        simp only [upd]
        by_cases he : d = l
        · rw [if_pos he]; exact htd (he ▸ hd)
        · rw [if_neg he]; exact Int.le_trans (htad k) (h.D d hd)
      · intro d hd
        simp only [updRound_row]
        by_cases he : d = l
        · rw [if_pos he]; exact htd (he ▸ hd)
        · rw [if_neg he]; exact Int.le_trans (htad k) (h.Dr d hd)
      · intro l'
        simp only [updRound_row, upd]
        split
        · left; omega
        · rcases h.M l' with hm | hm
          · exact Or.inl hm
          · exact Or.inr (lbOk_false_anti hm (htad k))
      · refine tadOk_upd (k := k) (t := t) (d := l) h.T (fun k' l' => updRound_le htr k' l') ?_
        simp only
        by_cases hd : P.isDest l = true
        · right; rw [if_pos hd]; exact ⟨rfl, hd, by rw [updRound_same]; omega⟩
        · left; rw [if_neg hd]
      · refine ⟨rfl, ?_, ?_, ?_, htad, ?_, rfl, ?_, ?_⟩
        · intro k' l' hk'; exact updRound_other _ _ _ _ _ _ hk'
        · intro l'; exact updRound_le htr k l'
        · intro l'; simp only [upd]; split
          · rename_i he; subst he; omega
          · omega
        · intro l' hm; simp only [upd]; split <;> simp_all
        · intro l'
          simp only [updRound_row, upd]
          split
          · right; left; rfl
          · left; rfl
        · intro l'
          simp only [updRound_row, upd]
          split
          · right; exact ⟨Or.inl rfl, Int.le_refl _⟩
          · left; rfl
    · rename_i hok0
      split
      · rename_i hbn
        have hok : ¬ lbOk (P.lb l) t (S.tad k) = true := by
          intro hc; apply hok0; rw [hc, within_none hbn]; rfl
        have hok' : lbOk (P.lb l) t (S.tad k) = false := by simpa using hok
        have hle : min t (S.round k l) ≤ S.round k l := by omega
        refine ⟨⟨h.D, ?_, ?_, ?_⟩, ?_⟩
        · intro d hd
          simp only [updRound_row]
          split
          · rename_i he; subst he
            have h1 := h.Dr d hd
            have : ¬ t ≤ S.tad k := by
              intro hc
              rw [show lbOk (P.lb d) t (S.tad k) = true from (lbOk_iff _ _ _).mpr ⟨hc, 0, hdl d hd hl, by omega⟩] at hok'
              cases hok'
            omega
          · exact h.Dr d hd
        · intro l'
          simp only [updRound_row]
          split
          · rename_i he; subst he
            by_cases hc : t ≤ S.round k l'
            · right; rw [Int.min_eq_left hc]; exact hok'
            · rw [Int.min_eq_right (by omega)]; exact h.M l'
          · exact h.M l'
        · exact tadOk_upd (k := k) (t := t) (d := l) h.T (fun k' l' => updRound_le hle k' l') (Or.inl rfl)
        · refine ⟨rfl, ?_, ?_, fun _ => Int.le_refl _, fun _ => Int.le_refl _, fun _ hm => hm, rfl, ?_, fun _ => Or.inl rfl⟩
          · intro k' l' hk'; exact updRound_other _ _ _ _ _ _ hk'
          · intro l'; exact updRound_le hle k l'
          · intro l'
            simp only [updRound_row]
            split
            · rename_i he; subst he
              by_cases hc : t < S.round k l'
              · right; right; left; rw [Int.min_eq_left (by omega)]; exact hok'
              · left; omega
            · left; rfl
      · exact ⟨h, .refl _ _ _⟩
  · exact ⟨h, .refl _ _ _⟩

theorem endWrite_good {P : Problem} (hed : P.isDest P.endLoc = true) {W : Int} {k : Nat} {S : State} (h : Good P W k S) (t : Int)
    (ht : t ≤ S.tad k) :
    let S' : State := { S with round := updRound S.round k P.endLoc t, best := upd S.best P.endLoc t, tad := updTad S.tad k t }
    Good P W k S' ∧ Rel P k S S' := by
  have h1 := h.Dr _ hed
  have h2 := h.D _ hed
  have htr : t ≤ S.round k P.endLoc := by omega
  refine ⟨⟨?_, ?_, ?_, ?_⟩, ?_⟩
  · intro d hd
    simp only [upd]
    split
    · exact updTad_self _ _ _
    · exact Int.le_trans (updTad_le _ _ _ _) (h.D d hd)
  · intro d hd
    simp only [updRound_row]
    split
    · exact updTad_self _ _ _
    · exact Int.le_trans (updTad_le _ _ _ _) (h.Dr d hd)
  · intro l'
    simp only [updRound_row, upd]
    split
    · left; omega
    · rcases h.M l' with hm | hm
      · exact Or.inl hm
      · exact Or.inr (lbOk_false_anti hm (updTad_le _ _ _ _))
  · exact tadOk_upd (k := k) (t := t) (d := P.endLoc) h.T (fun k' l' => updRound_le htr k' l')
      (Or.inr ⟨rfl, hed, by simp only [updRound_same]; omega⟩)
  · refine ⟨rfl, ?_, ?_, ?_, ?_, fun _ hm => hm, rfl, ?_, ?_⟩
    · intro k' l' hk'; exact updRound_other _ _ _ _ _ _ hk'
    · intro l'; exact updRound_le htr k l'
    · intro l'; simp only [upd]; split
      · rename_i he; subst he; omega
      · omega
    · intro i; exact updTad_le _ _ _ _
    · intro l'
      simp only [updRound_row]
      split
      · rename_i he; subst he; right; right; right; exact hed
      · left; rfl
    · intro l'
      simp only [updRound_row, upd]
      split
      · rename_i he; subst he; right; exact ⟨Or.inr hed, Int.le_refl _⟩
      · left; rfl

theorem applyEnd_good {P : Problem} (hed : P.isDest P.endLoc = true) {W : Int} {k : Nat} {S : State} (h : Good P W k S) (t : Int) :
    Good P W k (applyEnd P k S t) ∧ Rel P k S (applyEnd P k S t) := by
  unfold applyEnd
  split
  · exact endWrite_good hed h t (by assumption)
  · exact ⟨h, .refl _ _ _⟩

theorem applyEndTd_good {P : Problem} (hed : P.isDest P.endLoc = true) {W : Int} {k : Nat} {S : State} (h : Good P W k S) (t : Int) :
    Good P W k (applyEndTd P k S t) ∧ Rel P k S (applyEndTd P k S t) := by
  unfold applyEndTd
  split
  · rename_i hc; exact endWrite_good hed h t hc.1
  · exact ⟨h, .refl _ _ _⟩

/-- Folding updates that keep `Good`. -/
theorem foldl_good {P : Problem} {W : Int} {k : Nat} {α : Type} (f : State → α → State)
    (l : List α) (hf : ∀ S, ∀ a ∈ l, Good P W k S → Good P W k (f S a) ∧ Rel P k S (f S a)) (S : State) (h : Good P W k S) :
    Good P W k (l.foldl f S) ∧ Rel P k S (l.foldl f S) := by
  induction l generalizing S with
  | nil => exact ⟨h, .refl _ _ _⟩
  | cons a l ih =>
    have h1 := hf S a (by simp) h
    have h2 := ih (fun S a ha => hf S a (by simp [ha])) (f S a) h1.1
    exact ⟨h2.1, h1.2.trans h2.2⟩

/-- If one of the folded updates establishes something that updates keep, it holds afterwards. -/
theorem foldl_good_hit {P : Problem} {W : Int} {k : Nat} {α : Type} (f : State → α → State)
    (Q : State → Prop) (hQ : ∀ S S', Q S → Rel P k S S' → Q S') (l : List α)
    (hf : ∀ S, ∀ a ∈ l, Good P W k S → Good P W k (f S a) ∧ Rel P k S (f S a)) (a : α) (ha : a ∈ l) (S : State) (h : Good P W k S)
    (hhit : ∀ S', Good P W k S' → Rel P k S S' → Q (f S' a)) : Q (l.foldl f S) := by
  induction l generalizing S with
  | nil => simp at ha
  | cons x l ih =>
    simp only [List.foldl_cons]
    have h1 := hf S x (by simp) h
    have hf' : ∀ S, ∀ a ∈ l, Good P W k S → Good P W k (f S a) ∧ Rel P k S (f S a) := fun S a ha => hf S a (by simp [ha])
    rcases List.mem_cons.mp ha with rfl | hm
    · exact hQ _ _ (hhit S h (.refl _ _ _)) (foldl_good f l hf' _ h1.1).2
    · exact ih hf' hm _ h1.1 (fun S' hg hr => hhit S' hg (h1.2.trans hr))

theorem transferAt_good {P : Problem} (hdl : DestLb P) {W : Int} {k : Nat} (S : State) (i : Loc)
    (hi : P.intermodal = true → i ≠ P.endLoc) (h : Good P W k S) :
    Good P W k (transferAt P k S i) ∧ Rel P k S (transferAt P k S i) := by
  unfold transferAt
  split
  · exact ⟨h, .refl _ _ _⟩
  · exact applyUpd_good hdl h _ hi _

theorem endAt_good {P : Problem} (hed : P.isDest P.endLoc = true) {W : Int} {k : Nat} (S : State) (i : Loc) (h : Good P W k S) :
    Good P W k (endAt P k S i) ∧ Rel P k S (endAt P k S i) := by
  unfold endAt
  split
  · exact ⟨h, .refl _ _ _⟩
  · have h1 : Good P W k (match P.endDist i with | some d => applyEnd P k S (P.clamp (S.tmp i + d)) | none => S) ∧
        Rel P k S (match P.endDist i with | some d => applyEnd P k S (P.clamp (S.tmp i + d)) | none => S) := by
      cases P.endDist i with
      | none => exact ⟨h, .refl _ _ _⟩
      | some d => exact applyEnd_good hed h _
    simp only
    cases P.endTd i (S.tmp i) with
    | none => exact h1
    | some d =>
      have h2 := applyEndTd_good hed h1.1 (P.clamp (S.tmp i + d))
      exact ⟨h2.1, h1.2.trans h2.2⟩

theorem footpathsAt_good {P : Problem} {win : Int} (ht : Tame P win) (hdl : DestLb P) {W : Int} {k : Nat} (S : State) (i : Loc) (h : Good P W k S) :
    Good P W k (footpathsAt P k S i) ∧ Rel P k S (footpathsAt P k S i) := by
  unfold footpathsAt
  split
  · exact ⟨h, .refl _ _ _⟩
  · exact foldl_good _ _ (fun S a ha h => applyUpd_good hdl h _ (fun hi he => ht.endFps hi _ _ a.2 (by rw [← he]; exact ha)) _) _ h

theorem applyUpd_hit {P : Problem} {k : Nat} {S : State} {l : Loc} {t t' x A : Int} (ht : t ≤ t') (hlb : P.lb l = some x)
    (hx : 0 ≤ x) (hA : t' + x ≤ A) (hw : P.within k l t' = true) : (applyUpd P k S l t).best l ≤ t' ∨ (applyUpd P k S l t).tad k < A := by
  unfold applyUpd
  split
  · split
    · left; simp [upd]; exact ht
    · rename_i hok
      right
      have hlt : S.tad k < A := by
        apply Classical.byContradiction
        intro hc
        apply hok
        rw [within_anti hw ht, Bool.and_true, lbOk_iff]
        exact ⟨by omega, x, hlb, by omega⟩
      split <;> exact hlt
  · left; omega

theorem applyEndTd_hit {P : Problem} {k : Nat} {S : State} {t t' A : Int} (ht : t ≤ t') (hA : t' ≤ A) :
    (applyEndTd P k S t).best P.endLoc ≤ t' ∨ (applyEndTd P k S t).tad k < A := by
  unfold applyEndTd
  split
  · left; simp [upd]; exact ht
  · omega

/-- What a ride followed by a change leads to, or the bound already excludes it. -/
theorem changes_hit {P : Problem} {win : Int} (ht : Tame P win) (hdl : DestLb P) {W : Int} {k : Nat} {S0 : State} (h0 : Good P W k S0)
    (prev : List Loc) (hprev : P.intermodal = true → ∀ i ∈ prev, i ≠ P.endLoc) {m : Loc} (hm : m ∈ prev) {a : Int} (htmp : S0.tmp m ≤ a) (hahi : a < P.hi) (hlo : P.lo ≤ a) {l' : Loc} {t' A x : Int}
    (hw : t' ≤ S0.tmp m + win ∧ P.lo < S0.tmp m) (hch : Change P m a l' t') (hx : 0 ≤ x) (hA : t' + x ≤ A)
    (hlb : (P.intermodal = true → l' ≠ P.endLoc) → P.lb l' = some x)
    (hwi : (P.intermodal = true → l' ≠ P.endLoc) → P.within k l' t' = true) :
    let S1 := prev.foldl (transferAt P k) S0
    let S2 := if P.intermodal then prev.foldl (endAt P k) S1 else S1
    let S3 := prev.foldl (footpathsAt P k) S2
    (Good P W k S3 ∧ Rel P k S0 S3) ∧ (S3.best l' ≤ t' ∨ S3.tad k < A) := by
  intro S1 S2 S3
  have hS1 : Good P W k S1 ∧ Rel P k S0 S1 := foldl_good _ prev (fun S a ha h => transferAt_good hdl S a (fun hi => hprev hi a ha) h) S0 h0
  have hS2 : Good P W k S2 ∧ Rel P k S1 S2 := by
    show Good P W k (if P.intermodal then prev.foldl (endAt P k) S1 else S1) ∧ Rel P k S1 (if P.intermodal then prev.foldl (endAt P k) S1 else S1)
    split
    · rename_i him
      exact foldl_good _ prev (fun S a _ h => endAt_good (ht.endDest him) S a h) S1 hS1.1
    · exact ⟨hS1.1, .refl _ _ _⟩
  have hS3 : Good P W k S3 ∧ Rel P k S2 S3 := foldl_good _ prev (fun S a _ h => footpathsAt_good ht hdl S a h) S2 hS2.1
  refine ⟨⟨hS3.1, hS1.2.trans (hS2.2.trans hS3.2)⟩, ?_⟩
  have hQ : ∀ S S' : State, (S.best l' ≤ t' ∨ S.tad k < A) → Rel P k S S' → (S'.best l' ≤ t' ∨ S'.tad k < A) := by
    intro S S' h hr
    rcases h with h | h
    · left; have := hr.best l'; omega
    · right; have := hr.tad k; omega
  have htmp' : ∀ S : State, Rel P k S0 S → S.tmp m ≤ a ∧ S.tmp m ≠ P.hi ∧ t' ≤ S.tmp m + win ∧ P.lo < S.tmp m := by
    intro S hr; rw [hr.tmp]; exact ⟨htmp, by omega, hw⟩
  have hcl : ∀ (y d : Int), y ≤ a → 0 ≤ d → P.clamp (y + d) ≤ a + d := fun y d h1 h2 => clamp_le_of_le (by omega) (by omega)
  have hta := change_le ht.toSane hch
  rcases hch with ⟨rfl, rfl⟩ | ⟨d, hd, rfl⟩ | ⟨him, rfl, d, hd, rfl⟩
  · refine hQ _ _ (hQ _ _ ?_ hS2.2) hS3.2
    apply foldl_good_hit _ _ hQ prev (fun S a ha h => transferAt_good hdl S a (fun hi => hprev hi a ha) h) l' hm S0 h0
    intro S' _ hr
    have h1 := htmp' S' hr
    unfold transferAt
    rw [if_neg h1.2.1]
    refine applyUpd_hit ?_ (hlb (fun hi => hprev hi l' hm)) hx hA (hwi (fun hi => hprev hi l' hm))
    have htt : transferTime P l' = (if P.intermodal = false ∧ P.isDest l' = true then 0 else P.transfer l') := by
      unfold transferTime
      by_cases g1 : P.intermodal = false <;> by_cases g2 : P.isDest l' = true <;> simp [g1, g2]
    rw [htt]
    exact hcl _ _ h1.1 (by have := ht.transfer l'; split <;> omega)
  · have hne : P.intermodal = true → l' ≠ P.endLoc := fun hi he => ht.endFps hi _ _ d (by rw [← he]; exact hd)
    apply foldl_good_hit _ _ hQ prev (fun S a _ h => footpathsAt_good ht hdl S a h) m hm S2 hS2.1
    intro S' hg hr
    have h1 := htmp' S' (hS1.2.trans (hS2.2.trans hr))
    unfold footpathsAt
    rw [if_neg h1.2.1]
    obtain ⟨d', hd', hle⟩ := ht.fpsFifo m a (S'.tmp m) l' d h1.2.2.2 h1.1 h1.2.2.1 hd
    apply foldl_good_hit _ _ hQ _ (fun S b hb h => applyUpd_good hdl h _ (fun hi he => ht.endFps hi _ _ b.2 (by rw [← he]; exact hb)) _) (l', d') hd' S' hg
    intro S'' _ hr''
    simp only [hr''.tmp]
    refine applyUpd_hit ?_ (hlb hne) hx hA (hwi hne)
    exact clamp_le_of_le hle (by omega)
  · refine hQ _ _ ?_ hS3.2
    show (if P.intermodal then prev.foldl (endAt P k) S1 else S1).best P.endLoc ≤ a + d ∨
      (if P.intermodal then prev.foldl (endAt P k) S1 else S1).tad k < A
    rw [if_pos him]
    have hed := ht.endDest him
    apply foldl_good_hit _ (fun S => S.best P.endLoc ≤ a + d ∨ S.tad k < A) hQ prev (fun S a _ h => endAt_good hed S a h) m hm S1 hS1.1
    intro S' hg hr
    have h1 := htmp' S' (hS1.2.trans hr)
    unfold endAt
    rw [if_neg h1.2.1]
    simp only
    rcases hd with hd | hd
    · rw [hd]
      simp only
      have hc := hcl (S'.tmp m) d h1.1 (ht.endDist m d hd)
      have hfirst : (applyEnd P k S' (P.clamp (S'.tmp m + d))).best P.endLoc ≤ a + d ∨
          (applyEnd P k S' (P.clamp (S'.tmp m + d))).tad k < A := by
        unfold applyEnd
        split
        · left; simp [upd]; exact hc
        · right; omega
      cases P.endTd m (S'.tmp m) with
      | none => exact hfirst
      | some d2 => exact hQ _ _ hfirst (applyEndTd_good hed (applyEnd_good hed hg _).1 _).2
    · obtain ⟨d', hd', hle⟩ := ht.endFifo m a (S'.tmp m) d h1.2.2.2 h1.1 h1.2.2.1 hd
      rw [hd']
      simp only
      have hc : P.clamp (S'.tmp m + d') ≤ a + d := clamp_le_of_le hle (by omega)
      exact applyEndTd_hit hc (by omega)

/-! ## Rounds -/

theorem tadOfBest_le (P : Problem) (k : Nat) (best : Loc → Int) (tad : Nat → Int) (i : Nat) : tadOfBest P k best tad i ≤ tad i := by
  unfold tadOfBest
  exact foldl_inv (fun t : Nat → Int => t i ≤ tad i) _ _ _ (Int.le_refl _) (fun t a _ h => Int.le_trans (updTad_le _ _ _ _) h)

theorem tadOfBest_dest {P : Problem} (k : Nat) (best : Loc → Int) (tad : Nat → Int) {d : Loc} (hd : P.isDest d = true)
    (hn : d < P.nLoc) : tadOfBest P k best tad k ≤ best d := by
  unfold tadOfBest
  apply foldl_hit (fun t : Nat → Int => t k ≤ best d) _ _ _ d
  · unfold marked; rw [List.mem_filter]; exact ⟨by simpa using hn, hd⟩
  · intro t; exact updTad_self _ _ _
  · intro t a h; exact Int.le_trans (updTad_le _ _ _ _) h

/-- Each best time is realised by a label of one of the first rounds. -/
def BestReal (P : Problem) (k : Nat) (S : State) : Prop := ∀ l, P.hi ≤ S.best l ∨ ∃ i, i ≤ k ∧ S.round i l ≤ S.best l

theorem tadOfBest_ok {P : Problem} {W : Int} (hW : W ≤ P.hi) {S : State} {k : Nat} (h : TadOk P W S) (best : Loc → Int)
    (hb : ∀ l, P.hi ≤ best l ∨ ∃ i, i ≤ k ∧ S.round i l ≤ best l) :
    ∀ i, W ≤ tadOfBest P k best S.tad i ∨ ∃ k', k' ≤ i ∧ ∃ d, P.isDest d = true ∧ S.round k' d ≤ tadOfBest P k best S.tad i := by
  unfold tadOfBest
  apply foldl_inv (fun t : Nat → Int => ∀ i, W ≤ t i ∨ ∃ k', k' ≤ i ∧ ∃ d, P.isDest d = true ∧ S.round k' d ≤ t i)
  · exact h
  · intro t d hd ht i
    unfold marked at hd
    rw [List.mem_filter] at hd
    simp only [updTad]
    by_cases hki : k ≤ i
    · rw [if_pos hki]
      by_cases hc : t i ≤ best d
      · rw [Int.min_eq_left hc]; exact ht i
      · rw [Int.min_eq_right (by omega)]
        rcases hb d with g | ⟨i', g1, g2⟩
        · left; omega
        · right; exact ⟨i', by omega, d, hd.2, g2⟩
    · rw [if_neg hki]; exact ht i

/-- The state in which round `k + 1` begins to update labels satisfies the invariant. -/
theorem good_begin {P : Problem} {win W : Int} (ht : Tame P win) (hW : W ≤ P.hi) {S : State} {k : Nat} (hT : TadOk P W S)
    (hB : BestReal P k S) (tmp : Loc → Int) :
    let best := fun i => min (S.round (k + 1) i) (S.best i)
    Good P W (k + 1) { round := S.round, best := best, tmp := tmp, mark := fun _ => false, tad := tadOfBest P (k + 1) best S.tad, done := false } := by
  intro best
  refine ⟨?_, ?_, ?_, ?_⟩
  · intro d hd
    exact tadOfBest_dest _ _ _ hd (ht.destLocs d hd)
  · intro d hd
    have h1 := tadOfBest_dest (P := P) (k + 1) best S.tad hd (ht.destLocs d hd)
    have h2 : best d ≤ S.round (k + 1) d := by show min _ _ ≤ _; omega
    exact Int.le_trans h1 h2
  · intro l
    left
    show min (S.round (k + 1) l) (S.best l) ≤ S.round (k + 1) l
    omega
  · refine tadOfBest_ok hW hT best ?_
    intro l
    show P.hi ≤ min (S.round (k + 1) l) (S.best l) ∨ ∃ i, i ≤ k + 1 ∧ S.round i l ≤ min (S.round (k + 1) l) (S.best l)
    by_cases hc : S.round (k + 1) l ≤ S.best l
    · right; exact ⟨k + 1, Nat.le_refl _, by omega⟩
    · rw [Int.min_eq_right (by omega)]
      rcases hB l with h | ⟨i, h1, h2⟩
      · exact Or.inl h
      · exact Or.inr ⟨i, by omega, h2⟩

/-- A label of round `j` of the run that started in `S0`, whose station is marked for the next round. -/
def Lab (P : Problem) (S0 : State) (j : Nat) (l : Loc) (x : Int) : Prop :=
  (rounds P S0 j).done = false ∧ (rounds P S0 j).mark l = true ∧ (rounds P S0 j).round j l ≤ x

/-- Invariant of a run after `j` rounds. -/
structure RunInv (P : Problem) (W : Int) (S0 : State) (j : Nat) : Prop where
  T : TadOk P W (rounds P S0 j)
  high : ∀ i l, j < i → (rounds P S0 j).round i l = S0.round i l
  mono : ∀ i l, (rounds P S0 j).round i l ≤ S0.round i l
  best : ∀ l x, (rounds P S0 j).best l ≤ x → P.hi ≤ x ∨ (∃ i, i ≤ j ∧ Lab P S0 i l x) ∨
    (∃ i, 1 ≤ i ∧ i ≤ j ∧ S0.round i l ≤ x) ∨ (P.isDest l = true ∧ ∃ i, i ≤ j ∧ (rounds P S0 j).round i l ≤ x)
  rows : ∀ i l, i ≤ j → (rounds P S0 j).round i l = S0.round i l ∨ Lab P S0 i l ((rounds P S0 j).round i l) ∨
    lbOk (P.lb l) ((rounds P S0 j).round i l) ((rounds P S0 j).tad i) = false ∨ P.isDest l = true
  low : ∀ i l, i ≤ j → (rounds P S0 j).round i l = (rounds P S0 i).round i l

theorem RunInv.bestReal {P : Problem} {W : Int} {S0 : State} {j : Nat} (h : RunInv P W S0 j) : BestReal P j (rounds P S0 j) := by
  intro l
  rcases h.best l _ (Int.le_refl _) with g | ⟨i, g1, g2⟩ | ⟨i, g0, g1, g2⟩ | ⟨_, i, g1, g2⟩
  · exact Or.inl g
  · right; exact ⟨i, g1, by rw [h.low i l g1]; exact g2.2.2⟩
  · right; exact ⟨i, g1, Int.le_trans (h.mono i l) g2⟩
  · right; exact ⟨i, g1, g2⟩

/-- The steps of a round as one relation. -/
theorem roundStep_live {P : Problem} {win W : Int} (ht : Tame P win) (hdl : DestLb P) (hW : W ≤ P.hi) {S : State} {k : Nat}
    (hT : TadOk P W S) (hB : BestReal P k S)
    (hany : (!(P.routes.any fun r => touches S.mark r.stops) && !(P.rts.any fun r => touches S.mark r.stops)) = false) :
    ∃ S0 : State, S0.round = S.round ∧ S0.best = (fun i => min (S.round (k + 1) i) (S.best i)) ∧
      S0.tad = tadOfBest P (k + 1) (fun i => min (S.round (k + 1) i) (S.best i)) S.tad ∧ S0.done = false ∧ (∀ l, S0.mark l = false) ∧
      S0.tmp = (scanAll P (k + 1) S S0.best S0.tad).tmp ∧
      Good P W (k + 1) (roundStep P (k + 1) S) ∧ Rel P (k + 1) S0 (roundStep P (k + 1) S) ∧
      ∀ {m : Loc} {a : Int} {l' : Loc} {t' A x : Int}, (scanAll P (k + 1) S S0.best S0.tad).mark m = true → m < P.nLoc →
        S0.tmp m ≤ a → a < P.hi → P.lo ≤ a → (t' ≤ S0.tmp m + win ∧ P.lo < S0.tmp m) → Change P m a l' t' → 0 ≤ x → t' + x ≤ A →
        ((P.intermodal = true → l' ≠ P.endLoc) → P.lb l' = some x) →
        ((P.intermodal = true → l' ≠ P.endLoc) → P.within (k + 1) l' t' = true) →
        (roundStep P (k + 1) S).best l' ≤ t' ∨ (roundStep P (k + 1) S).tad (k + 1) < A := by
  let best := fun i => min (S.round (k + 1) i) (S.best i)
  let tad := tadOfBest P (k + 1) best S.tad
  let sc := scanAll P (k + 1) S best tad
  let S0 : State := { round := S.round, best := best, tmp := sc.tmp, mark := fun _ => false, tad := tad, done := false }
  have hg : Good P W (k + 1) S0 := good_begin ht hW hT hB sc.tmp
  let prev := marked P sc.mark
  have hprev : P.intermodal = true → ∀ i ∈ prev, i ≠ P.endLoc := fun hi i h => scanAll_mark ht hi _ _ _ _ (List.mem_filter.mp h).2
  let S1 := prev.foldl (transferAt P (k + 1)) S0
  let S2 := if P.intermodal then prev.foldl (endAt P (k + 1)) S1 else S1
  let S3 := prev.foldl (footpathsAt P (k + 1)) S2
  have heq : roundStep P (k + 1) S = S3 := by
    unfold roundStep
    simp only
    rw [if_neg (by rw [hany]; simp)]
  have hS1 : Good P W (k + 1) S1 ∧ Rel P (k + 1) S0 S1 := foldl_good _ prev (fun S a ha h => transferAt_good hdl S a (fun hi => hprev hi a ha) h) S0 hg
  have hS2 : Good P W (k + 1) S2 ∧ Rel P (k + 1) S1 S2 := by
    show Good P W (k + 1) (if P.intermodal then prev.foldl (endAt P (k + 1)) S1 else S1) ∧
      Rel P (k + 1) S1 (if P.intermodal then prev.foldl (endAt P (k + 1)) S1 else S1)
    split
    · rename_i him
      exact foldl_good _ prev (fun S a _ h => endAt_good (ht.endDest him) S a h) S1 hS1.1
    · exact ⟨hS1.1, .refl _ _ _⟩
  have hS3 : Good P W (k + 1) S3 ∧ Rel P (k + 1) S2 S3 := foldl_good _ prev (fun S a _ h => footpathsAt_good ht hdl S a h) S2 hS2.1
  refine ⟨S0, rfl, rfl, rfl, rfl, fun _ => rfl, rfl, ?_, ?_, ?_⟩
  · rw [heq]; exact hS3.1
  · rw [heq]; exact hS1.2.trans (hS2.2.trans hS3.2)
  · intro m a l' t' A x hm hml htmp hahi hlo hw hch hx hA hlb hwi
    rw [heq]
    have hmem : m ∈ prev := by
      show m ∈ marked P sc.mark
      unfold marked; rw [List.mem_filter]
      exact ⟨by simpa using hml, hm⟩
    exact (changes_hit ht hdl hg prev hprev hmem htmp hahi hlo hw hch hx hA hlb hwi).2

theorem runInv_succ {P : Problem} {win W : Int} (ht : Tame P win) (hdl : DestLb P) (hW : W ≤ P.hi) {S0 : State} {j : Nat}
    (h : RunInv P W S0 j) : RunInv P W S0 (j + 1) := by
  by_cases hdone : (rounds P S0 j).done = true
  · have heq : rounds P S0 (j + 1) = rounds P S0 j := by
      show (if (rounds P S0 j).done then _ else _) = _
      rw [if_pos hdone]
    refine ⟨?_, ?_, ?_, ?_, ?_, ?_⟩
    · rw [heq]; exact h.T
    · intro i l hi; rw [heq]; exact h.high i l (by omega)
    · intro i l; rw [heq]; exact h.mono i l
    · intro l x hx
      rw [heq] at hx ⊢
      rcases h.best l x hx with g | ⟨i, g1, g2⟩ | ⟨i, g0, g1, g2⟩ | ⟨g0, i, g1, g2⟩
      · exact Or.inl g
      · exact Or.inr (Or.inl ⟨i, by omega, g2⟩)
      · exact Or.inr (Or.inr (Or.inl ⟨i, g0, by omega, g2⟩))
      · exact Or.inr (Or.inr (Or.inr ⟨g0, i, by omega, g2⟩))
    · intro i l hi
      rw [heq]
      by_cases hij : i ≤ j
      · exact h.rows i l hij
      · left; exact h.high i l (by omega)
    · intro i l hi
      rw [heq]
      by_cases hij : i ≤ j
      · exact h.low i l hij
      · rw [show i = j + 1 by omega, heq]
  · have heq : rounds P S0 (j + 1) = roundStep P (j + 1) (rounds P S0 j) := by
      show (if (rounds P S0 j).done then _ else _) = _
      rw [if_neg hdone]
    by_cases hany : (!(P.routes.any fun r => touches (rounds P S0 j).mark r.stops) && !(P.rts.any fun r => touches (rounds P S0 j).mark r.stops)) = true
    · have hst : roundStep P (j + 1) (rounds P S0 j) = { rounds P S0 j with
          best := fun i => min ((rounds P S0 j).round (j + 1) i) ((rounds P S0 j).best i),
          tad := tadOfBest P (j + 1) (fun i => min ((rounds P S0 j).round (j + 1) i) ((rounds P S0 j).best i)) (rounds P S0 j).tad,
          done := true } := by
        unfold roundStep
        simp only
        rw [if_pos hany]
      have hround : (rounds P S0 (j + 1)).round = (rounds P S0 j).round := by rw [heq, hst]
      refine ⟨?_, ?_, ?_, ?_, ?_, ?_⟩
      · rw [heq, hst]
        exact tadOfBest_ok hW h.T _ (by
          intro l
          show P.hi ≤ min _ _ ∨ ∃ i, i ≤ j + 1 ∧ (rounds P S0 j).round i l ≤ min _ _
          by_cases hc : (rounds P S0 j).round (j + 1) l ≤ (rounds P S0 j).best l
          · right; exact ⟨j + 1, Nat.le_refl _, by omega⟩
          · rw [Int.min_eq_right (by omega)]
            rcases h.bestReal l with g | ⟨i, g1, g2⟩
            · exact Or.inl g
            · exact Or.inr ⟨i, by omega, g2⟩)
      · intro i l hi; rw [hround]; exact h.high i l (by omega)
      · intro i l; rw [hround]; exact h.mono i l
      · intro l x hx
        rw [hround]
        rw [heq, hst] at hx
        simp only at hx
        by_cases hc : (rounds P S0 j).best l ≤ x
        · rcases h.best l x hc with g | ⟨i, g1, g2⟩ | ⟨i, g0, g1, g2⟩ | ⟨g0, i, g1, g2⟩
          · exact Or.inl g
          · exact Or.inr (Or.inl ⟨i, by omega, g2⟩)
          · exact Or.inr (Or.inr (Or.inl ⟨i, g0, by omega, g2⟩))
          · exact Or.inr (Or.inr (Or.inr ⟨g0, i, by omega, g2⟩))
        · right; right; left
          refine ⟨j + 1, by omega, Nat.le_refl _, ?_⟩
          rw [← h.high (j + 1) l (by omega)]; omega
      · intro i l hi
        rw [hround]
        by_cases hij : i ≤ j
        · rcases h.rows i l hij with g | g | g | g
          · exact Or.inl g
          · exact Or.inr (Or.inl g)
          · right; right; left
            refine lbOk_false_anti g ?_
            rw [heq, hst]
            exact tadOfBest_le _ _ _ _ _
          · exact Or.inr (Or.inr (Or.inr g))
        · left; exact h.high i l (by omega)
      · intro i l hi
        by_cases hij : i ≤ j
        · rw [hround]; exact h.low i l hij
        · rw [show i = j + 1 by omega]
    · obtain ⟨B, hB1, hB2, hB3, hB4, hB5, -, hgood, hrel, -⟩ := roundStep_live ht hdl hW h.T h.bestReal (by simpa using hany)
      rw [← heq] at hgood hrel
      have hlow : ∀ i l, i ≤ j → (rounds P S0 (j + 1)).round i l = (rounds P S0 j).round i l := by
        intro i l hi
        rw [hrel.other i l (by omega), hB1]
      have htad : ∀ i, (rounds P S0 (j + 1)).tad i ≤ (rounds P S0 j).tad i := by
        intro i
        have := hrel.tad i
        rw [hB3] at this
        exact Int.le_trans this (tadOfBest_le _ _ _ _ _)
      refine ⟨hgood.T, ?_, ?_, ?_, ?_, ?_⟩
      · intro i l hi
        rw [hrel.other i l (by omega), hB1]; exact h.high i l (by omega)
      · intro i l
        by_cases hij : i = j + 1
        · subst hij
          have := hrel.row l
          rw [hB1] at this
          exact Int.le_trans this (h.mono _ l)
        · rw [hrel.other i l hij, hB1]; exact h.mono i l
      · intro l x hx
        rcases hrel.B l with hb | ⟨hb1, hb2⟩
        · rw [hb, hB2] at hx
          simp only at hx
          by_cases hc : (rounds P S0 j).best l ≤ x
          · rcases h.best l x hc with g | ⟨i, g1, g2⟩ | ⟨i, g0, g1, g2⟩ | ⟨g0, i, g1, g2⟩
            · exact Or.inl g
            · exact Or.inr (Or.inl ⟨i, by omega, g2⟩)
            · exact Or.inr (Or.inr (Or.inl ⟨i, g0, by omega, g2⟩))
            · exact Or.inr (Or.inr (Or.inr ⟨g0, i, by omega, by rw [hlow i l g1]; exact g2⟩))
          · right; right; left
            refine ⟨j + 1, by omega, Nat.le_refl _, ?_⟩
            rw [← h.high (j + 1) l (by omega)]; omega
        · right
          rcases hb1 with hb1 | hb1
          · left
            exact ⟨j + 1, Nat.le_refl _, by rw [hrel.done, hB4], hb1, by omega⟩
          · right; right
            exact ⟨hb1, j + 1, Nat.le_refl _, by omega⟩
      · intro i l hi
        by_cases hij : i ≤ j
        · rw [hlow i l hij]
          rcases h.rows i l hij with g | g | g | g
          · exact Or.inl g
          · exact Or.inr (Or.inl g)
          · exact Or.inr (Or.inr (Or.inl (lbOk_false_anti g (htad i))))
          · exact Or.inr (Or.inr (Or.inr g))
        · have : i = j + 1 := by omega
          subst this
          rcases hrel.RC l with g | g | g | g
          · left; rw [g, hB1]; exact h.high _ l (by omega)
          · right; left
            exact ⟨by rw [hrel.done, hB4], g, Int.le_refl _⟩
          · exact Or.inr (Or.inr (Or.inl g))
          · exact Or.inr (Or.inr (Or.inr g))
      · intro i l hi
        by_cases hij : i ≤ j
        · rw [hlow i l hij]; exact h.low i l hij
        · rw [show i = j + 1 by omega]

/-- A target reached with at most `K` rides not later than `A`. -/
def Found (D : Loc → Prop) (S : State) (K : Nat) (A : Int) : Prop := ∃ k, k ≤ K ∧ ∃ d, D d ∧ S.round k d ≤ A

theorem Found.mono {D : Loc → Prop} {S S' : State} {K K' : Nat} {A : Int} (h : Found D S K A) (hK : K ≤ K')
    (hr : ∀ i l, S'.round i l ≤ S.round i l) : Found D S' K' A := by
  obtain ⟨k, h1, d, h2, h3⟩ := h
  exact ⟨k, by omega, d, h2, Int.le_trans (hr k d) h3⟩

theorem cont_le {P : Problem} (hs : Sane P) {D : Loc → Prop} {n : Nat} {l : Loc} {t A : Int} (h : Cont P D n l t A) : t ≤ A := by
  induction h with
  | here _ => omega
  | ride h1 h2 _ ih => have := ride_le hs h1; have := change_le hs h2; omega

theorem found_of_tad {P : Problem} {W : Int} {S : State} {D : Loc → Prop} (hD : ∀ d, P.isDest d = true → D d) (h : TadOk P W S) {k : Nat} {A : Int}
    (hlt : S.tad k < A) (hA : A ≤ W) : Found D S k A := by
  rcases h k with g | ⟨k', g1, d, g2, g3⟩
  · omega
  · exact ⟨k', g1, d, hD d g2, by omega⟩

theorem ride_touch {P : Problem} {mark : Loc → Bool} {l : Loc} {t : Int} {m : Loc} {a : Int} (h : Ride P l t m a) (hm : mark l = true) :
    (!(P.routes.any fun r => touches mark r.stops) && !(P.rts.any fun r => touches mark r.stops)) = false := by
  rcases h with ⟨r, hr, -, tr, -, i, j, si, sj, -, hi, -, hl, -⟩ | ⟨r, hr, -, i, j, si, sj, -, hi, -, hl, -⟩
  · have : (P.routes.any fun r => touches mark r.stops) = true := by
      rw [List.any_eq_true]; exact ⟨r, hr, touches_of hi (by rw [hl]; exact hm)⟩
    rw [this]; rfl
  · have : (P.rts.any fun r => touches mark r.stops) = true := by
      rw [List.any_eq_true]; exact ⟨r, hr, touches_of hi (by rw [hl]; exact hm)⟩
    rw [this]; simp

theorem ride_loc {P : Problem} {win : Int} (ht : Tame P win) {l : Loc} {t : Int} {m : Loc} {a : Int} (h : Ride P l t m a) : m < P.nLoc := by
  rcases h with ⟨r, hr, -, tr, -, i, j, si, sj, -, -, hj, -, hm, -⟩ | ⟨r, hr, -, i, j, si, sj, -, -, hj, -, hm, -⟩
  · rw [← hm]; exact ht.routeLocs r hr sj (List.mem_of_getElem? hj)
  · rw [← hm]; exact ht.rtLocs r hr sj (List.mem_of_getElem? hj)

/-- All labels of a state have been followed up. -/
def Cov (P : Problem) (D : Loc → Prop) (N : Nat) (W : Int) (S : State) : Prop :=
  ∀ i l n A t, S.round i l ≤ t → Cont P D n l t A → A ≤ W → i + n ≤ N → Found D S (i + n) A

/-- Whatever can be reached from the labels of a run on the way to a target passes the test of `within_bounds`. -/
def InReach (P : Problem) (D : Loc → Prop) (N : Nat) (W : Int) (S0 : State) : Prop :=
  ∀ j l t m a l' t' n A, Lab P S0 j l t → Ride P l t m a → Change P m a l' t' → Cont P D n l' t' A → A ≤ W → j + 1 + n ≤ N →
    P.within (j + 1) m a = true ∧ ((P.intermodal = true → l' ≠ P.endLoc) → P.within (j + 1) l' t' = true)

theorem inReach_none {P : Problem} (h : P.bound = none) (D : Loc → Prop) (N : Nat) (W : Int) (S0 : State) : InReach P D N W S0 := by
  intro j l t m a l' t' n A _ _ _ _ _ _
  have h : P.bound.isNone = true := by rw [h]; rfl
  exact ⟨within_none h _ _ _, fun _ => within_none h _ _ _⟩

/-- Every continuation of a marked label is found. -/
theorem lab_found {P : Problem} {win T0 W : Int} {D : Loc → Prop} (ht : Tame P win) (hadm : Admissible P D T0 W) (hdl : DestLb P)
    (hD : ∀ d, P.isDest d = true → D d) (hW : W < P.hi) (hT0 : P.lo < T0) (hwin : W ≤ T0 + win) {S0 : State} {N : Nat}
    (hinv : ∀ j, RunInv P W S0 j) (hlow : ∀ j i l, T0 ≤ (rounds P S0 j).round i l) (hlowt : ∀ j l, T0 ≤ (rounds P S0 j).tmp l)
    (hpre : ∀ i l n A t, 1 ≤ i → S0.round i l ≤ t → Cont P D n l t A → A ≤ W → i + n ≤ N → Found D S0 (i + n) A)
    (hreach : InReach P D N W S0) (n : Nat) : ∀ (j : Nat) (l : Loc) (t A : Int), Lab P S0 j l t → Cont P D n l t A → A ≤ W → j + n ≤ N → Found D (rounds P S0 N) (j + n) A := by
  have hkeep : ∀ j, j ≤ N → ∀ i l, (rounds P S0 N).round i l ≤ (rounds P S0 j).round i l := by
    intro j hj i l
    by_cases hij : i ≤ j
    · rw [(hinv N).low i l (by omega), (hinv j).low i l hij]; omega
    · rw [(hinv j).high i l (by omega)]; exact (hinv N).mono i l
  induction n with
  | zero =>
    intro j l t A hlab hc _ hjN
    cases hc with
    | here hd => exact ⟨j, by omega, l, hd, Int.le_trans (hkeep j (by omega) j l) hlab.2.2⟩
  | succ n ih =>
    intro j l t A hlab hc hAW hjN
    cases hc with
    | @ride _ _ _ m a l' t' _ hride hch hcont =>
      obtain ⟨hw1, hw2⟩ := hreach j l t m a l' t' n A hlab hride hch hcont hAW (by omega)
      obtain ⟨hnd, hmark, hval⟩ := hlab
      have hany := ride_touch hride hmark
      have heq : rounds P S0 (j + 1) = roundStep P (j + 1) (rounds P S0 j) := by
        show (if (rounds P S0 j).done then _ else _) = _
        rw [if_neg (by simp [hnd])]
      obtain ⟨B, hB1, hB2, hB3, hB4, hB5, hB6, hgood, hrel, hhit⟩ := roundStep_live ht hdl (Int.le_of_lt hW) (hinv j).T (hinv j).bestReal hany
      rw [← heq] at hgood hrel hhit
      have hTt : T0 ≤ t := Int.le_trans (hlow j j l) hval
      have hta := ride_le ht.toSane hride
      have hat := change_le ht.toSane hch
      have htA := cont_le ht.toSane hcont
      have hbad : (rounds P S0 (j + 1)).tad (j + 1) < A → Found D (rounds P S0 N) (j + (n + 1)) A := by
        intro hlt
        exact (found_of_tad hD hgood.T hlt hAW).mono (by omega) (hkeep (j + 1) (by omega))
      by_cases hAt : A ≤ B.tad (j + 1)
      · obtain ⟨hm1, hm2⟩ := scanAll_complete ht hadm j (rounds P S0 j) B.best B.tad (fun l => Int.lt_of_lt_of_le hT0 (hlow j j l))
          hmark hval hTt (by have := hlow j j l; omega) hride hch hcont hAW hW hAt (fun y hy => within_anti hw1 hy)
        obtain ⟨x, hx0, hx2, hx1⟩ : ∃ x, 0 ≤ x ∧ t' + x ≤ A ∧ ((P.intermodal = true → l' ≠ P.endLoc) → P.lb l' = some x) := by
          by_cases he : P.intermodal = true → l' ≠ P.endLoc
          · obtain ⟨x, g1, g2⟩ := hadm.cont n l' t' A he (by omega) hcont hAW
            exact ⟨x, hadm.nonneg _ _ g1, g2, fun _ => g1⟩
          · exact ⟨0, Int.le_refl _, by omega, fun h => absurd h he⟩
        rcases hhit hm1 (ride_loc ht hride) (by rw [hB6]; exact hm2) (by omega) (by omega)
            (by have h1 := hlowt (j + 1) m; rw [hrel.tmp] at h1; omega) hch hx0 hx2 hx1 hw2 with hb | hb
        · rcases (hinv (j + 1)).best l' t' hb with g | ⟨i, g1, g2⟩ | ⟨i, g0, g1, g2⟩ | ⟨g0, i, g1, g2⟩
          · omega
          · exact (ih i l' t' A g2 hcont hAW (by omega)).mono (by omega) (fun _ _ => Int.le_refl _)
          · exact (hpre i l' n A t' g0 g2 hcont hAW (by omega)).mono (by omega) (hinv N).mono
          · exact ⟨i, by omega, l', hD l' g0, by have := hkeep (j + 1) (by omega) i l'; omega⟩
        · exact hbad hb
      · apply hbad
        have := hrel.tad (j + 1)
        omega

/-! ## Runs -/

/-- The state in which the rounds of a run begin. -/
def begin (P : Problem) (S : State) (q : Start) : State := applyWorst q.worst (q.starts.foldl addStart (nextStart P S))

theorem starts_fold (P : Problem) (S : State) (sts : List (Loc × Int)) (pre : State)
    (h : (∀ i l, 1 ≤ i → S.round i l = pre.round i l) ∧ (∀ l, S.round 0 l ≤ pre.round 0 l) ∧ S.tad = pre.tad ∧ S.done = false ∧
      (∀ l, S.round 0 l = pre.round 0 l ∨ S.mark l = true) ∧ (∀ l, P.hi ≤ S.best l ∨ (S.mark l = true ∧ S.round 0 l ≤ S.best l))) :
    let S' := sts.foldl addStart S
    ((∀ i l, 1 ≤ i → S'.round i l = pre.round i l) ∧ (∀ l, S'.round 0 l ≤ pre.round 0 l) ∧ S'.tad = pre.tad ∧ S'.done = false ∧
      (∀ l, S'.round 0 l = pre.round 0 l ∨ S'.mark l = true) ∧ (∀ l, P.hi ≤ S'.best l ∨ (S'.mark l = true ∧ S'.round 0 l ≤ S'.best l))) ∧
      (∀ l, S.mark l = true → S'.mark l = true) ∧ (∀ l, S'.round 0 l ≤ S.round 0 l) ∧
      ∀ x ∈ sts, S'.mark x.1 = true ∧ S'.round 0 x.1 ≤ x.2 := by
  induction sts generalizing S with
  | nil => exact ⟨h, fun _ g => g, fun _ => Int.le_refl _, by simp⟩
  | cons x sts ih =>
    obtain ⟨h1, h2, h3, h4, h5, h6⟩ := h
    have h' : (∀ i l, 1 ≤ i → (addStart S x).round i l = pre.round i l) ∧ (∀ l, (addStart S x).round 0 l ≤ pre.round 0 l) ∧
        (addStart S x).tad = pre.tad ∧ (addStart S x).done = false ∧
        (∀ l, (addStart S x).round 0 l = pre.round 0 l ∨ (addStart S x).mark l = true) ∧
        (∀ l, P.hi ≤ (addStart S x).best l ∨ ((addStart S x).mark l = true ∧ (addStart S x).round 0 l ≤ (addStart S x).best l)) := by
      unfold addStart
      refine ⟨?_, ?_, h3, h4, ?_, ?_⟩
      · intro i l hi; simp only; rw [updRound_other _ _ _ _ _ _ (by omega)]; exact h1 i l hi
      · intro l; simp only [updRound_row]
        have := h2 l
        split
        · rename_i he; subst he; omega
        · exact this
      · intro l; simp only [updRound_row, upd]
        split
        · right; rfl
        · exact h5 l
      · intro l; simp only [updRound_row, upd]
        split
        · rename_i he; subst he
          rcases h6 x.1 with g | ⟨g1, g2⟩
          · by_cases hc : P.hi ≤ min x.2 (S.best x.1)
            · exact Or.inl hc
            · right; exact ⟨rfl, by omega⟩
          · right; exact ⟨rfl, by omega⟩
        · exact h6 l
    obtain ⟨a1, a2, a3, a4⟩ := ih (addStart S x) h'
    refine ⟨a1, ?_, ?_, ?_⟩
    · intro l hm
      apply a2
      unfold addStart; simp only [upd]; split <;> simp_all
    · intro l
      refine Int.le_trans (a3 l) ?_
      unfold addStart; simp only [updRound_row]
      split
      · rename_i he; subst he; omega
      · omega
    · intro y hy
      rcases List.mem_cons.mp hy with rfl | hy
      · constructor
        · apply a2; unfold addStart; simp [upd]
        · refine Int.le_trans (a3 _) ?_
          unfold addStart; simp only [updRound_row]; simp; omega
      · exact a4 y hy

theorem begin_facts (P : Problem) (S : State) (q : Start) :
    (∀ i l, 1 ≤ i → (begin P S q).round i l = S.round i l) ∧ (∀ l, (begin P S q).round 0 l ≤ S.round 0 l) ∧
    (∀ i, (begin P S q).tad i = min q.worst (S.tad i)) ∧ (begin P S q).done = false ∧
    (∀ l, (begin P S q).round 0 l = S.round 0 l ∨ (begin P S q).mark l = true) ∧
    (∀ l, P.hi ≤ (begin P S q).best l ∨ ((begin P S q).mark l = true ∧ (begin P S q).round 0 l ≤ (begin P S q).best l)) ∧
    ∀ x ∈ q.starts, (begin P S q).mark x.1 = true ∧ (begin P S q).round 0 x.1 ≤ x.2 := by
  have := starts_fold P (nextStart P S) q.starts S ⟨fun _ _ _ => rfl, fun _ => Int.le_refl _, rfl, rfl, fun _ => Or.inl rfl,
    fun _ => Or.inl (Int.le_refl _)⟩
  obtain ⟨⟨h1, h2, h3, h4, h5, h6⟩, -, -, h7⟩ := this
  unfold begin applyWorst
  refine ⟨h1, h2, ?_, h4, h5, h6, h7⟩
  intro i
  simp only [h3]

theorem runInv_zero {P : Problem} {S : State} {q : Start} {W : Int} (hT : TadOk P W S) (hW : W ≤ q.worst) : RunInv P W (begin P S q) 0 := by
  obtain ⟨h1, h2, h3, h4, h5, h6, h7⟩ := begin_facts P S q
  refine ⟨?_, fun _ _ _ => rfl, fun _ _ => Int.le_refl _, ?_, ?_, ?_⟩
  · intro i
    show W ≤ (begin P S q).tad i ∨ ∃ k', k' ≤ i ∧ ∃ d, P.isDest d = true ∧ (begin P S q).round k' d ≤ (begin P S q).tad i
    rw [h3]
    by_cases hc : q.worst ≤ S.tad i
    · left; omega
    · rcases hT i with g | ⟨k', g1, d, g2, g3⟩
      · left; omega
      · right
        refine ⟨k', g1, d, g2, ?_⟩
        by_cases h0 : 1 ≤ k'
        · rw [h1 k' d h0]; omega
        · rw [show k' = 0 by omega] at g3 ⊢
          have := h2 d
          omega
  · intro l x hx
    rcases h6 l with g | ⟨g1, g2⟩
    · left
      have : (begin P S q).best l ≤ x := hx
      omega
    · right; left
      refine ⟨0, Nat.le_refl _, h4, g1, ?_⟩
      have : (begin P S q).best l ≤ x := hx
      exact Int.le_trans g2 this
  · intro i l _; left; rfl
  · intro i l hi; rw [show i = 0 by omega]

theorem runInv_all {P : Problem} {win : Int} (ht : Tame P win) (hdl : DestLb P) {S : State} {q : Start} {W : Int} (hT : TadOk P W S)
    (hWq : W ≤ q.worst) (hW : W ≤ P.hi) (j : Nat) : RunInv P W (begin P S q) j := by
  induction j with
  | zero => exact runInv_zero hT hWq
  | succ j ih => exact runInv_succ ht hdl hW ih

theorem destLb_of {P : Problem} {D : Loc → Prop} {T0 W : Int} (hadm : Admissible P D T0 W) (hD : ∀ d, P.isDest d = true → D d)
    (hTW : T0 ≤ W) : DestLb P := by
  intro d hd hne
  obtain ⟨x, h1, h2⟩ := hadm.cont 0 d W W hne hTW (.here (hD d hd)) (Int.le_refl _)
  have := hadm.nonneg _ _ h1
  rw [h1]; congr; omega

/-- One run: everything reachable from its starts is found, and all labels stay followed up. -/
theorem runOne_opt {P : Problem} {win : Int} {D : Loc → Prop} (ht : Tame P win) (q : Start) {W : Int} (hWq : W ≤ q.worst) (hadm : Admissible P D q.time W)
    (hD : ∀ d, P.isDest d = true → D d) (hW : W < P.hi) (hT0 : P.lo < q.time) (hTW : q.time ≤ W) (hwin : W ≤ q.time + win)
    {S : State} {N : Nat} (hT : TadOk P W S) (hcov : Cov P D N W S)
    (hlow : ∀ j i l, q.time ≤ (rounds P (begin P S q) j).round i l)
    (hlowt : ∀ j l, q.time ≤ (rounds P (begin P S q) j).tmp l) (hreach : InReach P D N W (begin P S q)) :
    TadOk P W (runOne P N S q) ∧ Cov P D N W (runOne P N S q) ∧
      (∀ i l, (runOne P N S q).round i l ≤ S.round i l) ∧
      ∀ x ∈ q.starts, ∀ n A, Cont P D n x.1 x.2 A → A ≤ W → n ≤ N → Found D (runOne P N S q) n A := by
  have hdl := destLb_of hadm hD hTW
  have hinv := runInv_all ht hdl hT hWq (Int.le_of_lt hW)
  obtain ⟨h1, h2, h3, h4, h5, h6, h7⟩ := begin_facts P S q
  have hle : ∀ i l, (begin P S q).round i l ≤ S.round i l := by
    intro i l
    by_cases h0 : 1 ≤ i
    · rw [h1 i l h0]; omega
    · rw [show i = 0 by omega]; exact h2 l
  have hmain := fun n => lab_found (N := N) ht hadm hdl hD hW hT0 hwin hinv hlow hlowt (by
    intro i l n A t hi hr hc hA hN
    rw [h1 i l hi] at hr
    exact (hcov i l n A t hr hc hA hN).mono (Nat.le_refl _) hle) hreach n
  show TadOk P W (rounds P (begin P S q) N) ∧ Cov P D N W (rounds P (begin P S q) N) ∧
      (∀ i l, (rounds P (begin P S q) N).round i l ≤ S.round i l) ∧
      ∀ x ∈ q.starts, ∀ n A, Cont P D n x.1 x.2 A → A ≤ W → n ≤ N → Found D (rounds P (begin P S q) N) n A
  have hmono : ∀ i l, (rounds P (begin P S q) N).round i l ≤ S.round i l := fun i l => Int.le_trans ((hinv N).mono i l) (hle i l)
  refine ⟨(hinv N).T, ?_, hmono, ?_⟩
  · intro i l n A t hr hc hA hN
    have hold : S.round i l ≤ t → Found D (rounds P (begin P S q) N) (i + n) A :=
      fun hs => (hcov i l n A t hs hc hA hN).mono (Nat.le_refl _) hmono
    rcases (hinv N).rows i l (by omega) with g | g | g | g
    · rw [g] at hr
      by_cases h0 : 1 ≤ i
      · rw [h1 i l h0] at hr; exact hold hr
      · have hi0 : i = 0 := by omega
        subst hi0
        rcases h5 l with e | e
        · rw [e] at hr; exact hold hr
        · exact hmain n 0 l t A ⟨h4, e, hr⟩ hc hA hN
    · exact hmain n i l t A ⟨g.1, g.2.1, Int.le_trans g.2.2 hr⟩ hc hA hN
    · -- pruned: the bound is already better
      have hTt : q.time ≤ t := Int.le_trans (hlow N i l) hr
      by_cases hne : P.intermodal = true ∧ l = P.endLoc
      · have := cont_le ht.toSane hc
        exact ⟨i, by omega, l, hD l (by rw [hne.2]; exact ht.endDest hne.1), by omega⟩
      obtain ⟨x, hx1, hx2⟩ := hadm.cont n l t A (fun hi he => hne ⟨hi, he⟩) hTt hc hA
      have hx := hadm.nonneg _ _ hx1
      have : (rounds P (begin P S q) N).tad i < A := by
        apply Classical.byContradiction
        intro hcn
        rw [show lbOk (P.lb l) ((rounds P (begin P S q) N).round i l) ((rounds P (begin P S q) N).tad i) = true from
          (lbOk_iff _ _ _).mpr ⟨by omega, x, hx1, by omega⟩] at g
        cases g
      exact (found_of_tad hD (hinv N).T this hA).mono (by omega) (fun _ _ => Int.le_refl _)
    · exact ⟨i, by omega, l, hD l g, by have := cont_le ht.toSane hc; omega⟩
  · intro x hx n A hc hA hn
    obtain ⟨g1, g2⟩ := h7 x hx
    have := hmain n 0 x.1 x.2 A ⟨h4, g1, g2⟩ hc hA (by omega)
    rwa [Nat.zero_add] at this

theorem cov_weaken {P : Problem} {D : Loc → Prop} {N : Nat} {W W' : Int} {S : State} (h : Cov P D N W S) (hW : W' ≤ W) : Cov P D N W' S :=
  fun i l n A t h1 h2 h3 h4 => h i l n A t h1 h2 (by omega) h4

theorem tadOk_weaken {P : Problem} {W W' : Int} {S : State} (h : TadOk P W S) (hW : W' ≤ W) : TadOk P W' S := by
  intro i
  rcases h i with g | g
  · left; omega
  · exact Or.inr g

/-- The latest arrival of interest: before the given bound and within `win` minutes. -/
def Start.within (q : Start) (win : Int) : Int := min q.worst (q.time + win)

/-- The conditions on the start times of a range query: processed in descending order of departure and
of the latest arrival of interest. -/
structure RangeOk (P : Problem) (D : Loc → Prop) (win : Int) (qs : List Start) : Prop where
  desc : qs.Pairwise fun q q' => q'.time ≤ q.time ∧ q'.worst ≤ q.worst
  each : ∀ q ∈ qs, P.lo < q.time ∧ q.time ≤ q.worst ∧ q.worst < P.hi ∧ 0 ≤ win ∧
    (∀ x ∈ q.starts, q.time ≤ x.2 ∧ x.2 ≤ P.hi) ∧ Admissible P D q.time (q.within win)

theorem rounds_low {P : Problem} (hs : Sane P) {st : List (Loc × Int)} {T0 : Int} (hT0 : P.lo < T0) (hT0h : T0 ≤ P.hi) (hst : ∀ x ∈ st, T0 ≤ x.2) {S : State}
    (h : ∀ k' l, S.round k' l ≤ P.hi ∧ (S.round k' l < P.hi → Rdy P st k' l (S.round k' l)))
    (q : Start) (hq : ∀ x ∈ q.starts, x ∈ st) (hqhi : ∀ x ∈ q.starts, x.2 ≤ P.hi) (j i : Nat) (l : Loc) :
    T0 ≤ (rounds P (begin P S q) j).round i l := by
  have := (runOne_ok hs (st := st) (fun x hx => by have := hst x hx; omega) j h q hq hqhi).round i l
  by_cases hc : (runOne P j S q).round i l < P.hi
  · obtain ⟨k, _, hr⟩ := this.2 hc
    exact ready_ge hs hst hr
  · have h2 : P.hi ≤ (rounds P (begin P S q) j).round i l := Int.not_lt.mp hc
    omega

theorem rounds_lowt {P : Problem} (hs : Sane P) {st : List (Loc × Int)} {T0 : Int} (hT0 : P.lo < T0) (hT0h : T0 ≤ P.hi) (hst : ∀ x ∈ st, T0 ≤ x.2) {S : State}
    (h : ∀ k' l, S.round k' l ≤ P.hi ∧ (S.round k' l < P.hi → Rdy P st k' l (S.round k' l)))
    (q : Start) (hq : ∀ x ∈ q.starts, x ∈ st) (hqhi : ∀ x ∈ q.starts, x.2 ≤ P.hi) (j : Nat) (l : Loc) :
    T0 ≤ (rounds P (begin P S q) j).tmp l := by
  have := (runOne_ok hs (st := st) (fun x hx => by have := hst x hx; omega) j h q hq hqhi).tmp l
  by_cases hc : (runOne P j S q).tmp l < P.hi
  · obtain ⟨k, l', t, _, hr, hride⟩ := this.2 hc
    exact Int.le_trans (ready_ge hs hst hr) (ride_le hs hride)
  · have h2 : P.hi ≤ (rounds P (begin P S q) j).tmp l := Int.not_lt.mp hc
    omega

/-- The range query: after each start time, everything reachable from it is found. -/
theorem runAll_opt {P : Problem} {win : Int} {D : Loc → Prop} (ht : Tame P win) (hbn : P.bound = none) (hD : ∀ d, P.isDest d = true → D d) (N : Nat)
    (qs : List Start) (h : RangeOk P D win qs) :
    ∀ q ∈ qs, ∀ x ∈ q.starts, ∀ n A, Cont P D n x.1 x.2 A → A ≤ q.within win → n ≤ N → Found D (runAll P N qs) n A := by
  unfold runAll
  suffices H : ∀ (done todo : List Start), done ++ todo = qs → ∀ S : State,
      (∀ k' l, S.round k' l ≤ P.hi ∧ (S.round k' l < P.hi → Rdy P (allStarts done) k' l (S.round k' l))) →
      (∀ q ∈ todo, TadOk P (q.within win) S ∧ Cov P D N (q.within win) S) →
      (∀ i l, (todo.foldl (runOne P N) S).round i l ≤ S.round i l) ∧
      ∀ q ∈ todo, ∀ x ∈ q.starts, ∀ n A, Cont P D n x.1 x.2 A → A ≤ q.within win → n ≤ N → Found D (todo.foldl (runOne P N) S) n A from
    (H [] qs rfl (init P) (by intro k' l; simp [init]) (by
      intro q hq
      have hW := (h.each q hq).2.2.1
      refine ⟨fun i => Or.inl ?_, ?_⟩
      · show q.within win ≤ P.hi; unfold Start.within; omega
      · intro i l n A t hr hc hA _
        have : P.hi ≤ t := hr
        have := cont_le ht.toSane hc
        unfold Start.within at hA
        omega)).2
  intro done todo
  induction todo generalizing done with
  | nil => intro _ S _ _; exact ⟨fun _ _ => Int.le_refl _, by simp⟩
  | cons q todo ih =>
    intro he S hS hcov
    simp only [List.foldl_cons]
    have hq : q ∈ qs := by rw [← he]; simp
    obtain ⟨e1, e2, e3, e4, e5, e6⟩ := h.each q hq
    have hdesc := h.desc
    rw [← he] at hdesc
    rw [List.pairwise_append] at hdesc
    obtain ⟨d1, d2, d3⟩ := hdesc
    rw [List.pairwise_cons] at d2
    have hst : ∀ x ∈ allStarts (done ++ [q]), q.time ≤ x.2 := by
      intro x hx
      unfold allStarts at hx
      rw [List.mem_flatMap] at hx
      obtain ⟨q', hq', hx⟩ := hx
      rw [List.mem_append, List.mem_singleton] at hq'
      rcases hq' with hq' | rfl
      · have := (d3 q' hq' q (by simp)).1
        have := ((h.each q' (by rw [← he]; simp [hq'])).2.2.2.2.1 x hx).1
        omega
      · exact (e5 x hx).1
    have hqs : ∀ x ∈ q.starts, x ∈ allStarts (done ++ [q]) := by
      intro x hx; unfold allStarts; rw [List.mem_flatMap]; exact ⟨q, by simp, hx⟩
    have hS' : ∀ k' l, S.round k' l ≤ P.hi ∧ (S.round k' l < P.hi → Rdy P (allStarts (done ++ [q])) k' l (S.round k' l)) := by
      intro k' l
      refine ⟨(hS k' l).1, fun hlt => rdy_mono ?_ ((hS k' l).2 hlt)⟩
      intro x hx; unfold allStarts at *; rw [List.flatMap_append, List.mem_append]; exact Or.inl hx
    have hlow := rounds_low ht.toSane e1 (by omega) hst hS' q hqs (fun x hx => (e5 x hx).2)
    obtain ⟨c1, c2⟩ := hcov q (by simp)
    obtain ⟨r1, r2, r3, r4⟩ := runOne_opt (N := N) ht q (W := q.within win) (by unfold Start.within; omega) e6 hD (by unfold Start.within; omega) e1 (by unfold Start.within; omega) (by unfold Start.within; omega) c1 c2 hlow
      (rounds_lowt ht.toSane e1 (by omega) hst hS' q hqs (fun x hx => (e5 x hx).2)) (inReach_none hbn _ _ _ _)
    have hsnd := (runOne_ok ht.toSane (st := allStarts (done ++ [q])) (fun x hx => by have := hst x hx; omega) N hS' q hqs (fun x hx => (e5 x hx).2)).round
    obtain ⟨i1, i2⟩ := ih (done ++ [q]) (by simp [← he]) (runOne P N S q) hsnd (by
      intro q' hq'
      have : q'.within win ≤ q.within win := by
        have := d2.1 q' hq'
        unfold Start.within; omega
      exact ⟨tadOk_weaken r1 this, cov_weaken r2 this⟩)
    refine ⟨fun i l => Int.le_trans (i1 i l) (r3 i l), ?_⟩
    intro q' hq' x hx n A hc hA hn
    rcases List.mem_cons.mp hq' with rfl | hq'
    · exact (r4 x hx n A hc hA hn).mono (Nat.le_refl _) i1
    · exact i2 q' hq' x hx n A hc hA hn

end Nigiri.Raptor
