import Verif.Spec.Fares
/-!
# C72: fares of a journey
-/

namespace Nigiri.Fares

open Nigiri.Raptor (Adj adj_cons adj_append adj_iff)

theorem join_iff (tt : TT) (a b : Leg) : join tt a b = true ↔
    a.scheduled = true ∧ b.scheduled = true ∧ ∃ jr ∈ (tt.fares a.src).joinRules, Covers tt jr a b := by
  unfold join
  rw [toStop_eq, fromStop_eq, station_eq, station_eq]
  by_cases h1 : a.scheduled = true <;> by_cases h2 : b.scheduled = true <;> simp [h1, h2]
  unfold Covers
  cases ha : a.network with
  | none => simp
  | some na =>
    cases hb : b.network with
    | none => simp
    | some nb =>
      simp only [List.any_eq_true, Option.some.injEq]
      constructor
      · rintro ⟨jr, hj, h⟩
        refine ⟨jr, hj, ?_⟩
        simp at h
        obtain ⟨⟨h1, h2⟩, h⟩ := h
        refine ⟨h1.symm, h2.symm, h.imp id ?_⟩
        rintro ⟨h3, h4⟩
        rcases h3 with h3 | h3 <;> rcases h4 with h4 | h4 <;> simp [h3, h4]
      · rintro ⟨jr, hj, h1, h2, h⟩
        refine ⟨jr, hj, ?_⟩
        simp only [h1, h2, decide_true, Bool.true_and, Bool.and_true, Bool.or_eq_true, Bool.and_eq_true, decide_eq_true_eq]
        refine h.imp id ?_
        rintro ⟨p, q, h3, h4, h5, h6⟩
        rw [h3, h4]
        rcases h5 with rfl | rfl <;> rcases h6 with rfl | rfl <;> simp

/-! ## Ranges -/

theorem equalRanges_flatten {α : Type} (eq : α → α → Bool) (l : List α) : (equalRanges eq l).flatten = l := by
  fun_induction equalRanges eq l with
  | case1 => rfl
  | case2 x xs ih => simp [ih, List.takeWhile_append_dropWhile]

/-- A range: its elements equal the first one. -/
theorem equalRanges_mem {α : Type} (eq : α → α → Bool) (l : List α) :
    ∀ g ∈ equalRanges eq l, ∃ x ys, g = x :: ys ∧ ∀ y ∈ ys, eq x y = true := by
  fun_induction equalRanges eq l with
  | case1 => simp
  | case2 x xs ih =>
    intro g hg
    rcases List.mem_cons.1 hg with rfl | hg
    · refine ⟨x, _, rfl, fun y hy => ?_⟩
      have := List.all_takeWhile (p := eq x) (l := xs)
      exact List.all_eq_true.1 this y hy
    · exact ih g hg

theorem equalRanges_head {α : Type} (eq : α → α → Bool) (x : α) (xs : List α) :
    (equalRanges eq (x :: xs)).head? = some (x :: xs.takeWhile (eq x)) := by
  rw [equalRanges]; rfl

/-- The first elements of two neighbouring ranges are not equal. -/
theorem equalRanges_adj {α : Type} (eq : α → α → Bool) (l : List α) :
    Adj (fun g h => ∀ x y, g.head? = some x → h.head? = some y → eq x y = false) (equalRanges eq l) := by
  fun_induction equalRanges eq l with
  | case1 => trivial
  | case2 x xs ih =>
    refine adj_cons.2 ⟨?_, ih⟩
    intro h hh a b ha hb
    cases hd : xs.dropWhile (eq x) with
    | nil => rw [hd, equalRanges] at hh; simp at hh
    | cons y ys =>
      rw [hd, equalRanges_head] at hh
      cases hh
      simp at ha hb
      subst ha; subst hb
      have := List.head?_dropWhile_not (eq x) xs
      rw [hd] at this
      simpa using this

/-! ## Effective legs -/

/-- `Separate` for the rule test only. -/
def SepJ (tt : TT) (g h : List Leg) : Prop :=
  ∀ a b, g.getLast? = some a → h.head? = some b → join tt a b = false

theorem joinLoop_ok (tt : TT) (xs cur : List Leg) (pred : Leg) (hp : cur.getLast? = some pred)
    (hc : Adj (fun a b => join tt a b = true) cur) :
    (joinLoop tt cur pred xs).flatten = cur ++ xs ∧
    (∀ g ∈ joinLoop tt cur pred xs, g ≠ [] ∧ Adj (fun a b => join tt a b = true) g) ∧
    Adj (SepJ tt) (joinLoop tt cur pred xs) ∧
    ∃ h t, joinLoop tt cur pred xs = h :: t ∧ h.head? = cur.head? := by
  induction xs generalizing cur pred with
  | nil =>
    simp only [joinLoop]
    refine ⟨by simp, ?_, trivial, cur, [], rfl, rfl⟩
    intro g hg
    simp at hg
    subst hg
    refine ⟨?_, hc⟩
    rintro rfl; simp at hp
  | cons x xs ih =>
    unfold joinLoop
    have hne : cur ≠ [] := by rintro rfl; simp at hp
    by_cases hj : join tt pred x = true
    · rw [if_pos hj]
      obtain ⟨h1, h2, h3, h, t, h4, h5⟩ := ih (cur ++ [x]) x (by simp) (adj_append.2 ⟨hc, trivial, by
        intro a b ha hb
        rw [hp] at ha
        cases ha; simp at hb; subst hb; exact hj⟩)
      refine ⟨by simpa using h1, h2, h3, h, t, h4, ?_⟩
      rw [h5]
      cases cur with
      | nil => exact absurd rfl hne
      | cons => rfl
    · rw [if_neg hj]
      obtain ⟨h1, h2, h3, h, t, h4, h5⟩ := ih [x] x rfl trivial
      refine ⟨by simp [h1], ?_, ?_, cur, _, rfl, rfl⟩
      · intro g hg
        rcases List.mem_cons.1 hg with rfl | hg
        · exact ⟨hne, hc⟩
        · exact h2 g hg
      · refine adj_cons.2 ⟨?_, h3⟩
        intro g hg a b ha hb
        rw [h4] at hg
        cases hg
        rw [hp] at ha
        cases ha
        rw [h5] at hb
        cases hb
        simpa using hj

theorem adj_mem {α : Type} {r s : α → α → Prop} {l : List α} (h : Adj r l)
    (hrs : ∀ a ∈ l, ∀ b ∈ l, r a b → s a b) : Adj s l := by
  rw [adj_iff] at h ⊢
  intro pre x y post he
  exact hrs x (by simp [he]) y (by simp [he]) (h pre x y post he)

theorem joinRange_ok (tt : TT) (l : List Leg) :
    (joinRange tt l).flatten = l ∧
    (∀ g ∈ joinRange tt l, g ≠ [] ∧ Adj (fun a b => join tt a b = true) g) ∧
    Adj (SepJ tt) (joinRange tt l) := by
  cases l with
  | nil => exact ⟨rfl, by simp [joinRange], trivial⟩
  | cons x xs =>
    obtain ⟨h1, h2, h3, -⟩ := joinLoop_ok tt xs [x] x rfl trivial
    exact ⟨h1, h2, h3⟩

/-- The last group of a list of nonempty groups ends with the last element. -/
theorem getLast?_flatten {α : Type} (gs : List (List α)) (hne : ∀ g ∈ gs, g ≠ []) {g : List α}
    (hg : gs.getLast? = some g) : gs.flatten.getLast? = g.getLast? := by
  obtain ⟨pre, rfl⟩ := List.getLast?_eq_some_iff.1 hg
  have : g ≠ [] := hne g (by simp)
  simp [List.getLast?_append]
  cases h : g.getLast? with
  | none => simp at h; contradiction
  | some a => simp

theorem head?_flatten {α : Type} (gs : List (List α)) (hne : ∀ g ∈ gs, g ≠ []) {g : List α}
    (hg : gs.head? = some g) : gs.flatten.head? = g.head? := by
  cases gs with
  | nil => simp at hg
  | cons a gs =>
    simp at hg; subst hg
    have : a ≠ [] := hne a (by simp)
    cases a with
    | nil => contradiction
    | cons => simp

/-- Legs that are the same object are the same leg. -/
def Distinct (legs : List Leg) : Prop := (legs.map (·.id)).Nodup

/-- The elements of a range of `equalSrc`: same source, if more than one. -/
theorem range_src {legs : List Leg} (hd : Distinct legs) {g : List Leg} (hg : g ∈ equalRanges equalSrc legs)
    {x : Leg} (hx : g.head? = some x) {y : Leg} (hy : y ∈ g) : y = x ∨ (x.scheduled = true ∧ y.scheduled = true ∧ y.src = x.src) := by
  obtain ⟨x', ys, rfl, hys⟩ := equalRanges_mem equalSrc legs g hg
  simp at hx; subst hx
  rcases List.mem_cons.1 hy with rfl | hy
  · exact .inl rfl
  · have h := hys y hy
    unfold equalSrc at h
    by_cases hs : (!x'.scheduled || !y.scheduled) = true
    · rw [if_pos hs] at h
      exfalso
      have hsub : List.Sublist ((x' :: ys).map (·.id)) (legs.map (·.id)) := by
        refine List.Sublist.map _ ?_
        have := equalRanges_flatten equalSrc legs
        rw [← this]
        exact List.sublist_flatten_of_mem hg
      have hn := hd.sublist hsub
      simp at hn
      exact hn.1 y hy (by simpa using (of_decide_eq_true h).symm)
    · rw [if_neg hs] at h
      simp at hs
      exact .inr ⟨hs.1, hs.2, (of_decide_eq_true h).symm⟩

/-- **C72 (effective legs).** The transit legs of a journey are split into effective fare legs: all of
them, in order, consecutive legs of one effective leg are joined by a rule of their feed, and consecutive
legs that a rule joins are never separated. -/
theorem C72_effective_legs (tt : TT) (legs : List Leg) (hd : Distinct legs) :
    EffectiveLegs tt legs (joinLegs tt legs) := by
  have key : ∀ g ∈ equalRanges equalSrc legs, ∀ x, g.head? = some x → ∀ y ∈ g, y = x ∨ (x.scheduled = true ∧ y.scheduled = true ∧ y.src = x.src) :=
    fun g hg x hx y hy => range_src hd hg hx hy
  have hne : ∀ g ∈ equalRanges equalSrc legs, g ≠ [] := by
    intro g hg; obtain ⟨x, ys, rfl, -⟩ := equalRanges_mem _ _ g hg; simp
  have hadj := equalRanges_adj equalSrc legs
  have hfl := equalRanges_flatten equalSrc legs
  unfold joinLegs
  generalize equalRanges equalSrc legs = gs at key hne hadj hfl
  subst hfl
  clear hd
  induction gs with
  | nil => exact ⟨rfl, by simp, by simp, trivial⟩
  | cons g gs ih =>
    obtain ⟨a1, a2⟩ := adj_cons.1 hadj
    obtain ⟨i1, i2, i3, i4⟩ := ih (fun g' hg' => key g' (List.mem_cons_of_mem _ hg')) (fun g' hg' => hne g' (List.mem_cons_of_mem _ hg')) a2
    obtain ⟨j1, j2, j3⟩ := joinRange_ok tt g
    have hk := key g (by simp)
    have hgne := hne g (by simp)
    obtain ⟨x, ys, rfl⟩ : ∃ x ys, g = x :: ys := by
      cases g with
      | nil => contradiction
      | cons x ys => exact ⟨x, ys, rfl⟩
    have hsrc := hk x rfl
    have hin : ∀ h ∈ joinRange tt (x :: ys), ∀ a ∈ h, a ∈ x :: ys := by
      intro h hh a ha
      rw [← j1]; exact List.mem_flatten.2 ⟨h, hh, ha⟩
    have hsame : ∀ a ∈ x :: ys, ∀ b ∈ x :: ys, a.src = b.src := by
      intro a ha b hb
      rcases hsrc a ha with rfl | ⟨-, -, h1⟩ <;> rcases hsrc b hb with rfl | ⟨-, -, h2⟩ <;> simp_all
    refine ⟨?_, ?_, ?_, ?_⟩
    · simp only [List.flatMap_cons, List.flatten_append, List.flatten_cons]
      rw [j1, i1]
    · intro h hh
      simp only [List.flatMap_cons, List.mem_append] at hh
      rcases hh with hh | hh
      · exact (j2 h hh).1
      · exact i2 h hh
    · intro h hh
      simp only [List.flatMap_cons, List.mem_append] at hh
      rcases hh with hh | hh
      · refine adj_mem (j2 h hh).2 fun a ha b hb hj => ?_
        obtain ⟨s1, s2, s3⟩ := (join_iff tt a b).1 hj
        exact ⟨s1, s2, hsame a (hin h hh a ha) b (hin h hh b hb), s3⟩
      · exact i3 h hh
    · simp only [List.flatMap_cons]
      refine adj_append.2 ⟨?_, i4, ?_⟩
      · refine adj_mem j3 fun p _ q _ hs a b ha hb hj => ?_
        have := hs a b ha hb
        obtain ⟨s1, s2, s3, s4⟩ := hj
        rw [(join_iff tt a b).2 ⟨s1, s2, s4⟩] at this
        cases this
      · intro p q hp hq a b ha hb hj
        obtain ⟨s1, s2, s3, -⟩ := hj
        have hla : a ∈ x :: ys := hin p (List.mem_of_getLast? hp) a (List.mem_of_getLast? ha)
        cases gs with
        | nil => simp at hq
        | cons g2 gs =>
          have hg2 := hne g2 (by simp)
          obtain ⟨y, zs, rfl⟩ : ∃ y zs, g2 = y :: zs := by
            cases g2 with
            | nil => contradiction
            | cons x ys => exact ⟨x, ys, rfl⟩
          have hb' : b = y := by
            have e1 := head?_flatten _ i2 hq
            rw [i1, hb] at e1
            simpa using e1.symm
          subst hb'
          have hE := a1 (b :: zs) rfl x b rfl rfl
          unfold equalSrc at hE
          rcases hsrc a hla with rfl | ⟨h1, h2, h3⟩
          · rw [if_neg (by simp [s1, s2])] at hE
            exact of_decide_eq_false hE s3
          · rw [if_neg (by simp [h1, s2])] at hE
            exact of_decide_eq_false hE (h3 ▸ s3)

end Nigiri.Fares
