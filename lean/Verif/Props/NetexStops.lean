import Verif.Proofs.NetexCal
/-!
# C110: stops of NeTEx journey patterns
-/

namespace Nigiri.Netex

theorem find_map {α : Type} (m : List (Nat × α)) (k k' : Nat) (v : α) :
    find (m.map fun x => if x.1 = k then (k, v) else x) k' = if k' = k then (find m k).map fun _ => v else find m k' := by
  induction m with
  | nil => simp [find]
  | cons a r ih =>
    unfold find at ih ⊢
    rw [List.map_cons]
    by_cases hk : a.1 = k
    · rw [if_pos hk]
      by_cases e : k' = k
      · subst e
        rw [List.find?_cons_of_pos (by simp), List.find?_cons_of_pos (by simpa using hk), if_pos rfl]; rfl
      · have e' : ¬ k = k' := fun h => e h.symm
        rw [List.find?_cons_of_neg (by simpa using e'), ih, if_neg e, if_neg e]
        rw [List.find?_cons_of_neg (by rw [hk]; simpa using e')]
    · rw [if_neg hk]
      by_cases e : k' = k
      · subst e
        rw [List.find?_cons_of_neg (by simpa using hk), List.find?_cons_of_neg (by simpa using hk), ih]
      · rw [if_neg e]
        rw [if_neg e] at ih
        by_cases h : a.1 = k'
        · rw [List.find?_cons_of_pos (by simpa using h), List.find?_cons_of_pos (by simpa using h)]
        · rw [List.find?_cons_of_neg (by simpa using h), List.find?_cons_of_neg (by simpa using h), ih]

theorem assign_find {α : Type} (m : List (Nat × α)) (k k' : Nat) (v : α) :
    find (assign m k v) k' = if k' = k then some v else find m k' := by
  unfold assign
  by_cases h : m.any (fun x => decide (x.1 = k)) = true
  · rw [if_pos h, find_map]
    by_cases e : k' = k
    · rw [if_pos e, if_pos e]
      cases hf : find m k with
      | some x => rfl
      | none =>
        obtain ⟨x, hx, hk⟩ := List.any_eq_true.1 h
        exact absurd (of_decide_eq_true hk) ((find_none m k).1 hf x hx)
    · rw [if_neg e, if_neg e]
  · rw [if_neg h, find_append]
    by_cases e : k' = k
    · subst e
      have : find m k' = none := by
        rw [find_none]
        intro x hx he
        exact h (List.any_eq_true.2 ⟨x, hx, decide_eq_true he⟩)
      rw [this, if_pos rfl]
      simp [find]
    · rw [if_neg e]
      have : find [(k, v)] k' = none := by
        rw [find_none]
        intro x hx
        simp only [List.mem_singleton] at hx
        subst hx
        exact fun h => e h.symm
      rw [this, Option.or_none]

/-- The assignment is complete and its stop is known. -/
def Usable {α : Type} (base file : List (Nat × α)) (a : StopAssignment) (s : α) : Prop :=
  a.point ≠ 0 ∧ (a.quay ≠ 0 ∨ a.place ≠ 0) ∧ assignedStop base file a = some s

/-- **C110**.  The stop of a scheduled stop point is the one of its last assignment that is complete and whose stop is
known. -/
theorem C110_assignment {α : Type} (base file : List (Nat × α)) (as : List StopAssignment) (k : Nat) (s : α) :
    find (stopAssignments base file as) k = some s ↔
      ∃ pre a post, as = pre ++ a :: post ∧ a.point = k ∧ Usable base file a s ∧
        ∀ b ∈ post, b.point = k → ∀ s', ¬ Usable base file b s' := by
  unfold stopAssignments
  suffices H : ∀ (as : List StopAssignment) (m : List (Nat × α)),
      find (as.foldl (assignStep base file) m) k = some s ↔
      (∃ pre a post, as = pre ++ a :: post ∧ a.point = k ∧ Usable base file a s ∧
        ∀ b ∈ post, b.point = k → ∀ s', ¬ Usable base file b s') ∨
      (find m k = some s ∧ ∀ b ∈ as, b.point = k → ∀ s', ¬ Usable base file b s') by
    rw [H as []]
    constructor
    · rintro (h | ⟨h, _⟩)
      · exact h
      · cases h
    · exact Or.inl
  intro as
  induction as with
  | nil =>
    intro m
    constructor
    · intro h; exact Or.inr ⟨h, by intro b hb; cases hb⟩
    · rintro (⟨pre, a, post, h, _⟩ | ⟨h, _⟩)
      · cases pre <;> cases h
      · exact h
  | cons a r ih =>
    intro m
    rw [List.foldl_cons, ih]
    have hcons : ∀ (P : StopAssignment → List StopAssignment → Prop),
        (∃ pre x post, a :: r = pre ++ x :: post ∧ P x post) ↔ (∃ pre x post, r = pre ++ x :: post ∧ P x post) ∨ P a r := by
      intro P
      constructor
      · rintro ⟨pre, x, post, h, hp⟩
        cases pre with
        | nil => cases h; exact Or.inr hp
        | cons q pre => cases h; exact Or.inl ⟨pre, x, post, rfl, hp⟩
      · rintro (⟨pre, x, post, h, hp⟩ | hp)
        · exact ⟨a :: pre, x, post, by rw [h]; rfl, hp⟩
        · exact ⟨[], a, r, rfl, hp⟩
    have hc := hcons (fun x post => x.point = k ∧ Usable base file x s ∧ ∀ b ∈ post, b.point = k → ∀ s', ¬ Usable base file b s')
    rw [show (∃ pre x post, a :: r = pre ++ x :: post ∧ x.point = k ∧ Usable base file x s ∧
        ∀ b ∈ post, b.point = k → ∀ s', ¬ Usable base file b s') ↔ _ from hc]
    by_cases hu : ∃ s', Usable base file a s'
    · obtain ⟨s', h1, h2, h3⟩ := hu
      have hm : assignStep base file m a = assign m a.point s' := by
        unfold assignStep
        rw [if_pos ⟨h1, h2⟩, h3]
      rw [hm, assign_find]
      by_cases e : k = a.point
      · rw [if_pos e]
        constructor
        · rintro (h | ⟨h, h4⟩)
          · exact Or.inl (Or.inl h)
          · cases h
            exact Or.inl (Or.inr ⟨e.symm, ⟨h1, h2, h3⟩, h4⟩)
        · rintro ((h | ⟨_, h, h4⟩) | ⟨_, h4⟩)
          · exact Or.inl h
          · exact Or.inr ⟨by rw [← h.2.2, h3], h4⟩
          · exact absurd ⟨h1, h2, h3⟩ (h4 a (List.mem_cons_self ..) e.symm s')
      · rw [if_neg e]
        constructor
        · rintro (h | ⟨h, h4⟩)
          · exact Or.inl (Or.inl h)
          · refine Or.inr ⟨h, ?_⟩
            intro b hb hk
            rcases List.mem_cons.1 hb with rfl | hb
            · exact absurd hk.symm e
            · exact h4 b hb hk
        · rintro ((h | ⟨h, _⟩) | ⟨h, h4⟩)
          · exact Or.inl h
          · exact absurd h.symm e
          · exact Or.inr ⟨h, fun b hb => h4 b (List.mem_cons_of_mem _ hb)⟩
    · have hm : assignStep base file m a = m := by
        unfold assignStep
        by_cases h : a.point ≠ 0 ∧ (a.quay ≠ 0 ∨ a.place ≠ 0)
        · rw [if_pos h]
          cases hs : assignedStop base file a with
          | none => rfl
          | some x => exact absurd ⟨x, h.1, h.2, hs⟩ hu
        · rw [if_neg h]
      rw [hm]
      constructor
      · rintro (h | ⟨h, h4⟩)
        · exact Or.inl (Or.inl h)
        · refine Or.inr ⟨h, ?_⟩
          intro b hb hk s' hs
          rcases List.mem_cons.1 hb with rfl | hb
          · exact hu ⟨s', hs⟩
          · exact h4 b hb hk s' hs
      · rintro ((h | ⟨_, h, _⟩) | ⟨h, h4⟩)
        · exact Or.inl h
        · exact absurd ⟨s, h⟩ hu
        · exact Or.inr ⟨h, fun b hb => h4 b (List.mem_cons_of_mem _ hb)⟩

/-- **C110** (partial: if the file itself defines none or both; see `C110_place`).  The quay of an assignment is taken if
it is known, otherwise the stop place. -/
theorem C110_quay_partial {α : Type} (base file : List (Nat × α)) (a : StopAssignment) (q : α)
    (hq : lookupAt base file a.quay = some q) (hp : find file a.place = none ∨ find file a.quay ≠ none) :
    assignedStop base file a = some q := by
  unfold lookupAt at hq
  unfold assignedStop
  cases h : find file a.quay with
  | some x => rw [h] at hq; simp only [Option.some.injEq] at hq; subst hq; rfl
  | none =>
    rw [h] at hq
    rcases hp with hp | hp
    · rw [hp, show find base a.quay = some q from hq]; rfl
    · exact absurd h hp

/-- **C110 is false in full.**  The quay (3) is known from a base file, its stop place (4) from the file itself: the stop
place is taken although the quay is known. -/
theorem C110_place : assignedStop [(3, 30)] [(4, 40)] ⟨1, 3, 4⟩ = some 40 ∧ lookupAt [(3, 30)] [(4, 40)] 3 = some 30 := by
  decide

/-- **C110**.  At a stop of a journey pattern one can board unless `ForBoarding` is false and alight unless `ForAlighting` is
false, with and without wheelchair. -/
theorem C110_permissions {α : Type} (base file : List (Nat × α)) (own : Nat → α) (p : PatternPoint) :
    let s := seqStop base file own p
    (s.2.1 = true ↔ p.forBoarding ≠ some false) ∧ (s.2.2.1 = true ↔ p.forAlighting ≠ some false) ∧
    (s.2.2.2.1 = true ↔ p.forBoarding ≠ some false) ∧ (s.2.2.2.2 = true ↔ p.forAlighting ≠ some false) := by
  obtain ⟨r, b, a⟩ := p
  cases b with
  | none => cases a with
    | none => simp [seqStop, trueOrEmpty]
    | some a => cases a <;> simp [seqStop, trueOrEmpty]
  | some b => cases a with
    | none => cases b <;> simp [seqStop, trueOrEmpty]
    | some a => cases a <;> cases b <;> simp [seqStop, trueOrEmpty]

/-- **C110**.  The stop of a journey pattern is the assigned one: of the file if there is one, otherwise of the base files. -/
theorem C110_stop {α : Type} (base file : List (Nat × α)) (own : Nat → α) (p : PatternPoint) (s : α)
    (h : lookupAt base file p.point = some s) : (seqStop base file own p).1 = s := by
  unfold lookupAt at h
  show patternStop base file own p.point = s
  unfold patternStop
  cases hf : find file p.point with
  | some x => rw [hf] at h; exact Option.some.inj h
  | none =>
    rw [hf] at h
    simp only at h ⊢
    rw [h]; rfl

theorem C110_demo : stopAssignments [(30, 300)] [(31, 310), (32, 320)] [⟨1, 31, 0⟩, ⟨2, 30, 99⟩, ⟨1, 98, 32⟩, ⟨1, 98, 0⟩] =
    [(1, 320), (2, 300)] := by decide

end Nigiri.Netex
