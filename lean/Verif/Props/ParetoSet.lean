import Verif.Proofs.ParetoSet
/-!
# Property C06: the Pareto set keeps exactly the non-dominated elements

`dom a b` = "a dominates b".  Hypotheses: reflexive and transitive, which
`C40_journey_dominates_*` and `C36_*` show for the two instances used by the code.
-/

namespace Nigiri.ParetoSet
variable {α : Type} (dom : α → α → Bool)

/-- Content after a list of operations, starting from the empty set. -/
def run (ops : List (Op α)) : List α := ops.foldl (step dom) []

/-- The elements inserted by a list of `add`s. -/
def runAdds (xs : List α) : List α := run dom (xs.map Op.add)

variable {dom}

/-- C06: after any history of insertions, erasures and clears no stored element dominates another
stored one (they are pairwise incomparable, in particular not duplicated). -/
theorem C06_antichain (hr : ∀ a, dom a a = true)
    (ht : ∀ a b c, dom a b = true → dom b c = true → dom a c = true) (ops : List (Op α)) :
    (run dom ops).Pairwise (fun a b => dom a b = false ∧ dom b a = false) := by
  have key : ∀ (ops : List (Op α)) (s : List α), Antichain dom s →
      Antichain dom (ops.foldl (step dom) s) := by
    intro ops
    induction ops with
    | nil => intro s hs; exact hs
    | cons op ops ih =>
      intro s hs
      apply ih
      cases op with
      | add el =>
        simp only [step]
        by_cases h : ∃ x ∈ s, dom x el = true
        · rw [add_of_dominated ht hr el s hs h]; exact hs
        · have h' : ∀ x ∈ s, dom x el = false := by
            intro x hx; by_cases hd : dom x el = true
            · exact absurd ⟨x, hx, hd⟩ h
            · simpa using hd
          rw [add_of_not_dominated el s h']
          simp only [Antichain]
          rw [List.pairwise_append]
          refine ⟨List.Pairwise.filter _ hs, by simp, ?_⟩
          intro a ha b hb
          simp only [keep, List.mem_filter, Bool.not_eq_true'] at ha
          simp only [List.mem_singleton] at hb
          subst hb
          exact ⟨h' a ha.1, ha.2⟩
      | eraseIf p => exact List.Pairwise.filter _ hs
      | clear => simp [step, Antichain]
  exact key ops [] (by simp [Antichain])

/-- C06: an insertion (in any reachable state) is rejected iff a stored element dominates it, and
then the set is unchanged; otherwise exactly the elements dominated by the new one disappear, the
others stay and the new one is added. -/
theorem C06_add_result (hr : ∀ a, dom a a = true)
    (ht : ∀ a b c, dom a b = true → dom b c = true → dom a c = true) (ops : List (Op α)) (el : α) :
    let s := run dom ops
    ((add dom el s).1 = false ↔ ∃ x ∈ s, dom x el = true) ∧
    ((add dom el s).1 = false → (add dom el s).2 = s) ∧
    ((add dom el s).1 = true → ∀ x, x ∈ (add dom el s).2 ↔ x = el ∨ (x ∈ s ∧ dom el x = false)) := by
  have hs : Antichain dom (run dom ops) := C06_antichain hr ht ops
  generalize run dom ops = s at hs
  simp only
  by_cases h : ∃ x ∈ s, dom x el = true
  · rw [add_of_dominated ht hr el s hs h]; simp [h]
  · have h' : ∀ x ∈ s, dom x el = false := by
      intro x hx; by_cases hd : dom x el = true
      · exact absurd ⟨x, hx, hd⟩ h
      · simpa using hd
    rw [add_of_not_dominated el s h']
    simp only [Bool.true_eq_false, false_iff, false_implies, true_and, true_implies]
    refine ⟨h, ?_⟩
    intro x
    simp only [keep, List.mem_append, List.mem_filter, Bool.not_eq_true', List.mem_singleton]
    constructor
    · rintro (h | h)
      · exact Or.inr h
      · exact Or.inl h
    · rintro (h | h)
      · exact Or.inr h
      · exact Or.inl h

/-- C06: for a history of insertions, the content is exactly the non-dominated part of the inserted
elements: every inserted element is dominated by a stored one, every stored one was inserted, and a
stored element is only dominated by inserted elements equivalent to it. -/
theorem C06_non_dominated (hr : ∀ a, dom a a = true)
    (ht : ∀ a b c, dom a b = true → dom b c = true → dom a c = true) (xs : List α) :
    (∀ x ∈ xs, ∃ y ∈ runAdds dom xs, dom y x = true) ∧
    (∀ y ∈ runAdds dom xs, y ∈ xs) ∧
    (∀ y ∈ runAdds dom xs, ∀ x ∈ xs, dom x y = true → dom y x = true) := by
  have key : ∀ (xs done : List α) (s : List α), Antichain dom s →
      (∀ x ∈ done, ∃ y ∈ s, dom y x = true) → (∀ y ∈ s, y ∈ done) →
      let s' := (xs.map Op.add).foldl (step dom) s
      Antichain dom s' ∧ (∀ x ∈ done ++ xs, ∃ y ∈ s', dom y x = true) ∧ (∀ y ∈ s', y ∈ done ++ xs) := by
    intro xs
    induction xs with
    | nil => intro done s h1 h2 h3; simpa using ⟨h1, h2, h3⟩
    | cons x xs ih =>
      intro done s h1 h2 h3
      simp only [List.map_cons, List.foldl_cons, step]
      by_cases h : ∃ y ∈ s, dom y x = true
      · rw [add_of_dominated ht hr x s h1 h]
        have := ih (done ++ [x]) s h1 (by
          intro z hz
          simp only [List.mem_append, List.mem_singleton] at hz
          rcases hz with hz | rfl
          · exact h2 z hz
          · exact h) (by intro y hy; simp [h3 y hy])
        simpa using this
      · have h' : ∀ y ∈ s, dom y x = false := by
          intro y hy; by_cases hd : dom y x = true
          · exact absurd ⟨y, hy, hd⟩ h
          · simpa using hd
        rw [add_of_not_dominated x s h']
        have hanti : Antichain dom (keep dom x s ++ [x]) := by
          simp only [Antichain]
          rw [List.pairwise_append]
          refine ⟨List.Pairwise.filter _ h1, by simp, ?_⟩
          intro a ha b hb
          simp only [keep, List.mem_filter, Bool.not_eq_true'] at ha
          simp only [List.mem_singleton] at hb
          subst hb
          exact ⟨h' a ha.1, ha.2⟩
        have := ih (done ++ [x]) (keep dom x s ++ [x]) hanti (by
          intro z hz
          simp only [List.mem_append, List.mem_singleton] at hz
          rcases hz with hz | rfl
          · obtain ⟨y, hy, hyz⟩ := h2 z hz
            by_cases hxy : dom x y = true
            · exact ⟨x, by simp, ht x y z hxy hyz⟩
            · exact ⟨y, by simp only [keep, List.mem_append, List.mem_filter, Bool.not_eq_true']
                           exact Or.inl ⟨hy, by simpa using hxy⟩, hyz⟩
          · exact ⟨z, by simp, hr z⟩) (by
          intro y hy
          simp only [keep, List.mem_append, List.mem_filter, List.mem_singleton] at hy ⊢
          rcases hy with hy | rfl
          · exact Or.inl (h3 y hy.1)
          · exact Or.inr rfl)
        simpa using this
  have := key xs [] [] (by simp [Antichain]) (by simp) (by simp)
  simp only [List.nil_append] at this
  refine ⟨this.2.1, this.2.2, ?_⟩
  intro y hy x hx hxy
  obtain ⟨z, hz, hzx⟩ := this.2.1 x hx
  have hzy := ht z x y hzx hxy
  have hyz := antichain_mem this.1 hr hz hy hzy
  exact ht y z x hyz hzx

/-- Non-vacuity: componentwise order on pairs, with an insertion removing two stored elements and a
rejected one. -/
example :
    let dom : Nat × Nat → Nat × Nat → Bool := fun a b => a.1 ≤ b.1 && a.2 ≤ b.2
    (∀ a, dom a a = true) ∧ (∀ a b c, dom a b = true → dom b c = true → dom a c = true) ∧
    runAdds dom [(5, 1), (3, 3), (1, 5), (2, 2), (9, 9)] = [(5, 1), (1, 5), (2, 2)] := by
  refine ⟨by intro a; simp, ?_, by decide +kernel⟩
  intro a b c; simp; omega

/-- Transitivity is needed: the early return of `pareto_set.h:24-26` after a partial compaction
corrupts the set for a non-transitive relation (here the stored 2 is lost and 3 is duplicated). -/
theorem C06_early_return_needs_transitivity :
    let dom : Nat → Nat → Bool := fun a b => a = b || (a, b) ∈ [(9, 2), (4, 9)]
    add dom 9 [2, 3, 4] = (false, [3, 3, 4]) := by decide +kernel

end Nigiri.ParetoSet
