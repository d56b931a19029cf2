import Verif.Model.ParetoSet
/-! Loop lemmas for the Pareto set. -/

namespace Nigiri.ParetoSet
variable {α : Type} {dom : α → α → Bool}

/-- Elements kept by a scan. -/
def keep (dom : α → α → Bool) (el : α) (l : List α) : List α := l.filter (fun x => !dom el x)

theorem scan_done_of (el : α) :
    ∀ (suf pre mid : List α), (∀ x ∈ suf, dom x el = false) →
      ∃ els', scan dom el (pre ++ mid ++ suf) (pre.length + mid.length) mid.length
          = .done els' (mid.length + (suf.length - (keep dom el suf).length)) ∧
        els'.length = (pre ++ mid ++ suf).length ∧
        els'.take (pre.length + (keep dom el suf).length) = pre ++ keep dom el suf := by
  intro suf
  induction suf with
  | nil =>
    intro pre mid _
    refine ⟨pre ++ mid, ?_, by simp, ?_⟩
    · rw [scan]; simp [keep]
    · simp [keep]
  | cons x suf ih =>
    intro pre mid h
    have hx : dom x el = false := h x (by simp)
    have hs : ∀ y ∈ suf, dom y el = false := fun y hy => h y (by simp [hy])
    have hlen : pre.length + mid.length < (pre ++ mid ++ x :: suf).length := by simp
    have hget : (pre ++ mid ++ x :: suf)[pre.length + mid.length] = x := by
      rw [List.getElem_append_right (by simp)]; simp
    have hk : (keep dom el suf).length ≤ suf.length := List.length_filter_le _ _
    rw [scan, dif_pos hlen]
    simp only [hget, hx, Bool.false_eq_true, if_false]
    by_cases hd : dom el x = true
    · have hkeep : keep dom el (x :: suf) = keep dom el suf := by simp [keep, hd]
      obtain ⟨els', h1, h2, h3⟩ := ih pre (mid ++ [x]) hs
      have e1 : pre ++ (mid ++ [x]) ++ suf = pre ++ mid ++ x :: suf := by simp
      rw [e1] at h1 h2
      refine ⟨els', ?_, h2, ?_⟩
      · simp only [hd, if_true]
        have e2 : pre.length + (mid ++ [x]).length = pre.length + mid.length + 1 := by
          simp; omega
        rw [e2] at h1
        simp only [List.length_append, List.length_singleton] at h1
        rw [h1, hkeep]
        congr 1
        simp; omega
      · rw [hkeep]; exact h3
    · have hd' : dom el x = false := by simpa using hd
      have hkeep : keep dom el (x :: suf) = x :: keep dom el suf := by simp [keep, hd']
      simp only [hd', Bool.false_eq_true, if_false, Nat.add_sub_cancel]
      cases mid with
      | nil =>
        have eset : (pre ++ [] ++ x :: suf).set pre.length x = pre ++ [x] ++ [] ++ suf := by simp
        obtain ⟨els', h1, h2, h3⟩ := ih (pre ++ [x]) [] hs
        refine ⟨els', ?_, ?_, ?_⟩
        · rw [eset]
          have e2 : (pre ++ [x]).length + ([] : List α).length = pre.length + ([] : List α).length + 1 := by
            simp
          rw [e2] at h1
          rw [h1, hkeep]
          simp
        · rw [h2]; simp
        · rw [hkeep]
          have : pre.length + (x :: keep dom el suf).length = (pre ++ [x]).length + (keep dom el suf).length := by
            simp; omega
          rw [this, h3]; simp
      | cons m mid' =>
        have eset : (pre ++ (m :: mid') ++ x :: suf).set pre.length x
            = (pre ++ [x]) ++ (mid' ++ [x]) ++ suf := by
          rw [List.append_assoc, List.set_append_right _ _ (Nat.le_refl _)]
          simp
        obtain ⟨els', h1, h2, h3⟩ := ih (pre ++ [x]) (mid' ++ [x]) hs
        refine ⟨els', ?_, ?_, ?_⟩
        · rw [eset]
          have e2 : (pre ++ [x]).length + (mid' ++ [x]).length = pre.length + (m :: mid').length + 1 := by
            simp; omega
          have e3 : (mid' ++ [x]).length = (m :: mid').length := by simp
          rw [e2, e3] at h1
          rw [h1, hkeep]
          congr 1
          simp
        · rw [h2]; simp
        · rw [hkeep]
          have : pre.length + (x :: keep dom el suf).length = (pre ++ [x]).length + (keep dom el suf).length := by
            simp; omega
          rw [this, h3]; simp

/-- If nothing stored dominates `el`, `add` succeeds, removes exactly what `el` dominates, keeps the
order of the rest and appends `el`. -/
theorem add_of_not_dominated (el : α) (els : List α) (h : ∀ x ∈ els, dom x el = false) :
    add dom el els = (true, keep dom el els ++ [el]) := by
  obtain ⟨els', h1, h2, h3⟩ := scan_done_of (dom := dom) el els [] [] h
  simp only [List.length_nil, Nat.add_zero, List.nil_append, Nat.zero_add] at h1 h2 h3
  have hk : (keep dom el els).length ≤ els.length := List.length_filter_le _ _
  unfold add
  rw [h1]
  simp only [h2]
  rw [show els.length - (els.length - (keep dom el els).length) = (keep dom el els).length by omega, h3]

/-- If no non-dominating stored element is dominated by `el`, the early return leaves the vector
unchanged. -/
theorem scan_early (el : α) :
    ∀ (suf pre : List α), (∃ x ∈ suf, dom x el = true) →
      (∀ x ∈ suf, dom x el = false → dom el x = false) →
      ∃ i, scan dom el (pre ++ suf) pre.length 0 = .dominated (pre ++ suf) i := by
  intro suf
  induction suf with
  | nil => rintro pre ⟨x, hx, _⟩; simp at hx
  | cons x suf ih =>
    intro pre hex hno
    have hlen : pre.length < (pre ++ x :: suf).length := by simp
    have hget : (pre ++ x :: suf)[pre.length] = x := by
      rw [List.getElem_append_right (by simp)]; simp
    rw [scan, dif_pos hlen]
    simp only [hget]
    by_cases hx : dom x el = true
    · exact ⟨pre.length, by simp [hx]⟩
    · have hx' : dom x el = false := by simpa using hx
      have hel : dom el x = false := hno x (by simp) hx'
      simp only [hx', hel, Bool.false_eq_true, if_false, Nat.sub_zero]
      have eset : (pre ++ x :: suf).set pre.length x = (pre ++ [x]) ++ suf := by simp
      rw [eset]
      have hex' : ∃ y ∈ suf, dom y el = true := by
        obtain ⟨y, hy, hd⟩ := hex
        simp only [List.mem_cons] at hy
        rcases hy with rfl | hy
        · exact absurd hd hx
        · exact ⟨y, hy, hd⟩
      obtain ⟨i, hi⟩ := ih (pre ++ [x]) hex' (fun y hy => hno y (by simp [hy]))
      exact ⟨i, by simpa using hi⟩

/-- The set is an antichain: no element dominates a different position. -/
def Antichain (dom : α → α → Bool) (els : List α) : Prop :=
  els.Pairwise (fun a b => dom a b = false ∧ dom b a = false)

theorem antichain_mem {els : List α} (h : Antichain dom els) (hr : ∀ a, dom a a = true) {a b : α}
    (ha : a ∈ els) (hb : b ∈ els) (hd : dom a b = true) : dom b a = true := by
  induction els with
  | nil => simp at ha
  | cons x xs ih =>
    unfold Antichain at h
    rw [List.pairwise_cons] at h
    simp only [List.mem_cons] at ha hb
    rcases ha with rfl | ha <;> rcases hb with rfl | hb
    · exact hr _
    · have := (h.1 b hb).1; simp [this] at hd
    · have := (h.1 a ha).2; simp [this] at hd
    · exact ih h.2 ha hb

/-- On an antichain, with transitive dominance, a rejected insertion leaves the set unchanged. -/
theorem add_of_dominated (ht : ∀ a b c, dom a b = true → dom b c = true → dom a c = true)
    (hr : ∀ a, dom a a = true)
    (el : α) (els : List α) (ha : Antichain dom els) (h : ∃ x ∈ els, dom x el = true) :
    add dom el els = (false, els) := by
  have hno : ∀ x ∈ els, dom x el = false → dom el x = false := by
    intro x hx hxe
    by_cases hex : dom el x = true
    · obtain ⟨y, hy, hye⟩ := h
      have hyx := ht y el x hye hex
      have hxy := antichain_mem ha hr hy hx hyx
      have := ht x y el hxy hye
      simp [hxe] at this
    · simpa using hex
  obtain ⟨i, hi⟩ := scan_early el els [] h hno
  unfold add
  simp only [List.nil_append, List.length_nil] at hi
  rw [hi]

end Nigiri.ParetoSet
