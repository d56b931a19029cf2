import Verif.Model.StringStore
/-!
# Property C32: string interning is injective and stable
-/

namespace Nigiri.StringStore
variable {α : Type} [DecidableEq α]

/-- Invariant: the hash set holds exactly the valid indices and no string is stored twice. -/
structure Inv (st : StringStore α) : Prop where
  cache : ∀ i, i ∈ st.cache ↔ i < st.strings.length
  inj : ∀ (i j : Nat) (s : α), st.strings[i]? = some s → st.strings[j]? = some s → i = j

theorem find_iff {st : StringStore α} (h : Inv st) (s : α) (i : Nat) :
    st.find s = some i ↔ st.strings[i]? = some s := by
  unfold find
  constructor
  · intro hf
    simpa using List.find?_some hf
  · intro hs
    cases hf : List.find? (fun i => st.strings[i]? == some s) st.cache with
    | none =>
      rw [List.find?_eq_none] at hf
      have hi : i ∈ st.cache := (h.cache i).mpr (by
        rw [List.getElem?_eq_some_iff] at hs; exact hs.1)
      have := hf i hi
      simp [hs] at this
    | some j =>
      have := List.find?_some hf
      simp only [beq_iff_eq] at this
      rw [h.inj i j s hs this]

theorem find_none_iff {st : StringStore α} (h : Inv st) (s : α) :
    st.find s = none ↔ s ∉ st.strings := by
  constructor
  · intro hf hs
    obtain ⟨i, hi⟩ := List.mem_iff_getElem?.mp hs
    rw [(find_iff h s i).mpr hi] at hf
    simp at hf
  · intro hs
    cases hf : st.find s with
    | none => rfl
    | some i => exact absurd (List.mem_iff_getElem?.mpr ⟨i, (find_iff h s i).mp hf⟩) hs

theorem store_spec {st : StringStore α} (h : Inv st) (s : α) :
    Inv (st.store s).1 ∧ (st.store s).1.strings[(st.store s).2]? = some s ∧
      (∀ (i : Nat) (x : α), st.strings[i]? = some x → (st.store s).1.strings[i]? = some x) ∧
      (∀ x, x ∈ (st.store s).1.strings → x ∈ st.strings ∨ x = s) := by
  unfold store
  cases hf : st.find s with
  | some i =>
    exact ⟨h, (find_iff h s i).mp hf, fun _ _ hx => hx, fun _ hx => Or.inl hx⟩
  | none =>
    have hns := (find_none_iff h s).mp hf
    simp only
    refine ⟨⟨?_, ?_⟩, by simp, ?_, by simp⟩
    · intro i
      simp only [List.mem_cons, h.cache, List.length_append, List.length_singleton]
      omega
    · intro i j x hi hj
      simp only [List.getElem?_append] at hi hj
      split at hi <;> split at hj
      · exact h.inj i j x hi hj
      · rw [List.getElem?_eq_some_iff] at hj
        obtain ⟨hj1, hj2⟩ := hj
        simp at hj1 hj2
        subst hj2
        exact absurd (List.mem_iff_getElem?.mpr ⟨i, hi⟩) hns
      · rw [List.getElem?_eq_some_iff] at hi
        obtain ⟨hi1, hi2⟩ := hi
        simp at hi1 hi2
        subst hi2
        exact absurd (List.mem_iff_getElem?.mpr ⟨j, hj⟩) hns
      · rw [List.getElem?_eq_some_iff] at hi hj
        obtain ⟨hi1, -⟩ := hi
        obtain ⟨hj1, -⟩ := hj
        simp at hi1 hj1
        omega
    · intro i x hx
      rw [List.getElem?_append_left]
      · exact hx
      · rw [List.getElem?_eq_some_iff] at hx; exact hx.1

private theorem storeAll_spec {st : StringStore α} (h : Inv st) (hist : List α) :
    let r := st.storeAll hist
    Inv r.1 ∧ r.2.length = hist.length ∧
      (∀ (n : Nat) (s : α), hist[n]? = some s → ∃ i : Nat, r.2[n]? = some i ∧ r.1.strings[i]? = some s) ∧
      (∀ (i : Nat) (x : α), st.strings[i]? = some x → r.1.strings[i]? = some x) ∧
      (∀ x, x ∈ r.1.strings → x ∈ st.strings ∨ x ∈ hist) := by
  induction hist generalizing st with
  | nil => exact ⟨h, rfl, by simp, fun _ _ hx => hx, fun _ hx => Or.inl hx⟩
  | cons s ss ih =>
    obtain ⟨h1, h2, h3, h4⟩ := store_spec h s
    obtain ⟨i1, i2, i3, i4, i5⟩ := ih h1
    simp only [storeAll]
    refine ⟨i1, by simp [i2], ?_, ?_, ?_⟩
    · intro n x hn
      cases n with
      | zero =>
        simp at hn; subst hn
        exact ⟨_, rfl, i4 _ _ h2⟩
      | succ n => simpa using i3 n x (by simpa using hn)
    · intro i x hx; exact i4 _ _ (h3 i x hx)
    · intro x hx
      rcases i5 x hx with hx | hx
      · rcases h4 x hx with hx | hx
        · exact Or.inl hx
        · exact Or.inr (by simp [hx])
      · exact Or.inr (by simp [hx])

omit [DecidableEq α] in
theorem inv_empty : Inv ({} : StringStore α) := ⟨by simp, by simp⟩

/-- C32: for every history of `store` calls on an empty store,
(1) every call returns an index that still reads back the stored string at the end,
(2) two calls return the same index iff they stored the same string, and
(3) `find` finds a string iff it was stored, and then returns the index `store` returned for it. -/
theorem C32_interning (hist : List α) :
    let (st, ids) := storeAll ({} : StringStore α) hist
    ids.length = hist.length ∧
    (∀ (n i : Nat) (s : α), hist[n]? = some s → ids[n]? = some i → st.get i = some s) ∧
    (∀ (m n i j : Nat) (s t : α), hist[m]? = some s → hist[n]? = some t → ids[m]? = some i →
      ids[n]? = some j → (i = j ↔ s = t)) ∧
    (∀ (s : α) (i : Nat), st.find s = some i ↔
      ∃ n : Nat, hist[n]? = some s ∧ ids[n]? = some i) ∧
    (∀ s : α, st.find s = none ↔ s ∉ hist) := by
  obtain ⟨h1, h2, h3, -, h5⟩ := storeAll_spec (inv_empty (α := α)) hist
  have hget : ∀ (n i : Nat) (s : α), hist[n]? = some s →
      (storeAll ({} : StringStore α) hist).2[n]? = some i →
      (storeAll ({} : StringStore α) hist).1.strings[i]? = some s := by
    intro n i s hn hi
    obtain ⟨i', hi1, hi2⟩ := h3 n s hn
    rw [hi1] at hi
    cases hi; exact hi2
  have hmem : ∀ x, x ∈ (storeAll ({} : StringStore α) hist).1.strings → x ∈ hist := by
    intro x hx
    rcases h5 x hx with hx | hx
    · simp at hx
    · exact hx
  refine ⟨h2, hget, ?_, ?_, ?_⟩
  · intro m n i j s t hm hn hi hj
    have a := hget m i s hm hi
    have b := hget n j t hn hj
    constructor
    · rintro rfl; rw [a] at b; exact Option.some.inj b
    · rintro rfl; exact h1.inj i j s a b
  · intro s i
    rw [find_iff h1]
    constructor
    · intro hs
      obtain ⟨n, hn⟩ := List.mem_iff_getElem?.mp (hmem s (List.mem_iff_getElem?.mpr ⟨i, hs⟩))
      obtain ⟨j, hj1, hj2⟩ := h3 n s hn
      rw [h1.inj i j s hs hj2]
      exact ⟨n, hn, hj1⟩
    · rintro ⟨n, hn, hi⟩; exact hget n i s hn hi
  · intro s
    rw [find_none_iff h1]
    constructor
    · intro hs hh
      obtain ⟨n, hn⟩ := List.mem_iff_getElem?.mp hh
      obtain ⟨j, -, hj2⟩ := h3 n s hn
      exact hs (List.mem_iff_getElem?.mpr ⟨j, hj2⟩)
    · intro hs hh; exact hs (hmem s hh)

/-- C32 (stability): more `store` calls never change what an index reads back. -/
theorem C32_stable (hist more : List α) (i : Nat) (s : α)
    (h : (storeAll ({} : StringStore α) hist).1.get i = some s) :
    (storeAll (storeAll ({} : StringStore α) hist).1 more).1.get i = some s :=
  (storeAll_spec (storeAll_spec inv_empty hist).1 more).2.2.2.1 i s h

example : (storeAll ({} : StringStore String) ["a", "b", "a", "", "b"]).2 = [0, 1, 0, 2, 1] := by
  decide

end Nigiri.StringStore
