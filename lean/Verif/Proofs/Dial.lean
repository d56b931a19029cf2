import Verif.Model.Dial
/-! Invariant and step lemmas of the bucket queue. -/

namespace Nigiri.Dial
variable {α : Type} {bucketOf : α → Nat}

/-- All stored elements. -/
def contents (d : Dial α) : List α := d.buckets.flatten

/-- The representation invariant. -/
structure Inv (bucketOf : α → Nat) (d : Dial α) : Prop where
  size_eq : d.size = (contents d).length
  below : ∀ i, i < d.current → d.buckets.getD i [] = []
  bucket : ∀ i, ∀ x ∈ d.buckets.getD i [], bucketOf x = i

theorem mem_contents {d : Dial α} {x : α} : x ∈ contents d ↔ ∃ i, x ∈ d.buckets.getD i [] := by
  simp only [contents, List.mem_flatten]
  constructor
  · rintro ⟨l, hl, hx⟩
    obtain ⟨i, hi, rfl⟩ := List.mem_iff_getElem.mp hl
    exact ⟨i, by simpa [List.getD_eq_getElem?_getD, hi] using hx⟩
  · rintro ⟨i, hx⟩
    by_cases hi : i < d.buckets.length
    · exact ⟨d.buckets[i], List.getElem_mem hi, by simpa [List.getD_eq_getElem?_getD, hi] using hx⟩
    · simp [List.getD_eq_getElem?_getD, hi] at hx

theorem getD_set (l : List (List α)) (i j : Nat) (v : List α) (hi : i < l.length) :
    (l.set i v).getD j [] = if i = j then v else l.getD j [] := by
  simp only [List.getD_eq_getElem?_getD, List.getElem?_set]
  split
  · rename_i h; subst h; simp
  · rfl

theorem flatten_set_perm : ∀ (l : List (List α)) (i : Nat) (v w : List α), i < l.length →
    (l.set i (w ++ v)).flatten.Perm (v ++ (l.set i w).flatten)
  | [], _, _, _, h => by simp at h
  | a :: l, 0, v, w, _ => by
    simp only [List.set_cons_zero, List.flatten_cons]
    rw [← List.append_assoc v w]
    exact (List.perm_append_comm).append_right _
  | a :: l, i + 1, v, w, h => by
    simp only [List.set_cons_succ, List.flatten_cons]
    have ih := flatten_set_perm l i v w (by simpa using h)
    refine (List.Perm.append_left a ih).trans ?_
    rw [← List.append_assoc, ← List.append_assoc]
    exact (List.perm_append_comm).append_right _

theorem set_getD_self : ∀ (l : List (List α)) (i : Nat), l.set i (l.getD i []) = l := by
  intro l i
  by_cases h : i < l.length
  · simp [List.getD_eq_getElem?_getD, h]
  · rw [List.set_eq_of_length_le (by omega)]

theorem inv_ofBuckets (n : Nat) : Inv bucketOf (ofBuckets n : Dial α) := by
  have h : ∀ i, (ofBuckets n : Dial α).buckets.getD i [] = [] := by
    intro i
    simp only [ofBuckets, List.getD_eq_getElem?_getD, List.getElem?_replicate]
    split <;> rfl
  refine ⟨?_, fun i _ => h i, fun i x hx => by rw [h i] at hx; simp at hx⟩
  have : contents (ofBuckets n : Dial α) = [] := by
    rw [List.eq_nil_iff_forall_not_mem]
    intro x hx
    obtain ⟨i, hi⟩ := mem_contents.mp hx
    rw [h i] at hi; simp at hi
  rw [this]; rfl

theorem contents_ofBuckets (n : Nat) : contents (ofBuckets n : Dial α) = [] := by
  have := (inv_ofBuckets (bucketOf := fun _ => 0) (α := α) n).size_eq
  exact List.length_eq_zero_iff.mp this.symm

theorem push_spec {d : Dial α} (h : Inv bucketOf d) (x : α) (hx : bucketOf x < d.nBuckets) :
    ∃ d', d.push bucketOf x = some d' ∧ Inv bucketOf d' ∧ d'.nBuckets = d.nBuckets ∧
      (contents d').Perm (x :: contents d) := by
  unfold nBuckets at hx
  refine ⟨_, by simp only [push, hx, if_true]; rfl, ?_⟩
  have hperm : (d.buckets.set (bucketOf x) (d.buckets.getD (bucketOf x) [] ++ [x])).flatten.Perm
      (x :: d.buckets.flatten) := by
    have := flatten_set_perm d.buckets (bucketOf x) [x] (d.buckets.getD (bucketOf x) []) hx
    rwa [set_getD_self] at this
  refine ⟨⟨?_, ?_, ?_⟩, by simp [nBuckets], hperm⟩
  · have := hperm.length_eq
    have hs := h.size_eq
    simp only [contents, List.length_cons] at *
    omega
  · intro i hi
    simp only at hi ⊢
    rw [getD_set _ _ _ _ hx]
    have : bucketOf x ≠ i := by omega
    simp only [this, if_false]
    exact h.below i (by omega)
  · intro i y hy
    simp only at hy
    rw [getD_set _ _ _ _ hx] at hy
    split at hy
    · rename_i he
      simp only [List.mem_append, List.mem_singleton] at hy
      rcases hy with hy | rfl
      · rw [h.bucket _ y hy, he]
      · exact he
    · exact h.bucket i y hy

theorem nextBucketLoop_spec (bs : List (List α)) : ∀ (n b : Nat),
    b ≤ nextBucketLoop bs n b ∧ nextBucketLoop bs n b ≤ b + n ∧
    (∀ i, b ≤ i → i < nextBucketLoop bs n b → bs.getD i [] = []) ∧
    (nextBucketLoop bs n b < b + n → bs.getD (nextBucketLoop bs n b) [] ≠ [])
  | 0, b => by simp only [nextBucketLoop]; exact ⟨by omega, by omega, fun i h1 h2 => by omega, fun h => by omega⟩
  | n + 1, b => by
    simp only [nextBucketLoop]
    split
    · rename_i he
      obtain ⟨h1, h2, h3, h4⟩ := nextBucketLoop_spec bs n (b + 1)
      refine ⟨by omega, by omega, ?_, fun h => h4 (by omega)⟩
      intro i hi hlt
      by_cases hib : i = b
      · subst hib; exact List.isEmpty_iff.mp he
      · exact h3 i (by omega) hlt
    · rename_i he
      refine ⟨by omega, by omega, fun i h1 h2 => by omega, fun _ => ?_⟩
      intro hc; rw [hc] at he; simp at he

/-- In a non-empty queue, the next bucket exists, is non-empty and is the smallest non-empty one. -/
theorem getNextBucket_spec {d : Dial α} (h : Inv bucketOf d) (hne : contents d ≠ []) :
    d.getNextBucket < d.buckets.length ∧ d.buckets.getD d.getNextBucket [] ≠ [] ∧
    (∀ i, i < d.getNextBucket → d.buckets.getD i [] = []) ∧
    (∀ y ∈ contents d, d.getNextBucket ≤ bucketOf y) := by
  obtain ⟨h1, h2, h3, h4⟩ := nextBucketLoop_spec d.buckets (d.buckets.length - d.current) d.current
  have hbelow : ∀ i, i < d.getNextBucket → d.buckets.getD i [] = [] := by
    intro i hi
    by_cases hc : i < d.current
    · exact h.below i hc
    · exact h3 i (by omega) hi
  have hmin : ∀ y ∈ contents d, d.getNextBucket ≤ bucketOf y := by
    intro y hy
    obtain ⟨i, hi⟩ := mem_contents.mp hy
    have := h.bucket i y hi
    by_cases hlt : i < d.getNextBucket
    · rw [hbelow i hlt] at hi; simp at hi
    · omega
  have hex : ∃ y, y ∈ contents d := by
    cases hc : contents d with
    | nil => exact absurd hc hne
    | cons y ys => exact ⟨y, by simp⟩
  obtain ⟨y, hy⟩ := hex
  have hy' := hmin y hy
  obtain ⟨i, hi⟩ := mem_contents.mp hy
  have hib := h.bucket i y hi
  have hilen : i < d.buckets.length := by
    by_cases hi' : i < d.buckets.length
    · exact hi'
    · simp [List.getD_eq_getElem?_getD, hi'] at hi
  have hcl : d.getNextBucket < d.buckets.length := by omega
  refine ⟨hcl, ?_, hbelow, hmin⟩
  apply h4
  unfold getNextBucket at hcl hy'
  by_cases hcur : d.current < d.buckets.length
  · omega
  · have : d.buckets.length - d.current = 0 := by omega
    rw [this] at h1 h2
    omega

theorem getNextBucket_cursor {d : Dial α} (h : Inv bucketOf d) (hne : contents d ≠ []) :
    ({ d with current := d.getNextBucket } : Dial α).getNextBucket = d.getNextBucket := by
  obtain ⟨h1, h2, -, -⟩ := getNextBucket_spec h hne
  generalize d.getNextBucket = c at *
  simp only [getNextBucket]
  have : d.buckets.length - c = (d.buckets.length - c - 1) + 1 := by omega
  rw [this, nextBucketLoop, if_neg]
  rw [List.isEmpty_iff]; exact h2

/-- Taking from a non-empty queue is defined, returns a minimal element and removes exactly it. -/
theorem take_spec {d : Dial α} (h : Inv bucketOf d) (hne : contents d ≠ []) :
    ∃ x d', d.take = some (x, d') ∧ Inv bucketOf d' ∧ d'.nBuckets = d.nBuckets ∧
      (contents d).Perm (x :: contents d') ∧ ∀ y ∈ contents d, bucketOf x ≤ bucketOf y := by
  obtain ⟨h1, h2, h3, h4⟩ := getNextBucket_spec h hne
  have hcur := getNextBucket_cursor h hne
  have hsize : d.size ≠ 0 := by
    rw [h.size_eq]; intro h0; exact hne (List.length_eq_zero_iff.mp h0)
  generalize hc : d.getNextBucket = c at *
  obtain ⟨x, hx⟩ : ∃ x, (d.buckets.getD c []).getLast? = some x := by
    cases hl : (d.buckets.getD c []).getLast? with
    | none => exact absurd (List.getLast?_eq_none_iff.mp hl) h2
    | some x => exact ⟨x, rfl⟩
  have hsplit : d.buckets.getD c [] = (d.buckets.getD c []).dropLast ++ [x] := by
    have hg := List.getLast?_eq_some_iff.mp hx
    obtain ⟨ys, hys⟩ := hg
    rw [hys]; simp
  have hxb : bucketOf x = c := h.bucket c x (by rw [hsplit]; simp)
  have hperm : d.buckets.flatten.Perm
      (x :: (d.buckets.set c (d.buckets.getD c []).dropLast).flatten) := by
    have := flatten_set_perm d.buckets c [x] (d.buckets.getD c []).dropLast h1
    rw [← hsplit, set_getD_self] at this
    exact this
  refine ⟨x, { current := c, buckets := d.buckets.set c (d.buckets.getD c []).dropLast, size := d.size - 1 },
    ?_, ⟨?_, ?_, ?_⟩, by simp [nBuckets], hperm, ?_⟩
  · have he : d.empty = false := by simp [empty, hsize]
    simp only [take, top, he, Bool.false_eq_true, if_false, hc, hx]
    have he' : ({ d with current := c } : Dial α).empty = false := by simp [empty, hsize]
    simp only [pop, he', Bool.false_eq_true, if_false, hcur]
    rw [if_pos ⟨h1, by rw [List.isEmpty_iff]; exact h2⟩]
  · have := hperm.length_eq
    have hs := h.size_eq
    simp only [contents, List.length_cons] at *
    omega
  · intro i hi
    simp only at hi ⊢
    rw [getD_set _ _ _ _ h1, if_neg (by omega)]
    exact h3 i hi
  · intro i y hy
    simp only at hy
    rw [getD_set _ _ _ _ h1] at hy
    split at hy
    · rename_i he; subst he
      exact h.bucket _ y (List.dropLast_subset _ hy)
    · exact h.bucket i y hy
  · intro y hy; rw [hxb]; exact h4 y hy

theorem take_empty {d : Dial α} (h : Inv bucketOf d) (he : contents d = []) : d.take = none := by
  have hs := h.size_eq
  rw [he] at hs
  have : d.empty = true := by simp [empty, hs]
  simp [take, top, this]

theorem clear_spec {d : Dial α} : Inv bucketOf d.clear ∧ contents d.clear = [] ∧
    d.clear.nBuckets = d.nBuckets := by
  have hb : d.clear.buckets = List.replicate d.buckets.length [] := by simp [clear, List.map_const']
  have e : d.clear = ofBuckets d.buckets.length := by
    cases hd : d.clear with
    | mk c s b =>
      rw [hd] at hb
      simp only [clear, mk.injEq] at hd
      simp only [ofBuckets]
      obtain ⟨rfl, rfl, _⟩ := hd
      simp_all
  rw [e]
  exact ⟨inv_ofBuckets _, contents_ofBuckets _, by simp [ofBuckets, nBuckets]⟩

theorem empty_iff {d : Dial α} (h : Inv bucketOf d) : d.empty = true ↔ contents d = [] := by
  have hs := h.size_eq
  simp only [empty, beq_iff_eq]
  rw [hs, List.length_eq_zero_iff]

end Nigiri.Dial
