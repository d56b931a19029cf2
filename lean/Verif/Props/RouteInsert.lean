import Verif.Model.RouteInsert
/-!
# Property C17: order of the trips of a route
-/

namespace Nigiri.RouteInsert

/-- Specification: at every event the minutes of day are non-decreasing along the route. -/
def SortedAtAll (n : Nat) (route : List Times) : Prop :=
  ∀ i, i < n → route.Pairwise (fun a b => mam a i ≤ mam b i)

private theorem insert_sorted (n : Nat) (route : List Times) (s : Times) (idx : Nat) (hs : s.length = n)
    (hr : SortedAtAll n route) (h : getIndex route s = some idx) : SortedAtAll n (insertAt route idx s) := by
  intro i hi
  unfold getIndex at h
  simp only at h
  split at h
  · simp at h
  · rename_i hbad
    simp at h; subst h
    have hle : lowerBound route s ≤ route.length := by
      unfold lowerBound; exact (List.takeWhile_prefix _).length_le
    have hgood : ∀ i < n, (lowerBound route s > 0 → mam (route.getD (lowerBound route s - 1) []) i ≤ mam s i) ∧
        (lowerBound route s < route.length → mam s i ≤ mam (route.getD (lowerBound route s) []) i) := by
      intro i hi
      have hb : ∀ x ∈ List.range s.length, ¬ (((decide (lowerBound route s > 0) && decide (mam s x < mam (route.getD (lowerBound route s - 1) []) x)) ||
          (decide (lowerBound route s < route.length) && decide (mam s x > mam (route.getD (lowerBound route s) []) x))) = true) := by
        intro x hx hx'
        apply hbad
        rw [List.any_eq_true]
        exact ⟨x, hx, hx'⟩
      have := hb i (by simp [hs, hi])
      simp only [Bool.or_eq_true, Bool.and_eq_true, decide_eq_true_eq, not_or, not_and, Nat.not_lt] at this
      exact ⟨fun h => this.1 h, fun h => this.2 h⟩
    obtain ⟨g1, g2⟩ := hgood i hi
    have hp := List.pairwise_iff_getElem.mp (hr i hi)
    unfold insertAt
    rw [List.pairwise_append, List.pairwise_cons]
    refine ⟨(hr i hi).sublist (List.take_sublist _ _), ⟨?_, (hr i hi).sublist (List.drop_sublist _ _)⟩, ?_⟩
    · intro b hb
      obtain ⟨j, hj, rfl⟩ := List.mem_iff_getElem.mp hb
      rw [List.getElem_drop]
      simp at hj
      have hlt : lowerBound route s < route.length := by omega
      have h1 := g2 hlt
      rw [List.getD_eq_getElem?_getD, List.getElem?_eq_getElem hlt] at h1
      simp at h1
      by_cases hj0 : j = 0
      · subst hj0; simpa using h1
      · exact Nat.le_trans h1 (hp _ _ hlt (by omega) (by omega))
    · intro a ha b hb
      obtain ⟨j, hj, rfl⟩ := List.mem_iff_getElem.mp ha
      rw [List.getElem_take]
      simp at hj
      rcases List.mem_cons.mp hb with rfl | hb
      · have h1 := g1 (by omega)
        have hlt : lowerBound route b - 1 < route.length := by omega
        rw [List.getD_eq_getElem?_getD, List.getElem?_eq_getElem hlt] at h1
        simp at h1
        by_cases hjl : j = lowerBound route b - 1
        · subst hjl; exact h1
        · exact Nat.le_trans (hp j _ (by omega) hlt (by omega)) h1
      · obtain ⟨k, hk, rfl⟩ := List.mem_iff_getElem.mp hb
        rw [List.getElem_drop]
        simp at hk
        exact hp _ _ (by omega) (by omega) (by omega)

theorem addTrip_inv (n : Nat) (rs : List (List Times)) (s : Times) (hs : s.length = n)
    (h : ∀ r ∈ rs, SortedAtAll n r) :
    (∀ r ∈ addTrip rs s, SortedAtAll n r) ∧ (addTrip rs s).flatten.Perm (s :: rs.flatten) := by
  induction rs with
  | nil =>
    constructor
    · intro r hr
      simp [addTrip] at hr; subst hr
      intro i _; simp
    · simp [addTrip]
  | cons r rs ih =>
    obtain ⟨ih1, ih2⟩ := ih (fun r' hr' => h r' (by simp [hr']))
    unfold addTrip
    cases hg : getIndex r s with
    | none =>
      simp only
      constructor
      · intro r' hr'
        rcases List.mem_cons.mp hr' with rfl | hr'
        · exact h r' (by simp)
        · exact ih1 r' hr'
      · simp only [List.flatten_cons]
        exact ((ih2.append_left r)).trans (List.perm_middle)
    | some idx =>
      simp only
      constructor
      · intro r' hr'
        rcases List.mem_cons.mp hr' with rfl | hr'
        · exact insert_sorted n r s idx hs (h r (by simp)) hg
        · exact h r' (by simp [hr'])
      · simp only [List.flatten_cons, insertAt]
        have h1 : (r.take idx ++ s :: r.drop idx).Perm (s :: r) := by
          have := List.perm_middle (a := s) (l₁ := r.take idx) (l₂ := r.drop idx)
          rw [List.take_append_drop] at this; exact this
        exact h1.append_right rs.flatten

/-- C17 (order): whatever trips are added in whatever order, every trip ends up in exactly one
route, and in every route all events are ordered by minute of day in the same way. -/
theorem C17_sorted (n : Nat) (trips : List Times) (hlen : ∀ t ∈ trips, t.length = n) :
    (∀ r ∈ addAll trips, SortedAtAll n r) ∧ (addAll trips).flatten.Perm trips := by
  unfold addAll
  suffices H : ∀ (ts : List Times) (rs : List (List Times)), (∀ t ∈ ts, t.length = n) →
      (∀ r ∈ rs, SortedAtAll n r) →
      (∀ r ∈ ts.foldl addTrip rs, SortedAtAll n r) ∧ (ts.foldl addTrip rs).flatten.Perm (rs.flatten ++ ts) by
    simpa using H trips [] hlen (by simp)
  intro ts
  induction ts with
  | nil => intro rs _ h; exact ⟨h, by simp⟩
  | cons t ts ih =>
    intro rs hl h
    obtain ⟨a1, a2⟩ := addTrip_inv n rs t (hl t (by simp)) h
    obtain ⟨b1, b2⟩ := ih (addTrip rs t) (fun x hx => hl x (by simp [hx])) a1
    refine ⟨b1, b2.trans ?_⟩
    exact (a2.append_right ts).trans (by
      simp only [List.cons_append]
      exact List.perm_middle.symm)

/-- C17 (FIFO): in a route, a run of trip `a` and a run of trip `b` (on any days `x`, `y`) that pass
the same number of midnights between two events `i` and `j` do not overtake each other: the one that
is strictly earlier at `i` is not later at `j`. -/
theorem C17_fifo_partial (n : Nat) (trips : List Times) (hlen : ∀ t ∈ trips, t.length = n)
    (r : List Times) (hr : r ∈ addAll trips) (a b : Times) (ha : a ∈ r) (hb : b ∈ r)
    (i j : Nat) (hi : i < n) (hj : j < n)
    (hmid : (a.getD j 0 / 1440 : Int) - a.getD i 0 / 1440 = (b.getD j 0 / 1440 : Int) - b.getD i 0 / 1440)
    (x y : Int) (hlt : x * 1440 + a.getD i 0 < y * 1440 + b.getD i 0) :
    x * 1440 + (a.getD j 0 : Int) ≤ y * 1440 + b.getD j 0 := by
  have hs := (C17_sorted n trips hlen).1 r hr
  obtain ⟨p, hp1, hp2⟩ := List.mem_iff_getElem.mp ha
  obtain ⟨q, hq1, hq2⟩ := List.mem_iff_getElem.mp hb
  have hord : (∀ k, k < n → mam a k ≤ mam b k) ∨ (∀ k, k < n → mam b k ≤ mam a k) := by
    rcases Nat.lt_trichotomy p q with h | h | h
    · left; intro k hk
      have := List.pairwise_iff_getElem.mp (hs k hk) p q hp1 hq1 h
      rw [hp2, hq2] at this; exact this
    · subst h; left; intro k _; rw [← hp2, ← hq2]; exact Nat.le_refl _
    · right; intro k hk
      have := List.pairwise_iff_getElem.mp (hs k hk) q p hq1 hp1 h
      rw [hp2, hq2] at this; exact this
  unfold mam at hord
  rcases hord with h | h
  · have h1 := h i hi
    have h2 := h j hj
    omega
  · have h1 := h i hi
    have h2 := h j hj
    omega

/-- C17, the part of the claim that fails: order by minute of day does not prevent overtaking when
only one of two trips passes midnight.  Here the slow trip 20:00 → 00:10 and the fast trip
21:00 → 23:55 of the same stop sequence are put in one route, although the slow one departs earlier
and arrives later. -/
theorem C17_overtake_counterexample :
    addAll [[1200, 1450], [1260, 1435]] = [[[1200, 1450], [1260, 1435]]] ∧
    (1200 < 1260 ∧ 1435 < 1450) := by decide

/-! ### Non-vacuity -/

example : addAll [[480, 540], [500, 530], [490, 560], [470, 520]] =
    [[[470, 520], [480, 540], [490, 560]], [[500, 530]]] := by decide

end Nigiri.RouteInsert
