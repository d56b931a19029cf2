import Verif.Model.MergeDuplicates
/-!
# Properties C34 and C51: merging duplicates preserves the service and the trips
-/

namespace Nigiri.Merge

/-! ### Specification -/

/-- Transport `t` runs on day `d` (of the `kMaxDays` days). -/
def Runs (s : State) (t d : Nat) : Prop := d < 512 ∧ s.days t d = true

/-- The differences of the departures at all stops but the last and of the arrivals at all stops but the
first (in minutes, `n` stops). -/
def deviation (net : Net) (n a b : Nat) : Nat :=
  ((List.range (n - 1)).map (fun i =>
    ((net.dep a i).count - (net.dep b i).count).natAbs +
    ((net.arr a (i + 1)).count - (net.arr b (i + 1)).count).natAbs)).sum

/-- Transports `a`, `b` are duplicates found when comparing the locations `la` and `lb`: they belong to
routes starting at `la` and `lb` with the same number of stops, which are pairwise equivalent, start at
the same time, and their event times deviate by less minutes in total than they have stops. -/
def DuplicatesAt (net : Net) (la lb a b : Nat) : Prop :=
  a ≠ b ∧ ∃ ra rb, ra ∈ net.locRoutes la ∧ rb ∈ net.locRoutes lb ∧
    (net.seq ra).head? = some la ∧ (net.seq rb).head? = some lb ∧
    a ∈ net.transports ra ∧ b ∈ net.transports rb ∧
    (net.seq ra).length = (net.seq rb).length ∧
    (∀ (i x y : Nat), (net.seq ra)[i]? = some x → (net.seq rb)[i]? = some y → net.equiv x y = true) ∧
    (net.dep a 0).value = (net.dep b 0).value ∧
    deviation net (net.seq ra).length a b < (net.seq ra).length

/-- Transports `a`, `b` are duplicates: they belong to routes with the same number of stops, which are
pairwise equivalent, start at the same time, and their event times deviate by less minutes in total
than they have stops. -/
def Duplicates (net : Net) (a b : Nat) : Prop :=
  a ≠ b ∧ ∃ ra rb, a ∈ net.transports ra ∧ b ∈ net.transports rb ∧
    (net.seq ra).length = (net.seq rb).length ∧
    (∀ (i x y : Nat), (net.seq ra)[i]? = some x → (net.seq rb)[i]? = some y → net.equiv x y = true) ∧
    (net.dep a 0).value = (net.dep b 0).value ∧
    deviation net (net.seq ra).length a b < (net.seq ra).length

/-- Connected by a chain of duplicates. -/
inductive Linked (net : Net) (a : Nat) : Nat → Prop
  | refl : Linked net a a
  | step {b c : Nat} : Linked net a b → Duplicates net b c ∨ Duplicates net c b → Linked net a c

/-- Trip `trp` can be found on day `d`: one of its transports runs on that day. -/
def Found (s : State) (trp d : Nat) : Prop := ∃ r ∈ s.ranges trp, Runs s r.transport d

theorem DuplicatesAt.duplicates {net : Net} {la lb a b : Nat} (h : DuplicatesAt net la lb a b) :
    Duplicates net a b := by
  obtain ⟨h0, ra, rb, -, -, -, -, h⟩ := h
  exact ⟨h0, ra, rb, h⟩

theorem sum_map_add (l : List Nat) (f g : Nat → Nat) :
    (l.map (fun i => f i + g i)).sum = (l.map f).sum + (l.map g).sum := by
  induction l with
  | nil => rfl
  | cons x l ih => simp only [List.map_cons, List.sum_cons, ih]; omega

theorem getDelta_eq (net : Net) (n a b : Nat) (hn : 0 < n) : getDelta net n a b = deviation net n a b := by
  obtain ⟨m, rfl⟩ : ∃ m, n = m + 1 := ⟨n - 1, by omega⟩
  unfold getDelta deviation
  rw [sum_map_add, Nat.add_sub_cancel, sum_map_add, Nat.add_comm]
  refine congr (congrArg HAdd.hAdd ?_) ?_
  · rw [List.range_succ, List.map_append, List.sum_append]
    simp only [List.map_cons, List.map_nil, List.sum_cons, List.sum_nil, ne_eq, not_true_eq_false, if_false,
      Nat.add_zero]
    apply congrArg List.sum
    apply List.map_congr_left
    intro i hi
    rw [List.mem_range] at hi
    rw [if_pos (by omega)]
  · rw [List.range_succ_eq_map, List.map_cons, List.sum_cons, List.map_map]
    simp only [ne_eq, not_true_eq_false, if_false, Nat.zero_add]
    apply congrArg List.sum
    apply List.map_congr_left
    intro i _
    simp only [Function.comp_apply]
    rw [if_pos (by omega)]

/-! ### One merge -/

theorem none_iff (x : Days) : x.none = true ↔ ∀ d < 512, x d = false := by
  simp [Days.none, allDays]

theorem superset_iff (x y : Days) : isSuperset x y = true ↔ ∀ d < 512, y d = true → x d = true := by
  simp only [isSuperset, Days.beq, Days.and, allDays, List.all_eq_true, List.mem_range, beq_iff_eq]
  constructor
  · intro h d hd hy
    have := h d hd
    rw [hy] at this; simpa using this
  · intro h d hd
    cases hy : y d
    · simp
    · simp [h d hd hy]

theorem merge_trips (s : State) (size a b : Nat) : (merge s size a b).1.trips = s.trips := by
  unfold merge
  split
  · rfl
  split
  · rfl
  split <;> rfl

/-- What one merge does to the running days. -/
theorem merge_days (s : State) (size a b : Nat) (hab : a ≠ b) :
    (∀ t d, Runs (merge s size a b).1 t d → Runs s t d) ∧
    (∀ t d, t ≠ a → t ≠ b → (Runs (merge s size a b).1 t d ↔ Runs s t d)) ∧
    (∀ d, (Runs s a d ∨ Runs s b d) → (Runs (merge s size a b).1 a d ∨ Runs (merge s size a b).1 b d)) ∧
    (∀ d, ¬ (Runs (merge s size a b).1 a d ∧ Runs (merge s size a b).1 b d)) := by
  have nullify : ∀ x y, x ≠ y → (∀ d < 512, s.days x d = true → s.days y d = true) →
      (∀ t d, Runs (mergeAndNullify s x y) t d → Runs s t d) ∧
      (∀ t d, t ≠ x → (Runs (mergeAndNullify s x y) t d ↔ Runs s t d)) ∧
      (∀ d, (Runs s x d ∨ Runs s y d) → Runs (mergeAndNullify s x y) y d) ∧
      (∀ d, ¬ Runs (mergeAndNullify s x y) x d) := by
    intro x y hxy hsub
    have hne : ∀ t, t ≠ x → (mergeAndNullify s x y).days t = s.days t := by
      intro t ht; simp [mergeAndNullify, ht]
    have hx : ∀ d, (mergeAndNullify s x y).days x d = false := by intro d; simp [mergeAndNullify]
    refine ⟨?_, ?_, ?_, ?_⟩
    · rintro t d ⟨h1, h2⟩
      by_cases ht : t = x
      · subst ht; rw [hx] at h2; simp at h2
      · rw [hne t ht] at h2; exact ⟨h1, h2⟩
    · intro t d ht; unfold Runs; rw [hne t ht]
    · intro d h
      unfold Runs at *
      rw [hne y (fun h => hxy h.symm)]
      rcases h with ⟨h1, h2⟩ | h
      · exact ⟨h1, hsub d h1 h2⟩
      · exact h
    · rintro d ⟨h1, h2⟩; rw [hx] at h2; simp at h2
  unfold merge
  by_cases h0 : ((s.days a).and (s.days b)).none = true
  · rw [if_pos h0]
    rw [none_iff] at h0
    refine ⟨fun t d h => h, fun t d _ _ => Iff.rfl, fun d h => h, ?_⟩
    rintro d ⟨⟨h1, h2⟩, -, h3⟩
    have := h0 d h1
    simp only [Days.and, Bool.and_eq_false_iff] at this
    simp only at h2 h3
    rw [h2, h3] at this; simp at this
  rw [if_neg h0]
  by_cases h1 : isSuperset (s.days b) (s.days a) = true
  · rw [if_pos h1]
    obtain ⟨k1, k2, k3, k4⟩ := nullify a b hab ((superset_iff _ _).mp h1)
    exact ⟨k1, fun t d h _ => k2 t d h, fun d h => .inr (k3 d h), fun d h => k4 d h.1⟩
  rw [if_neg h1]
  by_cases h2 : isSuperset (s.days a) (s.days b) = true
  · rw [if_pos h2]
    obtain ⟨k1, k2, k3, k4⟩ := nullify b a (fun h => hab h.symm) ((superset_iff _ _).mp h2)
    exact ⟨k1, fun t d _ h => k2 t d h, fun d h => .inl (k3 d h.symm), fun d h => k4 d h.2⟩
  rw [if_neg h2]
  have hne : ∀ t, t ≠ a → (mergeOverlap s size a b).days t = s.days t := by
    intro t ht; simp [mergeOverlap, ht]
  have ha : ∀ d, (mergeOverlap s size a b).days a d = (s.days a d && !s.days b d) := by
    intro d
    simp only [mergeOverlap, if_true, Days.and, Days.compl]
    cases s.days a d <;> cases s.days b d <;> rfl
  refine ⟨?_, ?_, ?_, ?_⟩
  · rintro t d ⟨k1, k2⟩
    by_cases ht : t = a
    · subst ht
      simp only [ha, Bool.and_eq_true] at k2
      exact ⟨k1, k2.1⟩
    · simp only [hne t ht] at k2; exact ⟨k1, k2⟩
  · intro t d h _; unfold Runs; simp only [hne t h]
  · rintro d (⟨k1, k2⟩ | ⟨k1, k2⟩)
    · cases hb : s.days b d
      · left; exact ⟨k1, by simp only [ha, k2, hb]; rfl⟩
      · right; exact ⟨k1, by simp only [hne b (fun h => hab h.symm), hb]⟩
    · right; exact ⟨k1, by simp only [hne b (fun h => hab h.symm), k2]⟩
  · rintro d ⟨⟨-, k2⟩, -, k3⟩
    simp only [ha, Bool.and_eq_true] at k2
    simp only [hne b (fun h => hab h.symm)] at k3
    rw [k3] at k2; simp at k2

/-! ### Histories of merges -/

/-- A sequence of merges (number of stops, two transports). -/
def mergeAll (s : State) (l : List (Nat × Nat × Nat)) : State :=
  l.foldl (fun s m => (merge s m.1 m.2.1 m.2.2).1) s

theorem mergeAll_append (s : State) (l l' : List (Nat × Nat × Nat)) :
    mergeAll s (l ++ l') = mergeAll (mergeAll s l) l' := List.foldl_append ..

theorem mergeAll_cons (s : State) (x : Nat × Nat × Nat) (l : List (Nat × Nat × Nat)) :
    mergeAll s (x :: l) = mergeAll (merge s x.1 x.2.1 x.2.2).1 l := by
  simp only [mergeAll, List.foldl_cons]

/-- The search for duplicates in two routes is a sequence of merges. -/
theorem mergeRoutes_merges (net : Net) (n : Nat) (P : Nat → Nat → Prop) :
    ∀ (k : Nat) (as bs : List Nat) (s : State) (m : Nat), as.length + bs.length ≤ k →
      (∀ a ∈ as, ∀ b ∈ bs, a ≠ b → (net.dep a 0).value = (net.dep b 0).value → getDelta net n a b < n → P a b) →
      ∃ l, (mergeRoutes net n as bs s m).1 = mergeAll s l ∧ ∀ x ∈ l, P x.2.1 x.2.2 := by
  intro k
  induction k with
  | zero =>
    intro as bs s m hk _
    have : as = [] := List.length_eq_zero_iff.mp (by omega)
    subst this
    exact ⟨[], by simp [mergeRoutes, mergeAll], by simp⟩
  | succ k ih =>
    intro as bs s m hk hP
    match as, bs with
    | [], bs => exact ⟨[], by simp [mergeRoutes, mergeAll], by simp⟩
    | a :: as, [] => exact ⟨[], by simp [mergeRoutes, mergeAll], by simp⟩
    | a :: as, b :: bs =>
      simp only [List.length_cons] at hk
      have hP' : ∀ a' ∈ as, ∀ b' ∈ bs, a' ≠ b' → (net.dep a' 0).value = (net.dep b' 0).value →
          getDelta net n a' b' < n → P a' b' := fun a' ha b' hb =>
        hP a' (List.mem_cons_of_mem _ ha) b' (List.mem_cons_of_mem _ hb)
      rw [mergeRoutes]
      by_cases h1 : a = b
      · rw [if_pos h1]; exact ih as bs s m (by omega) hP'
      rw [if_neg h1]
      by_cases h2 : (net.dep a 0).value = (net.dep b 0).value
      · rw [if_pos h2]
        by_cases h3 : getDelta net n a b < n
        · rw [if_pos h3]
          obtain ⟨l, k1, k2⟩ := ih as bs (merge s n a b).1 (if (merge s n a b).2 then m + 1 else m) (by omega) hP'
          refine ⟨(n, a, b) :: l, by rw [mergeAll_cons]; exact k1, ?_⟩
          intro x hx
          rcases List.mem_cons.mp hx with rfl | hx
          · exact hP a (by simp) b (by simp) h1 h2 h3
          · exact k2 x hx
        · rw [if_neg h3]; exact ih as bs s m (by omega) hP'
      · rw [if_neg h2]
        by_cases h3 : (net.dep a 0).lt (net.dep b 0) = true
        · rw [if_pos h3]
          exact ih as (b :: bs) s m (by simp only [List.length_cons]; omega)
            (fun a' ha => hP a' (List.mem_cons_of_mem _ ha))
        · rw [if_neg h3]
          exact ih (a :: as) bs s m (by simp only [List.length_cons]; omega)
            (fun a' ha b' hb => hP a' ha b' (List.mem_cons_of_mem _ hb))

theorem seqMatches_iff {net : Net} {xs ys : List Nat} (h : seqMatches net xs ys = true) :
    ∀ (i x y : Nat), xs[i]? = some x → ys[i]? = some y → net.equiv x y = true := by
  intro i x y hx hy
  simp only [seqMatches, List.all_eq_true] at h
  apply h (x, y)
  rw [List.mem_iff_getElem?]
  exact ⟨i, by rw [List.getElem?_zip_eq_some]; exact ⟨hx, hy⟩⟩

theorem foldl_merges {α : Type} (P : Nat → Nat → Prop) (f : State × Nat → α → State × Nat) (xs : List α)
    (hf : ∀ acc, ∀ x ∈ xs, ∃ l, (f acc x).1 = mergeAll acc.1 l ∧ ∀ y ∈ l, P y.2.1 y.2.2) :
    ∀ acc, ∃ l, (xs.foldl f acc).1 = mergeAll acc.1 l ∧ ∀ y ∈ l, P y.2.1 y.2.2 := by
  induction xs with
  | nil => intro acc; exact ⟨[], rfl, by simp⟩
  | cons x xs ih =>
    intro acc
    obtain ⟨l1, h1, h2⟩ := hf acc x (by simp)
    obtain ⟨l2, h3, h4⟩ := ih (fun acc y hy => hf acc y (List.mem_cons_of_mem _ hy)) (f acc x)
    refine ⟨l1 ++ l2, by rw [List.foldl_cons, h3, h1, mergeAll_append], ?_⟩
    intro y hy
    rcases List.mem_append.mp hy with h | h
    · exact h2 y h
    · exact h4 y h

/-- C34: comparing two locations merges only transports which are duplicates found there. -/
theorem C34_found_there (net : Net) (a b : Nat) (s : State) :
    ∃ l, (findDuplicates net a b s).1 = mergeAll s l ∧ ∀ x ∈ l, DuplicatesAt net a b x.2.1 x.2.2 := by
  unfold findDuplicates
  refine foldl_merges (DuplicatesAt net a b) _ _ ?_ (s, 0)
  intro acc ra hra
  split
  · exact ⟨[], rfl, by simp⟩
  · rename_i hha
    refine foldl_merges (DuplicatesAt net a b) _ _ ?_ acc
    intro acc rb hrb
    unfold mergeRoutePair
    split
    · exact ⟨[], rfl, by simp⟩
    split
    · exact ⟨[], rfl, by simp⟩
    split
    · exact ⟨[], rfl, by simp⟩
    · rename_i hhb hlen hm
      have hlen : (net.seq ra).length = (net.seq rb).length := by simpa using hlen
      have hha : (net.seq ra).head? = some a := by simpa using hha
      refine mergeRoutes_merges net _ (DuplicatesAt net a b) _ _ _ _ _ (Nat.le_refl _) ?_
      intro x hx y hy hxy hdep hdelta
      rw [getDelta_eq _ _ _ _ (by omega)] at hdelta
      exact ⟨hxy, ra, rb, hra, hrb, hha, by simpa using hhb, hx, hy, hlen, seqMatches_iff (by simpa using hm), hdep,
        hdelta⟩

theorem findDuplicates_merges (net : Net) (a b : Nat) (s : State) :
    ∃ l, (findDuplicates net a b s).1 = mergeAll s l ∧ ∀ x ∈ l, Duplicates net x.2.1 x.2.2 := by
  obtain ⟨l, h1, h2⟩ := C34_found_there net a b s
  exact ⟨l, h1, fun x hx => (h2 x hx).duplicates⟩

/-- C34: only duplicates are merged: whatever pairs of locations are compared, the effect is that of a
sequence of merges of duplicate transports. -/
theorem C34_only_duplicates (net : Net) (pairs : List (Nat × Nat)) (s : State) :
    ∃ l, findAllDuplicates net pairs s = mergeAll s l ∧ ∀ x ∈ l, Duplicates net x.2.1 x.2.2 := by
  induction pairs generalizing s with
  | nil => exact ⟨[], rfl, by simp⟩
  | cons p ps ih =>
    obtain ⟨l1, h1, h2⟩ := findDuplicates_merges net p.1 p.2 s
    obtain ⟨l2, h3, h4⟩ := ih (findDuplicates net p.1 p.2 s).1
    refine ⟨l1 ++ l2, ?_, ?_⟩
    · rw [mergeAll_append, ← h1]; exact h3
    · intro y hy
      rcases List.mem_append.mp hy with h | h
      · exact h2 y h
      · exact h4 y h

theorem mergeAll_sub (l : List (Nat × Nat × Nat)) : ∀ (s : State), (∀ x ∈ l, x.2.1 ≠ x.2.2) →
    ∀ t d, Runs (mergeAll s l) t d → Runs s t d := by
  induction l with
  | nil => intro s _ t d h; exact h
  | cons x l ih =>
    intro s hx t d h
    rw [mergeAll_cons] at h
    have := ih (merge s x.1 x.2.1 x.2.2).1 (fun y hy => hx y (List.mem_cons_of_mem _ hy)) t d h
    exact (merge_days s x.1 x.2.1 x.2.2 (hx x (by simp))).1 t d this

theorem linked_trans {net : Net} {a b c : Nat} (h1 : Linked net a b) (h2 : Linked net b c) : Linked net a c := by
  induction h2 with
  | refl => exact h1
  | step _ h ih => exact .step ih h

/-- C34: the search for duplicates preserves the service: a transport that ran on some day is still
running on that day, or a transport connected with it by a chain of duplicates is; and no transport
runs on a day on which it did not run before. -/
theorem C34_service (net : Net) (pairs : List (Nat × Nat)) (s : State) :
    (∀ t d, Runs s t d → ∃ t', Linked net t t' ∧ Runs (findAllDuplicates net pairs s) t' d) ∧
    (∀ t d, Runs (findAllDuplicates net pairs s) t d → Runs s t d) := by
  obtain ⟨l, h1, h2⟩ := C34_only_duplicates net pairs s
  rw [h1]
  refine ⟨?_, mergeAll_sub l s (fun x hx => (h2 x hx).1)⟩
  clear h1
  induction l generalizing s with
  | nil => intro t d h; exact ⟨t, .refl, h⟩
  | cons x l ih =>
    intro t d h
    have hd := h2 x (by simp)
    obtain ⟨-, k2, k3, -⟩ := merge_days s x.1 x.2.1 x.2.2 hd.1
    have : ∃ t', Linked net t t' ∧ Runs (merge s x.1 x.2.1 x.2.2).1 t' d := by
      by_cases ha : t = x.2.1
      · subst ha
        rcases k3 d (.inl h) with k | k
        · exact ⟨_, .refl, k⟩
        · exact ⟨_, .step .refl (.inl hd), k⟩
      · by_cases hb : t = x.2.2
        · subst hb
          rcases k3 d (.inr h) with k | k
          · exact ⟨_, .step .refl (.inr hd), k⟩
          · exact ⟨_, .refl, k⟩
        · exact ⟨t, .refl, (k2 t d ha hb).mpr h⟩
    obtain ⟨t', h3, h4⟩ := this
    obtain ⟨t'', h5, h6⟩ := ih (merge s x.1 x.2.1 x.2.2).1 (fun y hy => h2 y (List.mem_cons_of_mem _ hy)) t' d h4
    rw [mergeAll_cons]
    exact ⟨t'', linked_trans h3 h5, h6⟩

/-- C34: two merged duplicates never run on the same day afterwards, whatever is merged before and
later. -/
theorem C34_not_twice (s : State) (before after : List (Nat × Nat × Nat)) (size a b : Nat) (hab : a ≠ b)
    (hafter : ∀ x ∈ after, x.2.1 ≠ x.2.2) (d : Nat) :
    ¬ (Runs (mergeAll s (before ++ (size, a, b) :: after)) a d ∧
       Runs (mergeAll s (before ++ (size, a, b) :: after)) b d) := by
  rw [mergeAll_append, mergeAll_cons]
  rintro ⟨h1, h2⟩
  exact (merge_days (mergeAll s before) size a b hab).2.2.2 d
    ⟨mergeAll_sub after _ hafter a d h1, mergeAll_sub after _ hafter b d h2⟩

/-! ### Trips -/

/-- All trips with a range on transport `t` are trips of `t`. -/
def Listed (s : State) (t : Nat) : Prop := ∀ trp, ∀ r ∈ s.ranges trp, r.transport = t → trp ∈ s.trips t

/-- C51, trips, one merge of transports of which one runs on all days of the other: every trip is
still found on the days on which it was found before (given that the trips using the disabled
transport are listed there - the case unless it replaced another transport before), and if both run
on the same days, on no other day. The full claim (any history, any day sets) is false of the code, see
the counterexamples below. -/
theorem C51_trip_found_partial (s : State) (size a b : Nat) (hab : a ≠ b) (ha : Listed s a) (hb : Listed s b)
    (hsub : (∀ d < 512, s.days a d = true → s.days b d = true) ∨ (∀ d < 512, s.days b d = true → s.days a d = true)) :
    (∀ trp d, Found s trp d → Found (merge s size a b).1 trp d) ∧
    ((∀ d < 512, s.days a d = s.days b d) → ∀ trp d, Found (merge s size a b).1 trp d → Found s trp d) := by
  have hne : ∀ x y t, t ≠ x → (mergeAndNullify s x y).days t = s.days t := by
    intro x y t ht; simp [mergeAndNullify, ht]
  have hx0 : ∀ x y d, (mergeAndNullify s x y).days x d = false := by intro x y d; simp [mergeAndNullify]
  have nullify : ∀ x y, x ≠ y → Listed s x → (∀ d < 512, s.days x d = true → s.days y d = true) →
      ∀ trp d, Found s trp d → Found (mergeAndNullify s x y) trp d := by
    rintro x y hxy hl hsub trp d ⟨r, hr, hd, hrun⟩
    by_cases hrx : r.transport = x
    · have htrp := hl trp r hr hrx
      refine ⟨replaceTransport x y r, ?_, hd, ?_⟩
      · show _ ∈ (if trp ∈ s.trips x then _ else _)
        rw [if_pos htrp]
        exact List.mem_map_of_mem hr
      · have : (replaceTransport x y r).transport = y := by simp [replaceTransport, hrx]
        rw [this, hne x y y (fun h => hxy h.symm)]
        rw [hrx] at hrun
        exact hsub d hd hrun
    · refine ⟨r, ?_, hd, by rw [hne x y _ hrx]; exact hrun⟩
      show _ ∈ (if trp ∈ s.trips x then _ else _)
      split
      · refine List.mem_map.mpr ⟨r, hr, ?_⟩
        simp [replaceTransport, hrx]
      · exact hr
  have nullify' : ∀ x y, x ≠ y → (∀ d < 512, s.days x d = s.days y d) →
      ∀ trp d, Found (mergeAndNullify s x y) trp d → Found s trp d := by
    rintro x y hxy heq trp d ⟨r, hr, hd, hrun⟩
    have hr' : r ∈ (if trp ∈ s.trips x then (s.ranges trp).map (replaceTransport x y) else s.ranges trp) := hr
    have hrx : r.transport ≠ x := by intro h; rw [h, hx0] at hrun; simp at hrun
    rw [hne x y _ hrx] at hrun
    split at hr'
    · obtain ⟨r0, h1, h2⟩ := List.mem_map.mp hr'
      refine ⟨r0, h1, hd, ?_⟩
      unfold replaceTransport at h2
      split at h2
      · rename_i h3
        subst h2
        simp only at hrun
        rw [h3, heq d hd]; exact hrun
      · subst h2; exact hrun
    · exact ⟨r, hr', hd, hrun⟩
  unfold merge
  by_cases h0 : ((s.days a).and (s.days b)).none = true
  · rw [if_pos h0]; exact ⟨fun _ _ h => h, fun _ _ _ h => h⟩
  rw [if_neg h0]
  by_cases h1 : isSuperset (s.days b) (s.days a) = true
  · rw [if_pos h1]
    exact ⟨nullify a b hab ha ((superset_iff _ _).mp h1), nullify' a b hab⟩
  rw [if_neg h1]
  by_cases h2 : isSuperset (s.days a) (s.days b) = true
  · rw [if_pos h2]
    exact ⟨nullify b a (fun h => hab h.symm) hb ((superset_iff _ _).mp h2),
      fun heq => nullify' b a (fun h => hab h.symm) (fun d hd => (heq d hd).symm)⟩
  · rcases hsub with h | h
    · exact absurd ((superset_iff _ _).mpr h) h1
    · exact absurd ((superset_iff _ _).mpr h) h2

/-- After any merge, every transport but the surviving one still lists its trips. -/
theorem C51_listed (s : State) (size a b t : Nat) (hta : t ≠ a) (htb : t ≠ b) (h : Listed s t) :
    Listed (merge s size a b).1 t := by
  have hmn : ∀ x y, t ≠ x → t ≠ y → Listed (mergeAndNullify s x y) t := by
    intro x y hx hy trp r hr ht
    have hr' : r ∈ (if trp ∈ s.trips x then (s.ranges trp).map (replaceTransport x y) else s.ranges trp) := hr
    split at hr'
    · obtain ⟨r0, h1, h2⟩ := List.mem_map.mp hr'
      unfold replaceTransport at h2
      split at h2
      · subst h2; simp only at ht; exact absurd ht.symm hy
      · subst h2; exact h trp r0 h1 ht
    · exact h trp r hr' ht
  unfold merge
  split
  · exact h
  split
  · exact hmn a b hta htb
  split
  · exact hmn b a htb hta
  · intro trp r hr ht
    have hr' : r ∈ (if trp ∈ s.trips b ∧ (s.ranges trp).any (fun r => r.transport == b) then
        s.ranges trp ++ [⟨a, 0, size⟩] else s.ranges trp) := hr
    split at hr'
    · rcases List.mem_append.mp hr' with h1 | h1
      · exact h trp r h1 ht
      · simp only [List.mem_cons, List.not_mem_nil, or_false] at h1
        subst h1; exact absurd ht.symm hta
    · exact h trp r hr' ht

/-! ### Examples and counterexamples -/

/-- Transport `t` and its trip (of the same number) run on the given days. -/
def exState (days : List (List Nat)) : State :=
  { days := fun t d => (days.getD t []).contains d
    ranges := fun trp => [⟨trp, 0, 2⟩]
    trips := fun t => [t] }

/-- Two routes with two equivalent stops each, three transports departing and arriving at the same
time. -/
def exNet : Net :=
  { locRoutes := fun l => if l = 0 then [0] else if l = 10 then [1] else []
    seq := fun r => if r = 0 then [0, 1] else [10, 11]
    transports := fun r => if r = 0 then [0] else [1]
    dep := fun _ _ => ⟨0, 600⟩
    arr := fun _ _ => ⟨0, 630⟩
    equiv := fun x y => y = x + 10 }

/-- Non-vacuity: the duplicates are found and merged; both trips are found on their days. -/
example : Duplicates exNet 0 1 :=
  ⟨by decide, 0, 1, by decide, by decide, by decide, by
    intro i x y hx hy
    have hi : i < 2 := by rw [List.getElem?_eq_some_iff] at hx; exact hx.1
    match i, hi with
    | 0, _ => simp [exNet] at hx hy; subst hx hy; decide
    | 1, _ => simp [exNet] at hx hy; subst hx hy; decide, by decide, by decide⟩

example : (findDuplicates exNet 0 10 (exState [[3, 4], [3, 4, 5]])).2 = 1 := by decide +kernel
example : ((findAllDuplicates exNet [(0, 10)] (exState [[3, 4], [3, 4, 5]])).ranges 0) = [⟨1, 0, 2⟩] := by
  decide +kernel
example : Listed (exState [[3, 4], [3, 4, 5]]) 0 := by
  intro trp r hr ht
  simp only [exState, List.mem_cons, List.not_mem_nil, or_false] at hr ⊢
  subst hr; exact ht

/-- If neither transport runs on all days of the other one, the trips of the first are no longer found
on the common days, and those of the second are found on days on which they do not run. -/
theorem C51_overlap_counterexample :
    let s := exState [[3, 4], [4, 5]]
    let s' := (merge s 2 0 1).1
    (Found s 0 4 ∧ ¬ Found s' 0 4) ∧ (¬ Found s 1 3 ∧ Found s' 1 3) := by
  refine ⟨⟨⟨⟨0, 0, 2⟩, by decide, by decide, by decide⟩, ?_⟩, ?_, ⟨⟨0, 0, 2⟩, by decide +kernel, by decide, by decide +kernel⟩⟩
  · rintro ⟨r, hr, -, hrun⟩
    have : ∀ r ∈ (merge (exState [[3, 4], [4, 5]]) 2 0 1).1.ranges 0,
        (merge (exState [[3, 4], [4, 5]]) 2 0 1).1.days r.transport 4 = false := by decide +kernel
    rw [this r hr] at hrun; simp at hrun
  · rintro ⟨r, hr, -, hrun⟩
    have : ∀ r ∈ (exState [[3, 4], [4, 5]]).ranges 1, (exState [[3, 4], [4, 5]]).days r.transport 3 = false := by
      decide +kernel
    rw [this r hr] at hrun; simp at hrun

/-- A trip whose transport was replaced by one running on more days is found on these days, too. -/
theorem C51_superset_counterexample :
    let s := exState [[3, 4], [3, 4, 5]]
    ¬ Found s 0 5 ∧ Found (merge s 2 0 1).1 0 5 := by
  refine ⟨?_, ⟨⟨1, 0, 2⟩, by decide +kernel, by decide, by decide +kernel⟩⟩
  rintro ⟨r, hr, -, hrun⟩
  have : ∀ r ∈ (exState [[3, 4], [3, 4, 5]]).ranges 0, (exState [[3, 4], [3, 4, 5]]).days r.transport 5 = false := by
    decide +kernel
  rw [this r hr] at hrun; simp at hrun

/-- Three duplicates: after 0 was replaced by 1 and 1 by 2, the trip of 0 still refers to the disabled
transport 1 and is not found any more. -/
theorem C51_chain_counterexample :
    let s := exState [[3], [3], [3]]
    Found s 0 3 ∧ ¬ Found (mergeAll s [(2, 0, 1), (2, 1, 2)]) 0 3 := by
  refine ⟨⟨⟨0, 0, 2⟩, by decide, by decide, by decide⟩, ?_⟩
  rintro ⟨r, hr, -, hrun⟩
  have : ∀ r ∈ (mergeAll (exState [[3], [3], [3]]) [(2, 0, 1), (2, 1, 2)]).ranges 0,
      (mergeAll (exState [[3], [3], [3]]) [(2, 0, 1), (2, 1, 2)]).days r.transport 3 = false := by decide +kernel
  rw [this r hr] at hrun; simp at hrun

end Nigiri.Merge
