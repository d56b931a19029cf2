import Verif.Model.BuildFootpaths
import Verif.Props.Dijkstra
/-! Lemmas for the footpath closure: component search. -/

namespace Nigiri.Footpaths

/-- Following footpaths in their direction. -/
inductive Reach (g : Nat → List Edge) (a : Nat) : Nat → Prop
  | refl : Reach g a a
  | step {b : Nat} {e : Edge} : Reach g a b → e ∈ g b → Reach g a e.target

theorem Reach.trans {g : Nat → List Edge} {a b c : Nat} (h1 : Reach g a b) (h2 : Reach g b c) :
    Reach g a c := by
  induction h2 with
  | refl => exact h1
  | step _ he ih => exact .step ih he

/-! ### The search of one component -/

theorem mem_pushTargets {c : List (Option Nat)} {i : Nat} {es : List Edge} {st : List Nat} {t : Nat} :
    t ∈ pushTargets c i es st ↔ t ∈ st ∨ ∃ e ∈ es, e.target = t ∧ c[t]? ≠ some (some i) := by
  induction es generalizing st with
  | nil => simp [pushTargets]
  | cons e es ih =>
    rw [pushTargets, List.foldl_cons]
    change t ∈ pushTargets c i es _ ↔ _
    rw [ih]
    split
    · rename_i h
      constructor
      · rintro (h1 | ⟨e', h1, h2, h3⟩)
        · exact .inl h1
        · exact .inr ⟨e', List.mem_cons_of_mem _ h1, h2, h3⟩
      · rintro (h1 | ⟨e', h1, h2, h3⟩)
        · exact .inl h1
        · rcases List.mem_cons.mp h1 with rfl | h1
          · subst h2; exact absurd h h3
          · exact .inr ⟨e', h1, h2, h3⟩
    · rename_i h
      constructor
      · rintro (h1 | ⟨e', h1, h2, h3⟩)
        · rcases List.mem_cons.mp h1 with rfl | h1
          · exact .inr ⟨e, by simp, rfl, h⟩
          · exact .inl h1
        · exact .inr ⟨e', List.mem_cons_of_mem _ h1, h2, h3⟩
      · rintro (h1 | ⟨e', h1, h2, h3⟩)
        · exact .inl (List.mem_cons_of_mem _ h1)
        · rcases List.mem_cons.mp h1 with rfl | h1
          · subst h2; exact .inl (by simp)
          · exact .inr ⟨e', h1, h2, h3⟩

theorem length_pushTargets {c : List (Option Nat)} {i : Nat} {es : List Edge} {st : List Nat} :
    (pushTargets c i es st).length ≤ st.length + es.length := by
  induction es generalizing st with
  | nil => simp [pushTargets]
  | cons e es ih =>
    rw [pushTargets, List.foldl_cons]
    change (pushTargets c i es _).length ≤ _
    refine Nat.le_trans ih ?_
    split <;> simp <;> omega

/-- Work left: locations not yet in the component. -/
def work (g : Nat → List Edge) (n i : Nat) (c : List (Option Nat)) : Nat :=
  ((List.range n).map (fun j => if c[j]? = some (some i) then 0 else (g j).length + 1)).sum

theorem sum_range_drop (n j k : Nat) (f f' : Nat → Nat) (hle : ∀ x, f' x ≤ f x) (hj : j < n)
    (hk : f' j + k ≤ f j) : ((List.range n).map f').sum + k ≤ ((List.range n).map f).sum := by
  have mono : ∀ m, ((List.range m).map f').sum ≤ ((List.range m).map f).sum := by
    intro m
    induction m with
    | zero => simp
    | succ m ih =>
      have := hle m
      simp only [List.range_succ, List.map_append, List.sum_append, List.map_cons, List.map_nil,
        List.sum_cons, List.sum_nil]
      omega
  induction n with
  | zero => omega
  | succ m ih =>
    simp only [List.range_succ, List.map_append, List.sum_append, List.map_cons, List.map_nil,
      List.sum_cons, List.sum_nil]
    by_cases h : j = m
    · subst h; have := mono j; omega
    · have := ih (by omega); have := hle m; omega

/-- Loop invariant of the search from `i`, started in state `c0`. -/
structure VInv (g : Nat → List Edge) (n i : Nat) (c0 : List (Option Nat)) (st : List Nat)
    (c : List (Option Nat)) : Prop where
  len : c.length = n
  sound : ∀ (j : Nat), c[j]? = some (some i) → Reach g i j
  stack : ∀ j ∈ st, Reach g i j ∧ j < n
  other : ∀ (j : Nat), c[j]? = c0[j]? ∨ c[j]? = some (some i)
  closed : ∀ (j : Nat), c[j]? = some (some i) → ∀ e ∈ g j, c[e.target]? = some (some i) ∨ e.target ∈ st
  root : c[i]? = some (some i) ∨ i ∈ st

theorem visit_spec {g : Nat → List Edge} {n i : Nat} {c0 : List (Option Nat)}
    (hg : ∀ v e, e ∈ g v → e.target < n) :
    ∀ (fuel : Nat) (st : List Nat) (c : List (Option Nat)), VInv g n i c0 st c →
      st.length + work g n i c ≤ fuel →
      ∃ c', visit g i fuel st c = some c' ∧ VInv g n i c0 [] c' := by
  intro fuel
  induction fuel with
  | zero =>
    intro st c h hf
    cases st with
    | nil => exact ⟨c, by simp [visit], h⟩
    | cons j st => simp at hf
  | succ fuel ih =>
    intro st c h hf
    cases st with
    | nil => exact ⟨c, by simp [visit], h⟩
    | cons j st =>
      have hj := h.stack j (by simp)
      have hjc : j < c.length := by rw [h.len]; exact hj.2
      rw [visit, List.getElem?_eq_getElem hjc]
      simp only
      by_cases hc : c[j] = some i
      · rw [if_pos hc]
        have hcj : c[j]? = some (some i) := by rw [List.getElem?_eq_getElem hjc, hc]
        apply ih
        · refine ⟨h.len, h.sound, fun x hx => h.stack x (List.mem_cons_of_mem _ hx), h.other, ?_, ?_⟩
          · intro x hx e he
            rcases h.closed x hx e he with h1 | h1
            · exact .inl h1
            · rcases List.mem_cons.mp h1 with h2 | h2
              · rw [h2]; exact .inl hcj
              · exact .inr h2
          · rcases h.root with h1 | h1
            · exact .inl h1
            · rcases List.mem_cons.mp h1 with h2 | h2
              · rw [h2]; left; rw [h2] at hcj; exact hcj
              · exact .inr h2
        · simp only [List.length_cons] at hf; omega
      · rw [if_neg hc]
        have hself : (c.set j (some i))[j]? = some (some i) := List.getElem?_set_self hjc
        have hne : ∀ x : Nat, x ≠ j → (c.set j (some i))[x]? = c[x]? := fun x hx =>
          List.getElem?_set_ne (by omega)
        have hkeep : ∀ x : Nat, c[x]? = some (some i) → (c.set j (some i))[x]? = some (some i) := by
          intro x hx
          by_cases hxj : x = j
          · rw [hxj]; exact hself
          · rw [hne x hxj]; exact hx
        apply ih
        · refine ⟨by rw [List.length_set]; exact h.len, ?_, ?_, ?_, ?_, ?_⟩
          · intro x hx
            by_cases hxj : x = j
            · rw [hxj]; exact hj.1
            · rw [hne x hxj] at hx; exact h.sound x hx
          · intro x hx
            rcases mem_pushTargets.mp hx with h1 | ⟨e, he, h2, -⟩
            · exact h.stack x (List.mem_cons_of_mem _ h1)
            · rw [← h2]; exact ⟨hj.1.step he, hg _ _ he⟩
          · intro x
            by_cases hxj : x = j
            · rw [hxj]; exact .inr hself
            · rw [hne x hxj]; exact h.other x
          · intro x hx e he
            by_cases hxj : x = j
            · by_cases ht : (c.set j (some i))[e.target]? = some (some i)
              · exact .inl ht
              · exact .inr (mem_pushTargets.mpr (.inr ⟨e, by rw [← hxj]; exact he, rfl, ht⟩))
            · rw [hne x hxj] at hx
              rcases h.closed x hx e he with h1 | h1
              · exact .inl (hkeep _ h1)
              · rcases List.mem_cons.mp h1 with h2 | h2
                · rw [h2]; exact .inl hself
                · exact .inr (mem_pushTargets.mpr (.inl h2))
          · rcases h.root with h1 | h1
            · exact .inl (hkeep _ h1)
            · rcases List.mem_cons.mp h1 with h2 | h2
              · left; rw [← h2] at hself; rw [← h2]; exact hself
              · exact .inr (mem_pushTargets.mpr (.inl h2))
        · have h1 := @length_pushTargets (c.set j (some i)) i (g j) st
          have h2 : work g n i (c.set j (some i)) + ((g j).length + 1) ≤ work g n i c := by
            apply sum_range_drop n j
            · intro x
              by_cases hx : c[x]? = some (some i)
              · simp only [if_pos (hkeep x hx)]; omega
              · by_cases hx' : (c.set j (some i))[x]? = some (some i)
                · simp only [if_pos hx']; omega
                · simp only [if_neg hx, if_neg hx']; omega
            · exact hj.2
            · have : c[j]? ≠ some (some i) := by
                rw [List.getElem?_eq_getElem hjc]; intro hh; exact hc (Option.some.inj hh)
              simp only [if_pos hself, if_neg this]; omega
          simp only [List.length_cons] at hf
          omega

/-- A search from `i` assigns exactly the locations reachable from `i` to component `i`. -/
theorem visit_result {g : Nat → List Edge} {n i : Nat} {c : List (Option Nat)}
    (hg : ∀ v e, e ∈ g v → e.target < n) (hi : i < n) (hlen : c.length = n)
    (hfresh : ∀ j : Nat, c[j]? ≠ some (some i)) :
    ∃ c', visit g i (visitBudget g n) [i] c = some c' ∧ c'.length = n ∧
      (∀ j : Nat, Reach g i j → c'[j]? = some (some i)) ∧
      (∀ j : Nat, ¬ Reach g i j → c'[j]? = c[j]?) := by
  have hinv : VInv g n i c [i] c := by
    refine ⟨hlen, fun j hj => absurd hj (hfresh j), ?_, fun j => .inl rfl,
      fun j hj => absurd hj (hfresh j), .inr (by simp)⟩
    intro j hj
    simp only [List.mem_cons, List.not_mem_nil, or_false] at hj
    subst hj; exact ⟨.refl, hi⟩
  obtain ⟨c', h1, h2⟩ := visit_spec hg (visitBudget g n) [i] c hinv (by
    have : work g n i c = ((List.range n).map (fun j => (g j).length + 1)).sum := by
      unfold work
      congr 1
      apply List.map_congr_left
      intro x _
      rw [if_neg (hfresh x)]
    rw [this, visitBudget]; simp)
  refine ⟨c', h1, h2.len, ?_, ?_⟩
  · intro j hj
    induction hj with
    | refl => rcases h2.root with h | h
              · exact h
              · simp at h
    | step _ he ih =>
      rcases h2.closed _ ih _ he with h | h
      · exact h
      · simp at h
  · intro j hj
    rcases h2.other j with h | h
    · exact h
    · exact absurd (h2.sound j h) hj

/-! ### All searches -/

/-- State after the iterations `0..i-1`; `R` are the locations a search was started from. -/
structure RInv (g : Nat → List Edge) (n i : Nat) (R : List Nat) (c : List (Option Nat)) : Prop where
  len : c.length = n
  roots : ∀ k ∈ R, k < i ∧ k < n ∧ g k ≠ []
  sound : ∀ (j k : Nat), c[j]? = some (some k) → k ∈ R ∧ Reach g k j
  last : ∀ k ∈ R, ∀ j, Reach g k j → ∃ k', c[j]? = some (some k') ∧ k ≤ k'
  fresh : ∀ k ∈ R, ∀ k' ∈ R, k < k' → ¬ Reach g k k'
  assigned : ∀ k < i, k < n → g k ≠ [] → ∃ k', c[k]? = some (some k')

theorem reach_lt {g : Nat → List Edge} {n a b : Nat} (hg : ∀ v e, e ∈ g v → e.target < n)
    (ha : a < n) (h : Reach g a b) : b < n := by
  cases h with
  | refl => exact ha
  | step _ he => exact hg _ _ he

theorem round_spec {g : Nat → List Edge} {n i : Nat} {R : List Nat} {c : List (Option Nat)}
    (hg : ∀ v e, e ∈ g v → e.target < n) (hi : i < n) (h : RInv g n i R c) :
    ∃ c' R', round g n c i = some c' ∧ RInv g n (i + 1) R' c' := by
  have hic : i < c.length := by rw [h.len]; exact hi
  unfold round
  rw [List.getElem?_eq_getElem hic]
  simp only
  by_cases hskip : c[i] ≠ none ∨ (g i).isEmpty = true
  · rw [if_pos hskip]
    refine ⟨c, R, rfl, h.len, fun k hk => ⟨by have := (h.roots k hk).1; omega, (h.roots k hk).2⟩,
      h.sound, h.last, h.fresh, ?_⟩
    intro k hk hkn hgk
    by_cases hki : k = i
    · subst hki
      rcases hskip with hs | hs
      · obtain ⟨k', hk'⟩ := Option.ne_none_iff_exists'.mp hs
        exact ⟨k', by rw [List.getElem?_eq_getElem hic, hk']⟩
      · exact absurd (by simpa using hs) hgk
    · exact h.assigned k (by omega) hkn hgk
  · rw [if_neg hskip]
    have hnone : c[i] = none := by
      by_cases hn : c[i] = none
      · exact hn
      · exact absurd (Or.inl hn) hskip
    have hgi : g i ≠ [] := by
      intro hn; exact hskip (.inr (by simp [hn]))
    have hfresh : ∀ j : Nat, c[j]? ≠ some (some i) := by
      intro j hj
      have := (h.roots i (h.sound j i hj).1).1
      omega
    obtain ⟨c', h1, h2, h3, h4⟩ := visit_result hg hi h.len hfresh
    refine ⟨c', i :: R, h1, h2, ?_, ?_, ?_, ?_, ?_⟩
    · intro k hk
      rcases List.mem_cons.mp hk with rfl | hk
      · exact ⟨by omega, hi, hgi⟩
      · exact ⟨by have := (h.roots k hk).1; omega, (h.roots k hk).2⟩
    · intro j k hj
      by_cases hr : Reach g i j
      · rw [h3 j hr] at hj
        have hk : i = k := by simpa using hj
        subst hk; exact ⟨by simp, hr⟩
      · rw [h4 j hr] at hj
        exact ⟨List.mem_cons_of_mem _ (h.sound j k hj).1, (h.sound j k hj).2⟩
    · intro k hk j hr
      by_cases hri : Reach g i j
      · refine ⟨i, h3 j hri, ?_⟩
        rcases List.mem_cons.mp hk with rfl | hk
        · exact Nat.le_refl _
        · have := (h.roots k hk).1; omega
      · rcases List.mem_cons.mp hk with rfl | hk
        · exact absurd hr hri
        · obtain ⟨k', h5, h6⟩ := h.last k hk j hr
          exact ⟨k', by rw [h4 j hri]; exact h5, h6⟩
    · intro k hk k' hk' hlt hr
      rcases List.mem_cons.mp hk with rfl | hk1
      · rcases List.mem_cons.mp hk' with rfl | hk'
        · omega
        · have := (h.roots k' hk').1; omega
      · rcases List.mem_cons.mp hk' with rfl | hk2
        · obtain ⟨k'', h5, -⟩ := h.last k hk1 k' hr
          rw [List.getElem?_eq_getElem hic, hnone] at h5
          simp at h5
        · exact h.fresh k hk1 k' hk2 hlt hr
    · intro k hk hkn hgk
      by_cases hr : Reach g i k
      · exact ⟨i, h3 k hr⟩
      · by_cases hki : k = i
        · subst hki; exact absurd .refl hr
        · rw [h4 k hr]; exact h.assigned k (by omega) hkn hgk

theorem rounds_spec {g : Nat → List Edge} {n : Nat} (hg : ∀ v e, e ∈ g v → e.target < n) :
    ∀ (m i : Nat) (R : List Nat) (c : List (Option Nat)), i + m = n → RInv g n i R c →
      ∃ c' R', rounds g n (List.range' i m) c = some c' ∧ RInv g n n R' c' := by
  intro m
  induction m with
  | zero =>
    intro i R c hm h
    have : i = n := by omega
    subst this
    exact ⟨c, R, by simp [rounds], h⟩
  | succ m ih =>
    intro i R c hm h
    obtain ⟨c1, R1, h1, h2⟩ := round_spec hg (by omega) h
    obtain ⟨c', R', h3, h4⟩ := ih (i + 1) R1 c1 (by omega) h2
    refine ⟨c', R', ?_, h4⟩
    rw [List.range'_succ, rounds, h1]
    exact h3

/-- The component search always terminates without error. -/
theorem findComponents_spec {g : Nat → List Edge} {n : Nat} (hg : ∀ v e, e ∈ g v → e.target < n) :
    ∃ c R, findComponents g n = some c ∧ RInv g n n R c := by
  have h0 : RInv g n 0 [] (List.replicate n none) := by
    refine ⟨by simp, by simp, ?_, by simp, by simp, ?_⟩
    · intro j k hj
      rw [List.getElem?_replicate] at hj
      split at hj <;> simp at hj
    · intro k hk; omega
  obtain ⟨c, R, h1, h2⟩ := rounds_spec hg n 0 [] _ (by omega) h0
  exact ⟨c, R, by rw [findComponents, List.range_eq_range']; exact h1, h2⟩

/-! ### Components are the connected components -/

/-- A footpath between two locations, in either direction. -/
def Adj (g : Nat → List Edge) (a b : Nat) : Prop :=
  (∃ e ∈ g a, e.target = b) ∨ (∃ e ∈ g b, e.target = a)

/-- Connected by footpaths, ignoring directions. -/
inductive Conn (g : Nat → List Edge) (a : Nat) : Nat → Prop
  | refl : Conn g a a
  | step {b c : Nat} : Conn g a b → Adj g b c → Conn g a c

theorem Adj.symm {g : Nat → List Edge} {a b : Nat} (h : Adj g a b) : Adj g b a := h.elim .inr .inl

theorem Conn.trans {g : Nat → List Edge} {a b c : Nat} (h1 : Conn g a b) (h2 : Conn g b c) : Conn g a c := by
  induction h2 with
  | refl => exact h1
  | step _ h ih => exact .step ih h

theorem Conn.symm {g : Nat → List Edge} {a b : Nat} (h : Conn g a b) : Conn g b a := by
  induction h with
  | refl => exact .refl
  | step _ h ih => exact Conn.trans (.step .refl h.symm) ih

theorem Reach.conn {g : Nat → List Edge} {a b : Nat} (h : Reach g a b) : Conn g a b := by
  induction h with
  | refl => exact .refl
  | step _ he ih => exact .step ih (.inl ⟨_, he, rfl⟩)

/-- Two locations from which a third one can be reached can both be reached from a common one. -/
def Rooted (g : Nat → List Edge) : Prop :=
  ∀ x y z, Reach g x z → Reach g y z → ∃ r, Reach g r x ∧ Reach g r y

theorem common_root {g : Nat → List Edge} (hr : Rooted g) {a b : Nat} (h : Conn g a b) :
    ∃ r, Reach g r a ∧ Reach g r b := by
  induction h with
  | refl => exact ⟨a, .refl, .refl⟩
  | step _ h ih =>
    obtain ⟨r, h1, h2⟩ := ih
    rcases h with ⟨e, he, rfl⟩ | ⟨e, he, rfl⟩
    · exact ⟨r, h1, h2.step he⟩
    · obtain ⟨r', h3, h4⟩ := hr r _ _ h2 (Reach.step .refl he)
      exact ⟨r', h3.trans h1, h4⟩

variable {g : Nat → List Edge} {n : Nat} {R : List Nat} {c : List (Option Nat)}

theorem assigned_of_adj (h : RInv g n n R c) (hsrc : ∀ v, g v ≠ [] → v < n)
    {a b : Nat} (ha : Adj g a b) : ∃ k, c[a]? = some (some k) := by
  rcases ha with ⟨e, he, rfl⟩ | ⟨e, he, rfl⟩
  · have hne : g a ≠ [] := fun hn => by rw [hn] at he; simp at he
    exact h.assigned a (hsrc a hne) (hsrc a hne) hne
  · have hne : g b ≠ [] := fun hn => by rw [hn] at he; simp at he
    obtain ⟨k, hk⟩ := h.assigned b (hsrc b hne) (hsrc b hne) hne
    obtain ⟨k', hk', -⟩ := h.last k (h.sound b k hk).1 _ ((h.sound b k hk).2.step he)
    exact ⟨k', hk'⟩

/-- In a rooted graph the component of a location is that of every connected location. -/
theorem comp_eq (hr : Rooted g) (hsrc : ∀ v, g v ≠ [] → v < n) (h : RInv g n n R c)
    {a b i j : Nat} (hc : Conn g a b)
    (ha : c[a]? = some (some i)) (hb : c[b]? = some (some j)) : i = j := by
  obtain ⟨hiR, hia⟩ := h.sound a i ha
  obtain ⟨hjR, hjb⟩ := h.sound b j hb
  have hij : Conn g i j := hia.conn.trans (hc.trans hjb.conn.symm)
  obtain ⟨r, hri, hrj⟩ := common_root hr hij
  have hrne : g r ≠ [] := by
    rcases hri with _ | ⟨h1, he⟩
    · exact (h.roots _ hiR).2.2
    · clear hrj
      -- the first step of a non-trivial path leaves `r`
      have : ∀ x y e, Reach g x y → e ∈ g y → g x ≠ [] := by
        intro x y e hxy
        induction hxy generalizing e with
        | refl => intro he hn; rw [hn] at he; simp at he
        | step _ he' ih => intro _; exact ih _ he'
      exact this _ _ _ h1 he
  obtain ⟨k, hk⟩ := h.assigned r (hsrc r hrne) (hsrc r hrne) hrne
  obtain ⟨hkR, hkr⟩ := h.sound r k hk
  have key : ∀ x y, x ∈ R → Reach g r x → c[y]? = some (some x) → Reach g x y → k = x := by
    intro x y hxR hrx hy hxy
    have h1 : ¬ k < x := fun hlt => h.fresh k hkR x hxR hlt (hkr.trans hrx)
    obtain ⟨k', h2, h3⟩ := h.last k hkR y ((hkr.trans hrx).trans hxy)
    rw [hy] at h2
    have : x = k' := by simpa using h2
    omega
  rw [← key i a hiR hri ha hia, ← key j b hjR hrj hb hjb]

/-- Locations with a common component are connected. -/
theorem conn_of_comp (h : RInv g n n R c) {a b k : Nat}
    (ha : c[a]? = some (some k)) (hb : c[b]? = some (some k)) : Conn g a b :=
  (h.sound a k ha).2.conn.symm.trans (h.sound b k hb).2.conn

end Nigiri.Footpaths
