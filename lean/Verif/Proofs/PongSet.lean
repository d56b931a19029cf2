import Verif.Model.Pong
import Verif.Proofs.ParetoSet
/-!
# The result sets of the ping-pong search (proofs)
-/

namespace Nigiri.ParetoSet
variable {α : Type} {dom le : α → α → Bool}

/-- Adding with a relation that agrees with a reflexive and transitive one on the elements present. -/
theorem add_local {p : α → Prop} (hag : ∀ a b, p a → p b → dom a b = le a b) (hr : ∀ a, le a a = true)
    (ht : ∀ a b c, le a b = true → le b c = true → le a c = true) {el : α} {els : List α} (hp : ∀ x ∈ els, p x) (he : p el)
    (ha : Antichain le els) :
    (∃ x ∈ els, le x el = true) ∧ (add dom el els).2 = els ∨
    (∀ x ∈ els, le x el = false) ∧ (add dom el els).2 = els.filter (fun x => !le el x) ++ [el] := by
  by_cases h : ∃ x ∈ els, le x el = true
  · left
    refine ⟨h, ?_⟩
    have hno : ∀ x ∈ els, dom x el = false → dom el x = false := by
      intro x hx hxe
      rw [hag _ _ (hp x hx) he] at hxe
      rw [hag _ _ he (hp x hx)]
      by_cases hex : le el x = true
      · obtain ⟨y, hy, hye⟩ := h
        have hyx := ht y el x hye hex
        have hxy := antichain_mem ha hr hy hx hyx
        have := ht x y el hxy hye
        simp [hxe] at this
      · simpa using hex
    obtain ⟨x, hx, hxe⟩ := h
    obtain ⟨i, hi⟩ := scan_early (dom := dom) el els [] ⟨x, hx, by rw [hag _ _ (hp x hx) he]; exact hxe⟩ hno
    unfold add
    simp only [List.nil_append, List.length_nil] at hi
    rw [hi]
  · right
    have h' : ∀ x ∈ els, le x el = false := by
      intro x hx
      cases hxe : le x el with
      | false => rfl
      | true => exact absurd ⟨x, hx, hxe⟩ h
    refine ⟨h', ?_⟩
    rw [add_of_not_dominated (dom := dom) el els (fun x hx => by rw [hag _ _ (hp x hx) he]; exact h' x hx)]
    show keep dom el els ++ [el] = _
    congr 1
    apply List.filter_congr
    intro x hx
    rw [hag _ _ he (hp x hx)]

/-- The set after adding several elements. -/
theorem fold_local {p : α → Prop} (hag : ∀ a b, p a → p b → dom a b = le a b) (hr : ∀ a, le a a = true)
    (ht : ∀ a b c, le a b = true → le b c = true → le a c = true) (js : List α) : ∀ (els : List α), (∀ x ∈ els, p x) → (∀ x ∈ js, p x) →
    Antichain le els →
    Antichain le (js.foldl (fun r j => (add dom j r).2) els) ∧ (∀ x ∈ js.foldl (fun r j => (add dom j r).2) els, x ∈ els ∨ x ∈ js) ∧
    (∀ x, x ∈ els ∨ x ∈ js → ∃ y ∈ js.foldl (fun r j => (add dom j r).2) els, le y x = true) := by
  induction js with
  | nil =>
    intro els _ _ ha
    refine ⟨ha, fun x hx => Or.inl hx, ?_⟩
    rintro x (hx | hx)
    · exact ⟨x, hx, hr x⟩
    · simp at hx
  | cons j js ih =>
    intro els hp hj ha
    have hsub : ∀ x ∈ (add dom j els).2, x ∈ els ∨ x = j := by
      intro x hx
      rcases add_local hag hr ht hp (hj j (by simp)) ha with ⟨-, e⟩ | ⟨-, e⟩
      · rw [e] at hx; exact Or.inl hx
      · rw [e, List.mem_append, List.mem_filter, List.mem_singleton] at hx
        rcases hx with hx | hx
        · exact Or.inl hx.1
        · exact Or.inr hx
    have hanti : Antichain le (add dom j els).2 := by
      rcases add_local hag hr ht hp (hj j (by simp)) ha with ⟨-, e⟩ | ⟨hn, e⟩
      · rw [e]; exact ha
      · rw [e]
        unfold Antichain
        rw [List.pairwise_append]
        refine ⟨List.Pairwise.sublist List.filter_sublist ha, List.pairwise_singleton _ _, ?_⟩
        intro x hx y hy
        rw [List.mem_singleton] at hy
        subst hy
        simp only [List.mem_filter, Bool.not_eq_true'] at hx
        exact ⟨hn x hx.1, hx.2⟩
    have hcov : ∀ x, x ∈ els ∨ x = j → ∃ y ∈ (add dom j els).2, le y x = true := by
      rcases add_local hag hr ht hp (hj j (by simp)) ha with ⟨hex, e⟩ | ⟨-, e⟩
      · rw [e]
        rintro x (hx | rfl)
        · exact ⟨x, hx, hr x⟩
        · exact hex
      · rw [e]
        rintro x (hx | rfl)
        · by_cases hd : le j x = true
          · exact ⟨j, by simp, hd⟩
          · refine ⟨x, ?_, hr x⟩
            rw [List.mem_append, List.mem_filter]
            exact Or.inl ⟨hx, by simpa using hd⟩
        · exact ⟨x, by simp, hr x⟩
    have hp' : ∀ x ∈ (add dom j els).2, p x := by
      intro x hx
      rcases hsub x hx with g | rfl
      · exact hp x g
      · exact hj x (by simp)
    obtain ⟨h1, h2, h3⟩ := ih (add dom j els).2 hp' (fun x hx => hj x (by simp [hx])) hanti
    refine ⟨h1, ?_, ?_⟩
    · intro x hx
      rcases h2 x hx with g | g
      · rcases hsub x g with g | rfl
        · exact Or.inl g
        · exact Or.inr (by simp)
      · exact Or.inr (by simp [g])
    · intro x hx
      have : (x ∈ els ∨ x = j) ∨ x ∈ js := by
        rcases hx with hx | hx
        · exact Or.inl (Or.inl hx)
        · rcases List.mem_cons.mp hx with rfl | hx
          · exact Or.inl (Or.inr rfl)
          · exact Or.inr hx
      rcases this with g | g
      · obtain ⟨y, hy, hyx⟩ := hcov x g
        obtain ⟨z, hz, hzy⟩ := h3 y (Or.inl hy)
        exact ⟨z, hz, ht _ _ _ hzy hyx⟩
      · exact h3 x (Or.inr g)

end Nigiri.ParetoSet

namespace Nigiri.Raptor.Pong

/-- Dominance among journeys of the first search. -/
def pingLe (a b : PJ) : Bool := decide (a.transfers ≤ b.transfers ∧ b.start ≤ a.start ∧ a.dest ≤ b.dest)

/-- Dominance among journeys of the second search. -/
def pongLe (a b : PJ) : Bool := decide (a.transfers ≤ b.transfers ∧ a.start ≤ b.start ∧ b.dest ≤ a.dest)

theorem dom_ping (d : Dir) {a : PJ} (h : a.start < a.dest) (b : PJ) : dom d a b = pingLe a b := by
  rw [Bool.eq_iff_iff]
  unfold dom pingLe
  cases d
  · rw [if_pos (by simp only [Dir.sgn]; omega)]; simp only [Bool.and_eq_true, decide_eq_true_eq]; simp only [Dir.sgn]; omega
  · rw [if_neg (by simp only [Dir.sgn]; omega)]; simp only [Bool.and_eq_true, decide_eq_true_eq]; simp only [Dir.sgn]; omega

theorem dom_pong (d : Dir) {a : PJ} (h : a.dest < a.start) (b : PJ) : dom d a b = pongLe a b := by
  rw [Bool.eq_iff_iff]
  unfold dom pongLe
  cases d
  · rw [if_neg (by simp only [Dir.sgn]; omega)]; simp only [Bool.and_eq_true, decide_eq_true_eq]; simp only [Dir.sgn]; omega
  · rw [if_pos (by simp only [Dir.sgn]; omega)]; simp only [Bool.and_eq_true, decide_eq_true_eq]; simp only [Dir.sgn]; omega

theorem pingLe_iff {a b : PJ} : pingLe a b = true ↔ a.transfers ≤ b.transfers ∧ b.start ≤ a.start ∧ a.dest ≤ b.dest := by
  unfold pingLe; rw [decide_eq_true_eq]

theorem pongLe_iff {a b : PJ} : pongLe a b = true ↔ a.transfers ≤ b.transfers ∧ a.start ≤ b.start ∧ b.dest ≤ a.dest := by
  unfold pongLe; rw [decide_eq_true_eq]

theorem addAll_ping (d : Dir) (js : List PJ) (h : ∀ x ∈ js, x.start < x.dest) :
    ParetoSet.Antichain pingLe (addAll d js []) ∧ (∀ x ∈ addAll d js [], x ∈ js) ∧ ∀ x ∈ js, ∃ y ∈ addAll d js [], pingLe y x = true := by
  have := ParetoSet.fold_local (dom := dom d) (le := pingLe) (p := fun x => x.start < x.dest) (fun a b ha _ => dom_ping d ha b)
    (fun a => pingLe_iff.mpr (by omega)) (fun a b c h1 h2 => by rw [pingLe_iff] at *; omega) js [] (by simp) h (by simp [ParetoSet.Antichain])
  refine ⟨this.1, fun x hx => ?_, fun x hx => this.2.2 x (Or.inr hx)⟩
  rcases this.2.1 x hx with g | g
  · simp at g
  · exact g

theorem addAll_pong (d : Dir) (js res : List PJ) (h : ∀ x ∈ js, x.dest < x.start) (hr : ∀ x ∈ res, x.dest < x.start) (ha : ParetoSet.Antichain pongLe res) :
    ParetoSet.Antichain pongLe (addAll d js res) ∧ (∀ x ∈ addAll d js res, x ∈ res ∨ x ∈ js) ∧ ∀ x, x ∈ res ∨ x ∈ js → ∃ y ∈ addAll d js res, pongLe y x = true :=
  ParetoSet.fold_local (dom := dom d) (le := pongLe) (p := fun x => x.dest < x.start) (fun a b ha _ => dom_pong d ha b)
    (fun a => pongLe_iff.mpr (by omega)) (fun a b c h1 h2 => by rw [pongLe_iff] at *; omega) js res hr h ha

theorem mem_insertDesc {a b : PJ} {l : List PJ} : a ∈ insertDesc b l ↔ a = b ∨ a ∈ l := by
  induction l with
  | nil => simp [insertDesc]
  | cons c l ih =>
    unfold insertDesc
    split
    · simp
    · simp only [List.mem_cons, ih]
      constructor <;> rintro (h | h | h) <;> simp [h]

theorem mem_sortDesc {a : PJ} {l : List PJ} : a ∈ sortDesc l ↔ a ∈ l := by
  induction l with
  | nil => simp [sortDesc]
  | cons b l ih =>
    unfold sortDesc
    rw [mem_insertDesc, ih]
    simp

theorem pairwise_insertDesc {a : PJ} {l : List PJ} (h : l.Pairwise fun x y => y.transfers ≤ x.transfers) :
    (insertDesc a l).Pairwise fun x y => y.transfers ≤ x.transfers := by
  induction l with
  | nil => simp [insertDesc]
  | cons b l ih =>
    rw [List.pairwise_cons] at h
    unfold insertDesc
    split
    · rename_i hlt
      rw [List.pairwise_cons]
      refine ⟨?_, List.pairwise_cons.mpr h⟩
      intro x hx
      rcases List.mem_cons.mp hx with rfl | hx
      · omega
      · have := h.1 x hx; omega
    · rename_i hlt
      rw [List.pairwise_cons]
      refine ⟨?_, ih h.2⟩
      intro x hx
      rcases mem_insertDesc.mp hx with rfl | hx
      · omega
      · exact h.1 x hx

theorem pairwise_sortDesc (l : List PJ) : (sortDesc l).Pairwise fun x y => y.transfers ≤ x.transfers := by
  induction l with
  | nil => simp [sortDesc]
  | cons a l ih => exact pairwise_insertDesc ih

/-- No two journeys of a set are comparable, in any order. -/
theorem insertDesc_anti {R : PJ → PJ → Prop} (hs : ∀ a b, R a b → R b a) {a : PJ} {l : List PJ} (h : l.Pairwise R) (ha : ∀ x ∈ l, R a x) :
    (insertDesc a l).Pairwise R := by
  induction l with
  | nil => simp [insertDesc]
  | cons b l ih =>
    rw [List.pairwise_cons] at h
    unfold insertDesc
    split
    · rw [List.pairwise_cons]
      exact ⟨ha, List.pairwise_cons.mpr h⟩
    · rw [List.pairwise_cons]
      refine ⟨?_, ih h.2 (fun x hx => ha x (by simp [hx]))⟩
      intro x hx
      rcases mem_insertDesc.mp hx with rfl | hx
      · exact hs _ _ (ha b (by simp))
      · exact h.1 x hx

theorem sortDesc_anti {R : PJ → PJ → Prop} (hs : ∀ a b, R a b → R b a) {l : List PJ} (h : l.Pairwise R) : (sortDesc l).Pairwise R := by
  induction l with
  | nil => simp [sortDesc]
  | cons a l ih =>
    rw [List.pairwise_cons] at h
    exact insertDesc_anti hs (ih h.2) (fun x hx => h.1 x (mem_sortDesc.mp hx))

theorem useMatch_none {rec : PJ → Bool} {tr : Nat} {A : Int} {l : List PJ} (h : useMatch rec tr A l = none) : ∀ j ∈ l, ¬ (j.transfers = tr ∧ j.start = A) := by
  induction l with
  | nil => simp
  | cons j l ih =>
    unfold useMatch at h
    by_cases hc : j.transfers = tr ∧ j.start = A
    · rw [if_pos hc] at h; cases h
    · rw [if_neg hc, Option.map_eq_none_iff] at h
      intro x hx
      rcases List.mem_cons.mp hx with rfl | hx
      · exact hc
      · exact ih h x hx

theorem useMatch_some {rec : PJ → Bool} {tr : Nat} {A : Int} {l l' : List PJ} {x : Int} (h : useMatch rec tr A l = some (l', x)) :
    ∃ l1 j l2, l = l1 ++ j :: l2 ∧ l' = l1 ++ j.settle rec :: l2 ∧ j.transfers = tr ∧ j.start = A ∧ j.dest = x := by
  induction l generalizing l' with
  | nil => cases h
  | cons j l ih =>
    unfold useMatch at h
    by_cases hc : j.transfers = tr ∧ j.start = A
    · rw [if_pos hc] at h
      have h := Option.some.inj h
      rw [Prod.mk.injEq] at h
      exact ⟨[], j, l, rfl, h.1.symm, hc.1, hc.2, h.2⟩
    · rw [if_neg hc, Option.map_eq_some_iff] at h
      obtain ⟨p, hp, he⟩ := h
      rw [Prod.mk.injEq] at he
      obtain ⟨l1, j0, l2, h1, h2, h3⟩ := ih (l' := p.1) (by rw [hp, ← he.2])
      exact ⟨j :: l1, j0, l2, by rw [h1]; rfl, by rw [← he.1, h2]; rfl, h3⟩

theorem settle_times (rec : PJ → Bool) (j : PJ) : (j.settle rec).start = j.start ∧ (j.settle rec).dest = j.dest ∧ (j.settle rec).transfers = j.transfers := by
  unfold PJ.settle
  split <;> exact ⟨rfl, rfl, rfl⟩

end Nigiri.Raptor.Pong
