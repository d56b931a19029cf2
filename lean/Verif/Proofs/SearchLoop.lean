import Verif.Proofs.SearchIv
import Verif.Proofs.ParetoSet
/-!
# Proofs about the loop of the search
-/

namespace Nigiri.Search
open Nigiri.Raptor (Loc Dir)
open Nigiri.StartTimes (Ev StartTime ontripStart)

variable {σ : Type}

/-! ## Order of the start times -/

/-- A start time `a` that is searched before (or at the same time as) `b`. -/
def Ahead (d : Dir) (a b : Int) : Prop := match d with
  | .fwd => b ≤ a
  | .bwd => a ≤ b

theorem evLe_trans (a b c : Ev) (h1 : evLe a b = true) (h2 : evLe b c = true) : evLe a c = true := by
  simp only [evLe, Bool.or_eq_true, Bool.and_eq_true, decide_eq_true_eq, beq_iff_eq] at *
  have : ∀ x y z : Loc, x ≤ y → y ≤ z → x ≤ z := fun x y z => Nat.le_trans
  have := this a.stop b.stop c.stop
  grind

theorem evLe_total (a b : Ev) : (evLe a b || evLe b a) = true := by
  simp only [evLe, Bool.or_eq_true, Bool.and_eq_true, decide_eq_true_eq, beq_iff_eq]
  have : ∀ x y : Loc, x ≤ y ∨ y ≤ x := fun x y => Nat.le_total x y
  have := this a.stop b.stop
  grind

theorem evLe_le {a b : Ev} (h : evLe a b = true) : a.timeAtStart ≤ b.timeAtStart := by
  simp only [evLe, Bool.or_eq_true, Bool.and_eq_true, decide_eq_true_eq, beq_iff_eq] at h
  omega

theorem insertBy_perm {α : Type} (le : α → α → Bool) (a : α) (l : List α) : (insertBy le a l).Perm (a :: l) := by
  induction l with
  | nil => exact List.Perm.refl _
  | cons b l ih =>
    unfold insertBy
    split
    · exact List.Perm.refl _
    · exact (ih.cons b).trans (List.Perm.swap a b l)

theorem sortBy_perm {α : Type} (le : α → α → Bool) (l : List α) : (sortBy le l).Perm l := by
  induction l with
  | nil => exact List.Perm.refl _
  | cons a l ih => exact (insertBy_perm le a (sortBy le l)).trans (ih.cons a)

theorem mem_sortBy {α : Type} {le : α → α → Bool} {l : List α} {a : α} : a ∈ sortBy le l ↔ a ∈ l := (sortBy_perm le l).mem_iff

theorem pairwise_sortBy {α : Type} {le : α → α → Bool} (ht : ∀ a b c, le a b = true → le b c = true → le a c = true)
    (htot : ∀ a b, (le a b || le b a) = true) (l : List α) : (sortBy le l).Pairwise fun a b => le a b = true := by
  induction l with
  | nil => exact List.Pairwise.nil
  | cons a l ih =>
    have h : ∀ l : List α, l.Pairwise (fun a b => le a b = true) → (insertBy le a l).Pairwise fun a b => le a b = true := by
      intro l hl
      induction l with
      | nil => exact List.pairwise_singleton _ _
      | cons b l ih =>
        rw [List.pairwise_cons] at hl
        unfold insertBy
        split
        · next hab =>
          rw [List.pairwise_cons]
          refine ⟨?_, List.pairwise_cons.mpr hl⟩
          intro c hc
          rcases List.mem_cons.mp hc with rfl | hc
          · exact hab
          · exact ht _ _ _ hab (hl.1 c hc)
        · next hab =>
          rw [List.pairwise_cons]
          refine ⟨?_, ih hl.2⟩
          intro c hc
          rcases List.mem_cons.mp ((insertBy_perm le a l).mem_iff.mp hc) with rfl | hc
          · have := htot c b
            simp only [Bool.or_eq_true] at this
            rcases this with h | h
            · exact absurd h hab
            · exact h
          · exact hl.1 c hc
    exact h _ ih

theorem sortStarts_pairwise (d : Dir) (l : List Ev) : (sortStarts d l).Pairwise fun a b => Ahead d a.timeAtStart b.timeAtStart := by
  cases d with
  | fwd => exact (pairwise_sortBy (fun a b c h1 h2 => evLe_trans c b a h2 h1) (fun a b => evLe_total b a) l).imp fun h => evLe_le h
  | bwd => exact (pairwise_sortBy evLe_trans evLe_total l).imp fun h => evLe_le h

theorem mem_sortStarts (d : Dir) (l : List Ev) (e : Ev) : e ∈ sortStarts d l ↔ e ∈ l := by
  cases d <;> simp [sortStarts, mem_sortBy]

theorem groups_flatten (l : List Ev) : (groups l).flatten = l := by
  induction l with
  | nil => rfl
  | cons e es ih =>
    unfold groups
    split
    · next f g gs h =>
      rw [h] at ih
      split <;> simpa using ih
    · simp [ih]

theorem groups_same (l : List Ev) : ∀ g ∈ groups l, g ≠ [] ∧ ∀ a ∈ g, ∀ b ∈ g, a.timeAtStart = b.timeAtStart := by
  induction l with
  | nil => simp [groups]
  | cons e es ih =>
    unfold groups
    split
    · next f g gs h =>
      rw [h] at ih
      have hfg := ih (f :: g) (by simp)
      split
      · next he =>
        intro x hx
        rcases List.mem_cons.mp hx with rfl | hx
        · refine ⟨by simp, ?_⟩
          have h1 : ∀ a ∈ e :: f :: g, a.timeAtStart = f.timeAtStart := by
            intro a ha
            rcases List.mem_cons.mp ha with rfl | ha
            · exact he
            · exact hfg.2 a ha f (by simp)
          intro a ha b hb
          rw [h1 a ha, h1 b hb]
        · exact ih x (by simp [hx])
      · intro x hx
        rcases List.mem_cons.mp hx with rfl | hx
        · simp
        · exact ih x hx
    · intro x hx
      rcases List.mem_cons.mp hx with rfl | hx
      · simp
      · exact ih x hx

/-- The groups are ordered. -/
theorem groups_pairwise {R : Ev → Ev → Prop} {l : List Ev} (h : l.Pairwise R) :
    (groups l).Pairwise fun g g' => ∀ a ∈ g, ∀ b ∈ g', R a b := by
  have := groups_flatten l
  rw [← this, List.pairwise_flatten] at h
  exact h.2

theorem mem_groups {l : List Ev} {g : List Ev} {e : Ev} (hg : g ∈ groups l) (he : e ∈ g) : e ∈ l := by
  rw [← groups_flatten l]
  exact List.mem_flatten.mpr ⟨g, hg, he⟩

/-! ## Results -/

theorem dom_refl (a : Jny) : Jny.dom a a = true := by
  unfold Jny.dom Crit.dominates
  split <;> simp

theorem dom_trans (a b c : Jny) (h1 : Jny.dom a b = true) (h2 : Jny.dom b c = true) : Jny.dom a c = true := by
  unfold Jny.dom Crit.dominates at *
  grind

/-- The content of the set after adding a journey. -/
theorem add_cases (a : Jny) {rs : List Jny} (h : ParetoSet.Antichain Jny.dom rs) :
    (∃ x ∈ rs, Jny.dom x a = true) ∧ (ParetoSet.add Jny.dom a rs).2 = rs ∨
    (∀ x ∈ rs, Jny.dom x a = false) ∧ (ParetoSet.add Jny.dom a rs).2 = rs.filter (fun x => !Jny.dom a x) ++ [a] := by
  by_cases hd : ∃ x ∈ rs, Jny.dom x a = true
  · exact Or.inl ⟨hd, by rw [ParetoSet.add_of_dominated dom_trans dom_refl a rs h hd]⟩
  · have hd' : ∀ x ∈ rs, Jny.dom x a = false := by
      intro x hx
      cases hxa : Jny.dom x a
      · rfl
      · exact absurd ⟨x, hx, hxa⟩ hd
    exact Or.inr ⟨hd', by rw [ParetoSet.add_of_not_dominated a rs hd']; rfl⟩

theorem add_antichain (a : Jny) {rs : List Jny} (h : ParetoSet.Antichain Jny.dom rs) : ParetoSet.Antichain Jny.dom (ParetoSet.add Jny.dom a rs).2 := by
  rcases add_cases a h with ⟨_, he⟩ | ⟨hn, he⟩
  · rw [he]; exact h
  · rw [he]
    unfold ParetoSet.Antichain
    rw [List.pairwise_append]
    refine ⟨List.Pairwise.sublist List.filter_sublist h, List.pairwise_singleton _ _, ?_⟩
    intro x hx y hy
    simp only [List.mem_cons, List.not_mem_nil, or_false] at hy
    subst hy
    simp only [List.mem_filter, Bool.not_eq_true'] at hx
    exact ⟨hn x hx.1, hx.2⟩

theorem mem_add {a b : Jny} {rs : List Jny} (h : ParetoSet.Antichain Jny.dom rs) (hb : b ∈ (ParetoSet.add Jny.dom a rs).2) : b ∈ rs ∨ b = a := by
  rcases add_cases a h with ⟨_, he⟩ | ⟨hn, he⟩
  · rw [he] at hb; exact Or.inl hb
  · rw [he] at hb
    simp only [List.mem_append, List.mem_filter, List.mem_cons, List.not_mem_nil, or_false] at hb
    rcases hb with hb | hb
    · exact Or.inl hb.1
    · exact Or.inr hb

/-- Something at least as good is in the list. -/
def HasBetter (rs : List Jny) (c : Crit) : Prop := ∃ r ∈ rs, r.crit.dominates c = true

theorem add_hasBetter (a : Jny) {rs : List Jny} (h : ParetoSet.Antichain Jny.dom rs) {c : Crit}
    (hc : HasBetter rs c ∨ a.crit.dominates c = true) : HasBetter (ParetoSet.add Jny.dom a rs).2 c := by
  rcases add_cases a h with ⟨⟨x, hx, hxa⟩, he⟩ | ⟨hn, he⟩
  · rw [he]
    rcases hc with hc | hc
    · exact hc
    · exact ⟨x, hx, dom_trans x a { crit := c, dest := 0 } hxa hc⟩
  · rw [he]
    rcases hc with ⟨r, hr, hc⟩ | hc
    · cases har : Jny.dom a r
      · exact ⟨r, by simp [hr, har], hc⟩
      · exact ⟨a, by simp, dom_trans a r { crit := c, dest := 0 } har hc⟩
    · exact ⟨a, by simp, hc⟩

/-- The journey made from an offer. -/
def offered (start : Int) (j : Loc × Nat × Int) : Jny := { crit := ⟨start, j.2.2, j.2.1⟩, dest := j.1 }

theorem addAll_spec (start : Int) (js : List (Loc × Nat × Int)) {rs : List Jny} (h : ParetoSet.Antichain Jny.dom rs) :
    ParetoSet.Antichain Jny.dom (addAll start js rs) ∧
    (∀ r ∈ addAll start js rs, r ∈ rs ∨ ∃ j ∈ js, r = offered start j) ∧
    (∀ c, HasBetter rs c ∨ (∃ j ∈ js, (offered start j).crit.dominates c = true) → HasBetter (addAll start js rs) c) := by
  unfold addAll
  induction js generalizing rs with
  | nil =>
    refine ⟨h, fun r hr => Or.inl hr, ?_⟩
    rintro c (hc | ⟨j, hj, _⟩)
    · exact hc
    · simp at hj
  | cons j js ih =>
    rw [List.foldl_cons]
    obtain ⟨h1, h2, h3⟩ := ih (add_antichain (offered start j) h)
    refine ⟨h1, ?_, ?_⟩
    · intro r hr
      rcases h2 r hr with hr | ⟨j', hj', hr⟩
      · rcases mem_add h hr with hr | hr
        · exact Or.inl hr
        · exact Or.inr ⟨j, by simp, hr⟩
      · exact Or.inr ⟨j', by simp [hj'], hr⟩
    · rintro c (hc | ⟨j', hj', hc⟩)
      · exact h3 c (Or.inl (add_hasBetter _ h (Or.inl hc)))
      · rcases List.mem_cons.mp hj' with rfl | hj'
        · exact h3 c (Or.inl (add_hasBetter _ h (Or.inr hc)))
        · exact h3 c (Or.inr ⟨j', hj', hc⟩)

/-! ## Reconstruction -/

theorem tryReconstruct_crit (E : Env σ) (a : σ) (iv : Interval) (j : Jny) : (tryReconstruct E a iv j).crit = j.crit ∧ (tryReconstruct E a iv j).dest = j.dest := by
  unfold tryReconstruct
  split
  · split <;> exact ⟨rfl, rfl⟩
  · exact ⟨rfl, rfl⟩

/-- A journey is reconstructed only if it is faster than the direct connection. -/
theorem tryReconstruct_fast (E : Env σ) (a : σ) (iv : Interval) (j : Jny) (h : j.reconstructed = true → j.crit.travelTime < E.direct)
    (hr : (tryReconstruct E a iv j).reconstructed = true) : j.crit.travelTime < E.direct := by
  unfold tryReconstruct at hr
  split at hr
  · next hc =>
    simp only [Bool.and_eq_true, decide_eq_true_eq] at hc
    exact hc.2
  · exact h hr

theorem tryReconstruct_mono (E : Env σ) (a : σ) (iv : Interval) (j : Jny) (h : j.reconstructed = true) : (tryReconstruct E a iv j).reconstructed = true := by
  unfold tryReconstruct
  simp [h]

theorem map_antichain {f : Jny → Jny} (hf : ∀ j, (f j).crit = j.crit) {rs : List Jny} (h : ParetoSet.Antichain Jny.dom rs) :
    ParetoSet.Antichain Jny.dom (rs.map f) := by
  unfold ParetoSet.Antichain
  rw [List.pairwise_map]
  exact h.imp fun {a b} hab => by simpa only [Jny.dom, hf] using hab

theorem hasBetter_map {f : Jny → Jny} (hf : ∀ j, (f j).crit = j.crit) {rs : List Jny} {c : Crit} : HasBetter (rs.map f) c ↔ HasBetter rs c := by
  unfold HasBetter
  constructor
  · rintro ⟨r, hr, hc⟩
    obtain ⟨r0, hr0, rfl⟩ := List.mem_map.mp hr
    exact ⟨r0, hr0, by rwa [hf] at hc⟩
  · rintro ⟨r, hr, hc⟩
    exact ⟨f r, List.mem_map.mpr ⟨r, hr, rfl⟩, by rwa [hf]⟩

/-! ## One search -/

/-- The invariant of the results. -/
structure ResOk (E : Env σ) (rs : List Jny) : Prop where
  anti : ParetoSet.Antichain Jny.dom rs
  fast : ∀ r ∈ rs, r.reconstructed = true → r.crit.travelTime < E.direct

/-- The results after a start time. -/
def stepResults (d : Dir) (E : Env σ) (s : State σ) (e : Ev) (g : List Ev) : List Jny :=
  (addAll e.timeAtStart (E.algo.exec s.algo e.timeAtStart (g.map fun e => (e.stop, e.timeAtStop)) (worst d E.direct E.q.maxTravel e.timeAtStart)).2 s.results).map
    (tryReconstruct E (E.algo.exec s.algo e.timeAtStart (g.map fun e => (e.stop, e.timeAtStop)) (worst d E.direct E.q.maxTravel e.timeAtStart)).1 s.iv)

theorem stepResults_ok {d : Dir} {E : Env σ} {s : State σ} {e : Ev} {g : List Ev} (h : ResOk E s.results) : ResOk E (stepResults d E s e g) := by
  obtain ⟨h1, h2, _⟩ := addAll_spec e.timeAtStart (E.algo.exec s.algo e.timeAtStart (g.map fun e => (e.stop, e.timeAtStop)) (worst d E.direct E.q.maxTravel e.timeAtStart)).2 h.anti
  refine ⟨map_antichain (fun j => (tryReconstruct_crit E _ _ j).1) h1, ?_⟩
  intro r hr hrec
  obtain ⟨r0, hr0, rfl⟩ := List.mem_map.mp hr
  rw [(tryReconstruct_crit E _ _ r0).1]
  refine tryReconstruct_fast E _ _ r0 ?_ hrec
  rcases h2 r0 hr0 with hr0 | ⟨j, _, rfl⟩
  · exact h.fast r0 hr0
  · intro h; cases h

theorem stepResults_start {d : Dir} {E : Env σ} {s : State σ} {e : Ev} {g : List Ev} (h : ResOk E s.results) {r : Jny} (hr : r ∈ stepResults d E s e g) :
    r.crit.start = e.timeAtStart ∨ ∃ r0 ∈ s.results, r0.crit = r.crit := by
  obtain ⟨h1, h2, _⟩ := addAll_spec e.timeAtStart (E.algo.exec s.algo e.timeAtStart (g.map fun e => (e.stop, e.timeAtStop)) (worst d E.direct E.q.maxTravel e.timeAtStart)).2 h.anti
  obtain ⟨r0, hr0, rfl⟩ := List.mem_map.mp hr
  rw [(tryReconstruct_crit E _ _ r0).1]
  rcases h2 r0 hr0 with hr0 | ⟨j, _, rfl⟩
  · exact Or.inr ⟨r0, hr0, rfl⟩
  · exact Or.inl rfl

/-- Does the search stop after this start time? -/
def Stops (d : Dir) (E : Env σ) (s : State σ) (e : Ev) (g : List Ev) : Prop :=
  0 < E.q.minConn ∧ E.q.minConn ≤ nInInterval E.q s.iv (stepResults d E s e g) ∧ stopsEarly d E.q = true

theorem searchStart_cons (d : Dir) (E : Env σ) (s : State σ) (e : Ev) (g : List Ev) :
    (∃ a, searchStart d E (s, false) (e :: g) = ({ s with algo := a, results := stepResults d E s e (e :: g), iv := cutIv d s.iv e.timeAtStart }, true) ∧
      Stops d E s e (e :: g)) ∨
    (∃ a, searchStart d E (s, false) (e :: g) = ({ s with algo := a, results := stepResults d E s e (e :: g) }, false) ∧ ¬ Stops d E s e (e :: g)) := by
  by_cases h : Stops d E s e (e :: g)
  · refine Or.inl ⟨(E.algo.exec s.algo e.timeAtStart ((e :: g).map fun e => (e.stop, e.timeAtStop)) (worst d E.direct E.q.maxTravel e.timeAtStart)).1, ?_, h⟩
    simp only [searchStart, Bool.false_eq_true, if_false]
    unfold Stops stepResults at h
    rw [if_pos h]
    rfl
  · refine Or.inr ⟨(E.algo.exec s.algo e.timeAtStart ((e :: g).map fun e => (e.stop, e.timeAtStop)) (worst d E.direct E.q.maxTravel e.timeAtStart)).1, ?_, h⟩
    simp only [searchStart, Bool.false_eq_true, if_false]
    unfold Stops stepResults at h
    rw [if_neg h]
    rfl

theorem searchStart_stopped (d : Dir) (E : Env σ) (s : State σ) (gs : List (List Ev)) : gs.foldl (searchStart d E) (s, true) = (s, true) := by
  induction gs with
  | nil => rfl
  | cons g gs ih =>
    rw [List.foldl_cons]
    have : searchStart d E (s, true) g = (s, true) := by
      cases g <;> simp [searchStart]
    rw [this, ih]

theorem nInInterval_cut {q : Query} {d : Dir} {iv : Interval} {t : Int} {rs : List Jny} (h : ∀ r ∈ rs, Ahead d r.crit.start t) :
    nInInterval q iv rs ≤ nInInterval q (cutIv d iv t) rs := by
  unfold nInInterval
  split
  · exact Nat.le_refl _
  · rw [← List.countP_eq_length_filter, ← List.countP_eq_length_filter]
    refine List.countP_mono_left ?_
    intro r hr hc
    have ha := h r hr
    have hc' : iv.from' ≤ r.crit.start ∧ r.crit.start < iv.to' := by simpa [Interval.contains] using hc
    cases d with
    | fwd =>
      have ha : t ≤ r.crit.start := ha
      have : (⟨t, iv.to'⟩ : Interval).contains r.crit.start = true := by simp [Interval.contains]; omega
      exact this
    | bwd =>
      have ha : r.crit.start ≤ t := ha
      have : (⟨iv.from', t + 1⟩ : Interval).contains r.crit.start = true := by simp [Interval.contains]; omega
      exact this

/-- What one search does to the interval and the results. -/
theorem searchInterval_spec {d : Dir} {E : Env σ} {s : State σ} (hres : ResOk E s.results)
    (hsort : s.starts.Pairwise fun a b => Ahead d a.timeAtStart b.timeAtStart)
    (hahead : stopsEarly d E.q = true → ∀ r ∈ s.results, ∀ e ∈ s.starts, Ahead d r.crit.start e.timeAtStart) :
    ResOk E (searchInterval d E s).results ∧
    (∀ r ∈ (searchInterval d E s).results, (∃ e ∈ s.starts, e.timeAtStart = r.crit.start) ∨ ∃ r0 ∈ s.results, r0.crit = r.crit) ∧
    ((searchInterval d E s).iv = s.iv ∨
      stopsEarly d E.q = true ∧ (∃ e ∈ s.starts, (searchInterval d E s).iv = cutIv d s.iv e.timeAtStart) ∧ 0 < E.q.minConn ∧
        E.q.minConn ≤ nInInterval E.q s.iv (searchInterval d E s).results ∧ E.q.minConn ≤ nInInterval E.q (searchInterval d E s).iv (searchInterval d E s).results) := by
  unfold searchInterval
  have hp := groups_pairwise hsort
  have hne := groups_same s.starts
  have hin : ∀ g ∈ groups s.starts, ∀ e ∈ g, e ∈ s.starts := fun g hg e he => mem_groups hg he
  revert hp hne hin
  generalize groups s.starts = gs
  intro hp hne hin
  have key : ∀ (gs : List (List Ev)) (s' : State σ), gs.Pairwise (fun g g' => ∀ a ∈ g, ∀ b ∈ g', Ahead d a.timeAtStart b.timeAtStart) →
      (∀ g ∈ gs, g ≠ [] ∧ ∀ a ∈ g, ∀ b ∈ g, a.timeAtStart = b.timeAtStart) → (∀ g ∈ gs, ∀ e ∈ g, e ∈ s.starts) →
      ResOk E s'.results → s'.iv = s.iv →
      (∀ r ∈ s'.results, (∃ e ∈ s.starts, e.timeAtStart = r.crit.start) ∨ ∃ r0 ∈ s.results, r0.crit = r.crit) →
      (stopsEarly d E.q = true → ∀ r ∈ s'.results, ∀ g ∈ gs, ∀ e ∈ g, Ahead d r.crit.start e.timeAtStart) →
      let o := (gs.foldl (searchStart d E) (s', false)).1
      ResOk E o.results ∧ (∀ r ∈ o.results, (∃ e ∈ s.starts, e.timeAtStart = r.crit.start) ∨ ∃ r0 ∈ s.results, r0.crit = r.crit) ∧
      (o.iv = s.iv ∨ stopsEarly d E.q = true ∧ (∃ e ∈ s.starts, o.iv = cutIv d s.iv e.timeAtStart) ∧ 0 < E.q.minConn ∧
        E.q.minConn ≤ nInInterval E.q s.iv o.results ∧ E.q.minConn ≤ nInInterval E.q o.iv o.results) := by
    intro gs
    induction gs with
    | nil =>
      intro s' _ _ _ h1 h2 h3 _
      exact ⟨h1, h3, Or.inl h2⟩
    | cons g gs ih =>
      intro s' hp hne hin h1 h2 h3 h4
      rw [List.pairwise_cons] at hp
      obtain ⟨hg0, hgs⟩ := hne g (by simp)
      match g, hg0 with
      | e :: g, _ =>
        have hstart : ∀ r ∈ stepResults d E s' e (e :: g), (∃ e ∈ s.starts, e.timeAtStart = r.crit.start) ∨ ∃ r0 ∈ s.results, r0.crit = r.crit := by
          intro r hr
          rcases stepResults_start h1 hr with hr | ⟨r0, hr0, hr⟩
          · exact Or.inl ⟨e, hin (e :: g) (by simp) e (by simp), hr.symm⟩
          · rw [← hr]; exact h3 r0 hr0
        rw [List.foldl_cons]
        rcases searchStart_cons d E s' e g with ⟨a, ha, hst⟩ | ⟨a, ha, hst⟩
        · rw [ha, searchStart_stopped]
          refine ⟨stepResults_ok h1, hstart, Or.inr ⟨hst.2.2, ⟨e, hin (e :: g) (by simp) e (by simp), by simp [h2]⟩, hst.1, by rw [← h2]; exact hst.2.1, ?_⟩⟩
          refine Nat.le_trans hst.2.1 (nInInterval_cut ?_)
          intro r hr
          rcases stepResults_start h1 hr with hr | ⟨r0, hr0, hr⟩
          · rw [hr]; cases d <;> exact Int.le_refl _
          · rw [← hr]; exact h4 hst.2.2 r0 hr0 (e :: g) (by simp) e (by simp)
        · rw [ha]
          refine ih _ hp.2 (fun g' hg' => hne g' (by simp [hg'])) (fun g' hg' => hin g' (by simp [hg'])) (stepResults_ok h1) h2 hstart ?_
          intro hse r hr g' hg' e' he'
          rcases stepResults_start h1 hr with hr | ⟨r0, hr0, hr⟩
          · rw [hr]; exact hp.1 g' hg' e (by simp) e' he'
          · rw [← hr]; exact h4 hse r0 hr0 g' (by simp [hg']) e' he'
  exact key gs s hp hne hin hres rfl (fun r hr => Or.inr ⟨r, hr, rfl⟩) (fun hse r hr g hg e he => hahead hse r hr e (hin g hg e he))

/-! ## The loop -/

/-- The start times belong to the interval, or to the additional start after it. -/
structure StartsOk (d : Dir) (E : Env σ) : Prop where
  interval : ∀ iv b l, ∀ e ∈ E.starts (.interval iv) b l, e ∈ l ∨ iv.contains e.timeAtStart = true ∨ (b = true ∧ e.timeAtStart = ontripStart d iv)
  point : ∀ t b l, ∀ e ∈ E.starts (.point t) b l, e ∈ l ∨ e.timeAtStart = t

/-- May the interval be extended? -/
def Ext (q : Query) : Prop := q.ontrip = false ∧ 0 < q.minConn ∧ (q.extEarlier = true ∨ q.extLater = true)

/-- The end of the interval that is searched last. -/
def edge (d : Dir) (iv : Interval) : Int := match d with
  | .fwd => iv.from'
  | .bwd => iv.to' - 1

/-- The invariant of the loop: `[l, u]` is the window of the search, `iv0` the first interval. -/
structure Inv (d : Dir) (E : Env σ) (l u : Int) (iv0 : Interval) (s : State σ) : Prop where
  res : ResOk E s.results
  sorted : s.starts.Pairwise fun a b => Ahead d a.timeAtStart b.timeAtStart
  ahead : stopsEarly d E.q = true → ∀ r ∈ s.results, ∀ e ∈ s.starts, Ahead d r.crit.start e.timeAtStart
  win : Ext E.q → l ≤ s.iv.from' ∧ s.iv.from' ≤ s.iv.to' ∧ s.iv.to' ≤ u
  edgeR : s.iv.from' < s.iv.to' → E.q.ontrip = false → ∀ r ∈ s.results, Ahead d r.crit.start (edge d s.iv)
  edgeS : s.iv.from' < s.iv.to' → E.q.ontrip = false → ∀ e ∈ s.starts, Ahead d e.timeAtStart (edge d s.iv)
  sub : Inside iv0 s.iv
  fixed : ¬ Ext E.q → s.iv = iv0
  point : E.q.ontrip = true → s.results = [] ∧ ∀ e ∈ s.starts, E.q.start = .point e.timeAtStart

theorem Inv.spec {d : Dir} {E : Env σ} {l u : Int} {iv0 : Interval} {s : State σ} (h : Inv d E l u iv0 s) :
    ResOk E (searchInterval d E s).results ∧
    (∀ r ∈ (searchInterval d E s).results, (∃ e ∈ s.starts, e.timeAtStart = r.crit.start) ∨ ∃ r0 ∈ s.results, r0.crit = r.crit) ∧
    ((searchInterval d E s).iv = s.iv ∨
      stopsEarly d E.q = true ∧ (∃ e ∈ s.starts, (searchInterval d E s).iv = cutIv d s.iv e.timeAtStart) ∧ 0 < E.q.minConn ∧
        E.q.minConn ≤ nInInterval E.q s.iv (searchInterval d E s).results ∧ E.q.minConn ≤ nInInterval E.q (searchInterval d E s).iv (searchInterval d E s).results) :=
  searchInterval_spec (d := d) (E := E) (s := s) h.res h.sorted h.ahead

theorem nInInterval_pos {q : Query} {iv : Interval} {rs : List Jny} (hq : q.ontrip = false) (h : 0 < nInInterval q iv rs) :
    ∃ r ∈ rs, iv.from' ≤ r.crit.start ∧ r.crit.start < iv.to' := by
  unfold nInInterval at h
  rw [if_neg (by simp [hq])] at h
  obtain ⟨r, hr⟩ := List.exists_mem_of_length_pos h
  rw [List.mem_filter] at hr
  exact ⟨r, hr.1, by simpa [Interval.contains] using hr.2⟩

/-- An unfinished search did not shorten the interval. -/
theorem Inv.iv_of_unfinished {d : Dir} {E : Env σ} {l u : Int} {iv0 : Interval} {s : State σ} (h : Inv d E l u iv0 s) {i : Nat}
    (hf : finished E (searchInterval d E s) i = false) : (searchInterval d E s).iv = s.iv := by
  obtain ⟨_, _, h3⟩ := h.spec
  rcases h3 with h3 | ⟨_, _, _, _, h3⟩
  · exact h3
  · simp [finished, h3] at hf

theorem addStartLabels_mem {d : Dir} {E : Env σ} (hS : StartsOk d E) {iv : Interval} {b : Bool} {l : List Ev} {e : Ev}
    (he : e ∈ addStartLabels d E (.interval iv) b l) : e ∈ l ∨ (iv.from' ≤ e.timeAtStart ∧ e.timeAtStart < iv.to') ∨ (b = true ∧ e.timeAtStart = ontripStart d iv) := by
  unfold addStartLabels at he
  rw [mem_sortStarts] at he
  rcases hS.interval _ _ _ e he with h | h | h
  · exact Or.inl h
  · exact Or.inr (Or.inl (by simpa [Interval.contains] using h))
  · exact Or.inr (Or.inr h)

theorem extend_iv (d : Dir) (E : Env σ) (s : State σ) (new : Interval) : (extend d E s new).iv = new := rfl

theorem extend_results (d : Dir) (E : Env σ) (s : State σ) (new : Interval) : (extend d E s new).results.Sublist s.results := by
  unfold extend
  simp only
  cases d <;> (by_cases h1 : new.from' ≠ s.iv.from' <;> by_cases h2 : new.to' ≠ s.iv.to' <;>
    simp [h1, h2, removeOntrip])

theorem extend_sorted (d : Dir) (E : Env σ) (s : State σ) (new : Interval) :
    (extend d E s new).starts.Pairwise fun a b => Ahead d a.timeAtStart b.timeAtStart := by
  unfold extend
  simp only
  cases d <;> (by_cases h1 : new.from' ≠ s.iv.from' <;> by_cases h2 : new.to' ≠ s.iv.to' <;>
    simp [h1, h2, addStartLabels, sortStarts_pairwise])

theorem extend_starts {d : Dir} {E : Env σ} (hS : StartsOk d E) {s : State σ} {new : Interval} {e : Ev} (he : e ∈ (extend d E s new).starts) :
    (new.from' ≠ s.iv.from' ∧ ((new.from' ≤ e.timeAtStart ∧ e.timeAtStart < s.iv.from') ∨ (d = .bwd ∧ e.timeAtStart = new.from' - 1))) ∨
    (new.to' ≠ s.iv.to' ∧ ((s.iv.to' ≤ e.timeAtStart ∧ e.timeAtStart < new.to') ∨ (d = .fwd ∧ e.timeAtStart = new.to'))) := by
  have key : e ∈ (if new.to' ≠ s.iv.to' then addStartLabels d E (.interval ⟨s.iv.to', new.to'⟩) (d == .fwd)
      (if new.from' ≠ s.iv.from' then addStartLabels d E (.interval ⟨new.from', s.iv.from'⟩) (d == .bwd) [] else [])
      else if new.from' ≠ s.iv.from' then addStartLabels d E (.interval ⟨new.from', s.iv.from'⟩) (d == .bwd) [] else []) := by
    revert he
    unfold extend
    simp only
    cases d <;> (by_cases h1 : new.from' ≠ s.iv.from' <;> by_cases h2 : new.to' ≠ s.iv.to' <;> simp [h1, h2])
  have first : e ∈ (if new.from' ≠ s.iv.from' then addStartLabels d E (.interval ⟨new.from', s.iv.from'⟩) (d == .bwd) [] else []) →
      (new.from' ≠ s.iv.from' ∧ ((new.from' ≤ e.timeAtStart ∧ e.timeAtStart < s.iv.from') ∨ (d = .bwd ∧ e.timeAtStart = new.from' - 1))) := by
    intro h
    by_cases h1 : new.from' ≠ s.iv.from'
    · rw [if_pos h1] at h
      rcases addStartLabels_mem hS h with h | h | ⟨hd, h⟩
      · simp at h
      · exact ⟨h1, Or.inl h⟩
      · refine ⟨h1, Or.inr ?_⟩
        cases d
        · cases hd
        · exact ⟨rfl, h⟩
    · rw [if_neg h1] at h; simp at h
  by_cases h2 : new.to' ≠ s.iv.to'
  · rw [if_pos h2] at key
    rcases addStartLabels_mem hS key with h | h | ⟨hd, h⟩
    · exact Or.inl (first h)
    · exact Or.inr ⟨h2, Or.inl h⟩
    · refine Or.inr ⟨h2, Or.inr ?_⟩
      cases d
      · exact ⟨rfl, h⟩
      · cases hd
  · rw [if_neg h2] at key
    exact Or.inl (first key)

/-- A window that `clamp` cuts to. -/
def Window (E : Env σ) (l u : Int) : Prop := l ≤ u ∧ ∀ x, clampPoint E.tt E.q x = some (max l (min u x))

theorem extension_spec {E : Env σ} {l u : Int} (hw : Window E l u) {iv : Interval} (h : l ≤ iv.from' ∧ iv.from' ≤ iv.to' ∧ iv.to' ≤ u) {n : Nat}
    (hn : n ≠ 0) (hq : E.q.extEarlier = true ∨ E.q.extLater = true) : ∃ new, extension E.tt E.q iv n = some new ∧ Inside iv new ∧ l ≤ new.from' ∧ new.to' ≤ u ∧
      (E.q.extEarlier = false → new.from' = iv.from') ∧ (E.q.extLater = false → new.to' = iv.to') ∧ (iv.from' = iv.to' → new = iv) := by
  unfold extension
  rw [if_neg (by rcases hq with h | h <;> simp [hn, h]), clampIv_window hw.2]
  have hg := extensionRaw_grows E.tt E.q (iv := iv) h.2.1 n
  have hlu := hw.1
  refine ⟨_, rfl, ?_, ?_, ?_, ?_, ?_, ?_⟩
  · unfold Inside; simp only; omega
  · simp only; omega
  · simp only; omega
  · intro he
    have : (extensionRaw E.tt E.q iv n).from' = iv.from' := by simp [extensionRaw, canEarlier, he]
    simp only [this]; omega
  · intro he
    have : (extensionRaw E.tt E.q iv n).to' = iv.to' := by simp [extensionRaw, canLater, he]
    simp only [this]; omega
  · intro he
    have : extensionRaw E.tt E.q iv n = iv := by
      have hz : iv.size = 0 := by unfold Interval.size; omega
      unfold extensionRaw
      simp [hz]
    rw [this]
    have h1 : max l (min u iv.from') = iv.from' := by omega
    have h2 : max l (min u iv.to') = iv.to' := by omega
    rw [h1, h2]

theorem ext_of_unfinished {d : Dir} {E : Env σ} {s : State σ} {i : Nat} {new : Interval} (hf : finished E (searchInterval d E s) i = false)
    (he : extension E.tt E.q (searchInterval d E s).iv (E.q.minConn - nInInterval E.q (searchInterval d E s).iv (searchInterval d E s).results) = some new)
    (hne : new ≠ (searchInterval d E s).iv) : Ext E.q ∧ E.q.minConn - nInInterval E.q (searchInterval d E s).iv (searchInterval d E s).results ≠ 0 := by
  simp only [finished, Bool.or_eq_false_iff, decide_eq_false_iff_not] at hf
  have hn : E.q.minConn - nInInterval E.q (searchInterval d E s).iv (searchInterval d E s).results ≠ 0 := by omega
  refine ⟨⟨hf.1.1.2, by omega, ?_⟩, hn⟩
  cases h1 : E.q.extEarlier
  · cases h2 : E.q.extLater
    · rw [extension, if_pos (Or.inr ⟨h1, h2⟩)] at he
      exact absurd (Option.some.inj he).symm hne
    · exact Or.inr rfl
  · exact Or.inl rfl

/-- The invariant holds again after an extension. -/
theorem Inv.step {d : Dir} {E : Env σ} (hS : StartsOk d E) {l u : Int} (hw : Window E l u) {iv0 : Interval} {s : State σ} (h : Inv d E l u iv0 s) {i : Nat}
    (hf : finished E (searchInterval d E s) i = false) {new : Interval}
    (he : extension E.tt E.q (searchInterval d E s).iv (E.q.minConn - nInInterval E.q (searchInterval d E s).iv (searchInterval d E s).results) = some new)
    (hne : new ≠ (searchInterval d E s).iv) :
    Inv d E l u iv0 (extend d E (searchInterval d E s) new) ∧ s.iv.size < new.size ∧ Ext E.q := by
  obtain ⟨hx, hn⟩ := ext_of_unfinished hf he hne
  have hiv := h.iv_of_unfinished hf
  obtain ⟨hres, hfrom, _⟩ := h.spec
  have hwin := h.win hx
  rw [hiv] at he hne
  obtain ⟨new', he', hin, hl, hu, hE, hL, hz⟩ := extension_spec hw hwin hn hx.2.2
  rw [hiv] at he'
  rw [he] at he'
  obtain rfl := Option.some.inj he'
  have hpos : s.iv.from' < s.iv.to' := by
    rcases Int.lt_or_eq_of_le hwin.2.1 with h | h
    · exact h
    · exact absurd (hz h) hne
  have hR : ∀ r ∈ (searchInterval d E s).results, Ahead d r.crit.start (edge d s.iv) := by
    intro r hr
    rcases hfrom r hr with ⟨e, he, hr⟩ | ⟨r0, hr0, hr⟩
    · rw [← hr]; exact h.edgeS hpos hx.1 e he
    · rw [← hr]; exact h.edgeR hpos hx.1 r0 hr0
  have hsub := extend_results d E (searchInterval d E s) new
  have hst : ∀ e ∈ (extend d E (searchInterval d E s) new).starts, _ := fun e he => extend_starts hS he
  rw [hiv] at hst
  unfold Inside at hin
  refine ⟨⟨⟨List.Pairwise.sublist hsub hres.anti, fun r hr => hres.fast r (hsub.subset hr)⟩, extend_sorted _ _ _ _, ?_, ?_, ?_, ?_, ?_, ?_, ?_⟩, ?_, hx⟩
  · intro hse r hr e he
    have h1 := hR r (hsub.subset hr)
    have h2 := hst e he
    cases d with
    | fwd =>
      simp only [stopsEarly, Bool.and_eq_true, Bool.not_eq_true'] at hse
      have hL := hL hse.2
      have h1 : s.iv.from' ≤ r.crit.start := h1
      show e.timeAtStart ≤ r.crit.start
      rcases h2 with ⟨_, h2 | ⟨h2, _⟩⟩ | ⟨h2, _⟩
      · omega
      · cases h2
      · exact absurd hL h2
    | bwd =>
      simp only [stopsEarly, Bool.and_eq_true, Bool.not_eq_true'] at hse
      have hE := hE hse.1
      have h1 : r.crit.start ≤ s.iv.to' - 1 := h1
      show r.crit.start ≤ e.timeAtStart
      rcases h2 with ⟨h2, _⟩ | ⟨_, h2 | ⟨h2, _⟩⟩
      · exact absurd hE h2
      · omega
      · cases h2
  · intro _; rw [extend_iv]; omega
  · intro _ _ r hr
    rw [extend_iv]
    have h1 := hR r (hsub.subset hr)
    cases d with
    | fwd =>
      have h1 : s.iv.from' ≤ r.crit.start := h1
      show new.from' ≤ r.crit.start
      omega
    | bwd =>
      have h1 : r.crit.start ≤ s.iv.to' - 1 := h1
      show r.crit.start ≤ new.to' - 1
      omega
  · intro _ _ e he
    rw [extend_iv]
    have h2 := hst e he
    cases d with
    | fwd =>
      show new.from' ≤ e.timeAtStart
      rcases h2 with ⟨_, h2 | ⟨h2, _⟩⟩ | ⟨_, h2 | ⟨_, h2⟩⟩
      · omega
      · cases h2
      · omega
      · omega
    | bwd =>
      show e.timeAtStart ≤ new.to' - 1
      rcases h2 with ⟨_, h2 | ⟨_, h2⟩⟩ | ⟨_, h2 | ⟨h2, _⟩⟩
      · omega
      · omega
      · omega
      · cases h2
  · rw [extend_iv]; have := h.sub; unfold Inside at *; omega
  · intro hx'; exact absurd hx hx'
  · intro ho; rw [hx.1] at ho; cases ho
  · unfold Interval.size
    have : new.from' ≠ s.iv.from' ∨ new.to' ≠ s.iv.to' := by
      by_cases h1 : new.from' = s.iv.from'
      · right; intro h2; apply hne; cases new; simp_all
      · exact Or.inl h1
    omega

/-- Why the search ended. -/
def Reason (E : Env σ) (s : State σ) (i : Nat) : Prop :=
  finished E s i = true ∨ (finished E s i = false ∧ extension E.tt E.q s.iv (E.q.minConn - nInInterval E.q s.iv s.results) = some s.iv)

theorem extension_defined {E : Env σ} {l u : Int} (hw : Window E l u) (iv : Interval) (n : Nat) : ∃ new, extension E.tt E.q iv n = some new := by
  unfold extension
  split
  · exact ⟨_, rfl⟩
  · exact ⟨_, clampIv_window hw.2 _⟩

/-- The loop ends after at most `m + 1` iterations if the interval can grow at most `m` times. -/
theorem loop_ends {d : Dir} {E : Env σ} (hS : StartsOk d E) {l u : Int} (hw : Window E l u) {iv0 : Interval} :
    ∀ (m i : Nat) (s : State σ), Inv d E l u iv0 s → (Ext E.q → u - l - s.iv.size ≤ m) →
      ∃ s0 i', Inv d E l u iv0 s0 ∧ Reason E (searchInterval d E s0) i' ∧ ∀ n, m < n → loop d E n i s = .done (searchInterval d E s0) := by
  intro m
  induction m with
  | zero =>
    intro i s hs hm
    refine ⟨s, i, hs, ?_⟩
    cases hf : finished E (searchInterval d E s) i
    · obtain ⟨new, he⟩ := extension_defined hw (searchInterval d E s).iv (E.q.minConn - nInInterval E.q (searchInterval d E s).iv (searchInterval d E s).results)
      by_cases hne : new = (searchInterval d E s).iv
      · rw [hne] at he
        refine ⟨Or.inr ⟨hf, he⟩, ?_⟩
        intro n hn
        obtain ⟨n, rfl⟩ : ∃ k, n = k + 1 := ⟨n - 1, by omega⟩
        simp [loop, hf, he]
      · exfalso
        obtain ⟨hi, hlt, hx⟩ := hs.step hS hw hf he hne
        have hm := hm hx
        have := hi.win hx
        rw [extend_iv] at this
        simp only [Interval.size] at hm hlt
        omega
    · refine ⟨Or.inl hf, ?_⟩
      intro n hn
      obtain ⟨n, rfl⟩ : ∃ k, n = k + 1 := ⟨n - 1, by omega⟩
      simp [loop, hf]
  | succ m ih =>
    intro i s hs hm
    cases hf : finished E (searchInterval d E s) i
    · obtain ⟨new, he⟩ := extension_defined hw (searchInterval d E s).iv (E.q.minConn - nInInterval E.q (searchInterval d E s).iv (searchInterval d E s).results)
      by_cases hne : new = (searchInterval d E s).iv
      · rw [hne] at he
        refine ⟨s, i, hs, Or.inr ⟨hf, he⟩, ?_⟩
        intro n hn
        obtain ⟨n, rfl⟩ : ∃ k, n = k + 1 := ⟨n - 1, by omega⟩
        simp [loop, hf, he]
      · obtain ⟨hi, hlt, hx⟩ := hs.step hS hw hf he hne
        have hm := hm hx
        obtain ⟨s0, i', h0, hr, hl⟩ := ih (i + 1) _ hi (by
          intro _; rw [extend_iv]; omega)
        refine ⟨s0, i', h0, hr, ?_⟩
        intro n hn
        obtain ⟨n, rfl⟩ : ∃ k, n = k + 1 := ⟨n - 1, by omega⟩
        have := hl n (by omega)
        simp [loop, hf, he, hne, this]
    · refine ⟨s, i, hs, Or.inl hf, ?_⟩
      intro n hn
      obtain ⟨n, rfl⟩ : ∃ k, n = k + 1 := ⟨n - 1, by omega⟩
      simp [loop, hf]

/-- The first interval. -/
def firstIv (d : Dir) (E : Env σ) : Option Interval := if E.q.ontrip then some E.q.startIv else initial d E.tt E.q E.q.startIv

theorem start_inv {d : Dir} {E : Env σ} (hS : StartsOk d E) (hv : Valid E.tt E.q) {l u : Int} (hw : Window E l u) (a : σ) :
    ∃ iv0 s, firstIv d E = some iv0 ∧ start d E a = some s ∧ Inv d E l u iv0 s ∧ s.iv = iv0 := by
  have hdef : ∃ iv0, firstIv d E = some iv0 := by
    unfold firstIv initial
    split
    · exact ⟨_, rfl⟩
    · split
      · exact ⟨_, rfl⟩
      · exact ⟨_, clampIv_window hw.2 _⟩
  obtain ⟨iv0, h0⟩ := hdef
  refine ⟨iv0, _, h0, by unfold start; unfold firstIv at h0; rw [h0]; rfl, ?_, rfl⟩
  have hlu := hw.1
  refine ⟨⟨List.Pairwise.nil, by simp⟩, sortStarts_pairwise _ _, by simp, ?_, by simp, ?_, ⟨Int.le_refl _, Int.le_refl _⟩, fun _ => rfl, ?_⟩
  · intro hx
    unfold firstIv initial at h0
    rw [if_neg (by simp [hx.1]), if_neg (by rcases hx.2.2 with h | h <;> simp [h] <;> have := hx.2.1 <;> omega), clampIv_window hw.2] at h0
    obtain rfl := Option.some.inj h0
    have hg := initialRaw_grows d E.tt E.q E.q.startIv
    have := hv.start
    unfold Ok at this
    simp only
    omega
  · intro hpos ho e he
    have hsz : iv0.size ≠ 0 := by simp only [Interval.size] at *; omega
    simp only [if_pos hsz] at he
    simp only at hpos
    rcases addStartLabels_mem hS he with h | h | ⟨_, h⟩
    · simp at h
    · cases d with
      | fwd => show iv0.from' ≤ _; omega
      | bwd => show _ ≤ iv0.to' - 1; omega
    · rw [h]
      cases d with
      | fwd => show iv0.from' ≤ iv0.to'; omega
      | bwd => show iv0.from' - 1 ≤ iv0.to' - 1; omega
  · intro ho
    refine ⟨rfl, ?_⟩
    intro e he
    unfold firstIv at h0
    rw [if_pos ho] at h0
    obtain rfl := Option.some.inj h0
    cases hq : E.q.start with
    | interval iv => simp [Query.ontrip, hq] at ho
    | point t =>
      have hsz : ¬ (E.q.startIv.size ≠ 0) := by simp [Query.startIv, hq, Interval.size]
      simp only [if_neg hsz, addStartLabels, mem_sortStarts, hq] at he
      rcases hS.point _ _ _ e he with h | h
      · simp at h
      · rw [h]

end Nigiri.Search
