import Verif.Spec.Netex
/-!
# NeTEx calendars
-/

namespace Nigiri.Netex

theorem period_fold (iv : Interval) (p : Period) (start : Int) (hs : iv.from' ≤ start) (hf : p.first ≤ start) (n : Nat)
    (hb : start + n - p.first ≤ p.bits.length) :
    ∃ b : Bitfield, ((List.range n).map fun i : Nat => start + (i : Int)).foldl (periodStep iv p) (some fun _ => false) = some b ∧
      ∀ j : Nat, b j = true ↔ j < 512 ∧ ∃ i : Nat, i < n ∧ start + i = iv.from' + j ∧ p.bits[(start + i - p.first).toNat]? = some true := by
  induction n with
  | zero => exact ⟨_, rfl, by intro j; simp⟩
  | succ n ih =>
    obtain ⟨b, h1, h2⟩ := ih (by omega)
    rw [List.range_succ, List.map_append, List.foldl_append, h1]
    show ∃ b', periodStep iv p (some b) (start + n) = some b' ∧ _
    unfold periodStep
    simp only [Option.bind_some]
    by_cases hr : 0 ≤ start + (n : Int) - iv.from' ∧ start + (n : Int) - iv.from' < 512
    · rw [if_pos hr]
      have hlt : (start + (n : Int) - p.first).toNat < p.bits.length := by omega
      rw [List.getElem?_eq_getElem hlt]
      refine ⟨_, rfl, ?_⟩
      intro j
      show (if j = (start + (n : Int) - iv.from').toNat then p.bits[(start + (n : Int) - p.first).toNat] else b j) = true ↔ _
      by_cases hj : j = (start + (n : Int) - iv.from').toNat
      · rw [if_pos hj]
        constructor
        · intro hv
          exact ⟨by omega, n, by omega, by omega, by rw [List.getElem?_eq_getElem hlt, hv]⟩
        · rintro ⟨_, i, hi, he, hv⟩
          have : i = n := by omega
          subst this
          rw [List.getElem?_eq_getElem hlt] at hv
          exact Option.some.inj hv
      · rw [if_neg hj, h2]
        constructor
        · rintro ⟨h, i, hi, he, hv⟩
          exact ⟨h, i, by omega, he, hv⟩
        · rintro ⟨h, i, hi, he, hv⟩
          refine ⟨h, i, ?_, he, hv⟩
          rcases Nat.lt_or_ge i n with h' | h'
          · exact h'
          · have : i = n := by omega
            subst this; omega
    · rw [if_neg hr]
      refine ⟨b, rfl, ?_⟩
      intro j
      rw [h2]
      constructor
      · rintro ⟨h, i, hi, he, hv⟩
        exact ⟨h, i, by omega, he, hv⟩
      · rintro ⟨h, i, hi, he, hv⟩
        refine ⟨h, i, ?_, he, hv⟩
        rcases Nat.lt_or_ge i n with h' | h'
        · exact h'
        · have : i = n := by omega
          subst this; omega

theorem period_spec (iv : Interval) (p : Period) (hl : p.last - p.first + 1 ≤ p.bits.length) :
    ∃ b, operatingPeriod iv p = some b ∧
      ∀ j : Nat, b j = true ↔ j < 512 ∧ iv.from' + j < iv.to' ∧ p.Valid (iv.from' + j) := by
  unfold operatingPeriod
  rw [if_pos hl]
  simp only
  by_cases hlen : min (p.last + 1) iv.to' - max p.first iv.from' ≤ 0
  · refine ⟨fun _ => false, ?_, ?_⟩
    · rw [show (min (p.last + 1) iv.to' - max p.first iv.from').toNat = 0 by omega]
      rfl
    · intro j
      constructor
      · intro h; cases h
      · rintro ⟨_, h, h1, h2, _⟩; omega
  · obtain ⟨b, h1, h2⟩ := period_fold iv p (max p.first iv.from') (by omega) (by omega)
      (min (p.last + 1) iv.to' - max p.first iv.from').toNat (by omega)
    refine ⟨b, h1, ?_⟩
    intro j
    rw [h2]
    constructor
    · rintro ⟨h, i, hi, he, hv⟩
      refine ⟨h, by omega, by omega, by omega, ?_⟩
      rw [← he]; exact hv
    · rintro ⟨h, h3, h4, h5, hv⟩
      refine ⟨h, (iv.from' + j - max p.first iv.from').toNat, by omega, by omega, ?_⟩
      rw [show max p.first iv.from' + ((iv.from' + (j : Int) - max p.first iv.from').toNat : Int) = iv.from' + j by omega]
      exact hv

theorem find_nil {α : Type} (k : Nat) : find ([] : List (Nat × α)) k = none := rfl

theorem find_append {α : Type} (m l : List (Nat × α)) (k : Nat) : find (m ++ l) k = (find m k).or (find l k) := by
  unfold find
  rw [List.find?_append]
  cases List.find? (fun x => decide (x.1 = k)) m <;> rfl

theorem find_none {α : Type} (m : List (Nat × α)) (k : Nat) : find m k = none ↔ ∀ x ∈ m, x.1 ≠ k := by
  unfold find
  rw [Option.map_eq_none_iff, List.find?_eq_none]
  simp

theorem emplace_find {α : Type} (m : List (Nat × α)) (k k' : Nat) (v : α) :
    find (emplace m k v) k' = match find m k' with | some x => some x | none => if k' = k then some v else none := by
  unfold emplace
  by_cases h : m.any (fun x => decide (x.1 = k)) = true
  · rw [if_pos h]
    cases hf : find m k' with
    | some x => rfl
    | none =>
      simp only
      split
      · rename_i e
        subst e
        obtain ⟨x, hx, hk⟩ := List.any_eq_true.1 h
        exact absurd (of_decide_eq_true hk) ((find_none m k').1 hf x hx)
      · rfl
  · rw [if_neg h, find_append]
    cases hf : find m k' with
    | some x => rfl
    | none =>
      simp only [Option.none_or]
      by_cases e : k' = k
      · subst e
        simp [find]
      · rw [if_neg e]
        rw [find_none]
        intro x hx
        simp only [List.mem_singleton] at hx
        subst hx
        exact fun h => e h.symm

theorem periods_fold (iv : Interval) (ps : List Period) (m : List (Nat × Bitfield)) (out : List (Nat × Bitfield))
    (h : ps.foldl (fun m p => m.bind fun m => (operatingPeriod iv p).map fun b => emplace m p.id b) (some m) = some out) :
    ∀ k, find out k = match find m k with
      | some b => some b
      | none => (ps.find? fun p => decide (p.id = k)).bind (operatingPeriod iv) := by
  induction ps generalizing m with
  | nil =>
    intro k
    simp only [List.foldl_nil, Option.some.injEq] at h
    subst h
    cases find m k <;> rfl
  | cons p r ih =>
    intro k
    rw [List.foldl_cons] at h
    cases hp : operatingPeriod iv p with
    | none =>
      rw [hp] at h
      simp only [Option.bind_some, Option.map_none] at h
      exfalso
      clear ih
      induction r with
      | nil => cases h
      | cons a r ih => exact ih h
    | some b =>
      rw [hp] at h
      simp only [Option.bind_some, Option.map_some] at h
      rw [ih _ h k, emplace_find]
      cases hf : find m k with
      | some x => rfl
      | none =>
        simp only
        by_cases e : p.id = k
        · rw [if_pos e.symm, List.find?_cons_of_pos (by simpa using e)]
          simp [hp]
        · rw [if_neg (fun h => e h.symm), List.find?_cons_of_neg (by simpa using e)]

theorem types_fold (ps : List (Nat × Bitfield)) (as : List DayTypeAssignment) (m out : List (Nat × Bitfield))
    (h : as.foldl (fun m a => m.bind fun m => (lookupAt [] ps a.period).map fun b => emplace m a.dayType b) (some m) = some out) :
    ∀ k, find out k = match find m k with
      | some b => some b
      | none => (as.find? fun a => decide (a.dayType = k)).bind fun a => find ps a.period := by
  induction as generalizing m with
  | nil =>
    intro k
    simp only [List.foldl_nil, Option.some.injEq] at h
    subst h
    cases find m k <;> rfl
  | cons p r ih =>
    intro k
    rw [List.foldl_cons] at h
    have hl : lookupAt [] ps p.period = find ps p.period := by
      unfold lookupAt; cases find ps p.period <;> rfl
    cases hp : find ps p.period with
    | none =>
      rw [hl, hp] at h
      simp only [Option.bind_some, Option.map_none] at h
      exfalso
      clear ih
      induction r with
      | nil => cases h
      | cons a r ih => exact ih h
    | some b =>
      rw [hl, hp] at h
      simp only [Option.bind_some, Option.map_some] at h
      rw [ih _ h k, emplace_find]
      cases hf : find m k with
      | some x => rfl
      | none =>
        simp only
        by_cases e : p.dayType = k
        · rw [if_pos e.symm, List.find?_cons_of_pos (by simpa using e)]
          simp [hp]
        · rw [if_neg (fun h => e h.symm), List.find?_cons_of_neg (by simpa using e)]

end Nigiri.Netex
