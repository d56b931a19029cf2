import Verif.Model.Misc
/-!
# Properties C43 (station roots), C40 (journey domination), C41 (transfer time settings),
C23 (class masks and route flags)
-/

namespace Nigiri

/-! ## C43 -/

/-- Specification: `r` is the root of `l`, `n` parent links away. -/
inductive RootAt (parents : Nat → Option Nat) : Nat → Nat → Nat → Prop
  | here {l} : parents l = none → RootAt parents 0 l l
  | up {n l p r} : parents l = some p → RootAt parents n p r → RootAt parents (n + 1) l r

private theorem rootAt_unique {parents : Nat → Option Nat} {n m l r s : Nat}
    (h1 : RootAt parents n l r) (h2 : RootAt parents m l s) : n = m ∧ r = s := by
  induction h1 generalizing m s with
  | here h => cases h2 with
    | here _ => exact ⟨rfl, rfl⟩
    | up h' _ => simp [h] at h'
  | up h _ ih => cases h2 with
    | here h' => simp [h] at h'
    | up h' h2 =>
      rw [h] at h'; cases h'
      obtain ⟨rfl, rfl⟩ := ih h2
      exact ⟨rfl, rfl⟩

private theorem rootLoop_spec {parents : Nat → Option Nat} {idx r N : Nat} (hidx : RootAt parents N idx r)
    {n l i : Nat} (h : RootAt parents n l r) (hn : n < N ∨ l = idx) (hi : n + i ≤ 21) :
    rootLoop parents idx l i = some r := by
  induction h generalizing i with
  | here h => rw [rootLoop]; simp [h]
  | up h hp ih =>
    rename_i n l p r
    rw [rootLoop]
    simp only [h]
    have hnN : n < N := by
      rcases hn with hn | hn
      · omega
      · subst hn; have := (rootAt_unique hidx (RootAt.up h hp)).1; omega
    have hne : p ≠ idx := by
      rintro rfl; have := (rootAt_unique hidx hp).1; omega
    have hi' : ¬ i > 20 := by omega
    rw [if_neg (by simp [hne, hi'])]
    exact ih hidx (Or.inl hnN) (by omega)

/-- C43: a location whose root is at most 21 parent links away is mapped to that root. -/
theorem C43_root {parents : Nat → Option Nat} {idx r n : Nat} (h : RootAt parents n idx r) (hn : n ≤ 21) :
    getRootIdx parents idx = some r :=
  rootLoop_spec h h (Or.inr rfl) (by omega)

/-- C43 (same station, same root; idempotent): a location and its parent have the same root and the
root of the root is the root. -/
theorem C43_same_root {parents : Nat → Option Nat} {idx p r n : Nat} (hp : parents idx = some p)
    (h : RootAt parents n p r) (hn : n ≤ 20) :
    getRootIdx parents idx = some r ∧ getRootIdx parents p = some r ∧ getRootIdx parents r = some r := by
  have hr : ∀ {m l r}, RootAt parents m l r → parents r = none := by
    intro m l r h; induction h <;> assumption
  exact ⟨C43_root (RootAt.up hp h) (by omega), C43_root h (by omega), C43_root (RootAt.here (hr h)) (by omega)⟩

/-- C43 (termination and definedness): for every parent table - cyclic ones included - the lookup
ends with a location: either the root within 21 links, or the direct parent. -/
theorem C43_defined (parents : Nat → Option Nat) (idx : Nat) :
    (∃ n r, n ≤ 21 ∧ RootAt parents n idx r ∧ getRootIdx parents idx = some r) ∨
    (∃ p, parents idx = some p ∧ getRootIdx parents idx = some p ∧
      ∀ n r, RootAt parents n idx r → 21 < n) := by
  by_cases h : ∃ n r, n ≤ 21 ∧ RootAt parents n idx r
  · obtain ⟨n, r, hn, hr⟩ := h
    exact Or.inl ⟨n, r, hn, hr, C43_root hr hn⟩
  · right
    have hno : ∀ n r, RootAt parents n idx r → 21 < n := by
      intro n r hr
      exact Nat.lt_of_not_le (fun hn => h ⟨n, r, hn, hr⟩)
    cases hp : parents idx with
    | none => exact absurd (hno 0 idx (RootAt.here hp)) (by omega)
    | some p =>
      refine ⟨p, rfl, ?_, hno⟩
      -- walking up: the loop stops at a root only within 21 steps
      have key : ∀ (k l i : Nat), 21 - i = k → i ≤ 21 →
          (∀ n r, RootAt parents n l r → RootAt parents (n + i) idx r) →
          rootLoop parents idx l i = some p := by
        intro k
        induction k with
        | zero =>
          intro l i hk hi hl
          rw [rootLoop]
          cases hpl : parents l with
          | none => exact absurd (hno _ _ (hl 0 l (RootAt.here hpl))) (by omega)
          | some q => simp only; rw [if_pos (Or.inr (by omega)), hp]
        | succ k ih =>
          intro l i hk hi hl
          rw [rootLoop]
          cases hpl : parents l with
          | none => exact absurd (hno _ _ (hl 0 l (RootAt.here hpl))) (by omega)
          | some q =>
            simp only
            split
            · exact hp
            · apply ih q (i + 1) (by omega) (by omega)
              intro n r hq
              have := hl (n + 1) r (RootAt.up hpl hq)
              rwa [show n + (i + 1) = n + 1 + i by omega]
      exact key 21 idx 0 rfl (by omega) (fun n r h => h)

/-- C43 fails on cyclic parent tables: two locations that are each other's parent get different
roots (each gets the other). -/
theorem C43_cycle_counterexample :
    let parents : Nat → Option Nat := fun l => if l = 0 then some 1 else if l = 1 then some 0 else none
    getRootIdx parents 0 = some 1 ∧ getRootIdx parents 1 = some 0 := by
  decide +kernel

/-- C43 fails on chains longer than 21 links: the location gets its direct parent, which is not a
root and differs from the root its parent gets. -/
theorem C43_deep_counterexample :
    let parents : Nat → Option Nat := fun l => if l < 22 then some (l + 1) else none
    getRootIdx parents 0 = some 1 ∧ getRootIdx parents 1 = some 22 := by
  decide +kernel

example : RootAt (fun l => if l < 3 then some (l + 1) else none) 3 0 3 :=
  .up rfl (.up rfl (.up rfl (.here rfl)))

/-! ## C40 -/

namespace Crit

/-- Specification: `a` is at least as good as `b` in every criterion: departs no earlier, arrives no
later and has no more transfers. -/
def AtLeastAsGood (a b : Crit) : Prop :=
  a.departureTime ≥ b.departureTime ∧ a.arrivalTime ≤ b.arrivalTime ∧ a.transfers ≤ b.transfers

/-- Specification: both journeys come from a forward search, or both from a backward search and
are not of length zero. -/
def SameDirection (a b : Crit) : Prop :=
  (a.start ≤ a.dest ∧ b.start ≤ b.dest) ∨ (a.dest < a.start ∧ b.dest < b.start)

end Crit
open Crit

/-- C40: for journeys of the same search direction, `dominates` is exactly "departs no earlier,
arrives no later, no more transfers". -/
theorem C40_dominates_iff (a b : Crit) (h : SameDirection a b) :
    a.dominates b = true ↔ AtLeastAsGood a b := by
  unfold SameDirection at h
  unfold Crit.dominates AtLeastAsGood departureTime arrivalTime
  rcases h with h | h
  · simp only [h.1, h.2, if_true, Bool.and_eq_true, decide_eq_true_eq]
    omega
  · simp only [show ¬ a.start ≤ a.dest by omega, show ¬ b.start ≤ b.dest by omega, if_false,
      Bool.and_eq_true, decide_eq_true_eq]
    omega

/-- C40: domination is reflexive and transitive for all journeys (whatever their direction), a
dominated journey is no better in any criterion, and mutual domination means equal criteria. -/
theorem C40_partial_order :
    (∀ a : Crit, a.dominates a = true) ∧
    (∀ a b c : Crit, a.dominates b = true → b.dominates c = true → a.dominates c = true) ∧
    (∀ a b : Crit, a.dominates b = true → AtLeastAsGood a b) ∧
    (∀ a b : Crit, a.dominates b = true → b.dominates a = true → a = b) := by
  unfold Crit.dominates AtLeastAsGood departureTime arrivalTime
  refine ⟨?_, ?_, ?_, ?_⟩
  · intro a
    split <;> simp
  · intro a b c h1 h2
    split at h1 <;> split at h2 <;>
      simp only [Bool.and_eq_true, decide_eq_true_eq] at h1 h2 <;>
      split <;> simp only [Bool.and_eq_true, decide_eq_true_eq] <;> omega
  · intro a b h
    split at h <;> simp only [Bool.and_eq_true, decide_eq_true_eq] at h <;>
      (split <;> split <;> omega)
  · intro a b h1 h2
    obtain ⟨as, ad, at_⟩ := a
    obtain ⟨bs, bd, bt⟩ := b
    simp only [Crit.mk.injEq]
    simp only at h1 h2
    split at h1 <;> split at h2 <;>
      simp only [Bool.and_eq_true, decide_eq_true_eq] at h1 h2 <;> omega

/-- C40 (direction independence): reversing a journey's direction (swapping start and destination
times of both journeys) does not change domination, unless one has length zero. -/
theorem C40_mirror (a b : Crit) (h : SameDirection a b) (ha : a.start ≠ a.dest) (hb : b.start ≠ b.dest) :
    (Crit.mk a.dest a.start a.transfers).dominates ⟨b.dest, b.start, b.transfers⟩ = a.dominates b := by
  unfold SameDirection at h
  unfold Crit.dominates
  rcases h with h | h
  · simp only [show ¬ a.dest ≤ a.start by omega, h.1, if_true, if_false]
    grind
  · simp only [show ¬ a.start ≤ a.dest by omega, show a.dest ≤ a.start by omega, if_true, if_false]
    grind

/-- C40 does not extend to zero-length journeys of a backward search: they are treated as forward
journeys and fail to dominate a strictly worse journey. -/
theorem C40_zero_length_counterexample :
    let a : Crit := ⟨11, 11, 0⟩  -- backward search: arrives (start_time_) 11, departs (dest_time_) 11
    let b : Crit := ⟨12, 10, 0⟩  -- arrives 12, departs 10
    AtLeastAsGood a b ∧ a.dominates b = false := by
  unfold AtLeastAsGood
  decide

example : SameDirection ⟨10, 20, 1⟩ ⟨5, 25, 1⟩ ∧ SameDirection ⟨20, 10, 1⟩ ⟨25, 5, 2⟩ := by
  unfold SameDirection; decide

/-! ## C41 -/

private theorem castU_of_lt {bits : Nat} {x : Int} (h0 : 0 ≤ x) (h : x < (2 ^ bits : Nat)) : castU bits x = x := by
  unfold castU; exact Int.emod_eq_of_lt h0 h

/-- C41: default settings never change a transfer time. -/
theorem C41_default_identity (bits : Nat) (scale : Nat → Int → Int) (s : TransferSettings) (d : Int)
    (h : s.isDefault = true) : adjustedTransferTime bits scale s d = d := by
  simp [adjustedTransferTime, h]

/-- The computation stays within the result type: non-negative settings and
`additional + max(min, scaled)` representable. -/
def FitsType (bits : Nat) (scale : Nat → Int → Int) (s : TransferSettings) (d : Int) : Prop :=
  0 ≤ s.additionalTime ∧ 0 ≤ s.minTransferTime ∧ 0 ≤ scale s.factor d ∧
  s.additionalTime + max s.minTransferTime (scale s.factor d) < (2 ^ bits : Nat)

/-- C41: as long as the computation stays within the result type, a non-default setting yields
`additional + max(minimum, factor * time)`. -/
theorem C41_formula (bits : Nat) (scale : Nat → Int → Int) (s : TransferSettings) (d : Int)
    (hs : s.isDefault = false) (h : FitsType bits scale s d) :
    adjustedTransferTime bits scale s d = s.additionalTime + max s.minTransferTime (scale s.factor d) := by
  obtain ⟨h1, h2, h3, h4⟩ := h
  simp only [adjustedTransferTime, hs, Bool.false_eq_true, if_false]
  rw [castU_of_lt h1 (by omega), castU_of_lt h2 (by omega), castU_of_lt h3 (by omega),
    castU_of_lt (by omega) h4]

/-- C41: within the result type the adjusted time is never below the configured minimum (plus the
additional time), and it is monotone in the original time if scaling is. -/
theorem C41_minimum_and_monotone (bits : Nat) (scale : Nat → Int → Int) (s : TransferSettings) (d d' : Int)
    (hs : s.isDefault = false) (h : FitsType bits scale s d) (h' : FitsType bits scale s d')
    (hmono : scale s.factor d ≤ scale s.factor d') :
    s.minTransferTime ≤ adjustedTransferTime bits scale s d ∧
    s.minTransferTime + s.additionalTime ≤ adjustedTransferTime bits scale s d ∧
    adjustedTransferTime bits scale s d ≤ adjustedTransferTime bits scale s d' := by
  rw [C41_formula bits scale s d hs h, C41_formula bits scale s d' hs h']
  obtain ⟨h1, h2, h3, h4⟩ := h
  omega

/-- C41 fails outside the type: transfer times at a stop are 8-bit, so a minimum transfer time of
300 minutes becomes 44. -/
theorem C41_wrap_counterexample :
    adjustedTransferTime 8 (fun _ d => d) ⟨false, 300, 0, 1⟩ 2 = 44 := by decide

/-- C41 fails for equality: two settings compare equal although they adjust transfer times
differently (all non-default settings compare equal). -/
theorem C41_equality_counterexample :
    let a : TransferSettings := ⟨false, 5, 0, 1⟩
    let b : TransferSettings := ⟨false, 10, 0, 1⟩
    a.opEq b = true ∧
    adjustedTransferTime 16 (fun _ d => d) a 2 ≠ adjustedTransferTime 16 (fun _ d => d) b 2 := by
  decide

/-- What equality does guarantee: equal-comparing settings with a default among them, or
different-comparing settings, behave as expected: `==` is false only if exactly one is the default
setting. -/
theorem C41_equality_partial (a b : TransferSettings) :
    (a.opEq b = false → a.isDefault ≠ b.isDefault) ∧
    (a.isDefault = true → b.isDefault = true → a.opEq b = true ∧
      ∀ bits scale d, adjustedTransferTime bits scale a d = adjustedTransferTime bits scale b d) := by
  constructor
  · intro h heq
    simp [TransferSettings.opEq, heq] at h
  · intro ha hb
    simp [TransferSettings.opEq, ha, hb, adjustedTransferTime]

example : FitsType 8 (fun _ d => 2 * d) ⟨false, 5, 3, 2⟩ 10 := by unfold FitsType; decide

/-! ## C23: class masks and route flags -/

/-- C23: a class is allowed by a mask iff its bit is set, for all 16 classes. -/
theorem C23_is_allowed (mask : BitVec 16) (c : Nat) (hc : c < 16) :
    isAllowed mask c = true ↔ mask.getLsbD c = true := by
  unfold isAllowed toMask
  have : mask &&& (1#16 <<< c) = if mask.getLsbD c then 1#16 <<< c else 0#16 := by
    ext i hi
    simp only [BitVec.getElem_and, BitVec.getElem_shiftLeft]
    by_cases h : i = c
    · subst h; cases hm : mask.getLsbD i
      · simp [← BitVec.getLsbD_eq_getElem, hm]
      · simp [← BitVec.getLsbD_eq_getElem, hm, hi]
    · by_cases hlt : i < c
      · cases hm : mask.getLsbD c <;> simp [hlt, BitVec.getElem_shiftLeft]
      · have : i - c ≠ 0 := by omega
        cases hm : mask.getLsbD c <;> simp [hlt, BitVec.getElem_shiftLeft, this]
  rw [this]
  cases hm : mask.getLsbD c
  · simp only [Bool.false_eq_true, if_false, iff_false, beq_iff_eq]
    intro h0
    have := congrArg (fun x => x.getLsbD c) h0
    simp [hc] at this
  · simp

/-- C23: the default mask allows every class; a mask made of one class allows exactly that class. -/
theorem C23_masks (c d : Nat) (hc : c < 16) (hd : d < 16) :
    isAllowed allClaszAllowed c = true ∧ (isAllowed (toMask c) d = true ↔ c = d) := by
  constructor
  · rw [C23_is_allowed _ _ hc]
    have : ∀ c < 16, allClaszAllowed.getLsbD c = true := by decide
    exact this c hc
  · rw [C23_is_allowed _ _ hd]
    have : ∀ c < 16, ∀ d < 16, (toMask c).getLsbD d = true ↔ c = d := by decide
    exact this c hc d hd

private theorem all_iff (flags : List Bool) (h : flags.count true = flags.length) (i : Nat)
    (hi : i < flags.length) : flags[i] = true := by
  rw [List.count_eq_length] at h
  exact (h _ (List.getElem_mem hi)).symm

private theorem none_iff (flags : List Bool) (h : flags.count true = 0) (i : Nat)
    (hi : i < flags.length) : flags[i] = false := by
  rw [List.count_eq_zero] at h
  cases hb : flags[i]
  · rfl
  · exact absurd (hb ▸ List.getElem_mem hi) h

/-- C23: reading back a flag of a section returns what the loader provided - both for one flag per
section and for a single flag that stands for the whole route. -/
theorem C23_flag_roundtrip (flags : List Bool) (sec : Nat) (h : flags.length = 1 ∨ sec < flags.length) :
    isFlagSet (registerFlag flags) sec = flags[if flags.length = 1 then 0 else sec]? := by
  have hlt : (if flags.length = 1 then 0 else sec) < flags.length := by split <;> omega
  simp only [isFlagSet, registerFlag, bne_iff_ne, ne_eq, Bool.and_eq_true, beq_iff_eq, Bool.not_eq_true']
  by_cases hall : flags.count true = flags.length
  · have : flags.length ≠ 0 := by omega
    rw [List.getElem?_eq_getElem hlt, all_iff flags hall _ hlt]
    simp [hall, this]
  · by_cases hsome : flags.count true = 0
    · rw [List.getElem?_eq_getElem hlt, none_iff flags hsome _ hlt]
      have : flags.length ≠ 0 := by omega
      simp [hsome, Ne.symm this]
    · simp [hall, hsome]

/-- C23: a flag for which the loader provides no information counts as not set. -/
theorem C23_unknown_flag (sec : Nat) : isFlagSet (registerFlag []) sec = some false := by
  simp [isFlagSet, registerFlag]

/-- C23: the route filter skips a route iff no section carries the required flag, and inspects the
individual sections iff some but not all carry it. -/
theorem C23_route_filter (flags : List Bool) :
    ((routeFlagFilter (registerFlag flags)).1 = true ↔ ∀ b ∈ flags, b = false) ∧
    ((routeFlagFilter (registerFlag flags)).2 = true ↔ (∃ b ∈ flags, b = true) ∧ (∃ b ∈ flags, b = false)) := by
  by_cases h : flags = []
  · subst h; decide
  have h0 : flags.length ≠ 0 := by simpa using h
  have hall : flags.count true = flags.length ↔ ∀ b ∈ flags, b = true := by
    rw [List.count_eq_length]; exact ⟨fun h b hb => (h b hb).symm, fun h b hb => (h b hb).symm⟩
  have hnone : flags.count true = 0 ↔ ∀ b ∈ flags, b = false := by
    rw [List.count_eq_zero]
    constructor
    · intro h b hb; cases b
      · rfl
      · exact absurd hb h
    · intro h hb; simpa using h true hb
  simp only [routeFlagFilter, registerFlag]
  by_cases h1 : flags.count true = flags.length
  · have h1' := hall.mp h1
    have : ¬ ∀ b ∈ flags, b = false := by rw [← hnone]; omega
    simp only [h1, beq_self_eq_true, Bool.true_and, bne_iff_ne, ne_eq, h0, not_false_eq_true, if_true,
      Bool.false_eq_true, false_iff]
    refine ⟨this, ?_⟩
    rintro ⟨-, b, hb, hb'⟩
    rw [h1' b hb] at hb'; exact absurd hb' (by decide)
  · by_cases h2 : flags.count true = 0
    · have h2' := hnone.mp h2
      have h3 : ¬ (0 = flags.length) := by omega
      simp only [h2, h3, beq_iff_eq, Bool.and_eq_true, bne_iff_ne, ne_eq, false_and, if_false,
        not_true_eq_false, true_iff, Bool.false_eq_true, false_iff]
      refine ⟨h2', ?_⟩
      rintro ⟨⟨b, hb, hb'⟩, -⟩
      rw [h2' b hb] at hb'; exact absurd hb' (by decide)
    · have hx : ¬ ∀ b ∈ flags, b = false := by rw [← hnone]; exact h2
      have hy : ¬ ∀ b ∈ flags, b = true := by rw [← hall]; exact h1
      simp only [h1, h2, beq_iff_eq, Bool.and_eq_true, bne_iff_ne, ne_eq, false_and, if_false,
        not_false_eq_true, if_true, Bool.false_eq_true, false_iff, true_iff]
      refine ⟨hx, ?_, ?_⟩
      · exact Classical.byContradiction fun hc => hx fun b hb => by
          cases b
          · rfl
          · exact absurd ⟨true, hb, rfl⟩ hc
      · exact Classical.byContradiction fun hc => hy fun b hb => by
          cases b
          · exact absurd ⟨false, hb, rfl⟩ hc
          · rfl

example : isFlagSet (registerFlag [true, false, true]) 1 = some false ∧
    routeFlagFilter (registerFlag [true, false, true]) = (false, true) := by decide

end Nigiri
