import Verif.Model.Interval
/-!
# Property C05: interval operations agree with sets of points
-/

namespace Nigiri
open Interval

/-- The specification: the points of a half-open interval. -/
def InInterval (a : Interval) (x : Int) : Prop := a.from' ≤ x ∧ x < a.to'

/-- C05: `contains` is membership. -/
theorem C05_contains (a : Interval) (x : Int) : a.contains x = true ↔ InInterval a x := by
  simp [contains, InInterval]

/-- C05: a point is in the intersection iff it is in both (for all intervals, also empty or
inverted ones). -/
theorem C05_intersect (a b : Interval) (x : Int) :
    InInterval (a.intersect b) x ↔ InInterval a x ∧ InInterval b x := by
  unfold InInterval intersect overlaps
  split
  · simp only; omega
  · rename_i h
    simp at h
    simp only
    constructor
    · intro h'; exfalso; omega
    · intro h'; exfalso; have := h (by omega); omega

/-- C05: two non-empty intervals overlap iff they share a point. -/
theorem C05_overlaps (a b : Interval) (ha : a.from' < a.to') (hb : b.from' < b.to') :
    a.overlaps b = true ↔ ∃ x, InInterval a x ∧ InInterval b x := by
  simp only [overlaps, InInterval, Bool.and_eq_true, decide_eq_true_eq]
  constructor
  · intro h; exact ⟨max a.from' b.from', by omega, by omega⟩
  · rintro ⟨x, h1, h2⟩; omega

example : (⟨0, 5⟩ : Interval).overlaps ⟨4, 9⟩ = true ∧ (⟨0, 5⟩ : Interval).overlaps ⟨5, 9⟩ = false := by
  decide

/-- C05, boundary of the code: `overlaps` reports `true` for an empty interval strictly inside
another one, although no point is shared. -/
theorem C05_overlaps_empty : (⟨3, 3⟩ : Interval).overlaps ⟨0, 10⟩ = true := by decide

/-- C05: a non-empty interval is contained iff all its points are. -/
theorem C05_containsI (a b : Interval) (hb : b.from' < b.to') :
    a.containsI b = true ↔ ∀ x, InInterval b x → InInterval a x := by
  simp only [containsI, InInterval, Bool.and_eq_true, decide_eq_true_eq]
  constructor
  · intro h x hx; omega
  · intro h
    have h1 := h b.from' (by omega)
    have h2 := h (b.to' - 1) (by omega)
    omega

example : (⟨0, 10⟩ : Interval).containsI ⟨2, 5⟩ = true := by decide

/-- C05: shifting moves the points; the two shifts are inverse and keep the size. -/
theorem C05_shift (a : Interval) (d x : Int) :
    (InInterval (a.shr d) x ↔ InInterval a (x - d)) ∧ (InInterval (a.shl d) x ↔ InInterval a (x + d)) ∧
    (a.shr d).shl d = a ∧ (a.shr d).size = a.size := by
  refine ⟨?_, ?_, ?_, ?_⟩
  · simp only [InInterval, shr]; omega
  · simp only [InInterval, shl]; omega
  · simp only [shr, shl]; rw [show a.from' + d - d = a.from' by omega, show a.to' + d - d = a.to' by omega]
  · simp only [size, shr]; omega

/-- C05: iteration visits every point exactly once in ascending order, and `size` counts them. -/
theorem C05_iteration (a : Interval) (h : a.from' ≤ a.to') :
    (∀ x, x ∈ a.points ↔ InInterval a x) ∧ a.points.Pairwise (· < ·) ∧
    (a.points.length : Int) = a.size := by
  refine ⟨?_, ?_, ?_⟩
  · intro x
    simp only [points, List.mem_map, List.mem_range, InInterval]
    constructor
    · rintro ⟨i, hi, rfl⟩; omega
    · intro hx; exact ⟨(x - a.from').toNat, by omega, by omega⟩
  · unfold points
    rw [List.pairwise_map]
    exact List.Pairwise.imp (fun h => by omega) (List.pairwise_lt_range)
  · simp only [points, List.length_map, List.length_range, size]; omega

example : (⟨-2, 3⟩ : Interval).points = [-2, -1, 0, 1, 2] := by decide

/-- C05: `clamp` returns the closest value of the *closed* range [from, to]; it is undefined exactly
for inverted intervals. -/
theorem C05_clamp (a : Interval) (x : Int) :
    (a.to' < a.from' → a.clamp x = none) ∧
    (a.from' ≤ a.to' → ∃ y, a.clamp x = some y ∧ a.from' ≤ y ∧ y ≤ a.to' ∧
      ∀ z, a.from' ≤ z → z ≤ a.to' → (y - x).natAbs ≤ (z - x).natAbs) := by
  constructor
  · intro h; simp [clamp, h]
  · intro h
    simp only [clamp, if_neg (show ¬a.to' < a.from' by omega), Option.some.injEq, exists_eq_left']
    refine ⟨?_, ?_, ?_⟩
    · split <;> (try split) <;> omega
    · split <;> (try split) <;> omega
    · intro z h1 h2; split <;> (try split) <;> omega

end Nigiri
