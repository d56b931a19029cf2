import Verif.Proofs.HrdSplit
import Verif.Proofs.HrdUtc

namespace Nigiri.Hrd
open Spec

theorem mapM_cons_some {α β : Type} (f : α → Option β) (a : α) (l : List α) (ys : List β) :
    (a :: l).mapM f = some ys ↔ ∃ b bs, f a = some b ∧ l.mapM f = some bs ∧ ys = b :: bs := by
  rw [List.mapM_cons]
  cases h : f a with
  | none => simp
  | some b =>
    cases h2 : l.mapM f with
    | none => simp
    | some bs => simp [eq_comm]

theorem mapM_mem {α β : Type} (f : α → Option β) (l : List α) (ys : List β) (h : l.mapM f = some ys) :
    (∀ y, y ∈ ys ↔ ∃ x ∈ l, f x = some y) ∧ (∀ x ∈ l, ∃ y, f x = some y) ∧ ys.length = l.length ∧
    ∀ (i : Nat) x, l[i]? = some x → ∃ y, ys[i]? = some y ∧ f x = some y := by
  induction l generalizing ys with
  | nil => simp at h; subst h; simp
  | cons a l ih =>
    obtain ⟨b, bs, h1, h2, rfl⟩ := (mapM_cons_some f a l ys).1 h
    obtain ⟨i1, i2, i3, i4⟩ := ih bs h2
    refine ⟨?_, ?_, by simp [i3], ?_⟩
    · intro y
      simp only [List.mem_cons, i1 y, exists_eq_or_imp, h1, Option.some.injEq]
      constructor
      · rintro (h | h)
        · exact Or.inl h.symm
        · exact Or.inr h
      · rintro (h | h)
        · exact Or.inl h.symm
        · exact Or.inr h
    · intro x hx
      rcases List.mem_cons.1 hx with hx | hx
      · subst hx; exact ⟨b, h1⟩
      · exact i2 x hx
    · intro i x hx
      cases i with
      | zero => simp at hx; subst hx; exact ⟨b, rfl, h1⟩
      | succ i => simpa using i4 i x (by simpa using hx)

/-- pairs in a row -/
theorem flatten_pairs {α : Type} (f : Nat → Option (List α))
    (hf : ∀ k ys, f k = some ys → ∃ a b, ys = [a, b]) (n : Nat) :
    ∀ (start : Nat) (yss : List (List α)), (List.range' start n).mapM f = some yss →
      yss.flatten.length = 2 * n ∧ ∀ j, j < n → ∃ a b, f (start + j) = some [a, b] ∧
        yss.flatten[2 * j]? = some a ∧ yss.flatten[2 * j + 1]? = some b := by
  induction n with
  | zero =>
    intro start yss h
    simp at h; subst h
    exact ⟨rfl, fun j hj => by omega⟩
  | succ n ih =>
    intro start yss h
    rw [List.range'_succ] at h
    obtain ⟨y, ys, h1, h2, rfl⟩ := (mapM_cons_some f start _ yss).1 h
    obtain ⟨a, b, rfl⟩ := hf _ _ h1
    obtain ⟨i1, i2⟩ := ih (start + 1) ys h2
    refine ⟨?_, ?_⟩
    · simp only [List.flatten_cons, List.length_append, i1]; simp; omega
    · intro j hj
      cases j with
      | zero => exact ⟨a, b, h1, rfl, rfl⟩
      | succ j =>
        obtain ⟨a', b', g1, g2, g3⟩ := i2 j (by omega)
        refine ⟨a', b', ?_, ?_, ?_⟩
        · rw [show start + (j + 1) = start + 1 + j by omega]; exact g1
        · rw [show 2 * (j + 1) = 2 * j + 1 + 1 by omega]
          simpa using g2
        · rw [show 2 * (j + 1) + 1 = 2 * j + 1 + 1 + 1 by omega]
          simpa using g3

theorem localTimes_spec (s : Service) (r : RefService) (ts : List Int) (h : localTimes s r = some ts) :
    ts.length = 2 * (r.part.to' - r.part.from') ∧ ∀ j, j < r.part.to' - r.part.from' →
      ∃ a b, s.stops[r.part.from' + j]? = some a ∧ s.stops[r.part.from' + j + 1]? = some b ∧
        ts[2 * j]? = some (a.dep.time + ((r.repetition * s.interval : Nat) : Int)) ∧
        ts[2 * j + 1]? = some (b.arr.time + ((r.repetition * s.interval : Nat) : Int)) := by
  unfold localTimes at h
  obtain ⟨yss, hy, rfl⟩ := Option.map_eq_some_iff.1 h
  obtain ⟨h1, h2⟩ := flatten_pairs _ (by
    intro k ys hk
    split at hk
    · cases hk; exact ⟨_, _, rfl⟩
    · cases hk) _ _ _ hy
  refine ⟨h1, ?_⟩
  intro j hj
  obtain ⟨a, b, g1, g2, g3⟩ := h2 j hj
  split at g1
  · rename_i x y hx hy'
    simp only [Option.some.injEq, List.cons.injEq, and_true] at g1
    exact ⟨x, y, hx, hy', by rw [g1.1]; exact g2, by rw [g1.2]; exact g3⟩
  · cases g1

theorem stopTimezones_spec (tzs : List (Nat × Tz)) (s : Service) (r : RefService) (zs : List Tz)
    (h : stopTimezones tzs s r = some zs) :
    zs.length = 2 * (r.part.to' - r.part.from') ∧ ∀ j, j < r.part.to' - r.part.from' →
      ∃ a b x y, s.stops[r.part.from' + j]? = some a ∧ s.stops[r.part.from' + j + 1]? = some b ∧
        getTz tzs a.eva = some x ∧ getTz tzs b.eva = some y ∧
        zs[2 * j]? = some x ∧ zs[2 * j + 1]? = some y := by
  unfold stopTimezones at h
  obtain ⟨yss, hy, rfl⟩ := Option.map_eq_some_iff.1 h
  obtain ⟨h1, h2⟩ := flatten_pairs _ (by
    intro k ys hk
    split at hk
    · split at hk
      · cases hk; exact ⟨_, _, rfl⟩
      · cases hk
    · cases hk) _ _ _ hy
  refine ⟨h1, ?_⟩
  intro j hj
  obtain ⟨a, b, g1, g2, g3⟩ := h2 j hj
  split at g1
  · rename_i x y hx hy'
    split at g1
    · rename_i u v hu hv
      simp only [Option.some.injEq, List.cons.injEq, and_true] at g1
      exact ⟨x, y, u, v, hx, hy', hu, hv, by rw [g1.1]; exact g2, by rw [g1.2]; exact g3⟩
    · cases g1
  · cases g1

theorem expand_none (n : Nat) (b : Bitfield) (hb : Seated.any b = false) :
    (expandTrafficDays (List.replicate n b)).out = [] := by
  unfold expandTrafficDays
  cases n with
  | zero => rfl
  | succ n =>
    rw [List.length_replicate]
    unfold expandLoop
    dsimp only
    rw [List.length_replicate, Nat.sub_self]
    simp [List.replicate_succ, hb]

end Nigiri.Hrd
