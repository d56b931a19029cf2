import Verif.Model.Search
/-!
# Proofs about the search interval
-/

namespace Nigiri.Search
open Nigiri.Raptor (Loc Dir)
open Nigiri.StartTimes (Ev StartTime)

/-- The interval has no negative length. -/
def Ok (iv : Interval) : Prop := iv.from' ≤ iv.to'

/-- All given intervals have no negative length. -/
structure Valid (tt : Tt) (q : Query) : Prop where
  start : Ok q.startIv
  ext : Ok tt.ext
  max : ∀ m, q.maxIv = some m → Ok m

/-- `a` lies inside of `b`. -/
def Inside (a b : Interval) : Prop := b.from' ≤ a.from' ∧ a.to' ≤ b.to'

theorem roundDay_near (p t : Int) : t - 720 ≤ roundDay p t ∧ roundDay p t ≤ t + 720 := by
  unfold roundDay
  split
  · omega
  · split
    · omega
    · split <;> omega

theorem roundDay_mono (p : Int) {a b : Int} (h : a ≤ b) : roundDay p a ≤ roundDay p b := by
  have h1 := roundDay_near p a
  have h2 := roundDay_near p b
  have hd : ∀ t, ∃ k, roundDay p t = 1440 * k := fun t => ⟨_, rfl⟩
  obtain ⟨ka, ha⟩ := hd a
  obtain ⟨kb, hb⟩ := hd b
  by_cases hk : ka ≤ kb
  · omega
  · -- then both are exactly half way
    have : a = b := by omega
    subst this
    omega

theorem tdiv_two (x : Int) : 2 * Int.tdiv x 2 ≤ x + 1 ∧ x - 1 ≤ 2 * Int.tdiv x 2 := by
  rcases Int.le_total 0 x with h | h
  · rw [Int.tdiv_eq_ediv_of_nonneg h]; omega
  · have : Int.tdiv x 2 = -(Int.tdiv (-x) 2) := by rw [Int.neg_tdiv, Int.neg_neg]
    rw [this, Int.tdiv_eq_ediv_of_nonneg (by omega)]
    omega

theorem dataTypeMax_ok {tt : Tt} {q : Query} (h : Ok q.startIv) : Ok (dataTypeMax tt q) := by
  unfold Ok dataTypeMax at *
  simp only
  have hms : maxIvSize = 21600 := rfl
  have g1 := tdiv_two (q.startIv.to' - q.startIv.from' - maxIvSize)
  have g2 := tdiv_two (q.startIv.to' - q.startIv.from' + maxIvSize)
  have gx : (1440 : Int) ≤ if q.hasDirect = true then 1440 else 2880 := by split <;> omega
  revert gx
  generalize (if q.hasDirect = true then (1440 : Int) else 2880) = x
  intro gx
  have m1 := roundDay_mono tt.epochDay (a := q.startIv.from' - x) (b := q.startIv.to' + x) (by omega)
  have m2 := roundDay_mono tt.epochDay (a := q.startIv.from' - x)
    (b := q.startIv.from' + Int.tdiv (q.startIv.to' - q.startIv.from' + maxIvSize) 2) (by omega)
  have m3 := roundDay_mono tt.epochDay (a := q.startIv.from' + Int.tdiv (q.startIv.to' - q.startIv.from' - maxIvSize) 2)
    (b := q.startIv.to' + x) (by omega)
  have m4 := roundDay_mono tt.epochDay (a := q.startIv.from' + Int.tdiv (q.startIv.to' - q.startIv.from' - maxIvSize) 2)
    (b := q.startIv.from' + Int.tdiv (q.startIv.to' - q.startIv.from' + maxIvSize) 2) (by omega)
  omega

/-- The window is at most 16 days wide. -/
theorem dataTypeMax_size (tt : Tt) (q : Query) : (dataTypeMax tt q).size ≤ 23042 := by
  unfold dataTypeMax Interval.size
  simp only
  have hms : maxIvSize = 21600 := rfl
  have g1 := tdiv_two (q.startIv.to' - q.startIv.from' - maxIvSize)
  have g2 := tdiv_two (q.startIv.to' - q.startIv.from' + maxIvSize)
  have n1 := roundDay_near tt.epochDay (q.startIv.from' + Int.tdiv (q.startIv.to' - q.startIv.from' - maxIvSize) 2)
  have n2 := roundDay_near tt.epochDay (q.startIv.from' + Int.tdiv (q.startIv.to' - q.startIv.from' + maxIvSize) 2)
  omega

theorem clamp_some {a : Interval} (h : Ok a) (x : Int) : a.clamp x = some (max a.from' (min a.to' x)) := by
  unfold Ok at h
  unfold Interval.clamp
  rw [if_neg (by omega)]
  congr 1
  split
  · omega
  · split <;> omega

/-- `clamp` cuts to one window. -/
theorem clampPoint_window {tt : Tt} {q : Query} (h : Valid tt q) : ∃ l u, l ≤ u ∧ u - l ≤ (dataTypeMax tt q).size ∧
    (∀ x, clampPoint tt q x = some (max l (min u x))) ∧
    (∀ p, Inside ⟨p, p⟩ tt.ext → Inside ⟨p, p⟩ (dataTypeMax tt q) → (∀ m, q.maxIv = some m → Inside ⟨p, p⟩ m) → l ≤ p ∧ p ≤ u ∧
      Inside ⟨l, u⟩ tt.ext ∧ Inside ⟨l, u⟩ (dataTypeMax tt q) ∧ (∀ m, q.maxIv = some m → Inside ⟨l, u⟩ m)) := by
  have hd := dataTypeMax_ok (tt := tt) h.start
  revert hd
  unfold clampPoint
  generalize dataTypeMax tt q = dm
  intro hd
  have he := h.ext
  cases hm : q.maxIv with
  | none =>
    refine ⟨max dm.from' (min dm.to' tt.ext.from'), max dm.from' (min dm.to' tt.ext.to'), ?_, ?_, ?_, ?_⟩
    · simp only [Ok] at *; omega
    · simp only [Ok, Interval.size] at *; omega
    · intro x
      simp only [clamp_some he, clamp_some hd, Option.bind_some]
      simp only [Ok] at *
      congr 1; omega
    · intro p h1 h2 _
      simp only [Inside, Ok] at *
      refine ⟨by omega, by omega, by omega, by omega, by intro m h; cases h⟩
  | some m =>
    have hm' := h.max m hm
    refine ⟨max m.from' (min m.to' (max dm.from' (min dm.to' tt.ext.from'))), max m.from' (min m.to' (max dm.from' (min dm.to' tt.ext.to'))), ?_, ?_, ?_, ?_⟩
    · simp only [Ok] at *; omega
    · simp only [Ok, Interval.size] at *; omega
    · intro x
      simp only [clamp_some he, clamp_some hd, clamp_some hm', Option.bind_some]
      simp only [Ok] at *
      congr 1; omega
    · intro p h1 h2 h3
      have h3 := h3 m rfl
      simp only [Inside, Ok] at *
      refine ⟨by omega, by omega, by omega, by omega, ?_⟩
      intro m' h; cases h; omega

theorem clampIv_window {tt : Tt} {q : Query} {l u : Int} (h : ∀ x, clampPoint tt q x = some (max l (min u x))) (iv : Interval) :
    clampIv tt q iv = some ⟨max l (min u iv.from'), max l (min u iv.to')⟩ := by
  simp [clampIv, h]

theorem extensionRaw_grows (tt : Tt) (q : Query) {iv : Interval} (h : Ok iv) (n : Nat) :
    (extensionRaw tt q iv n).from' ≤ iv.from' ∧ iv.to' ≤ (extensionRaw tt q iv n).to' := by
  have h0 : 0 ≤ iv.size * (n : Int) := Int.mul_nonneg (by simp only [Ok, Interval.size] at *; omega) (by omega)
  unfold extensionRaw
  simp only
  have h1 : 0 ≤ Int.tdiv (iv.size * n) 2 := Int.tdiv_nonneg h0 (by omega)
  split
  · simp only; omega
  · simp only; constructor <;> split <;> omega

theorem initialRaw_grows (d : Dir) (tt : Tt) (q : Query) (iv : Interval) :
    (initialRaw d tt q iv).from' ≤ iv.from' ∧ iv.to' ≤ (initialRaw d tt q iv).to' := by
  unfold initialRaw
  simp only
  cases d <;> simp only <;> repeat (first | split | omega | (simp only; omega))

end Nigiri.Search
