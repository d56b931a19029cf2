import Verif.Spec.VdvAus

/-! # `monotonize` computes suffix minima -/

namespace Nigiri.Vdv

open Nigiri.Rt

theorem getD_set (l : List Int) (e e' : Nat) (x : Int) :
    (l.set e x).getD e' 0 = if e = e' ∧ e < l.length then x else l.getD e' 0 := by
  simp only [List.getD_eq_getElem?_getD, List.getElem?_set]
  by_cases h : e = e'
  · subst h
    by_cases h2 : e < l.length
    · simp [h2]
    · simp [h2]
  · simp [h]

theorem unixToDelta_id {b d : Int} (h1 : -32768 ≤ d) (h2 : d ≤ 32767) : unixToDelta b (dayToUnix b + d) = d := by
  unfold unixToDelta clampDelta stdClamp deltaMin deltaMax
  split
  · omega
  · split <;> omega

theorem unixToDelta_range (b t : Int) : -32768 ≤ unixToDelta b t ∧ unixToDelta b t ≤ 32767 := by
  unfold unixToDelta clampDelta stdClamp deltaMin deltaMax
  split
  · omega
  · split <;> omega

/-- Event-wise form of the loop of `monotonize`. -/
def monoEvents (c : Ctx) (k : Nat) (s : St × Option Int) : St × Option Int :=
  (List.range k).reverse.foldl (fun s e => monoEvent c e s) s

theorem monoEvents_zero (c : Ctx) (s : St × Option Int) : monoEvents c 0 s = s := rfl

theorem monoEvents_succ (c : Ctx) (k : Nat) (s : St × Option Int) :
    monoEvents c (k + 1) s = monoEvents c k (monoEvent c k s) := by
  simp [monoEvents, List.range_succ, List.reverse_append]

theorem monoStop_mid (c : Ctx) (n i : Nat) (s : St × Option Int) (h : i + 1 ≠ n) (h0 : i ≠ 0) :
    monoStop c n s i = monoEvent c (evIdx i true) (monoEvent c (evIdx i false) s) := by
  simp [monoStop, h, h0]

theorem monoStop_first (c : Ctx) (n : Nat) (s : St × Option Int) (h : 0 + 1 ≠ n) :
    monoStop c n s 0 = monoEvent c (evIdx 0 false) s := by
  simp [monoStop] at h ⊢
  intro h'
  exact absurd h' h

theorem monoStop_last (c : Ctx) (i : Nat) (s : St × Option Int) (h0 : i ≠ 0) :
    monoStop c (i + 1) s i = monoEvent c (evIdx i true) s := by
  simp [monoStop, h0]

theorem monoStops_lt (c : Ctx) (n : Nat) : ∀ (k : Nat) (s : St × Option Int), k < n →
    (List.range k).reverse.foldl (monoStop c n) s = monoEvents c (2 * k - 1) s := by
  intro k
  induction k with
  | zero => intro s _; rfl
  | succ k ih =>
    intro s hk
    rw [List.range_succ, List.reverse_append]
    simp only [List.reverse_cons, List.reverse_nil, List.nil_append, List.foldl_cons, List.cons_append]
    rw [ih _ (by omega)]
    cases k with
    | zero =>
      rw [monoStop_first _ _ _ (by omega)]
      show monoEvents c 0 _ = monoEvents c 1 s
      rw [monoEvents_succ]
      rfl
    | succ k =>
      rw [monoStop_mid _ _ _ _ (by omega) (by omega)]
      have h1 : 2 * (k + 1 + 1) - 1 = (2 * (k + 1) - 1) + 1 + 1 := by omega
      rw [h1, monoEvents_succ, monoEvents_succ]
      have h2 : evIdx (k + 1) false = 2 * (k + 1) - 1 + 1 := by simp [evIdx]; omega
      have h3 : evIdx (k + 1) true = 2 * (k + 1) - 1 := by simp [evIdx]
      rw [h2, h3]

theorem monotonize_events (c : Ctx) (s : St) :
    monotonize c s = (monoEvents c (2 * s.stops.length - 2) (s, none)).1 := by
  unfold monotonize
  generalize hn : s.stops.length = n
  cases n with
  | zero => rfl
  | succ n =>
    rw [List.range_succ, List.reverse_append]
    simp only [List.reverse_cons, List.reverse_nil, List.nil_append, List.foldl_cons, List.cons_append]
    rw [monoStops_lt _ _ _ _ (by omega)]
    cases n with
    | zero => simp [monoStop]
    | succ n =>
      rw [monoStop_last _ _ _ (by omega)]
      have h1 : 2 * (n + 1 + 1) - 2 = (2 * (n + 1) - 1) + 1 := by omega
      rw [h1, monoEvents_succ]
      have h3 : evIdx (n + 1) true = 2 * (n + 1) - 1 := by simp [evIdx]
      rw [h3]

theorem monoEvents_spec (c : Ctx) : ∀ (k : Nat) (s : St) (ub : Option Int),
    k ≤ s.times.length → (∀ e : Nat, -32768 ≤ s.times.getD e 0 ∧ s.times.getD e 0 ≤ 32767) →
    (∀ u, ub = some u → -32768 ≤ u - dayToUnix c.base ∧ u - dayToUnix c.base ≤ 32767) →
    ∃ r : List Int, (monoEvents c k (s, ub)).1 = { s with times := r } ∧ r.length = s.times.length ∧
      (∀ e, k ≤ e → r.getD e 0 = s.times.getD e 0) ∧
      (∀ e, e < k → (∀ e', e ≤ e' → e' < k → r.getD e 0 ≤ s.times.getD e' 0) ∧
        (∀ u, ub = some u → r.getD e 0 ≤ u - dayToUnix c.base) ∧
        ((∃ e', e ≤ e' ∧ e' < k ∧ r.getD e 0 = s.times.getD e' 0) ∨
          (∃ u, ub = some u ∧ r.getD e 0 = u - dayToUnix c.base))) := by
  intro k
  induction k with
  | zero =>
    intro s ub _ _ _
    exact ⟨s.times, rfl, rfl, fun _ _ => rfl, fun e he => absurd he (by omega)⟩
  | succ k ih =>
    intro s ub hk h16 hub
    rw [monoEvents_succ]
    -- the new bound, relative to the base day
    have hd : ∃ d : Int, monoEvent c k (s, ub) = ({ s with times := s.times.set k d }, some (dayToUnix c.base + d)) ∧
        -32768 ≤ d ∧ d ≤ 32767 ∧ d ≤ s.times.getD k 0 ∧ (∀ u, ub = some u → d ≤ u - dayToUnix c.base) ∧
        (d = s.times.getD k 0 ∨ ∃ u, ub = some u ∧ d = u - dayToUnix c.base) := by
      have hk16 := h16 k
      cases ub with
      | none =>
        refine ⟨s.times.getD k 0, ?_, hk16.1, hk16.2, Int.le_refl _, by simp, Or.inl rfl⟩
        simp only [monoEvent, setTime]
        rw [unixToDelta_id hk16.1 hk16.2]
      | some u =>
        have hu := hub u rfl
        refine ⟨min (s.times.getD k 0) (u - dayToUnix c.base), ?_, by omega, by omega, by omega, ?_, ?_⟩
        · simp only [monoEvent, setTime]
          have e1 : min (dayToUnix c.base + s.times.getD k 0) u
              = dayToUnix c.base + min (s.times.getD k 0) (u - dayToUnix c.base) := by omega
          rw [e1, unixToDelta_id (by omega) (by omega)]
        · intro v hv
          cases hv
          omega
        · rcases Int.le_total (s.times.getD k 0) (u - dayToUnix c.base) with h | h
          · exact Or.inl (Int.min_eq_left h)
          · exact Or.inr ⟨u, rfl, Int.min_eq_right h⟩
    obtain ⟨d, hev, hd1, hd2, hdk, hdu, hdc⟩ := hd
    rw [hev]
    have hget : ∀ e', (s.times.set k d).getD e' 0 = if k = e' ∧ k < s.times.length then d else s.times.getD e' 0 :=
      fun e' => getD_set _ _ _ _
    obtain ⟨r, hr, hlen, hge, hlt⟩ := ih { s with times := s.times.set k d } (some (dayToUnix c.base + d))
      (by simp; omega)
      (by
        intro e
        rw [hget]
        split
        · exact ⟨hd1, hd2⟩
        · exact h16 e)
      (by intro u hu; cases hu; omega)
    refine ⟨r, hr, by simpa using hlen, ?_, ?_⟩
    · intro e he
      rw [hge e (by omega), hget, if_neg (by omega)]
    · intro e he
      by_cases hek : e = k
      · subst hek
        have hre : r.getD e 0 = d := by
          rw [hge e (Nat.le_refl _), hget, if_pos ⟨rfl, by omega⟩]
        rw [hre]
        refine ⟨?_, hdu, ?_⟩
        · intro e' h1 h2
          have : e' = e := by omega
          subst this
          exact hdk
        · rcases hdc with h | h
          · exact Or.inl ⟨e, Nat.le_refl _, by omega, h⟩
          · exact Or.inr h
      · obtain ⟨g1, g2, g3⟩ := hlt e (by omega)
        have gd : r.getD e 0 ≤ d := by have := g2 _ rfl; omega
        refine ⟨?_, ?_, ?_⟩
        · intro e' h1 h2
          by_cases h3 : e' = k
          · subst h3; omega
          · have := g1 e' h1 (by omega)
            rw [hget, if_neg (by omega)] at this
            exact this
        · intro u hu
          have := hdu u hu
          omega
        · rcases g3 with ⟨e', h1, h2, h3⟩ | ⟨u, hu, h3⟩
          · rw [hget, if_neg (by omega)] at h3
            exact Or.inl ⟨e', h1, by omega, h3⟩
          · cases hu
            have h3' : r.getD e 0 = d := by omega
            rcases hdc with h | ⟨u, hu, h⟩
            · exact Or.inl ⟨k, by omega, by omega, h3'.trans h⟩
            · exact Or.inr ⟨u, hu, h3'.trans h⟩

theorem monotonize_spec (c : Ctx) (s : St) (hlen : s.times.length = 2 * s.stops.length - 2)
    (h16 : ∀ e : Nat, -32768 ≤ s.times.getD e 0 ∧ s.times.getD e 0 ≤ 32767) :
    ∃ r : List Int, monotonize c s = { s with times := r } ∧ r.length = s.times.length ∧
      ∀ e, e < s.times.length → (∀ e', e ≤ e' → e' < s.times.length → r.getD e 0 ≤ s.times.getD e' 0) ∧
        ∃ e', e ≤ e' ∧ e' < s.times.length ∧ r.getD e 0 = s.times.getD e' 0 := by
  obtain ⟨r, h1, h2, _, h4⟩ := monoEvents_spec c (2 * s.stops.length - 2) s none (by omega) h16 (by simp)
  refine ⟨r, by rw [monotonize_events, h1], h2, ?_⟩
  intro e he
  obtain ⟨g1, _, g3⟩ := h4 e (by omega)
  refine ⟨fun e' a b => g1 e' a (by omega), ?_⟩
  rcases g3 with ⟨e', a, b, h⟩ | ⟨u, hu, _⟩
  · exact ⟨e', a, by omega, h⟩
  · cases hu

end Nigiri.Vdv
