import Verif.Proofs.NetexTz
/-!
# Expansion of NeTEx service journeys
-/

namespace Nigiri.Netex

theorem eventTimes_length (l : List StopTime) : (eventTimes l).length = 2 * (l.length - 1) := by
  induction l with
  | nil => rfl
  | cons a r ih =>
    cases r with
    | nil => rfl
    | cons b r =>
      simp only [eventTimes, List.length_cons] at ih ⊢
      omega

theorem eventTimes_get (l : List StopTime) (i : Nat) (h : i + 1 < l.length) :
    (eventTimes l)[2 * i]? = some (stopAt l i).dep ∧ (eventTimes l)[2 * i + 1]? = some (stopAt l (i + 1)).arr := by
  induction l generalizing i with
  | nil => simp at h
  | cons a r ih =>
    cases r with
    | nil => simp at h
    | cons b r =>
      cases i with
      | zero => exact ⟨rfl, rfl⟩
      | succ i =>
        have := ih i (by simpa using h)
        exact ⟨this.1, this.2⟩

theorem runMax_length (p : Int) (l : List Int) : (runMax p l).length = l.length := by
  induction l generalizing p with
  | nil => rfl
  | cons x r ih => simp [runMax, ih]

theorem runMax_get (l : List Int) (p : Int) (i : Nat) (o : Int) (h : (runMax p l)[i]? = some o) :
    ((∃ k : Nat, k ≤ i ∧ l[k]? = some o) ∨ o = p) ∧ p ≤ o ∧ ∀ k : Nat, k ≤ i → ∀ r : Int, l[k]? = some r → r ≤ o := by
  induction l generalizing p i with
  | nil => simp [runMax] at h
  | cons x r ih =>
    cases i with
    | zero =>
      simp only [runMax, List.getElem?_cons_zero, Option.some.injEq] at h
      refine ⟨?_, by omega, ?_⟩
      · by_cases hx : p ≤ x
        · exact Or.inl ⟨0, Nat.le_refl _, by simp; omega⟩
        · right; omega
      · intro k hk y hy
        have : k = 0 := by omega
        subst this
        simp at hy; omega
    | succ i =>
      obtain ⟨h1, h2, h3⟩ := ih (max p x) i (by simpa [runMax] using h)
      refine ⟨?_, by omega, ?_⟩
      · rcases h1 with ⟨k, hk, e⟩ | e
        · exact Or.inl ⟨k + 1, by omega, by simpa using e⟩
        · by_cases hx : p ≤ x
          · exact Or.inl ⟨0, by omega, by simp; omega⟩
          · right; omega
      · intro k hk y hy
        cases k with
        | zero => simp at hy; omega
        | succ k => exact h3 k (by omega) y (by simpa using hy)

theorem runMax_smoothed (l : List Int) (h : ∀ x, l[0]? = some x → 0 ≤ x) : Smoothed l (runMax 0 l) := by
  refine ⟨runMax_length _ _, ?_⟩
  intro i o ho
  obtain ⟨h1, h2, h3⟩ := runMax_get l 0 i o ho
  refine ⟨?_, h3⟩
  rcases h1 with h1 | rfl
  · exact h1
  · cases l with
    | nil => simp [runMax] at ho
    | cons x r =>
      have := h3 0 (Nat.zero_le _) x rfl
      have hx := h x rfl
      exact ⟨0, Nat.zero_le _, by simp; omega⟩

theorem head_stopAt (j : Job) : (j.stops.head?.map fun s : StopTime => s.dep).getD 0 = (stopAt j.stops 0).dep := by
  unfold stopAt
  cases j.stops <;> rfl

theorem last_stopAt (j : Job) :
    (j.stops.getLast?.map fun s : StopTime => s.arr).getD 0 = (stopAt j.stops (j.stops.length - 1)).arr := by
  unfold stopAt
  rw [List.getLast?_eq_getElem?]
  cases h : j.stops[j.stops.length - 1]? with
  | none => simp [h]
  | some s => simp [h]

/-- `raw` for `Job.key`. -/
def rawOf (j : Job) (c : Option Info) (g : Nat) : List Int :=
  let day := (j.iv.from' + g) * 1440
  (toUtcs j.tz day (toUtc j.tz c day (stopAt j.stops 0).dep).2 (eventTimes j.stops)).1.map (day + ·)

theorem toUtcs_head (tz : Tz) (c : Option Info) (day x : Int) (r : List Int) :
    (toUtcs tz day (toUtc tz c day x).2 (x :: r)).1[0]? = some (toUtc tz c day x).1 := by
  show some (toUtc tz (toUtc tz c day x).2 day x).1 = _
  rw [toUtc_again]

theorem key_spec (j : Job) (hok : TzOk j.tz) (hn : 2 ≤ j.stops.length) (c : Option Info) (hc : CacheOk j.tz c) (g : Nat) :
    Represents j g (j.key c g).1 (rawOf j c g) ∧ CacheOk j.tz (j.key c g).2 := by
  unfold Job.key rawOf
  simp only [head_stopAt]
  generalize hD : (j.iv.from' + (g : Int)) * 1440 = D
  have hf := toUtc_spec j.tz hok c hc D (stopAt j.stops 0).dep
  have hts := toUtcs_spec j.tz hok D (eventTimes j.stops) _ hf.2
  have hlen := eventTimes_length j.stops
  have h0 : (toUtcs j.tz D (toUtc j.tz c D (stopAt j.stops 0).dep).2 (eventTimes j.stops)).1[0]? =
      some (toUtc j.tz c D (stopAt j.stops 0).dep).1 := by
    match hs : j.stops, hn with
    | a :: b :: r, _ => exact toUtcs_head _ _ _ _ _
  revert hts h0
  generalize toUtcs j.tz D (toUtc j.tz c D (stopAt j.stops 0).dep).2 (eventTimes j.stops) = ts
  generalize toUtc j.tz c D (stopAt j.stops 0).dep = f at hf ⊢
  intro hts h0
  refine ⟨?_, hts.1⟩
  have hmap : ∀ (i : Nat) (u : Int), ts.1[i]? = some u → (ts.1.map (D + ·))[i]? = some (D + u) := by
    intro i u h; simp [h]
  constructor
  · simp [hts.2.1, hlen]
  · intro i hi
    obtain ⟨u, hu, hcv⟩ := hts.2.2 _ _ (eventTimes_get j.stops i hi).1
    rw [hD]
    exact ⟨_, hmap _ _ hu, hcv⟩
  · intro i hi
    obtain ⟨u, hu, hcv⟩ := hts.2.2 _ _ (eventTimes_get j.stops i hi).2
    rw [hD]
    exact ⟨_, hmap _ _ hu, hcv⟩
  · intro u hu
    rw [hmap _ _ h0] at hu
    cases hu
    rw [Int.add_mul, hD]
    refine ⟨by simp only; omega, by simp only; omega, by simp only; omega⟩
  · have e : (ts.1.map (D + ·)).map (· - (j.iv.from' + (g : Int) + f.1 / 1440) * 1440) = ts.1.map (· - f.1 / 1440 * 1440) := by
      rw [List.map_map]
      apply List.map_congr_left
      intro x _
      show D + x - (j.iv.from' + (g : Int) + f.1 / 1440) * 1440 = x - f.1 / 1440 * 1440
      rw [Int.add_mul (j.iv.from' + (g : Int)), hD]; omega
    simp only
    rw [e]
    apply runMax_smoothed
    intro x hx
    simp [h0] at hx
    omega

/-! ### The map -/

def Has (m : List (Key × Bitfield)) (k : Key) (u : Nat) : Prop := ∃ b, (k, b) ∈ m ∧ b u = true

def KeysOk (m : List (Key × Bitfield)) : Prop := m.Pairwise fun a b => a.1 ≠ b.1

theorem any_key (m : List (Key × Bitfield)) (k : Key) :
    m.any (fun x => decide (x.1 = k)) = true ↔ ∃ b, (k, b) ∈ m := by
  rw [List.any_eq_true]
  constructor
  · rintro ⟨⟨k', b⟩, h1, h2⟩
    have : k' = k := of_decide_eq_true h2
    subst this; exact ⟨b, h1⟩
  · rintro ⟨b, h⟩
    exact ⟨_, h, decide_eq_true rfl⟩

theorem setIn_ok (m : List (Key × Bitfield)) (k : Key) (u : Nat) (h : KeysOk m) : KeysOk (setIn m k u) := by
  unfold setIn
  split
  · unfold KeysOk
    rw [List.pairwise_map]
    refine h.imp ?_
    intro a b hab
    split <;> split <;> exact hab
  · rename_i hn
    have hn : ¬ ∃ b, (k, b) ∈ m := fun hx => hn ((any_key m k).2 hx)
    unfold KeysOk
    rw [List.pairwise_append]
    refine ⟨h, List.pairwise_singleton _ _, ?_⟩
    intro a ha b hb
    simp only [List.mem_singleton] at hb
    subst hb
    rintro rfl
    exact hn ⟨a.2, ha⟩

theorem setIn_has (m : List (Key × Bitfield)) (k k' : Key) (u u' : Nat) :
    Has (setIn m k u) k' u' ↔ Has m k' u' ∨ (k' = k ∧ u' = u) := by
  unfold setIn
  split
  · rename_i hy
    obtain ⟨b0, hb0⟩ := (any_key m k).1 hy
    constructor
    · rintro ⟨b, hb, hu⟩
      obtain ⟨x, hx, e⟩ := List.mem_map.1 hb
      by_cases hk : x.1 = k
      · rw [if_pos hk] at e
        cases e
        by_cases h : u' = u
        · exact Or.inr ⟨hk, h⟩
        · simp only [if_neg h] at hu
          exact Or.inl ⟨x.2, hx, hu⟩
      · rw [if_neg hk] at e
        subst e
        exact Or.inl ⟨b, hx, hu⟩
    · rintro (⟨b, hb, hu⟩ | ⟨rfl, rfl⟩)
      · by_cases hk : k' = k
        · subst hk
          refine ⟨_, List.mem_map.2 ⟨(k', b), hb, by rw [if_pos rfl]⟩, ?_⟩
          simp [hu]
        · exact ⟨b, List.mem_map.2 ⟨(k', b), hb, by rw [if_neg hk]⟩, hu⟩
      · refine ⟨_, List.mem_map.2 ⟨(k', b0), hb0, by rw [if_pos rfl]⟩, by simp⟩
  · constructor
    · rintro ⟨b, hb, hu⟩
      rcases List.mem_append.1 hb with hb | hb
      · exact Or.inl ⟨b, hb, hu⟩
      · simp only [List.mem_singleton, Prod.mk.injEq] at hb
        rcases hb with ⟨rfl, rfl⟩
        exact Or.inr ⟨rfl, of_decide_eq_true hu⟩
    · rintro (⟨b, hb, hu⟩ | ⟨rfl, rfl⟩)
      · exact ⟨b, List.mem_append_left _ hb, hu⟩
      · exact ⟨_, List.mem_append_right _ (List.mem_singleton.2 rfl), decide_eq_true rfl⟩

theorem loop_spec (j : Job) (hok : TzOk j.tz) (hn : 2 ≤ j.stops.length) (gs : List Nat) (hg : gs.Nodup)
    (c : Option Info) (m : List (Key × Bitfield)) (hc : CacheOk j.tz c) (hm : KeysOk m)
    (st : Option Info × List (Key × Bitfield)) (h : j.loop (c, m) gs = some st) :
    KeysOk st.2 ∧ ∃ f : Nat → Key, (∀ g ∈ gs, j.served g = true → ∃ raw, Represents j g (f g) raw) ∧
      ∀ k u, Has st.2 k u ↔ Has m k u ∨ ∃ g ∈ gs, j.served g = true ∧ f g = k ∧ (u : Int) = g + k.dayOffset := by
  induction gs generalizing c m with
  | nil =>
    simp only [Job.loop, Option.some.injEq] at h
    subst h
    refine ⟨hm, fun _ => ⟨[], 0, 0⟩, by intro g hg; simp at hg, ?_⟩
    intro k u
    exact ⟨Or.inl, fun h => h.elim id fun ⟨g, hg, _⟩ => by simp at hg⟩
  | cons g r ih =>
    have hnd := List.nodup_cons.1 hg
    simp only [Job.loop, Job.step] at h
    by_cases hs : j.served g = true
    · rw [if_pos hs] at h
      have hk := key_spec j hok hn c hc g
      by_cases hu : 0 ≤ (g : Int) + (j.key c g).1.dayOffset ∧ (g : Int) + (j.key c g).1.dayOffset < 512
      · rw [if_pos hu] at h
        simp only [Option.bind_some] at h
        obtain ⟨h1, f, h2, h3⟩ := ih hnd.2 _ _ hk.2 (setIn_ok _ _ _ hm) h
        refine ⟨h1, fun x => if x = g then (j.key c g).1 else f x, ?_, ?_⟩
        · intro x hx hsx
          by_cases e : x = g
          · subst e; simp only [if_pos]; exact ⟨_, hk.1⟩
          · simp only [if_neg e]
            exact h2 x ((List.mem_cons.1 hx).resolve_left e) hsx
        · intro k u
          rw [h3, setIn_has]
          constructor
          · rintro ((h | ⟨rfl, rfl⟩) | ⟨x, hx, hsx, e1, e2⟩)
            · exact Or.inl h
            · exact Or.inr ⟨g, List.mem_cons_self .., hs, by simp, by omega⟩
            · have : x ≠ g := fun e => hnd.1 (e ▸ hx)
              exact Or.inr ⟨x, List.mem_cons_of_mem _ hx, hsx, by simp only [if_neg this]; exact e1, e2⟩
          · rintro (h | ⟨x, hx, hsx, e1, e2⟩)
            · exact Or.inl (Or.inl h)
            · by_cases e : x = g
              · subst e
                simp only [if_pos] at e1
                subst e1
                exact Or.inl (Or.inr ⟨rfl, by omega⟩)
              · simp only [if_neg e] at e1
                exact Or.inr ⟨x, (List.mem_cons.1 hx).resolve_left e, hsx, e1, e2⟩
      · rw [if_neg hu] at h
        simp at h
    · rw [if_neg hs] at h
      simp only [Option.bind_some] at h
      obtain ⟨h1, f, h2, h3⟩ := ih hnd.2 _ _ hc hm h
      refine ⟨h1, f, ?_, ?_⟩
      · intro x hx hsx
        rcases List.mem_cons.1 hx with rfl | hx
        · exact absurd hsx hs
        · exact h2 x hx hsx
      · intro k u
        rw [h3]
        constructor
        · rintro (h | ⟨x, hx, hh⟩)
          · exact Or.inl h
          · exact Or.inr ⟨x, List.mem_cons_of_mem _ hx, hh⟩
        · rintro (h | ⟨x, hx, hh⟩)
          · exact Or.inl h
          · rcases List.mem_cons.1 hx with rfl | hx
            · exact absurd hh.1 hs
            · exact Or.inr ⟨x, hx, hh⟩

theorem tdiv_mono {a b : Int} (h : a ≤ b) : a.tdiv 1440 ≤ b.tdiv 1440 := by
  rcases Int.lt_or_le a 0 with ha | ha
  · rcases Int.lt_or_le b 0 with hb | hb
    · have e1 : a.tdiv 1440 = -((-a) / 1440) := by
        rw [← Int.tdiv_eq_ediv_of_nonneg (by omega), Int.neg_tdiv]; omega
      have e2 : b.tdiv 1440 = -((-b) / 1440) := by
        rw [← Int.tdiv_eq_ediv_of_nonneg (by omega), Int.neg_tdiv]; omega
      rw [e1, e2]; omega
    · have e1 : a.tdiv 1440 = -((-a) / 1440) := by
        rw [← Int.tdiv_eq_ediv_of_nonneg (by omega), Int.neg_tdiv]; omega
      rw [e1, Int.tdiv_eq_ediv_of_nonneg hb]; omega
  · rw [Int.tdiv_eq_ediv_of_nonneg ha, Int.tdiv_eq_ediv_of_nonneg (by omega)]; omega

theorem served_iff (j : Job) (hsel : j.sel.from' < j.sel.to')
    (hord : (stopAt j.stops 0).dep ≤ (stopAt j.stops (j.stops.length - 1)).arr) (g : Nat) :
    (g < (j.iv.to' - j.iv.from').toNat ∧ j.served g = true) ↔ Served j g := by
  unfold Job.served Served Job.firstDay Job.lastDay
  simp only [head_stopAt, last_stopAt, Bool.and_eq_true, decide_eq_true_eq]
  have := tdiv_mono hord
  generalize (stopAt j.stops 0).dep.tdiv 1440 = a at *
  generalize (stopAt j.stops (j.stops.length - 1)).arr.tdiv 1440 = b at *
  constructor
  · rintro ⟨h1, ⟨h2, h3⟩, h4⟩
    refine ⟨by omega, h4, max (j.iv.from' + g + a) j.sel.from', ?_⟩
    omega
  · rintro ⟨h1, h2, x, h3, h4, h5, h6⟩
    exact ⟨by omega, ⟨by omega, by omega⟩, h2⟩

end Nigiri.Netex
