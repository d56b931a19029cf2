import Verif.Proofs.VdvAssign

/-! # Stops after an update; the update as a whole -/

namespace Nigiri.Vdv

open Nigiri.Rt Spec

theorem cancelStop_getD (l : List Stop) (i x : Nat) (hi : i < l.length) :
    (cancelStop l i).getD x noStop
      = if i = x then ⟨(l.getD x noStop).loc, false, false, false, false⟩ else l.getD x noStop := by
  unfold cancelStop
  rw [getD_set_stop]
  by_cases h : i = x
  · subst h
    rw [if_pos ⟨rfl, hi⟩, if_pos rfl]
  · rw [if_neg (fun hh => h hh.1), if_neg h]

theorem cancelStop_len (l : List Stop) (i : Nat) : (cancelStop l i).length = l.length := by
  simp [cancelStop]

/-- A stop with all flags cleared. -/
def bare (x : Stop) : Stop := ⟨x.loc, false, false, false, false⟩

theorem firstLast_len (c : Ctx) (l : List Stop) : (firstLast c l).length = l.length := by
  unfold firstLast
  simp only
  split <;> split <;> simp [cancelStop_len]

theorem firstLast_getD (c : Ctx) (l : List Stop) (h1 : c.first < c.last) (h2 : c.last ≤ l.length) (x : Nat) :
    (firstLast c l).getD x noStop
      = if (x = c.first ∧ (l.getD x noStop).inA = false) ∨ (x + 1 = c.last ∧ (l.getD x noStop).outA = false)
        then bare (l.getD x noStop) else l.getD x noStop := by
  have key : ∀ l' : List Stop, l'.length = l.length →
      (∀ y, l'.getD y noStop = if y = c.first ∧ (l.getD y noStop).inA = false then bare (l.getD y noStop)
        else l.getD y noStop) →
      (if (!(l'.getD (c.last - 1) noStop).outA) = true then cancelStop l' (c.last - 1) else l').getD x noStop
        = if (x = c.first ∧ (l.getD x noStop).inA = false) ∨ (x + 1 = c.last ∧ (l.getD x noStop).outA = false)
        then bare (l.getD x noStop) else l.getD x noStop := by
    intro l' hl hy
    by_cases hx : x + 1 = c.last
    · have hx' : c.last - 1 = x := by omega
      rw [hx']
      by_cases ho : (l'.getD x noStop).outA = true
      · rw [if_neg (by rw [ho]; simp)]
        rw [hy x] at ho ⊢
        by_cases hf : x = c.first ∧ (l.getD x noStop).inA = false
        · rw [if_pos hf, if_pos (Or.inl hf)]
        · rw [if_neg hf] at ho ⊢
          rw [if_neg]
          rintro (h | ⟨_, h⟩)
          · exact hf h
          · rw [ho] at h; cases h
      · have ho' : (l'.getD x noStop).outA = false := by simpa using ho
        rw [if_pos (by rw [ho']; rfl), cancelStop_getD _ _ _ (by omega), if_pos rfl]
        rw [hy x]
        by_cases hf : x = c.first ∧ (l.getD x noStop).inA = false
        · rw [if_pos hf, if_pos (Or.inl hf)]
          rfl
        · rw [hy x, if_neg hf] at ho'
          rw [if_neg hf, if_pos (Or.inr ⟨hx, ho'⟩)]
          rfl
    · have hne : c.last - 1 ≠ x := by omega
      have e1 : (if (!(l'.getD (c.last - 1) noStop).outA) = true then cancelStop l' (c.last - 1) else l').getD x noStop
          = l'.getD x noStop := by
        split
        · rw [cancelStop_getD _ _ _ (by omega), if_neg hne]
        · rfl
      rw [e1, hy x]
      by_cases hf : x = c.first ∧ (l.getD x noStop).inA = false
      · rw [if_pos hf, if_pos (Or.inl hf)]
      · rw [if_neg hf, if_neg]
        rintro (h | ⟨h, _⟩)
        · exact hf h
        · exact hx h
  unfold firstLast
  simp only
  by_cases hi : (l.getD c.first noStop).inA = true
  · have hif : (if (!(l.getD c.first noStop).inA) = true then cancelStop l c.first else l) = l := by
      rw [if_neg (by rw [hi]; simp)]
    rw [hif]
    apply key l rfl
    intro y
    rw [if_neg]
    rintro ⟨h, h'⟩
    subst h
    rw [hi] at h'
    cases h'
  · have hi' : (l.getD c.first noStop).inA = false := by simpa using hi
    have hif : (if (!(l.getD c.first noStop).inA) = true then cancelStop l c.first else l) = cancelStop l c.first := by
      rw [if_pos (by rw [hi']; rfl)]
    rw [hif]
    apply key _ (cancelStop_len _ _)
    intro y
    rw [cancelStop_getD _ _ _ (by omega)]
    by_cases hy : c.first = y
    · subst hy
      rw [if_pos rfl, if_pos ⟨rfl, hi'⟩]
      rfl
    · rw [if_neg hy, if_neg (fun hh => hy hh.1.symm)]

/-- The arrays before `monotonize`. -/
def before (c : Ctx) (vs : List VStop) (s : St) : St :=
  { (assignLoop c vs s).1.1 with stops := firstLast c (assignLoop c vs s).1.1.stops }

theorem updateRun_before (c : Ctx) (vs : List VStop) (s : St) :
    updateRun c vs s = if notCancelled (before c vs s).stops ≤ 1 then (before c vs s, true)
      else (monotonize c (before c vs s), false) := rfl

theorem before_assigned {c : Ctx} {vs : List VStop} {s : St} (hs : Shape c s) {m : Nat → Option Nat}
    (hm : Pairing c (fun i => (s.stops.getD i noStop).loc) vs m) :
    Assigned c vs m s.times (before c vs s).times := by
  have hm' := pairing_unique hm (pairing_spec c (fun i => (s.stops.getD i noStop).loc) vs)
  subst hm'
  have h := loop_inv (vs := vs) hs
  refine ⟨h.tlen, ?_, ?_⟩
  · intro i arr he
    exact h.done i arr he (by have := he.1; have := he.2.1; omega)
  · intro e hne
    exact h.todo e (fun i arr he _ => hne i arr he)

theorem before_shape {c : Ctx} {vs : List VStop} {s : St} (hs : Shape c s) : Shape c (before c vs s) := by
  have h := loop_inv (vs := vs) hs
  have ha := before_assigned hs (pairing_spec c (fun i => (s.stops.getD i noStop).loc) vs)
  refine ⟨?_, ?_, ?_⟩
  · show (assignLoop c vs s).1.1.times.length = 2 * (firstLast c _).length - 2
    rw [firstLast_len, h.tlen, h.slen]
    exact hs.len
  · show _ ∧ c.last ≤ (firstLast c _).length
    rw [firstLast_len, h.slen]
    exact hs.range
  · intro e
    by_cases hex : ∃ (i : Nat) (arr : Bool), HasEvent c i arr ∧ slot i arr = e
    · obtain ⟨i, arr, he, hse⟩ := hex
      have := ha.2.1 i arr he
      rw [hse] at this
      rw [this]
      cases target c vs (pairing c (fun i => (s.stops.getD i noStop).loc) vs) i arr with
      | some t => exact unixToDelta_range _ _
      | none => exact hs.int16 e
    · rw [ha.2.2 e (fun i arr he hse => hex ⟨i, arr, he, hse⟩)]
      exact hs.int16 e

theorem before_stops {c : Ctx} {vs : List VStop} {s : St} (hs : Shape c s) {m : Nat → Option Nat}
    (hm : Pairing c (fun i => (s.stops.getD i noStop).loc) vs m) (x : Nat) (hx : x < s.stops.length) :
    (before c vs s).stops.getD x noStop
      = if (x = c.first ∧ (stopsAfter c vs m s.stops x).inA = false) ∨
            (x + 1 = c.last ∧ (stopsAfter c vs m s.stops x).outA = false)
        then bare (stopsAfter c vs m s.stops x) else stopsAfter c vs m s.stops x := by
  have hm' := pairing_unique hm (pairing_spec c (fun i => (s.stops.getD i noStop).loc) vs)
  subst hm'
  have h := loop_inv (vs := vs) hs
  have hr := hs.range
  have e : (assignLoop c vs s).1.1.stops.getD x noStop
      = stopsAfter c vs (pairing c (fun i => (s.stops.getD i noStop).loc) vs) s.stops x := by
    by_cases hin : c.first ≤ x ∧ x < c.last
    · exact h.stopsDone x hx hin.1 (by omega)
    · rw [h.stopsTodo x (by omega)]
      have : pairing c (fun i => (s.stops.getD i noStop).loc) vs x = none := by
        unfold pairing
        rw [if_neg hin]
      simp only [stopsAfter, this, Option.bind_none]
  show (firstLast c _).getD x noStop = _
  rw [firstLast_getD c _ hr.1 (by rw [h.slen]; exact hr.2) x, e]

theorem updateRun_stops (c : Ctx) (vs : List VStop) (s : St) (hs : Shape c s) :
    (updateRun c vs s).1.stops = (before c vs s).stops := by
  rw [updateRun_before]
  by_cases h : notCancelled (before c vs s).stops ≤ 1
  · rw [if_pos h]
  · rw [if_neg h]
    have hb := before_shape (vs := vs) hs
    obtain ⟨r, hr, _⟩ := monotonize_spec c (before c vs s) hb.len hb.int16
    rw [hr]

theorem updateRun_cancelled (c : Ctx) (vs : List VStop) (s : St) :
    (updateRun c vs s).2 = true ↔ notCancelled (before c vs s).stops ≤ 1 := by
  rw [updateRun_before]
  by_cases h : notCancelled (before c vs s).stops ≤ 1
  · rw [if_pos h]; simp [h]
  · rw [if_neg h]; simp [h]

theorem updateRun_times {c : Ctx} {vs : List VStop} {s : St} (hs : Shape c s) :
    ((updateRun c vs s).2 = true → (updateRun c vs s).1.times = (before c vs s).times) ∧
    ((updateRun c vs s).2 = false → (updateRun c vs s).1.times.length = (before c vs s).times.length ∧
      ∀ e, e < (before c vs s).times.length →
      (∀ e', e ≤ e' → e' < (before c vs s).times.length →
        (updateRun c vs s).1.times.getD e 0 ≤ (before c vs s).times.getD e' 0) ∧
      ∃ e', e ≤ e' ∧ e' < (before c vs s).times.length ∧
        (updateRun c vs s).1.times.getD e 0 = (before c vs s).times.getD e' 0) := by
  rw [updateRun_before]
  by_cases h : notCancelled (before c vs s).stops ≤ 1
  · rw [if_pos h]
    exact ⟨fun _ => rfl, fun hh => by cases hh⟩
  · rw [if_neg h]
    have hb := before_shape (vs := vs) hs
    obtain ⟨r, hr, hlen, hsp⟩ := monotonize_spec c (before c vs s) hb.len hb.int16
    refine ⟨(fun hh => by cases hh), fun _ => ?_⟩
    simp only [hr]
    exact ⟨hlen, hsp⟩

theorem updateRun_shape {c : Ctx} {vs : List VStop} {s : St} (hs : Shape c s) : Shape c (updateRun c vs s).1 := by
  have hb := before_shape (vs := vs) hs
  have ht := updateRun_times (vs := vs) hs
  have hst := updateRun_stops c vs s hs
  cases h2 : (updateRun c vs s).2 with
  | true =>
    have := ht.1 h2
    exact ⟨by rw [this, hst]; exact hb.len, by rw [hst]; exact hb.range, by rw [this]; exact hb.int16⟩
  | false =>
    obtain ⟨hl, hsp⟩ := ht.2 h2
    refine ⟨by rw [hl, hst]; exact hb.len, by rw [hst]; exact hb.range, ?_⟩
    intro e
    by_cases he : e < (before c vs s).times.length
    · obtain ⟨_, e', _, _, h⟩ := hsp e he
      rw [h]
      exact hb.int16 e'
    · rw [List.getD_eq_getElem?_getD, List.getElem?_eq_none (by omega)]
      simp

theorem ext_getD {a b : List Int} (hl : a.length = b.length) (h : ∀ e, e < a.length → a.getD e 0 = b.getD e 0) :
    a = b := by
  apply List.ext_getElem hl
  intro e h1 h2
  have := h e h1
  rw [List.getD_eq_getElem?_getD, List.getD_eq_getElem?_getD, List.getElem?_eq_getElem h1,
    List.getElem?_eq_getElem h2] at this
  simpa using this

theorem ext_getD_stop {a b : List Stop} (hl : a.length = b.length)
    (h : ∀ e, e < a.length → a.getD e noStop = b.getD e noStop) : a = b := by
  apply List.ext_getElem hl
  intro e h1 h2
  have := h e h1
  rw [List.getD_eq_getElem?_getD, List.getD_eq_getElem?_getD, List.getElem?_eq_getElem h1,
    List.getElem?_eq_getElem h2] at this
  simpa using this

theorem stopsAfter_loc (c : Ctx) (vs : List VStop) (m : Nat → Option Nat) (old : List Stop) (x : Nat) :
    (stopsAfter c vs m old x).loc = (old.getD x noStop).loc := by
  unfold stopsAfter
  split <;> rfl

theorem before_loc {c : Ctx} {vs : List VStop} {s : St} (hs : Shape c s) (x : Nat) (hx : x < s.stops.length) :
    ((before c vs s).stops.getD x noStop).loc = (s.stops.getD x noStop).loc := by
  rw [before_stops hs (pairing_spec c (fun i => (s.stops.getD i noStop).loc) vs) x hx]
  split
  · exact stopsAfter_loc _ _ _ _ _
  · exact stopsAfter_loc _ _ _ _ _

theorem updateRun_len {c : Ctx} {vs : List VStop} {s : St} (hs : Shape c s) :
    (updateRun c vs s).1.stops.length = s.stops.length ∧ (updateRun c vs s).1.times.length = s.times.length := by
  have h := loop_inv (vs := vs) hs
  have e1 : (before c vs s).stops.length = s.stops.length := by
    show (firstLast c _).length = _
    rw [firstLast_len, h.slen]
  have e2 : (before c vs s).times.length = s.times.length := h.tlen
  refine ⟨by rw [updateRun_stops c vs s hs, e1], ?_⟩
  have ht := updateRun_times (vs := vs) hs
  cases h2 : (updateRun c vs s).2 with
  | true => rw [ht.1 h2, e2]
  | false => rw [(ht.2 h2).1, e2]

theorem getD_ge {l : List Stop} {x : Nat} (h : l.length ≤ x) : l.getD x noStop = noStop := by
  rw [List.getD_eq_getElem?_getD, List.getElem?_eq_none h]
  rfl

/-- A second application of the message changes nothing. -/
theorem updateRun_twice {c : Ctx} {vs : List VStop} {s : St} (hs : Shape c s) :
    updateRun c vs (updateRun c vs s).1 = updateRun c vs s := by
  have hs1 := updateRun_shape (vs := vs) hs
  obtain ⟨hsl, htl⟩ := updateRun_len (vs := vs) hs
  have hst := updateRun_stops c vs s hs
  -- same locations, hence the same pairing
  have hloc : (fun i => ((updateRun c vs s).1.stops.getD i noStop).loc) = fun i => (s.stops.getD i noStop).loc := by
    funext i
    by_cases hi : i < s.stops.length
    · rw [hst, before_loc hs i hi]
    · rw [getD_ge (by omega), getD_ge (by omega)]
  have hm := pairing_spec c (fun i => (s.stops.getD i noStop).loc) vs
  have hm1 : Pairing c (fun i => ((updateRun c vs s).1.stops.getD i noStop).loc) vs
      (pairing c (fun i => (s.stops.getD i noStop).loc) vs) := by rw [hloc]; exact hm
  -- stops
  have hstops : (before c vs (updateRun c vs s).1).stops = (before c vs s).stops := by
    have l1 := (loop_inv (vs := vs) hs1).slen
    have l0 := (loop_inv (vs := vs) hs).slen
    have e1 : (before c vs (updateRun c vs s).1).stops.length = s.stops.length := by
      show (firstLast c _).length = _
      rw [firstLast_len, l1, hsl]
    have e0 : (before c vs s).stops.length = s.stops.length := by
      show (firstLast c _).length = _
      rw [firstLast_len, l0]
    apply ext_getD_stop (by rw [e1, e0])
    intro x hx
    rw [e1] at hx
    have hb0 := before_stops hs hm x hx
    rw [before_stops hs1 hm1 x (by omega)]
    have hcase : stopsAfter c vs (pairing c (fun i => (s.stops.getD i noStop).loc) vs) (updateRun c vs s).1.stops x
        = stopsAfter c vs (pairing c (fun i => (s.stops.getD i noStop).loc) vs) s.stops x ∨
        stopsAfter c vs (pairing c (fun i => (s.stops.getD i noStop).loc) vs) (updateRun c vs s).1.stops x
        = (before c vs s).stops.getD x noStop := by
      have hl : ((updateRun c vs s).1.stops.getD x noStop).loc = (s.stops.getD x noStop).loc := congrFun hloc x
      unfold stopsAfter
      split
      · left; rw [hl]
      · right; rw [hst]
    rcases hcase with h | h
    · rw [h, hb0]
    · rw [h, hb0]
      generalize stopsAfter c vs (pairing c (fun i => (s.stops.getD i noStop).loc) vs) s.stops x = y
      by_cases hy : (x = c.first ∧ y.inA = false) ∨ (x + 1 = c.last ∧ y.outA = false)
      · rw [if_pos hy, if_pos]
        · rfl
        · rcases hy with h | h
          · exact Or.inl ⟨h.1, rfl⟩
          · exact Or.inr ⟨h.1, rfl⟩
      · rw [if_neg hy, if_neg hy]
  -- the decision
  have hcan : (updateRun c vs (updateRun c vs s).1).2 = (updateRun c vs s).2 := by
    have a := updateRun_cancelled c vs s
    have b := updateRun_cancelled c vs (updateRun c vs s).1
    rw [hstops, ← a] at b
    cases h1 : (updateRun c vs (updateRun c vs s).1).2 <;> cases h2 : (updateRun c vs s).2 <;> simp [h1, h2] at b ⊢
  have hA := before_assigned hs hm
  have hA1 := before_assigned hs1 hm1
  have hbl : (before c vs s).times.length = s.times.length := hA.1
  have hbl1 : (before c vs (updateRun c vs s).1).times.length = s.times.length := hA1.1.trans htl
  -- written events have the same value, the others the one they had
  have hval : ∀ e, (before c vs (updateRun c vs s).1).times.getD e 0 = (before c vs s).times.getD e 0 ∨
      (before c vs (updateRun c vs s).1).times.getD e 0 = (updateRun c vs s).1.times.getD e 0 := by
    intro e
    by_cases hex : ∃ (i : Nat) (arr : Bool), HasEvent c i arr ∧ slot i arr = e
    · obtain ⟨i, arr, he, hse⟩ := hex
      have e0 := hA.2.1 i arr he
      have e1 := hA1.2.1 i arr he
      rw [hse] at e0 e1
      cases ht : target c vs (pairing c (fun i => (s.stops.getD i noStop).loc) vs) i arr with
      | some t =>
        rw [ht] at e0 e1
        left
        rw [e0, e1]
      | none =>
        rw [ht] at e1
        right
        exact e1
    · right
      exact hA1.2.2 e (fun i arr he hse => hex ⟨i, arr, he, hse⟩)
  have htimes : (updateRun c vs (updateRun c vs s).1).1.times = (updateRun c vs s).1.times := by
    have ht := updateRun_times (vs := vs) hs
    have ht1 := updateRun_times (vs := vs) hs1
    cases h2 : (updateRun c vs s).2 with
    | true =>
      rw [ht1.1 (by rw [hcan, h2]), ht.1 h2]
      apply ext_getD (by rw [hbl, hbl1])
      intro e _
      rcases hval e with h | h
      · exact h
      · rw [h, ht.1 h2]
    | false =>
      obtain ⟨hl, hsp⟩ := ht.2 h2
      obtain ⟨hl1, hsp1⟩ := ht1.2 (by rw [hcan, h2])
      apply ext_getD (by rw [hl1, hl, hbl, hbl1])
      intro e he
      have he : e < s.times.length := by omega
      have mono : ∀ a b, a ≤ b → b < s.times.length →
          (updateRun c vs s).1.times.getD a 0 ≤ (updateRun c vs s).1.times.getD b 0 := by
        intro a b hab hb
        obtain ⟨_, e', h1, h2, h3⟩ := hsp b (by omega)
        rw [h3]
        exact (hsp a (by omega)).1 e' (by omega) h2
      obtain ⟨g1, e1, g2, g3, g4⟩ := hsp1 e (by omega)
      apply Int.le_antisymm
      · obtain ⟨_, e', h1, h2, h3⟩ := hsp e (by omega)
        have hle := g1 e' h1 (by omega)
        rcases hval e' with h | h
        · rw [h] at hle
          omega
        · rw [h] at hle
          have := (hsp e' (by omega)).1 e' (Nat.le_refl _) h2
          omega
      · rw [g4]
        rcases hval e1 with h | h
        · rw [h]
          exact (hsp e (by omega)).1 e1 g2 (by omega)
        · rw [h]
          exact mono e e1 g2 (by omega)
  have hfin : (updateRun c vs (updateRun c vs s).1).1 = (updateRun c vs s).1 := by
    have e2 : (updateRun c vs (updateRun c vs s).1).1.stops = (updateRun c vs s).1.stops := by
      rw [updateRun_stops c vs _ hs1, hstops, hst]
    calc (updateRun c vs (updateRun c vs s).1).1
        = ⟨(updateRun c vs (updateRun c vs s).1).1.times, (updateRun c vs (updateRun c vs s).1).1.stops⟩ := rfl
      _ = ⟨(updateRun c vs s).1.times, (updateRun c vs s).1.stops⟩ := by rw [htimes, e2]
      _ = (updateRun c vs s).1 := rfl
  calc updateRun c vs (updateRun c vs s).1
      = ((updateRun c vs (updateRun c vs s).1).1, (updateRun c vs (updateRun c vs s).1).2) := rfl
    _ = ((updateRun c vs s).1, (updateRun c vs s).2) := by rw [hfin, hcan]
    _ = updateRun c vs s := rfl

end Nigiri.Vdv
