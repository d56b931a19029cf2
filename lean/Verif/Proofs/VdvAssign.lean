import Verif.Proofs.VdvMono

/-! # The loop of `update_run` does what the specification says -/

namespace Nigiri.Vdv

open Nigiri.Rt Spec

theorem slot_evIdx (i : Nat) (arr : Bool) : evIdx i arr = slot i arr := rfl

theorem timeFits_iff (c : Ctx) (t : Option Int) (e : Nat) :
    timeFits c t e = true ↔ ∃ x, t = some x ∧ x - c.sched e ≤ 15 ∧ c.sched e - x ≤ 15 := by
  cases t with
  | none => simp [timeFits]
  | some x =>
    show decide ((x - c.sched e).natAbs ≤ 15) = true ↔ _
    rw [decide_eq_true_iff]
    simp only [Option.some.injEq, exists_eq_left']
    omega

theorem arrFits_iff (c : Ctx) (i : Nat) (v : VStop) (h1 : c.first ≤ i) (h2 : i < c.last) :
    arrFits c i v = true ↔ Describes c v i true := by
  simp only [arrFits, Bool.and_eq_true, bne_iff_ne, timeFits_iff, Describes, HasEvent, aimed, slot_evIdx,
    if_true]
  constructor
  · rintro ⟨a, b⟩
    exact ⟨⟨h1, h2, a⟩, b⟩
  · rintro ⟨⟨_, _, a⟩, b⟩
    exact ⟨a, b⟩

theorem depFits_iff (c : Ctx) (i : Nat) (v : VStop) (h1 : c.first ≤ i) (h2 : i < c.last) :
    depFits c i v = true ↔ Describes c v i false := by
  simp only [depFits, Bool.and_eq_true, bne_iff_ne, timeFits_iff, Describes, HasEvent, aimed, slot_evIdx]
  constructor
  · rintro ⟨a, b⟩
    exact ⟨⟨h1, h2, by simpa using a⟩, by simpa using b⟩
  · rintro ⟨⟨_, _, a⟩, b⟩
    exact ⟨by simpa using a, by simpa using b⟩

theorem stopFits_iff (c : Ctx) (loc i : Nat) (v : VStop) (h1 : c.first ≤ i) (h2 : i < c.last) :
    stopFits c loc i v = true ↔ Fits c loc i v := by
  simp only [stopFits, Bool.and_eq_true, Bool.or_eq_true, arrFits_iff c i v h1 h2, depFits_iff c i v h1 h2, Fits]
  cases v.loc with
  | none => simp
  | some l => simp

/-- Position of the reported stop chosen at stop `i` with the cursor at `cur`. -/
def choose (c : Ctx) (loc : Nat → Nat) (vs : List VStop) (i cur : Nat) : Option Nat :=
  ((vs.drop cur).findIdx? (stopFits c (loc i) i)).map (cur + ·)

/-- Cursor before the `k`-th stop of the range. -/
def cursor (c : Ctx) (loc : Nat → Nat) (vs : List VStop) : Nat → Nat
  | 0 => 0
  | k + 1 =>
    match choose c loc vs (c.first + k) (cursor c loc vs k) with
    | some j => j + 1
    | none => cursor c loc vs k

/-- The pairing computed by the loop. -/
def pairing (c : Ctx) (loc : Nat → Nat) (vs : List VStop) (i : Nat) : Option Nat :=
  if c.first ≤ i ∧ i < c.last then choose c loc vs i (cursor c loc vs (i - c.first)) else none

theorem scan_eq (c : Ctx) (loc i : Nat) : ∀ vs : List VStop,
    scan c loc i vs = match vs.findIdx? (stopFits c loc i) with
      | some j => (vs[j]?).map fun v => (v, vs.drop (j + 1))
      | none => none := by
  intro vs
  induction vs with
  | nil => rfl
  | cons v vs ih =>
    rw [scan, List.findIdx?_cons]
    by_cases h : stopFits c loc i v = true
    · simp [h]
    · rw [if_neg h, if_neg h, ih]
      cases vs.findIdx? (stopFits c loc i) with
      | none => rfl
      | some j => simp

theorem choose_spec {c : Ctx} {loc : Nat → Nat} {vs : List VStop} {i cur j : Nat}
    (h : choose c loc vs i cur = some j) :
    cur ≤ j ∧ ∃ v, vs[j]? = some v ∧ stopFits c (loc i) i v = true ∧
      ∀ j' v', cur ≤ j' → j' < j → vs[j']? = some v' → stopFits c (loc i) i v' = false := by
  unfold choose at h
  rw [Option.map_eq_some_iff] at h
  obtain ⟨a, ha, hj⟩ := h
  rw [List.findIdx?_eq_some_iff_getElem] at ha
  obtain ⟨hlen, hp, hmin⟩ := ha
  subst hj
  rw [List.length_drop] at hlen
  refine ⟨by omega, vs[cur + a], List.getElem?_eq_getElem (by omega), ?_, ?_⟩
  · rw [List.getElem_drop] at hp
    exact hp
  · intro j' v' h1 h2 hv
    have := hmin (j' - cur) (by omega)
    rw [List.getElem_drop] at this
    have e : cur + (j' - cur) = j' := by omega
    rw [List.getElem?_eq_some_iff] at hv
    obtain ⟨hl, hv⟩ := hv
    simp only [e, hv] at this
    simpa using this

theorem choose_none {c : Ctx} {loc : Nat → Nat} {vs : List VStop} {i cur : Nat}
    (h : choose c loc vs i cur = none) :
    ∀ (j' : Nat) (v' : VStop), cur ≤ j' → vs[j']? = some v' → stopFits c (loc i) i v' = false := by
  unfold choose at h
  rw [Option.map_eq_none_iff, List.findIdx?_eq_none_iff] at h
  intro j' v' h1 hv
  have e : (vs.drop cur)[j' - cur]? = some v' := by
    rw [List.getElem?_drop]
    rw [show cur + (j' - cur) = j' from by omega]
    exact hv
  exact h v' (List.mem_of_getElem? e)

theorem scan_choose (c : Ctx) (loc : Nat → Nat) (vs : List VStop) (i cur : Nat) :
    scan c (loc i) i (vs.drop cur) = match choose c loc vs i cur with
      | some j => (vs[j]?).map fun v => (v, vs.drop (j + 1))
      | none => none := by
  rw [scan_eq, choose]
  cases (vs.drop cur).findIdx? (stopFits c (loc i) i) with
  | none => rfl
  | some a =>
    simp only [Option.map_some, List.getElem?_drop, List.drop_drop]
    rw [show cur + (a + 1) = cur + a + 1 from by omega]

theorem cursor_mono (c : Ctx) (loc : Nat → Nat) (vs : List VStop) : ∀ (k k' : Nat), k ≤ k' →
    cursor c loc vs k ≤ cursor c loc vs k' := by
  intro k k' h
  induction k' with
  | zero => have : k = 0 := by omega
            subst this; exact Nat.le_refl _
  | succ k' ih =>
    by_cases hk : k = k' + 1
    · subst hk; exact Nat.le_refl _
    · have h1 := ih (by omega)
      rw [cursor]
      split
      · rename_i j hj
        have := (choose_spec hj).1
        omega
      · exact h1

theorem pairing_spec (c : Ctx) (loc : Nat → Nat) (vs : List VStop) : Pairing c loc vs (pairing c loc vs) := by
  have hm : ∀ (i j : Nat), pairing c loc vs i = some j →
      (c.first ≤ i ∧ i < c.last) ∧ choose c loc vs i (cursor c loc vs (i - c.first)) = some j := by
    intro i j h
    unfold pairing at h
    by_cases hr : c.first ≤ i ∧ i < c.last
    · rw [if_pos hr] at h
      exact ⟨hr, h⟩
    · rw [if_neg hr] at h
      cases h
  have hnext : ∀ (i j : Nat), pairing c loc vs i = some j → cursor c loc vs (i + 1 - c.first) = j + 1 := by
    intro i j h
    obtain ⟨hr, hc⟩ := hm i j h
    have e : i + 1 - c.first = (i - c.first) + 1 := by omega
    rw [e, cursor]
    rw [show c.first + (i - c.first) = i from by omega, hc]
  refine ⟨?_, ?_, ?_, ?_⟩
  · intro i j h
    obtain ⟨hr, hc⟩ := hm i j h
    obtain ⟨_, v, hv, _⟩ := choose_spec hc
    obtain ⟨hl, _⟩ := List.getElem?_eq_some_iff.mp hv
    exact ⟨hr.1, hr.2, hl⟩
  · intro i i' j j' hi h h'
    obtain ⟨hr, _⟩ := hm i j h
    obtain ⟨_, hc'⟩ := hm i' j' h'
    have h1 := hnext i j h
    have h2 := (choose_spec hc').1
    have h3 := cursor_mono c loc vs (i + 1 - c.first) (i' - c.first) (by omega)
    omega
  · intro i j v h hv
    obtain ⟨hr, hc⟩ := hm i j h
    obtain ⟨_, v', hv', hf, _⟩ := choose_spec hc
    rw [hv] at hv'
    cases hv'
    exact (stopFits_iff c (loc i) i v hr.1 hr.2).mp hf
  · intro i j v h1 h2 hv hf hbefore
    rw [← stopFits_iff c (loc i) i v h1 h2] at hf
    -- the cursor is not behind `j`
    have hcur : ∀ k, k ≤ i - c.first → cursor c loc vs k ≤ j := by
      intro k
      induction k with
      | zero => intro _; exact Nat.zero_le _
      | succ k ih =>
        intro hk
        rw [cursor]
        split
        · rename_i a ha
          have hp : pairing c loc vs (c.first + k) = some a := by
            unfold pairing
            rw [if_pos (by omega), show c.first + k - c.first = k from by omega]
            exact ha
          have := hbefore (c.first + k) a (by omega) hp
          omega
        · exact ih (by omega)
    have hc := hcur (i - c.first) (Nat.le_refl _)
    have hpair : pairing c loc vs i = choose c loc vs i (cursor c loc vs (i - c.first)) := by
      unfold pairing
      rw [if_pos ⟨h1, h2⟩]
    cases hch : choose c loc vs i (cursor c loc vs (i - c.first)) with
    | none =>
      have := choose_none hch j v hc hv
      rw [hf] at this
      cases this
    | some k =>
      refine ⟨k, by rw [hpair, hch], ?_⟩
      apply Classical.byContradiction
      intro hn
      have := (choose_spec hch).2
      obtain ⟨_, _, _, hmin⟩ := this
      have := hmin j v hc (by omega) hv
      rw [hf] at this
      cases this

/-- A pairing is determined by its conditions. -/
theorem pairing_unique {c : Ctx} {loc : Nat → Nat} {vs : List VStop} {m m' : Nat → Option Nat}
    (h : Pairing c loc vs m) (h' : Pairing c loc vs m') : m = m' := by
  have main : ∀ (k : Nat), ∀ i, i < k → m i = m' i := by
    intro k
    induction k with
    | zero => intro i hi; omega
    | succ k ih =>
      intro i hi
      by_cases hik : i < k
      · exact ih i hik
      have hik : i = k := by omega
      subst hik
      -- one direction, for both orders
      have side : ∀ {n n' : Nat → Option Nat}, Pairing c loc vs n → Pairing c loc vs n' →
          (∀ x, x < i → n x = n' x) → ∀ j, n i = some j → ∃ j', n' i = some j' ∧ j' ≤ j := by
        intro n n' hn hn' heq j hj
        obtain ⟨a, b, hl⟩ := hn.range i j hj
        have hv : vs[j]? = some vs[j] := List.getElem?_eq_getElem hl
        exact hn'.greedy i j vs[j] a b hv (hn.fits i j vs[j] hj hv)
          (fun i' k' hi' hk' => hn.order i' i k' j hi' (by rw [heq i' hi']; exact hk') hj)
      cases hm : m i with
      | none =>
        cases hm' : m' i with
        | none => rfl
        | some j =>
          obtain ⟨j', h1, _⟩ := side h' h (fun x hx => (ih x hx).symm) j hm'
          rw [hm] at h1
          cases h1
      | some j =>
        obtain ⟨j', h1, h2⟩ := side h h' ih j hm
        obtain ⟨j'', h3, h4⟩ := side h' h (fun x hx => (ih x hx).symm) j' h1
        rw [hm] at h3
        cases h3
        rw [h1]
        congr 1
        omega
  funext i
  exact main (i + 1) i (by omega)

/-! ## One stop -/

/-- Effect of a prediction on the entry `e`. -/
theorem updateEvent_times (c : Ctx) (e : Nat) (t : Option Int) (s : St × Option Int) (x : Nat)
    (he : e < s.1.times.length) :
    (updateEvent c e t s).1.times.getD x 0
      = (match t with | some t => if e = x then unixToDelta c.base t else s.1.times.getD x 0
                      | none => s.1.times.getD x 0) := by
  cases t with
  | none => rfl
  | some t =>
    simp only [updateEvent, setTime]
    rw [getD_set]
    by_cases h : e = x
    · rw [if_pos ⟨h, he⟩, if_pos h]
    · rw [if_neg (fun hh => h hh.1), if_neg h]

theorem updateEvent_len (c : Ctx) (e : Nat) (t : Option Int) (s : St × Option Int) :
    (updateEvent c e t s).1.times.length = s.1.times.length := by
  cases t <;> simp [updateEvent, setTime]

theorem updateEvent_stops (c : Ctx) (e : Nat) (t : Option Int) (s : St × Option Int) :
    (updateEvent c e t s).1.stops = s.1.stops := by
  cases t <;> rfl

theorem condUpd_times (c : Ctx) (cond : Bool) (e : Nat) (t : Option Int) (s : St × Option Int) (x : Nat)
    (he : cond = true → e < s.1.times.length) :
    (if cond then updateEvent c e t s else s).1.times.getD x 0
      = if cond = true ∧ e = x then (match t with | some t => unixToDelta c.base t | none => s.1.times.getD x 0)
        else s.1.times.getD x 0 := by
  cases cond with
  | false => simp
  | true =>
    simp only [if_true, true_and]
    rw [updateEvent_times _ _ _ _ _ (he rfl)]
    cases t <;> simp

theorem condUpd_len (c : Ctx) (cond : Bool) (e : Nat) (t : Option Int) (s : St × Option Int) :
    (if cond then updateEvent c e t s else s).1.times.length = s.1.times.length := by
  cases cond <;> simp [updateEvent_len]

theorem applyMatch_times (c : Ctx) (i : Nat) (v : VStop) (s : St × Option Int) (x : Nat)
    (ha : arrFits c i v = true → slot i true < s.1.times.length)
    (hd : depFits c i v = true → slot i false < s.1.times.length) (hne : arrFits c i v = true → slot i true ≠ slot i false) :
    (applyMatch c i v s).1.times.getD x 0
      = if depFits c i v = true ∧ slot i false = x then
          (match v.rtDep with | some t => unixToDelta c.base t | none => s.1.times.getD x 0)
        else if arrFits c i v = true ∧ slot i true = x then
          (match v.rtArr with | some t => unixToDelta c.base t | none => s.1.times.getD x 0)
        else s.1.times.getD x 0 := by
  have h1 : (applyMatch c i v s).1.times
      = (if depFits c i v then updateEvent c (slot i false) v.rtDep
          (if arrFits c i v then updateEvent c (slot i true) v.rtArr s else s)
          else (if arrFits c i v then updateEvent c (slot i true) v.rtArr s else s)).1.times := rfl
  rw [h1, condUpd_times _ _ _ _ _ _ (by intro hh; rw [condUpd_len]; exact hd hh), condUpd_times c _ (slot i true) _ _ _ ha]
  by_cases g1 : depFits c i v = true ∧ slot i false = x
  · rw [if_pos g1, if_pos g1]
    rw [if_neg (fun hh => hne hh.1 (hh.2.trans g1.2.symm))]
  · rw [if_neg g1, if_neg g1]

theorem applyMatch_delay (c : Ctx) (i : Nat) (v : VStop) (s : St × Option Int) :
    (applyMatch c i v s).2
      = match (if depFits c i v then v.rtDep else none), (if arrFits c i v then v.rtArr else none) with
        | some t, _ => some (wrap16 (t - c.sched (slot i false)))
        | none, some t => some (wrap16 (t - c.sched (slot i true)))
        | none, none => s.2 := by
  have h1 : (applyMatch c i v s).2
      = (if depFits c i v then updateEvent c (evIdx i false) v.rtDep
          (if arrFits c i v then updateEvent c (evIdx i true) v.rtArr s else s)
          else (if arrFits c i v then updateEvent c (evIdx i true) v.rtArr s else s)).2 := rfl
  rw [h1]
  cases depFits c i v <;> cases arrFits c i v <;> cases v.rtDep <;> cases v.rtArr <;> rfl

theorem applyMatch_stops (c : Ctx) (i : Nat) (v : VStop) (s : St × Option Int) :
    (applyMatch c i v s).1.stops
      = s.1.stops.set i (newStop (c.schedStop i) (s.1.stops.getD i noStop).loc v) := by
  have h2 : ∀ b1 b2 : Bool, (if b2 then updateEvent c (evIdx i false) v.rtDep
          (if b1 then updateEvent c (evIdx i true) v.rtArr s else s)
          else (if b1 then updateEvent c (evIdx i true) v.rtArr s else s)).1.stops = s.1.stops := by
    intro b1 b2
    cases b1 <;> cases b2 <;> simp [updateEvent_stops]
  have h1 : (applyMatch c i v s).1.stops
      = (if depFits c i v then updateEvent c (evIdx i false) v.rtDep
          (if arrFits c i v then updateEvent c (evIdx i true) v.rtArr s else s)
          else (if arrFits c i v then updateEvent c (evIdx i true) v.rtArr s else s)).1.stops.set i
        (newStop (c.schedStop i) ((if depFits c i v then updateEvent c (evIdx i false) v.rtDep
          (if arrFits c i v then updateEvent c (evIdx i true) v.rtArr s else s)
          else (if arrFits c i v then updateEvent c (evIdx i true) v.rtArr s else s)).1.stops.getD i noStop).loc v) := rfl
  rw [h1, h2]

theorem applyMatch_len (c : Ctx) (i : Nat) (v : VStop) (s : St × Option Int) :
    (applyMatch c i v s).1.times.length = s.1.times.length := by
  have h1 : (applyMatch c i v s).1.times
      = (if depFits c i v then updateEvent c (evIdx i false) v.rtDep
          (if arrFits c i v then updateEvent c (evIdx i true) v.rtArr s else s)
          else (if arrFits c i v then updateEvent c (evIdx i true) v.rtArr s else s)).1.times := rfl
  rw [h1]
  cases depFits c i v <;> cases arrFits c i v <;> simp [updateEvent_len]

theorem propagateStop_stops (c : Ctx) (i : Nat) (a b : Bool) (s : St × Option Int) :
    (propagateStop c i a b s).1.stops = s.1.stops := by
  unfold propagateStop
  split
  · simp only
    split <;> split <;> rfl
  · rfl

theorem propagateStop_delay (c : Ctx) (i : Nat) (a b : Bool) (s : St × Option Int) :
    (propagateStop c i a b s).2 = s.2 := by
  unfold propagateStop
  split
  · rename_i d hd; simp [hd]
  · rfl

theorem propagateStop_len (c : Ctx) (i : Nat) (a b : Bool) (s : St × Option Int) :
    (propagateStop c i a b s).1.times.length = s.1.times.length := by
  unfold propagateStop
  split
  · simp only
    split <;> split <;> simp [propagate, setTime]
  · rfl

theorem condSet_times (c : Ctx) (st : St) (cond : Bool) (e : Nat) (t : Int) (x : Nat)
    (h : cond = true → e < st.times.length) :
    (if cond then setTime c st e t else st).times.getD x 0
      = if cond = true ∧ e = x then unixToDelta c.base t else st.times.getD x 0 := by
  cases cond with
  | false => simp
  | true =>
    simp only [if_true, setTime, true_and]
    rw [getD_set]
    by_cases hx : e = x
    · rw [if_pos ⟨hx, h rfl⟩, if_pos hx]
    · rw [if_neg (fun hh => hx hh.1), if_neg hx]

theorem condSet_len (c : Ctx) (st : St) (cond : Bool) (e : Nat) (t : Int) :
    (if cond then setTime c st e t else st).times.length = st.times.length := by
  cases cond <;> simp [setTime]

theorem propagateStop_times (c : Ctx) (i : Nat) (a b : Bool) (s : St × Option Int) (x : Nat)
    (ha : i ≠ 0 → slot i true < s.1.times.length)
    (hd : i + 1 ≠ c.last → slot i false < s.1.times.length) :
    (propagateStop c i a b s).1.times.getD x 0
      = match s.2 with
        | none => s.1.times.getD x 0
        | some d =>
          if (i + 1 ≠ c.last ∧ b = false) ∧ slot i false = x then unixToDelta c.base (c.sched x + d)
          else if (i ≠ 0 ∧ a = false) ∧ slot i true = x then unixToDelta c.base (c.sched x + d)
          else s.1.times.getD x 0 := by
  unfold propagateStop
  cases hs : s.2 with
  | none => rfl
  | some d =>
    simp only [propagate]
    rw [condSet_times _ _ _ _ _ _ (by
      intro hh
      rw [condSet_len]
      exact hd (by simpa using (Bool.and_eq_true_iff.mp hh).1)), condSet_times _ _ _ _ _ _ (by
      intro hh
      exact ha (by simpa using (Bool.and_eq_true_iff.mp hh).1))]
    simp only [slot_evIdx, Bool.and_eq_true, bne_iff_ne, Bool.not_eq_true']
    by_cases h1 : (i + 1 ≠ c.last ∧ b = false) ∧ slot i false = x
    · rw [if_pos h1, if_pos h1, h1.2]
    · rw [if_neg h1, if_neg h1]
      by_cases h2 : (i ≠ 0 ∧ a = false) ∧ slot i true = x
      · rw [if_pos h2, if_pos h2, h2.2]
      · rw [if_neg h2, if_neg h2]

/-! ## The loop -/

theorem describing_some {c : Ctx} {vs : List VStop} {m : Nat → Option Nat} {i j : Nat} {v : VStop} (arr : Bool)
    (hm : m i = some j) (hv : vs[j]? = some v) :
    describing c vs m i arr = if Describes c v i arr then some v else none := by
  simp [describing, hm, hv]

theorem describing_none {c : Ctx} {vs : List VStop} {m : Nat → Option Nat} {i : Nat} (arr : Bool)
    (hm : m i = none) : describing c vs m i arr = none := by
  simp [describing, hm]

/-- The stop values after a message: flags of the paired stop, otherwise unchanged. -/
def stopsAfter (c : Ctx) (vs : List VStop) (m : Nat → Option Nat) (old : List Stop) (i : Nat) : Stop :=
  match (m i).bind (vs[·]?) with
  | some v => newStop (c.schedStop i) (old.getD i noStop).loc v
  | none => old.getD i noStop

/-- The loop invariant after `k` stops. -/
structure LoopInv (c : Ctx) (vs : List VStop) (m : Nat → Option Nat) (s0 : St) (k : Nat)
    (s : (St × Option Int) × List VStop) : Prop where
  delay : s.1.2 = lastDelay c vs m k
  rest : s.2 = vs.drop (cursor c (fun i => (s0.stops.getD i noStop).loc) vs k)
  tlen : s.1.1.times.length = s0.times.length
  slen : s.1.1.stops.length = s0.stops.length
  done : ∀ (i : Nat) (arr : Bool), HasEvent c i arr → i < c.first + k →
    s.1.1.times.getD (slot i arr) 0 =
      match target c vs m i arr with
      | some t => unixToDelta c.base t
      | none => s0.times.getD (slot i arr) 0
  todo : ∀ e, (∀ (i : Nat) (arr : Bool), HasEvent c i arr → i < c.first + k → slot i arr ≠ e) →
    s.1.1.times.getD e 0 = s0.times.getD e 0
  stopsDone : ∀ i, i < s0.stops.length → c.first ≤ i → i < c.first + k →
    s.1.1.stops.getD i noStop = stopsAfter c vs m s0.stops i
  stopsTodo : ∀ i, ¬ (c.first ≤ i ∧ i < c.first + k) → s.1.1.stops.getD i noStop = s0.stops.getD i noStop

theorem getD_set_stop (l : List Stop) (e e' : Nat) (x : Stop) :
    (l.set e x).getD e' noStop = if e = e' ∧ e < l.length then x else l.getD e' noStop := by
  simp only [List.getD_eq_getElem?_getD, List.getElem?_set]
  by_cases h : e = e'
  · subst h
    by_cases h2 : e < l.length
    · simp [h2]
    · simp [h2]
  · simp [h]

theorem slot_inj {c : Ctx} {i i' : Nat} {a a' : Bool} (h : HasEvent c i a) (h' : HasEvent c i' a')
    (he : slot i a = slot i' a') : i = i' ∧ a = a' := by
  obtain ⟨_, _, h⟩ := h
  obtain ⟨_, _, h'⟩ := h'
  cases a <;> cases a' <;> simp [slot] at * <;> omega

/-- Entries of one stop written, everything else kept: the general shape of a step. -/
theorem LoopInv.step_of {c : Ctx} {vs : List VStop} {m : Nat → Option Nat} {s0 : St} {k : Nat}
    {s s' : (St × Option Int) × List VStop} (h : LoopInv c vs m s0 k s)
    (hdelay : s'.1.2 = lastDelay c vs m (k + 1))
    (hrest : s'.2 = vs.drop (cursor c (fun i => (s0.stops.getD i noStop).loc) vs (k + 1)))
    (htlen : s'.1.1.times.length = s.1.1.times.length) (hslen : s'.1.1.stops.length = s.1.1.stops.length)
    (hnew : ∀ arr, HasEvent c (c.first + k) arr → s'.1.1.times.getD (slot (c.first + k) arr) 0 =
      match target c vs m (c.first + k) arr with
      | some t => unixToDelta c.base t
      | none => s.1.1.times.getD (slot (c.first + k) arr) 0)
    (hkeep : ∀ e, (∀ arr, HasEvent c (c.first + k) arr → slot (c.first + k) arr ≠ e) →
      s'.1.1.times.getD e 0 = s.1.1.times.getD e 0)
    (hst : c.first + k < s0.stops.length → s'.1.1.stops.getD (c.first + k) noStop = stopsAfter c vs m s0.stops (c.first + k))
    (hsk : ∀ i, i ≠ c.first + k → s'.1.1.stops.getD i noStop = s.1.1.stops.getD i noStop) :
    LoopInv c vs m s0 (k + 1) s' := by
  refine ⟨hdelay, hrest, htlen.trans h.tlen, hslen.trans h.slen, ?_, ?_, ?_, ?_⟩
  · intro i arr he hi
    by_cases hik : i = c.first + k
    · subst hik
      rw [hnew arr he]
      cases target c vs m (c.first + k) arr with
      | some t => rfl
      | none =>
        simp only
        apply h.todo
        intro i' arr' he' hi' heq
        have := slot_inj he' he heq
        omega
    · rw [hkeep]
      · exact h.done i arr he (by omega)
      · intro arr' he' heq
        exact hik (slot_inj he' he heq).1.symm
  · intro e hne
    rw [hkeep e (fun arr he => hne _ arr he (by omega))]
    exact h.todo e (fun i arr he hi => hne i arr he (by omega))
  · intro i h1 h2 h3
    by_cases hik : i = c.first + k
    · subst hik; exact hst h1
    · rw [hsk i hik]
      exact h.stopsDone i h1 h2 (by omega)
  · intro i hi
    rw [hsk i (by omega)]
    exact h.stopsTodo i (by omega)

theorem target_desc {c : Ctx} {vs : List VStop} {m : Nat → Option Nat} {i : Nat} {arr : Bool} {v : VStop}
    (h : describing c vs m i arr = some v) : target c vs m i arr = expected v arr := by
  simp [target, h]

theorem target_prop {c : Ctx} {vs : List VStop} {m : Nat → Option Nat} {i : Nat} {arr : Bool}
    (h : describing c vs m i arr = none) :
    target c vs m i arr = (lastDelay c vs m (i + 1 - c.first)).map (c.sched (slot i arr) + ·) := by
  simp [target, h]

theorem loop_step {c : Ctx} {vs : List VStop} {s0 : St} {k : Nat} {s : (St × Option Int) × List VStop}
    (hs : Shape c s0)
    (h : LoopInv c vs (pairing c (fun i => (s0.stops.getD i noStop).loc) vs) s0 k s) (hk : c.first + k < c.last) :
    LoopInv c vs (pairing c (fun i => (s0.stops.getD i noStop).loc) vs) s0 (k + 1) (stepStop c s (c.first + k)) := by
  have hrange := hs.range
  have htl := hs.len
  have htl' := h.tlen
  have hsl' := h.slen
  have hloc : (s.1.1.stops.getD (c.first + k) noStop).loc = (fun i => (s0.stops.getD i noStop).loc) (c.first + k) := by
    rw [h.stopsTodo (c.first + k) (by omega)]
  have hpair : pairing c (fun i => (s0.stops.getD i noStop).loc) vs (c.first + k)
      = choose c (fun i => (s0.stops.getD i noStop).loc) vs (c.first + k)
          (cursor c (fun i => (s0.stops.getD i noStop).loc) vs k) := by
    unfold pairing
    rw [if_pos (by omega), show c.first + k - c.first = k from by omega]
  have hk1 : c.first + k + 1 - c.first = k + 1 := by omega
  have hia : c.first + k ≠ 0 → slot (c.first + k) true < s.1.1.times.length := by
    intro hne
    simp only [slot, if_true]
    omega
  have hid : c.first + k + 1 ≠ c.last → slot (c.first + k) false < s.1.1.times.length := by
    intro hne
    show 2 * (c.first + k) < _
    omega
  have hslot : ∀ {n : Nat}, n ≠ 0 → slot n true ≠ slot n false := by
    intro n hn
    simp only [slot, if_true]
    show 2 * n - 1 ≠ 2 * n
    omega
  unfold stepStop
  rw [hloc, h.rest, scan_choose c (fun i => (s0.stops.getD i noStop).loc) vs (c.first + k)]
  cases hch : choose c (fun i => (s0.stops.getD i noStop).loc) vs (c.first + k)
      (cursor c (fun i => (s0.stops.getD i noStop).loc) vs k) with
  | none =>
    rw [hch] at hpair
    simp only
    have hdesc := fun arr => describing_none (c := c) (vs := vs) arr hpair
    have hdel : lastDelay c vs (pairing c (fun i => (s0.stops.getD i noStop).loc) vs) (k + 1)
        = lastDelay c vs (pairing c (fun i => (s0.stops.getD i noStop).loc) vs) k := by
      simp only [lastDelay, delayOf, predicted, hdesc, Option.bind_none, Option.map_none]
    apply h.step_of
    · rw [propagateStop_delay, hdel]
      exact h.delay
    · rw [cursor, hch]
    · exact propagateStop_len _ _ _ _ _
    · rw [propagateStop_stops]
    · intro arr he
      rw [propagateStop_times _ _ _ _ _ _ hia hid, h.delay, target_prop (hdesc arr), hk1, hdel]
      cases lastDelay c vs (pairing c (fun i => (s0.stops.getD i noStop).loc) vs) k with
      | none => rfl
      | some d =>
        obtain ⟨_, _, he⟩ := he
        cases arr with
        | false =>
          have he : c.first + k + 1 ≠ c.last := by simpa using he
          simp [he]
        | true =>
          have he : c.first + k ≠ 0 := by simpa using he
          have := hslot he
          simp only [Option.map_some]
          rw [if_neg (fun hh => this hh.2.symm), if_pos ⟨⟨he, trivial⟩, trivial⟩]
    · intro e hne
      rw [propagateStop_times _ _ _ _ _ _ hia hid]
      cases s.1.2 with
      | none => rfl
      | some d =>
        simp only
        rw [if_neg, if_neg]
        · rintro ⟨⟨h1, _⟩, h2⟩
          exact hne true ⟨by omega, hk, by simpa using h1⟩ h2
        · rintro ⟨⟨h1, _⟩, h2⟩
          exact hne false ⟨by omega, hk, by simpa using h1⟩ h2
    · intro hl
      rw [propagateStop_stops]
      simp only [stopsAfter, hpair, Option.bind_none]
      exact h.stopsTodo _ (by omega)
    · intro i _
      rw [propagateStop_stops]
  | some j =>
    rw [hch] at hpair
    obtain ⟨hcj, v, hv, hf, hmin⟩ := choose_spec hch
    simp only [hv, Option.map_some]
    have hdesc := fun arr => describing_some (c := c) (vs := vs) arr hpair hv
    have hAr := arrFits_iff c (c.first + k) v (by omega) hk
    have hDp := depFits_iff c (c.first + k) v (by omega) hk
    -- the delay after the stop
    have hdel : (applyMatch c (c.first + k) v s.1).2
        = lastDelay c vs (pairing c (fun i => (s0.stops.getD i noStop).loc) vs) (k + 1) := by
      rw [applyMatch_delay, h.delay]
      simp only [lastDelay, delayOf, predicted, hdesc]
      by_cases g1 : depFits c (c.first + k) v = true
      · rw [if_pos g1, if_pos (hDp.mp g1)]
        by_cases g2 : arrFits c (c.first + k) v = true
        · rw [if_pos g2, if_pos (hAr.mp g2)]
          simp only [Option.bind_some, expected, if_true, if_false, Bool.false_eq_true]
          cases v.rtDep <;> cases v.rtArr <;> rfl
        · rw [if_neg g2, if_neg (fun hh => g2 (hAr.mpr hh))]
          simp only [Option.bind_some, expected, if_true, if_false, Bool.false_eq_true]
          cases v.rtDep <;> rfl
      · rw [if_neg g1, if_neg (fun hh => g1 (hDp.mpr hh))]
        by_cases g2 : arrFits c (c.first + k) v = true
        · rw [if_pos g2, if_pos (hAr.mp g2)]
          simp only [Option.bind_some, expected, if_true]
          cases v.rtArr <;> rfl
        · rw [if_neg g2, if_neg (fun hh => g2 (hAr.mpr hh))]
          rfl
    have hne0 : arrFits c (c.first + k) v = true → c.first + k ≠ 0 := by
      intro hh
      have := (hAr.mp hh).1.2.2
      simpa using this
    have hne1 : depFits c (c.first + k) v = true → c.first + k + 1 ≠ c.last := by
      intro hh
      have := (hDp.mp hh).1.2.2
      simpa using this
    have hA := fun x => applyMatch_times c (c.first + k) v s.1 x (fun hh => hia (hne0 hh)) (fun hh => hid (hne1 hh))
      (fun hh => hslot (hne0 hh))
    have hP := fun x => propagateStop_times c (c.first + k) (arrFits c (c.first + k) v) (depFits c (c.first + k) v)
      (applyMatch c (c.first + k) v s.1) x (by rw [applyMatch_len]; exact hia) (by rw [applyMatch_len]; exact hid)
    apply h.step_of
    · rw [propagateStop_delay]
      exact hdel
    · rw [cursor, hch]
    · rw [propagateStop_len, applyMatch_len]
    · rw [propagateStop_stops, applyMatch_stops, List.length_set]
    · intro arr he
      rw [hP, hdel, hA]
      obtain ⟨_, _, he⟩ := he
      cases arr with
      | false =>
        have he : c.first + k + 1 ≠ c.last := by simpa using he
        by_cases g1 : depFits c (c.first + k) v = true
        · rw [target_desc (by rw [hdesc, if_pos (hDp.mp g1)]), if_pos ⟨g1, rfl⟩]
          have e1 : ¬ ((c.first + k + 1 ≠ c.last ∧ depFits c (c.first + k) v = false) ∧
              slot (c.first + k) false = slot (c.first + k) false) := by
            rw [g1]; simp
          have e2 : ¬ ((c.first + k ≠ 0 ∧ arrFits c (c.first + k) v = false) ∧
              slot (c.first + k) true = slot (c.first + k) false) := by
            rintro ⟨⟨h1, _⟩, h2⟩
            exact hslot h1 h2
          cases lastDelay c vs (pairing c (fun i => (s0.stops.getD i noStop).loc) vs) (k + 1) with
          | none => rfl
          | some d =>
            simp only
            rw [if_neg (by simp [g1]), if_neg e2]
            rfl
        · rw [target_prop (by rw [hdesc, if_neg (fun hh => g1 (hDp.mpr hh))]), hk1]
          have e0 : ¬ (arrFits c (c.first + k) v = true ∧ slot (c.first + k) true = slot (c.first + k) false) :=
            fun hh => hslot (hne0 hh.1) hh.2
          rw [if_neg (fun hh => g1 hh.1), if_neg e0]
          cases lastDelay c vs (pairing c (fun i => (s0.stops.getD i noStop).loc) vs) (k + 1) with
          | none => rfl
          | some d =>
            simp only [Option.map_some]
            rw [if_pos ⟨⟨he, by simpa using g1⟩, trivial⟩]
      | true =>
        have he : c.first + k ≠ 0 := by simpa using he
        have hsne := hslot he
        have e0 : ¬ (depFits c (c.first + k) v = true ∧ slot (c.first + k) false = slot (c.first + k) true) :=
          fun hh => hsne hh.2.symm
        have e1 : ¬ ((c.first + k + 1 ≠ c.last ∧ depFits c (c.first + k) v = false) ∧
            slot (c.first + k) false = slot (c.first + k) true) :=
          fun hh => hsne hh.2.symm
        rw [if_neg e0]
        by_cases g1 : arrFits c (c.first + k) v = true
        · rw [target_desc (by rw [hdesc, if_pos (hAr.mp g1)]), if_pos ⟨g1, rfl⟩]
          have e2 : ¬ ((c.first + k ≠ 0 ∧ arrFits c (c.first + k) v = false) ∧
              slot (c.first + k) true = slot (c.first + k) true) := by
            rw [g1]; simp
          cases lastDelay c vs (pairing c (fun i => (s0.stops.getD i noStop).loc) vs) (k + 1) with
          | none => rfl
          | some d =>
            simp only
            rw [if_neg e1, if_neg (by simp [g1])]
            rfl
        · rw [target_prop (by rw [hdesc, if_neg (fun hh => g1 (hAr.mpr hh))]), hk1, if_neg (fun hh => g1 hh.1)]
          cases lastDelay c vs (pairing c (fun i => (s0.stops.getD i noStop).loc) vs) (k + 1) with
          | none => rfl
          | some d =>
            simp only [Option.map_some]
            rw [if_neg e1, if_pos ⟨⟨he, by simpa using g1⟩, trivial⟩]
    · intro e hne
      have n0 : c.first + k + 1 ≠ c.last → slot (c.first + k) false ≠ e := fun hh =>
        hne false ⟨by omega, hk, by simpa using hh⟩
      have n1 : c.first + k ≠ 0 → slot (c.first + k) true ≠ e := fun hh =>
        hne true ⟨by omega, hk, by simpa using hh⟩
      rw [hP, hA, if_neg (fun hh => n0 (hne1 hh.1) hh.2), if_neg (fun hh => n1 (hne0 hh.1) hh.2)]
      cases (applyMatch c (c.first + k) v s.1).2 with
      | none => rfl
      | some d =>
        simp only
        rw [if_neg (fun hh => n0 hh.1.1 hh.2), if_neg (fun hh => n1 hh.1.1 hh.2)]
    · intro hl
      rw [propagateStop_stops, applyMatch_stops, getD_set_stop, if_pos ⟨rfl, by omega⟩]
      simp only [stopsAfter, hpair, Option.bind_some, hv]
      rw [hloc]
    · intro i hi
      rw [propagateStop_stops, applyMatch_stops, getD_set_stop, if_neg (fun hh => hi hh.1.symm)]

theorem loop_inv {c : Ctx} {vs : List VStop} {s0 : St} (hs : Shape c s0) :
    LoopInv c vs (pairing c (fun i => (s0.stops.getD i noStop).loc) vs) s0 (c.last - c.first) (assignLoop c vs s0) := by
  have main : ∀ k, k ≤ c.last - c.first →
      LoopInv c vs (pairing c (fun i => (s0.stops.getD i noStop).loc) vs) s0 k
        (((List.range k).map (c.first + ·)).foldl (stepStop c) ((s0, none), vs)) := by
    intro k
    induction k with
    | zero =>
      intro _
      refine ⟨rfl, by simp [cursor], rfl, rfl, ?_, ?_, ?_, ?_⟩
      · intro i arr he hi
        have := he.1
        omega
      · intro e _; rfl
      · intro i _ h1 h2; omega
      · intro i _; rfl
    | succ k ih =>
      intro hk
      rw [List.range_succ, List.map_append, List.foldl_append]
      exact loop_step hs (ih (by omega)) (by omega)
  exact main _ (Nat.le_refl _)

end Nigiri.Vdv
