import Verif.Model.RtUpdate

/-!
# C30: real-time stop times never run backwards
-/

namespace Nigiri.Rt

/-- The published event times of a real-time transport, in the order of travel
(departure 0, arrival 1, departure 1, ...), never decrease. -/
def NonDecreasing (ts : List Int) : Prop :=
  ∀ (i j : Nat) (a b : Int), i ≤ j → ts[i]? = some a → ts[j]? = some b → a ≤ b

theorem monoPass_length (xs : List Int) : ∀ p, (monoPass p xs).length = xs.length := by
  induction xs with
  | nil => intro p; rfl
  | cons x xs ih => intro p; simp [monoPass, ih]

theorem monoPass_ge (xs : List Int) : ∀ p y, y ∈ monoPass p xs → p ≤ y := by
  induction xs with
  | nil => intro p y h; cases h
  | cons x xs ih =>
    intro p y h
    simp only [monoPass, List.mem_cons] at h
    rcases h with h | h
    · rw [h]; split <;> omega
    · have := ih _ _ h
      split at this <;> omega

theorem monoPass_nd (xs : List Int) : ∀ p, NonDecreasing (monoPass p xs) := by
  induction xs with
  | nil => intro p i j a b _ h; simp [monoPass] at h
  | cons x xs ih =>
    intro p i j a b hij ha hb
    simp only [monoPass] at ha hb
    cases i with
    | zero =>
      simp only [List.getElem?_cons_zero, Option.some.injEq] at ha
      cases j with
      | zero => simp only [List.getElem?_cons_zero, Option.some.injEq] at hb; omega
      | succ j =>
        simp only [List.getElem?_cons_succ] at hb
        have := monoPass_ge _ _ _ (List.mem_of_getElem? hb)
        omega
    | succ i =>
      cases j with
      | zero => omega
      | succ j =>
        simp only [List.getElem?_cons_succ] at ha hb
        exact ih _ i j a b (by omega) ha hb

/-- The pass raises each time to the latest earlier one and does nothing else. -/
theorem monoPass_eq (xs : List Int) : ∀ (p : Int) (i : Nat) (y : Int), (monoPass p xs)[i]? = some y →
    (y = p ∨ ∃ j : Nat, j ≤ i ∧ xs[j]? = some y) ∧ ∀ (j : Nat) (x : Int), j ≤ i → xs[j]? = some x → x ≤ y := by
  induction xs with
  | nil => intro p i y h; simp [monoPass] at h
  | cons x xs ih =>
    intro p i y h
    simp only [monoPass] at h
    cases i with
    | zero =>
      simp only [List.getElem?_cons_zero, Option.some.injEq] at h
      constructor
      · by_cases hx : x < p
        · left; rw [if_pos hx] at h; exact h.symm
        · right; rw [if_neg hx] at h; exact ⟨0, Nat.le_refl _, by simp [h]⟩
      · intro j z hj hz
        have : j = 0 := by omega
        subst this
        simp only [List.getElem?_cons_zero, Option.some.injEq] at hz
        split at h <;> omega
    | succ i =>
      simp only [List.getElem?_cons_succ] at h
      obtain ⟨h1, h2⟩ := ih _ i y h
      have hge := monoPass_ge _ _ _ (List.mem_of_getElem? h)
      constructor
      · rcases h1 with h1 | ⟨j, hj, h1⟩
        · by_cases hx : x < p
          · left; rw [if_pos hx] at h1; exact h1
          · right; rw [if_neg hx] at h1; exact ⟨0, by omega, by simp [h1]⟩
        · right; exact ⟨j + 1, by omega, by simp [h1]⟩
      · intro j z hj hz
        cases j with
        | zero =>
          simp only [List.getElem?_cons_zero, Option.some.injEq] at hz
          split at hge <;> omega
        | succ j => exact h2 j z (by omega) (by simpa using hz)

/-- **C30.** After a trip update - any run, any previous state, any list of stop time updates -
the stop times never run backwards. -/
theorem C30_trip_update (c : Ctx) (us : List StopUpd) (st : St) :
    NonDecreasing (updateRun c us st).1.times := monoPass_nd _ _

/-! ### Vehicle positions -/

theorem updateDelay_times (c : Ctx) (st : St) (e : Nat) (d : Int) (hs : c.scheduled = true) :
    (updateDelay c st e d none).1.times = st.times.set e (unixToDelta c.base (c.static e + d)) := by
  simp [updateDelay, updateTime, hs]

/-- The time the vehicle position assigns to event `e`. -/
private def U (c : Ctx) (d : Int) (e : Nat) : Int := unixToDelta c.base (c.static e + d)

theorem clampDelta_mono {a b : Int} (h : a ≤ b) : clampDelta a ≤ clampDelta b := by
  unfold clampDelta stdClamp deltaMin deltaMax
  split <;> split <;> (try split) <;> (try split) <;> omega

theorem vpAfter_spec (c : Ctx) (d : Int) (hs : c.scheduled = true) : ∀ n stop st,
    (vpAfter c d stop n st).times.length = st.times.length ∧
    ∀ e, e < st.times.length → (vpAfter c d stop n st).times[e]? =
      if 2 * stop ≤ e ∧ e < 2 * stop + 2 * n then some (U c d e) else st.times[e]? := by
  intro n
  induction n with
  | zero =>
    intro stop st
    refine ⟨rfl, fun e _ => ?_⟩
    rw [if_neg (by omega)]; rfl
  | succ n ih =>
    intro stop st
    simp only [vpAfter]
    obtain ⟨h1, h2⟩ := ih (stop + 1)
      (updateDelay c (updateDelay c st (evIdx stop false) d none).1 (evIdx (stop + 1) true) d none).1
    have e1 : evIdx stop false = 2 * stop := rfl
    have e2 : evIdx (stop + 1) true = 2 * stop + 1 := by simp [evIdx]; omega
    rw [updateDelay_times _ _ _ _ hs, updateDelay_times _ _ _ _ hs] at h1 h2
    simp only [List.length_set] at h1 h2
    refine ⟨h1, fun e he => ?_⟩
    rw [h2 e he, e1, e2]
    by_cases hc : 2 * (stop + 1) ≤ e ∧ e < 2 * (stop + 1) + 2 * n
    · rw [if_pos hc, if_pos (by omega)]
    · rw [if_neg hc]
      by_cases hd : e = 2 * stop + 1
      · subst hd
        rw [List.getElem?_set_self (by simpa using he), if_pos (by omega)]; rfl
      · rw [List.getElem?_set_ne (by omega)]
        by_cases hd : e = 2 * stop
        · subst hd
          rw [List.getElem?_set_self (by simpa using he), if_pos (by omega)]; rfl
        · rw [List.getElem?_set_ne (by omega), if_neg (by omega)]

theorem nd_split {ts old : List Int} {V : Nat → Int} (k : Nat)
    (hV : ∀ i j, i ≤ j → j < ts.length → V i ≤ V j)
    (hold : NonDecreasing old)
    (h : ∀ e, e < ts.length → ts[e]? = if k ≤ e then some (V e) else old[e]?)
    (hk : ∀ x, 0 < k → old[k - 1]? = some x → x ≤ V k) : NonDecreasing ts := by
  intro i j a b hij ha hb
  have hj : j < ts.length := by
    rcases Nat.lt_or_ge j ts.length with h | h
    · exact h
    · rw [List.getElem?_eq_none h] at hb; cases hb
  rw [h i (by omega)] at ha
  rw [h j hj] at hb
  by_cases hki : k ≤ i
  · rw [if_pos hki, Option.some.injEq] at ha
    rw [if_pos (by omega), Option.some.injEq] at hb
    have := hV i j hij hj
    omega
  · rw [if_neg hki] at ha
    by_cases hkj : k ≤ j
    · rw [if_pos hkj, Option.some.injEq] at hb
      have hkl : k - 1 < old.length := by
        rcases Nat.lt_or_ge (k - 1) old.length with h' | h'
        · exact h'
        · have h3 := h (k - 1) (by omega)
          rw [if_neg (by omega), List.getElem?_eq_none h', List.getElem?_eq_getElem (by omega)] at h3
          cases h3
      have h1 := hk _ (by omega) (List.getElem?_eq_getElem hkl)
      have h2 := hold i (k - 1) a _ (by omega) ha (List.getElem?_eq_getElem hkl)
      have h3 := hV k j hkj hj
      omega
    · rw [if_neg hkj] at hb
      exact hold i j a b hij ha hb

theorem vpBefore_nd (c : Ctx) (d : Int) (hs : c.scheduled = true) (old : List Int) (L : Nat)
    (hl : old.length = L) (hold : NonDecreasing old)
    (hV : ∀ i j, i ≤ j → j < L → U c d i ≤ U c d j) :
    ∀ curr st, st.times.length = L → (curr ≠ 0 → 2 * curr - 1 < L) →
      (∀ e, e < L → st.times[e]? = if 2 * curr - 1 ≤ e then some (U c d e) else old[e]?) →
      NonDecreasing (vpBefore c d curr st).times := by
  intro curr
  induction curr with
  | zero =>
    intro st hlen _ h
    simp only [vpBefore]
    refine nd_split (V := U c d) 0 (by rw [hlen]; exact hV) hold (fun e he => ?_) (fun x h => by omega)
    rw [h e (by omega)]
  | succ prev ih =>
    intro st hlen hcl h
    have hp : 2 * prev + 1 < L := by have := hcl (by omega); omega
    have e1 : evIdx (prev + 1) true = 2 * prev + 1 := by simp [evIdx]; omega
    have e2 : evIdx prev false = 2 * prev := rfl
    have e3 : evIdx prev true = 2 * prev - 1 := rfl
    have t1 : st.times[2 * prev + 1]? = some (U c d (2 * prev + 1)) := by
      rw [h _ hp, if_pos (by omega)]
    have t2 : st.times[2 * prev]? = old[2 * prev]? := by
      rw [h _ (by omega), if_neg (by omega)]
    have t3 : old[2 * prev]? = some old[2 * prev] := List.getElem?_eq_getElem (by omega)
    simp only [vpBefore, e1, e2, e3]
    by_cases hb : evTime c st (2 * prev + 1) < evTime c st (2 * prev)
    · rw [if_pos hb]
      have hset : ∀ e, e < L → (updateDelay c st (2 * prev) d none).1.times[e]? =
          if 2 * prev ≤ e then some (U c d e) else old[e]? := by
        intro e he
        rw [updateDelay_times _ _ _ _ hs]
        by_cases hE : e = 2 * prev
        · subst hE
          rw [List.getElem?_set_self (by omega), if_pos (by omega)]; rfl
        · rw [List.getElem?_set_ne (by omega), h e he]
          by_cases hq : 2 * prev ≤ e
          · rw [if_pos (by omega), if_pos hq]
          · rw [if_neg (by omega), if_neg hq]
      have hlen1 : (updateDelay c st (2 * prev) d none).1.times.length = L := by
        rw [updateDelay_times _ _ _ _ hs, List.length_set, hlen]
      generalize updateDelay c st (2 * prev) d none = r at hset hlen1 ⊢
      by_cases hb2 : prev ≠ 0 ∧ evTime c r.1 (2 * prev) < evTime c r.1 (2 * prev - 1)
      · rw [if_pos hb2]
        apply ih
        · rw [updateDelay_times _ _ _ _ hs, List.length_set, hlen1]
        · intro _; omega
        · intro e he
          rw [updateDelay_times _ _ _ _ hs]
          by_cases hE : e = 2 * prev - 1
          · subst hE
            rw [List.getElem?_set_self (by omega), if_pos (by omega)]; rfl
          · rw [List.getElem?_set_ne (by omega), hset e he]
            by_cases hq : 2 * prev ≤ e
            · rw [if_pos hq, if_pos (by omega)]
            · rw [if_neg hq, if_neg (by omega)]
      · rw [if_neg hb2]
        refine nd_split (V := U c d) (2 * prev) (by rw [hlen1]; exact hV) hold
          (fun e he => hset e (by omega)) (fun x hx hxo => ?_)
        have hp0 : prev ≠ 0 := by omega
        have h4 : ¬ evTime c r.1 (2 * prev) < evTime c r.1 (2 * prev - 1) := fun h5 => hb2 ⟨hp0, h5⟩
        have h5 := hset (2 * prev) (by omega)
        have h6 := hset (2 * prev - 1) (by omega)
        rw [if_pos (by omega)] at h5
        rw [if_neg (by omega), hxo] at h6
        simp only [evTime, List.getD_eq_getElem?_getD, h5, h6, Option.getD_some] at h4
        omega
    · rw [if_neg hb]
      refine nd_split (V := U c d) (2 * (prev + 1) - 1) (by rw [hlen]; exact hV) hold
        (fun e he => h e (by omega)) (fun x hx hxo => ?_)
      have : 2 * (prev + 1) - 1 = 2 * prev + 1 := by omega
      rw [this] at hxo ⊢
      simp only [Nat.add_sub_cancel] at hxo
      rw [hxo] at t2
      simp only [evTime, List.getD_eq_getElem?_getD, t1, t2, Option.getD_some] at hb
      omega

/-- **C30 (vehicle positions).** A vehicle position applied to a scheduled run whose scheduled event
times do not decrease keeps the real-time stop times in order, wherever the vehicle is and whatever
its time stamp says. -/
theorem C30_vehicle_position (c : Ctx) (n at_ : Nat) (ts : Int) (st : St)
    (hs : c.scheduled = true) (hn : at_ < n) (hlen : st.times.length = 2 * n - 2)
    (hstatic : ∀ i j, i ≤ j → j < 2 * n - 2 → c.static i ≤ c.static j)
    (hst : NonDecreasing st.times) :
    NonDecreasing (vehiclePosition c n at_ ts st).times := by
  simp only [vehiclePosition]
  generalize hd : wrap16 (ts - if at_ = 0 then c.static (evIdx at_ false) else c.static (evIdx at_ true)) = d
  have hV : ∀ i j, i ≤ j → j < 2 * n - 2 → U c d i ≤ U c d j := by
    intro i j hij hj
    have := hstatic i j hij hj
    unfold U unixToDelta
    exact clampDelta_mono (by omega)
  obtain ⟨st1, hst1⟩ : ∃ x, x = (if at_ ≠ 0 then (updateDelay c st (evIdx at_ true) d none).1 else st) := ⟨_, rfl⟩
  rw [← hst1]
  have hl1 : st1.times.length = 2 * n - 2 := by
    rw [hst1]; split
    · rw [updateDelay_times _ _ _ _ hs, List.length_set, hlen]
    · exact hlen
  have h1 : ∀ e, e < 2 * n - 2 → st1.times[e]? =
      if at_ ≠ 0 ∧ e = 2 * at_ - 1 then some (U c d e) else st.times[e]? := by
    intro e he
    rw [hst1]
    by_cases ha : at_ ≠ 0
    · rw [if_pos ha, updateDelay_times _ _ _ _ hs]
      have e3 : evIdx at_ true = 2 * at_ - 1 := rfl
      rw [e3]
      by_cases hE : e = 2 * at_ - 1
      · rw [if_pos ⟨ha, hE⟩]; subst hE
        rw [List.getElem?_set_self (by omega)]; rfl
      · rw [if_neg (by omega), List.getElem?_set_ne (by omega)]
    · rw [if_neg ha, if_neg (by omega)]
  obtain ⟨h2, h3⟩ := vpAfter_spec c d hs (n - 1 - at_) at_ st1
  apply vpBefore_nd c d hs st.times (2 * n - 2) hlen hst hV
  · omega
  · intro; omega
  · intro e he
    rw [h3 e (by omega), h1 e he]
    by_cases ha : 2 * at_ ≤ e
    · rw [if_pos (by omega), if_pos (by omega)]
    · rw [if_neg (by omega)]
      by_cases hb : 2 * at_ - 1 ≤ e
      · rw [if_pos (by omega), if_pos hb]
      · rw [if_neg (by omega), if_neg hb]

/-! ### Histories -/

/-- Messages for one scheduled run. -/
inductive Msg where
  /-- trip update for a part of the run (`first`, sequence numbers) -/
  | update (first : Nat) (seqs : List Nat) (us : List StopUpd)
  /-- vehicle position near stop `at_` -/
  | vehicle (at_ : Nat) (ts : Int)

/-- Process one message. -/
def Msg.apply (c : Ctx) (n : Nat) (st : St) : Msg → St
  | .update first seqs us => (updateRun { c with first := first, seqs := seqs } us st).1
  | .vehicle at_ ts => vehiclePosition c n at_ ts st

/-- The vehicle is at one of the stops. -/
def Msg.Valid (n : Nat) : Msg → Prop
  | .update .. => True
  | .vehicle at_ _ => at_ < n

theorem updateDelay_length (c : Ctx) (st : St) (e : Nat) (d : Int) (m : Option Int) :
    (updateDelay c st e d m).1.times.length = st.times.length := by
  simp [updateDelay, updateTime]

theorem updateEvent_length (c : Ctx) (st : St) (e : Nat) (ev : Ev) (p : Int) :
    (updateEvent c st e ev p).1.times.length = st.times.length := by
  unfold updateEvent; split
  · exact updateDelay_length ..
  · simp [updateTime]

theorem applyStop_times {c : Ctx} {st st' : St} {stop : Nat} {u : StopUpd}
    (h : applyStop c st stop u = some st') : st'.times = st.times := by
  unfold applyStop at h
  simp only at h
  split at h
  · cases h; rfl
  · split at h
    · split at h
      · cases h
      · split at h
        · cases h; rfl
        · cases h
    · cases h; rfl

theorem stepArr_length (c : Ctx) (stop : Nat) (mu) (s) :
    (stepArr c stop mu s).1.times.length = s.1.times.length := by
  unfold stepArr
  split
  · split
    · simp only [updateEvent_length]
    · split
      · simp only [updateDelay_length]
      · rfl
  · rfl

theorem stepDep_length (c : Ctx) (stop : Nat) (mu) (s) :
    (stepDep c stop mu s).1.times.length = s.1.times.length := by
  unfold stepDep
  split
  · simp only [updateEvent_length]
  · split
    · split
      · simp only [updateEvent_length]
      · split
        · simp only [updateDelay_length]
        · rfl
    · rfl

theorem runLoop_length (c : Ctx) : ∀ ps us s, (runLoop c ps us s).1.times.length = s.1.times.length := by
  intro ps
  induction ps with
  | nil => intro us s; rfl
  | cons p ps ih =>
    intro us s
    unfold runLoop
    split
    · split
      · exact ih ..
      · rename_i h
        rw [ih, stepDep_length, stepArr_length]
        exact congrArg _ (applyStop_times h)
    · rw [ih, stepDep_length, stepArr_length]

theorem updateRun_length (c : Ctx) (us : List StopUpd) (st : St) :
    (updateRun c us st).1.times.length = st.times.length := by
  simp only [updateRun, monoPass_length, runLoop_length]

theorem vpBefore_length (c : Ctx) (d : Int) : ∀ k st, (vpBefore c d k st).times.length = st.times.length := by
  intro k
  induction k with
  | zero => intro st; rfl
  | succ k ih =>
    intro st
    unfold vpBefore
    split
    · simp only
      split
      · rw [ih, updateDelay_length, updateDelay_length]
      · rw [updateDelay_length]
    · rfl

theorem vehiclePosition_length (c : Ctx) (n at_ : Nat) (ts : Int) (st : St) (hs : c.scheduled = true) :
    (vehiclePosition c n at_ ts st).times.length = st.times.length := by
  simp only [vehiclePosition, vpBefore_length, (vpAfter_spec c _ hs _ _ _).1]
  split
  · rw [updateDelay_length]
  · rfl

/-- **C30 (histories).** Starting from the schedule (or any ordered state), whatever sequence of trip
updates and vehicle positions arrives for a scheduled run, the stop times are ordered afterwards and
their number does not change. -/
theorem C30_history (c : Ctx) (n : Nat) (st : St) (msgs : List Msg)
    (hs : c.scheduled = true) (hlen : st.times.length = 2 * n - 2)
    (hstatic : ∀ i j, i ≤ j → j < 2 * n - 2 → c.static i ≤ c.static j)
    (hst : NonDecreasing st.times) (hm : ∀ m ∈ msgs, m.Valid n) :
    NonDecreasing (msgs.foldl (Msg.apply c n) st).times ∧
      (msgs.foldl (Msg.apply c n) st).times.length = 2 * n - 2 := by
  induction msgs generalizing st with
  | nil => exact ⟨hst, hlen⟩
  | cons m msgs ih =>
    simp only [List.foldl_cons]
    have hv := hm m (by simp)
    apply ih
    · cases m with
      | update f q us => exact (updateRun_length _ _ _).trans hlen
      | vehicle at_ ts => exact (vehiclePosition_length _ _ _ _ _ hs).trans hlen
    · cases m with
      | update f q us => exact C30_trip_update _ _ _
      | vehicle at_ ts => exact C30_vehicle_position _ _ _ _ _ hs hv hlen hstatic hst
    · intro m' h'; exact hm m' (by simp [h'])

/-- The delay-free copy of the schedule is ordered (hypothesis `hst` of `C30_history` for a new
real-time transport, `rt_timetable.cc:62-79`). -/
theorem C30_initial (base : Int) (static : Nat → Int) (k : Nat)
    (hstatic : ∀ i j, i ≤ j → j < k → static i ≤ static j) :
    NonDecreasing ((List.range k).map fun e => unixToDelta base (static e)) := by
  intro i j a b hij ha hb
  have hj : j < k := by
    rcases Nat.lt_or_ge j k with h | h
    · exact h
    · rw [List.getElem?_eq_none (by simpa using h)] at hb; cases hb
  simp only [List.getElem?_map, List.getElem?_range hj, Option.map_some, Option.some.injEq] at hb
  rw [List.getElem?_map, List.getElem?_range (by omega), Option.map_some, Option.some.injEq] at ha
  have := hstatic i j hij hj
  subst ha hb
  unfold unixToDelta
  exact clampDelta_mono (by omega)

end Nigiri.Rt
