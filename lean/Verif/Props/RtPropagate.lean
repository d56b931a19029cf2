import Verif.Proofs.RtPropagate

/-!
# C31: delays propagate to later stops until the next update

`own mu e` is the part of the message which speaks about event `e` (even: departure of stop `e/2`,
odd: arrival at stop `(e+1)/2`), `T` the published event time in minutes since 1970.
-/

namespace Nigiri.Rt

/-- Published time of event `e`. -/
abbrev T (c : Ctx) (st : St) (e : Nat) : Int := evTime c st e

/-- The situation in which C31 is stated: a scheduled run of a transport with `n` stops, of which the
message addresses the stops `first, ..., first + len - 1` (all of them unless the transport consists
of several trips).  Every scheduled time is within 8000 minutes of the base day and the published times
differ from it by at most 16000 minutes; the times are ordered; `mu` says which stop an update belongs to;
delays are at most 8000 minutes and absolute times at most 8000 minutes from the base day. -/
structure Situation (c : Ctx) (us : List StopUpd) (mu : Nat → Option StopUpd) (st : St) (n : Nat) : Prop where
  scheduled : c.scheduled = true
  nStops : c.locSeq.length = n
  two : 2 ≤ n
  some_ : 1 ≤ c.seqs.length
  range : c.first + c.seqs.length ≤ n
  epoch : 17 ≤ c.base
  size : st.times.length = 2 * n - 2
  ordered : NonDecreasing st.times
  staticOrdered : ∀ i j, i ≤ j → j < 2 * n - 2 → c.static i ≤ c.static j
  staticNear : ∀ i, i < 2 * n - 2 → c.base * 1440 - 8000 ≤ c.static i ∧ c.static i ≤ c.base * 1440 + 8000
  near : ∀ i, i < 2 * n - 2 → c.static i - 16000 ≤ T c st i ∧ T c st i ≤ c.static i + 16000
  assigns : Assigns c us mu
  delays : ∀ e ev d, own mu e = some ev → ev.delay = some d → -8000 ≤ toMinutes d ∧ toMinutes d ≤ 8000
  times : ∀ e ev, own mu e = some ev → ev.delay = none →
    c.base * 1440 - 8000 ≤ toMinutes (ev.time.getD 0) ∧ toMinutes (ev.time.getD 0) ≤ c.base * 1440 + 8000

/-- Event `e` belongs to the addressed stops. -/
def Handled (c : Ctx) (n e : Nat) : Prop :=
  2 * c.first ≤ e ∧ e ≤ 2 * (c.first + c.seqs.length - 1) ∧ e < 2 * n - 2

/-- Not before the previous event. -/
def notBefore (c : Ctx) (st : St) (e : Nat) (x : Int) : Int :=
  if e = 0 then x else max (T c st (e - 1)) x

/-! ### Proof -/

section Proof
variable {c : Ctx} {us : List StopUpd} {mu : Nat → Option StopUpd} {st : St} {n : Nat}

private theorem wrap16_id {x : Int} (h : -32768 ≤ x) (h2 : x ≤ 32767) : wrap16 x = x := by
  unfold wrap16; omega

private structure Inv (c : Ctx) (n : Nat) (old : List Int) (e : Nat) (s : List Int × Option Prop') : Prop where
  len : s.1.length = 2 * n - 2
  later : ∀ i, e ≤ i → s.1[i]? = old[i]?
  chain : ∀ i, i + 1 < e → i + 1 < 2 * n - 2 → tT c s.1 i ≤ tT c s.1 (i + 1)
  dev : ∀ i, i < 2 * n - 2 → c.static i - 16000 ≤ tT c s.1 i ∧ tT c s.1 i ≤ c.static i + 16000
  pred : match s.2 with
    | none => s.1 = old
    | some p => 0 < e ∧ p.time = tT c s.1 (e - 1) ∧ -16000 ≤ p.delay ∧ p.delay ≤ 16000

/-- What one event does. -/
private structure Step (c : Ctx) (o : Option Ev) (s s' : List Int × Option Prop') (e : Nat) : Prop where
  same : ∀ i, i ≠ e → tT c s'.1 i = tT c s.1 i
  delay : ∀ ev d, o = some ev → ev.delay = some d →
    s'.2.map Prop'.delay = some (toMinutes d) ∧
    tT c s'.1 e = (if e = 0 then c.static e + toMinutes d else max (tT c s.1 (e - 1)) (c.static e + toMinutes d))
  time : ∀ ev, o = some ev → ev.delay = none →
    s'.2.map Prop'.delay = some (tT c s'.1 e - c.static e) ∧
    tT c s'.1 e = (if e = 0 then toMinutes (ev.time.getD 0) else max (tT c s.1 (e - 1)) (toMinutes (ev.time.getD 0)))
  none_ : o = none → s'.2.map Prop'.delay = s.2.map Prop'.delay
  keep : o = none → s.2 = none → s' = s
  carry : o = none → ∀ p, s.2 = some p → tT c s'.1 e = max (tT c s.1 (e - 1)) (c.static e + p.delay)

private theorem tT_set_ne (ts : List Int) (e i : Nat) (t : Int) (h : i ≠ e) :
    tT c (setT c ts e t) i = tT c ts i := by
  simp only [tT, setT, List.getD_eq_getElem?_getD]
  rw [List.getElem?_set_ne (by omega)]

private theorem tT_set_self (ts : List Int) (e : Nat) (t : Int) (h : e < ts.length)
    (h1 : c.base * 1440 - 24000 ≤ t) (h2 : t ≤ c.base * 1440 + 24000) :
    tT c (setT c ts e t) e = t := by
  simp only [tT, setT, List.getD_eq_getElem?_getD]
  rw [List.getElem?_set_self h]
  have : unixToDelta c.base t = t - c.base * 1440 := by
    unfold unixToDelta clampDelta stdClamp deltaMin deltaMax dayToUnix
    rw [if_neg (by omega), if_neg (by omega)]
  simp only [Option.getD_some, this, dayToUnix]
  omega

private theorem inv_set (ts old : List Int) (s2 : Option Prop') (e : Nat) (t : Int) (p : Prop')
    (hI : Inv c n old e (ts, s2)) (he : e < 2 * n - 2)
    (hge : 0 < e → tT c ts (e - 1) ≤ t)
    (h1 : c.static e - 16000 ≤ t) (h2 : t ≤ c.static e + 16000)
    (h3 : c.base * 1440 - 24000 ≤ t) (h4 : t ≤ c.base * 1440 + 24000)
    (hp : p.time = t) (hd : -16000 ≤ p.delay ∧ p.delay ≤ 16000) :
    Inv c n old (e + 1) (setT c ts e t, some p) := by
  have hl : ts.length = 2 * n - 2 := hI.len
  have hself : tT c (setT c ts e t) e = t := tT_set_self ts e t (by omega) h3 h4
  refine ⟨by simp [setT, hl], ?_, ?_, ?_, ?_⟩
  · intro i hi
    simp only [setT]
    rw [List.getElem?_set_ne (by omega)]
    exact hI.later i (by omega)
  · intro i hi hi2
    by_cases hie : i + 1 = e
    · rw [hie, hself]
      show tT c (setT c ts e t) i ≤ t
      rw [tT_set_ne _ _ _ _ (by omega)]
      have := hge (by omega)
      have he1 : e - 1 = i := by omega
      rw [he1] at this
      exact this
    · show tT c (setT c ts e t) i ≤ tT c (setT c ts e t) (i + 1)
      rw [tT_set_ne _ _ _ _ (by omega), tT_set_ne _ _ _ _ hie]
      exact hI.chain i (by omega) hi2
  · intro i hi
    show c.static i - 16000 ≤ tT c (setT c ts e t) i ∧ tT c (setT c ts e t) i ≤ c.static i + 16000
    by_cases hie : i = e
    · subst hie; rw [hself]; exact ⟨h1, h2⟩
    · rw [tT_set_ne _ _ _ _ hie]; exact hI.dev i hi
  · refine ⟨by omega, ?_, hd.1, hd.2⟩
    show p.time = tT c (setT c ts e t) (e + 1 - 1)
    rw [Nat.add_sub_cancel, hself, hp]

private theorem step_spec (hS : Situation c us mu st n) (e : Nat) (he : e < 2 * n - 2)
    (s : List Int × Option Prop') (hI : Inv c n st.times e s) :
    Inv c n st.times (e + 1) (evStepT c (own mu e) s e) ∧
      Step c (own mu e) s (evStepT c (own mu e) s e) e := by
  obtain ⟨ts, pred⟩ := s
  have hl : ts.length = 2 * n - 2 := hI.len
  have hep := hS.epoch
  obtain ⟨hn1, hn2⟩ := hS.staticNear e he
  have hprev : 0 < e → tT c ts (e - 1) ≤ c.static e + 16000 := by
    intro h0
    have h1 := (hI.dev (e - 1) (by omega)).2
    have h2 := hS.staticOrdered (e - 1) e (by omega) he
    have h1 : tT c ts (e - 1) ≤ c.static (e - 1) + 16000 := h1
    omega
  -- the earliest possible time
  have hpt : prevT c (ts, pred) e = if e = 0 then 0 else tT c ts (e - 1) := by
    unfold prevT
    cases pred with
    | none => rfl
    | some p =>
      obtain ⟨h0, h1, _⟩ := hI.pred
      simp only
      rw [if_neg (by omega)]; exact h1
  have hmax : ∀ x : Int, c.base * 1440 - 24000 ≤ x →
      max (prevT c (ts, pred) e) x = if e = 0 then x else max (tT c ts (e - 1)) x := by
    intro x hx
    rw [hpt]
    by_cases h0 : e = 0
    · rw [if_pos h0, if_pos h0]; omega
    · rw [if_neg h0, if_neg h0]
  cases ho : own mu e with
  | some ev =>
    cases hd : ev.delay with
    | some d =>
      have hdd := hS.delays e ev d ho hd
      have hw : wrap16 (toMinutes d) = toMinutes d := wrap16_id (by omega) (by omega)
      have hm := hmax (c.static e + toMinutes d) (by omega)
      simp only [evStepT, hd, hw, hm]
      generalize hx : (if e = 0 then c.static e + toMinutes d
        else max (tT c ts (e - 1)) (c.static e + toMinutes d)) = x
      have hxb : c.static e - 16000 ≤ x ∧ x ≤ c.static e + 16000 ∧ (0 < e → tT c ts (e - 1) ≤ x) := by
        by_cases h0 : e = 0
        · rw [if_pos h0] at hx; refine ⟨?_, ?_, ?_⟩ <;> omega
        · rw [if_neg h0] at hx; have := hprev (by omega); refine ⟨?_, ?_, ?_⟩ <;> omega
      have hself : tT c (setT c ts e x) e = x := tT_set_self ts e x (by omega) (by omega) (by omega)
      rw [hself]
      refine ⟨inv_set ts _ pred e x _ hI he hxb.2.2 hxb.1 hxb.2.1 (by omega) (by omega) rfl ⟨by simp only; omega, by simp only; omega⟩, ?_⟩
      refine ⟨fun i hi => tT_set_ne _ _ _ _ hi, ?_, ?_, ?_, ?_, ?_⟩
      · intro ev' d' h1 h2
        cases h1
        rw [hd] at h2; cases h2
        exact ⟨rfl, by rw [hx]; exact hself⟩
      · intro ev' h1 h2; cases h1; rw [hd] at h2; cases h2
      · intro h; cases h
      · intro h; cases h
      · intro h; cases h
    | none =>
      have htt := hS.times e ev ho hd
      have hm := hmax (toMinutes (ev.time.getD 0)) (by omega)
      simp only [evStepT, hd, hm]
      generalize hx : (if e = 0 then toMinutes (ev.time.getD 0)
        else max (tT c ts (e - 1)) (toMinutes (ev.time.getD 0))) = x
      have hxb : c.static e - 16000 ≤ x ∧ x ≤ c.static e + 16000 ∧ (0 < e → tT c ts (e - 1) ≤ x) := by
        by_cases h0 : e = 0
        · rw [if_pos h0] at hx; refine ⟨?_, ?_, ?_⟩ <;> omega
        · rw [if_neg h0] at hx; have := hprev (by omega); refine ⟨?_, ?_, ?_⟩ <;> omega
      have hself : tT c (setT c ts e x) e = x := tT_set_self ts e x (by omega) (by omega) (by omega)
      have hw : wrap16 (x - c.static e) = x - c.static e := wrap16_id (by omega) (by omega)
      rw [hw]
      refine ⟨inv_set ts _ pred e x _ hI he hxb.2.2 hxb.1 hxb.2.1 (by omega) (by omega) rfl ⟨by simp only; omega, by simp only; omega⟩, ?_⟩
      refine ⟨fun i hi => tT_set_ne _ _ _ _ hi, ?_, ?_, ?_, ?_, ?_⟩
      · intro ev' d' h1 h2; cases h1; rw [hd] at h2; cases h2
      · intro ev' h1 h2
        cases h1
        exact ⟨by simp only [Option.map_some, hself], by rw [hx]; exact hself⟩
      · intro h; cases h
      · intro h; cases h
      · intro h; cases h
  | none =>
    cases pred with
    | none =>
      have hold : ts = st.times := hI.pred
      simp only [evStepT]
      refine ⟨⟨hI.len, fun i hi => hI.later i (by omega), ?_, hI.dev, hI.pred⟩, ?_⟩
      · intro i hi hi2
        show tT c ts i ≤ tT c ts (i + 1)
        have h1 : ts[i]? = some ts[i] := List.getElem?_eq_getElem (by omega)
        have h2 : ts[i + 1]? = some ts[i + 1] := List.getElem?_eq_getElem (by omega)
        have := hS.ordered i (i + 1) ts[i] ts[i + 1] (by omega) (by rw [← hold]; exact h1) (by rw [← hold]; exact h2)
        simp only [tT, List.getD_eq_getElem?_getD, h1, h2, Option.getD_some]
        omega
      · refine ⟨fun i _ => rfl, ?_, ?_, fun _ => rfl, fun _ _ => rfl, ?_⟩
        · intro _ _ h; cases h
        · intro _ h; cases h
        · intro _ p h; cases h
    | some p =>
      obtain ⟨h0, h1, h2, h3⟩ := hI.pred
      simp only [evStepT, h1]
      simp only at h0 h1 h2 h3
      have hp := hprev h0
      generalize hx : max (tT c ts (e - 1)) (c.static e + p.delay) = x
      have hself : tT c (setT c ts e x) e = x := tT_set_self ts e x (by omega) (by omega) (by omega)
      rw [hself]
      refine ⟨inv_set ts _ (some p) e x _ hI he (by omega) (by omega) (by omega) (by omega) (by omega) rfl ⟨h2, h3⟩, ?_⟩
      refine ⟨fun i hi => tT_set_ne _ _ _ _ hi, ?_, ?_, fun _ => rfl, ?_, ?_⟩
      · intro _ _ h; cases h
      · intro _ h; cases h
      · intro _ h; cases h
      · intro _ q h
        cases h
        rw [hx]; exact hself

/-- State after `k` events. -/
private def runT (c : Ctx) (mu : Nat → Option StopUpd) (st : St) (k : Nat) : List Int × Option Prop' :=
  (List.range' (2 * c.first) k).foldl (fun s e => evStepT c (own mu e) s e) (st.times, initPred c st)

private theorem runT_succ (k : Nat) :
    runT c mu st (k + 1) = evStepT c (own mu (2 * c.first + k)) (runT c mu st k) (2 * c.first + k) := by
  simp only [runT]
  rw [← List.range'_append_1 (m := k) (n := 1), List.foldl_append]
  rfl

private theorem runT_inv (hS : Situation c us mu st n) : ∀ k, 2 * c.first + k ≤ 2 * n - 2 →
    Inv c n st.times (2 * c.first + k) (runT c mu st k) := by
  intro k
  induction k with
  | zero =>
    intro hk
    have h1 := hS.some_
    have h2 := hS.range
    refine ⟨hS.size, fun _ _ => rfl, ?_, hS.near, ?_⟩
    · intro i hi hi2
      have hsz := hS.size
      show tT c st.times i ≤ tT c st.times (i + 1)
      have h1 : st.times[i]? = some st.times[i] := List.getElem?_eq_getElem (by omega)
      have h2 : st.times[i + 1]? = some st.times[i + 1] := List.getElem?_eq_getElem (by omega)
      have := hS.ordered i (i + 1) _ _ (by omega) h1 h2
      simp only [tT, List.getD_eq_getElem?_getD, h1, h2, Option.getD_some]
      omega
    · show match initPred c st with | none => _ | some p => _
      unfold initPred
      by_cases h0 : 0 < c.first
      · simp only [hS.scheduled, h0, decide_true, Bool.and_true, if_true]
        refine ⟨by omega, rfl, by decide, by decide⟩
      · simp only [h0, decide_false, Bool.and_false, Bool.false_eq_true, if_false]
        rfl
  | succ k ih =>
    intro hk
    rw [runT_succ]
    exact (step_spec hS _ (by omega) _ (ih (by omega))).1

private theorem runT_step (hS : Situation c us mu st n) (k : Nat) (hk : 2 * c.first + k < 2 * n - 2) :
    Step c (own mu (2 * c.first + k)) (runT c mu st k) (runT c mu st (k + 1)) (2 * c.first + k) := by
  rw [runT_succ]
  exact (step_spec hS _ hk _ (runT_inv hS k (by omega))).2

private theorem runT_stable (hS : Situation c us mu st n) (i k : Nat) (hi : i < 2 * c.first + k) :
    ∀ m, k ≤ m → 2 * c.first + m ≤ 2 * n - 2 → tT c (runT c mu st m).1 i = tT c (runT c mu st k).1 i := by
  intro m
  induction m with
  | zero => intro h _; have : k = 0 := by omega
            subst this; rfl
  | succ m ih =>
    intro h hm
    by_cases hkm : k = m + 1
    · subst hkm; rfl
    · rw [(runT_step hS m (by omega)).same i (by omega)]
      exact ih (by omega) (by omega)

private theorem monoPass_get (xs : List Int) : ∀ (p : Int) (i : Nat), i < xs.length →
    (monoPass p xs).getD i 0 =
      max (if i = 0 then p else (monoPass p xs).getD (i - 1) 0) (xs.getD i 0) := by
  induction xs with
  | nil => intro p i h; simp at h
  | cons x xs ih =>
    intro p i hi
    cases i with
    | zero =>
      simp only [monoPass, List.getD_cons_zero, if_true]
      split <;> omega
    | succ i =>
      simp only [monoPass, List.getD_cons_succ, Nat.add_sub_cancel]
      rw [if_neg (by omega : ¬ i + 1 = 0)]
      rw [ih _ i (by simpa using hi)]
      cases i with
      | zero => simp
      | succ i => simp

/-- The events handled by the loop. -/
private def K (c : Ctx) : Nat := nEvents c c.first c.seqs.length

private theorem visits_map (c : Ctx) (hs : c.scheduled = true) :
    (visits c).map (·.2) = List.range' c.first (visits c).length := by
  have : (visits c).length = c.seqs.length := by simp [visits]
  rw [this]
  unfold visits
  rw [if_pos hs, List.map_snd_zip (by simp)]

private theorem updateRun_times (hS : Situation c us mu st n) :
    (updateRun c us st).1.times = monoPass deltaMin (runT c mu st (K c)).1 := by
  have hs := hS.scheduled
  have hlen : (visits c).length = c.seqs.length := by simp [visits]
  have h1 := runLoop_plain c hs mu (by rw [hS.nStops]; exact hS.two) hS.assigns.only hS.assigns.ok
    (visits c) c.first (st, initPred c st) (fun _ h => h) (visits_map c hs) (Nat.le_refl _)
    (by intro h; simp [initPred, h])
  rw [hlen, ← hS.assigns.order, plain_eventsOf c mu _ _ _ (Nat.le_refl _),
    eventsOf_eq c _ (by rw [hS.nStops]; exact hS.range) hS.some_] at h1
  simp only [updateRun]
  congr 1
  exact congrArg Prod.fst h1

private theorem K_le (hS : Situation c us mu st n) : 2 * c.first + K c ≤ 2 * n - 2 := by
  have h1 := hS.range
  have h2 := hS.some_
  unfold K nEvents
  rw [hS.nStops]
  split
  · omega
  · split <;> omega

private theorem handled_lt (hS : Situation c us mu st n) {e : Nat} (h : Handled c n e) :
    2 * c.first ≤ e ∧ e < 2 * c.first + K c := by
  obtain ⟨h1, h2, h3⟩ := h
  have h4 := hS.some_
  refine ⟨h1, ?_⟩
  unfold K nEvents
  rw [hS.nStops, if_neg (by omega)]
  split <;> omega

private theorem T_final_lt (hS : Situation c us mu st n) : ∀ e, e < 2 * c.first + K c →
    T c (updateRun c us st).1 e = tT c (runT c mu st (K c)).1 e := by
  have hK := K_le hS
  have hI := runT_inv hS (K c) hK
  intro e
  induction e with
  | zero =>
    intro he
    show dayToUnix c.base + (updateRun c us st).1.times.getD 0 0 = _
    rw [updateRun_times hS, monoPass_get _ _ _ (by have := hI.len; omega), if_pos rfl]
    have hd := hI.dev 0 (by omega)
    have hn := hS.staticNear 0 (by omega)
    simp only [tT, dayToUnix, deltaMin] at hd ⊢
    have : max (-32768) ((runT c mu st (K c)).1.getD 0 0) = (runT c mu st (K c)).1.getD 0 0 := by omega
    rw [this]
  | succ e ih =>
    intro he
    have hprev := ih (by omega)
    show dayToUnix c.base + (updateRun c us st).1.times.getD (e + 1) 0 = _
    simp only [T, evTime] at hprev
    rw [updateRun_times hS] at hprev ⊢
    rw [monoPass_get _ _ _ (by have := hI.len; omega), if_neg (by omega), Nat.add_sub_cancel]
    have hc := hI.chain e (by omega) (by omega)
    simp only [tT] at hc hprev ⊢
    omega

private theorem T_final (hS : Situation c us mu st n) {e k : Nat} (he : e < 2 * c.first + k) (hk : k ≤ K c) :
    T c (updateRun c us st).1 e = tT c (runT c mu st k).1 e := by
  have hK := K_le hS
  rw [T_final_lt hS e (by omega)]
  exact runT_stable hS e k he (K c) hk hK

private theorem delay_stable (hS : Situation c us mu st n) (k : Nat) : ∀ m, k ≤ m → m ≤ K c →
    (∀ i, 2 * c.first + k ≤ i → i < 2 * c.first + m → own mu i = none) →
    (runT c mu st m).2.map Prop'.delay = (runT c mu st k).2.map Prop'.delay := by
  have hK := K_le hS
  intro m
  induction m with
  | zero => intro h _ _; have : k = 0 := by omega
            subst this; rfl
  | succ m ih =>
    intro h hm hno
    by_cases hkm : k = m + 1
    · subst hkm; rfl
    · rw [(runT_step hS m (by omega)).none_ (hno _ (by omega) (by omega))]
      exact ih (by omega) (by omega) (fun i h1 h2 => hno i h1 (by omega))

private theorem carry_spec (hS : Situation c us mu st n) {e : Nat} (he : Handled c n e) (ho : own mu e = none)
    {d : Int} (hd : (runT c mu st (e - 2 * c.first)).2.map Prop'.delay = some d) :
    T c (updateRun c us st).1 e = max (T c (updateRun c us st).1 (e - 1)) (c.static e + d) := by
  obtain ⟨h1, h2⟩ := handled_lt hS he
  have hK := K_le hS
  have hst := runT_step hS (e - 2 * c.first) (by omega)
  have heq : 2 * c.first + (e - 2 * c.first) = e := by omega
  rw [heq] at hst
  obtain ⟨p, hp, hpd⟩ := Option.map_eq_some_iff.mp hd
  have := hst.carry ho p hp
  have hI := runT_inv hS (e - 2 * c.first) (by omega)
  have h0 : 0 < e := by
    have := hI.pred
    rw [hp] at this
    simp only at this
    omega
  rw [T_final hS (k := e - 2 * c.first + 1) (by omega) (by omega), this, hpd,
    T_final hS (k := e - 2 * c.first) (e := e - 1) (by omega) (by omega)]

end Proof

/-! ### C31 -/

section C31
variable {c : Ctx} {us : List StopUpd} {mu : Nat → Option StopUpd} {st : St} {n : Nat}

/-- **C31 (before the first update).** Events before the first update of the message keep their
published times (for a transport not seen before: the schedule). -/
theorem C31_before_first_update (hS : Situation c us mu st n) (hf : c.first = 0) {e : Nat}
    (he : Handled c n e) (hno : ∀ i, i ≤ e → own mu i = none) :
    T c (updateRun c us st).1 e = T c st e := by
  obtain ⟨h1, h2⟩ := handled_lt hS he
  have hK := K_le hS
  have hall : ∀ k, k ≤ e + 1 → runT c mu st k = (st.times, none) := by
    intro k
    induction k with
    | zero => intro _; simp [runT, initPred, hf]
    | succ k ih =>
      intro hk
      have := (runT_step hS k (by omega)).keep (hno _ (by omega)) (by rw [ih (by omega)])
      rw [this, ih (by omega)]
  rw [T_final hS (k := e + 1) (by omega) (by omega), hall (e + 1) (Nat.le_refl _)]
  rfl

/-- **C31 (delays).** Let `p` be the closest event at or before `e` the message speaks about, and let it
announce a delay.  Then `e` is scheduled time plus this delay, but not before the previous event. -/
theorem C31_delay (hS : Situation c us mu st n) {p e : Nat} {ev : Ev} {d : Int}
    (hp : Handled c n p) (he : Handled c n e) (hpe : p ≤ e)
    (ho : own mu p = some ev) (hd : ev.delay = some d)
    (hno : ∀ i, p < i → i ≤ e → own mu i = none) :
    T c (updateRun c us st).1 e =
      notBefore c (updateRun c us st).1 e (c.static e + toMinutes d) := by
  obtain ⟨h1, h2⟩ := handled_lt hS hp
  obtain ⟨h3, h4⟩ := handled_lt hS he
  have hK := K_le hS
  have hst := runT_step hS (p - 2 * c.first) (by omega)
  have heq : 2 * c.first + (p - 2 * c.first) = p := by omega
  rw [heq] at hst
  obtain ⟨hdel, hval⟩ := hst.delay ev d ho hd
  unfold notBefore
  by_cases hpe' : p = e
  · subst hpe'
    rw [T_final hS (k := p - 2 * c.first + 1) (by omega) (by omega), hval]
    by_cases h0 : p = 0
    · rw [if_pos h0, if_pos h0]
    · rw [if_neg h0, if_neg h0]
      by_cases hk : p - 1 < 2 * c.first + (p - 2 * c.first)
      · rw [T_final hS (k := p - 2 * c.first) (e := p - 1) (by omega) (by omega)]
      · omega
  · rw [if_neg (by omega)]
    apply carry_spec hS he (hno e (by omega) (Nat.le_refl _))
    rw [delay_stable hS (p - 2 * c.first + 1) (e - 2 * c.first) (by omega) (by omega)
      (fun i hi1 hi2 => hno i (by omega) (by omega))]
    exact hdel

/-- **C31 (absolute times).** An event for which the message gives an absolute time (and no delay) is
set to this time, but not before the previous event. -/
theorem C31_time (hS : Situation c us mu st n) {p : Nat} {ev : Ev} {t : Int}
    (hp : Handled c n p) (ho : own mu p = some ev) (hd : ev.delay = none) (ht : ev.time = some t) :
    T c (updateRun c us st).1 p = notBefore c (updateRun c us st).1 p (toMinutes t) := by
  obtain ⟨h1, h2⟩ := handled_lt hS hp
  have hK := K_le hS
  have hst := runT_step hS (p - 2 * c.first) (by omega)
  have heq : 2 * c.first + (p - 2 * c.first) = p := by omega
  rw [heq] at hst
  obtain ⟨_, hval⟩ := hst.time ev ho hd
  rw [ht] at hval
  unfold notBefore
  rw [T_final hS (k := p - 2 * c.first + 1) (by omega) (by omega), hval]
  by_cases h0 : p = 0
  · rw [if_pos h0, if_pos h0]; rfl
  · rw [if_neg h0, if_neg h0, T_final hS (k := p - 2 * c.first) (e := p - 1) (by omega) (by omega)]
    rfl

/-- **C31 (delay of an absolute time).** The resulting delay at `p` carries over to the later events up
to the next update. -/
theorem C31_time_carry (hS : Situation c us mu st n) {p e : Nat} {ev : Ev}
    (hp : Handled c n p) (he : Handled c n e) (hpe : p < e)
    (ho : own mu p = some ev) (hd : ev.delay = none)
    (hno : ∀ i, p < i → i ≤ e → own mu i = none) :
    T c (updateRun c us st).1 e = max (T c (updateRun c us st).1 (e - 1))
      (c.static e + (T c (updateRun c us st).1 p - c.static p)) := by
  obtain ⟨h1, h2⟩ := handled_lt hS hp
  obtain ⟨h3, h4⟩ := handled_lt hS he
  have hK := K_le hS
  have hst := runT_step hS (p - 2 * c.first) (by omega)
  have heq : 2 * c.first + (p - 2 * c.first) = p := by omega
  rw [heq] at hst
  obtain ⟨hdel, _⟩ := hst.time ev ho hd
  apply carry_spec hS he (hno e hpe (Nat.le_refl _))
  rw [delay_stable hS (p - 2 * c.first + 1) (e - 2 * c.first) (by omega) (by omega)
      (fun i hi1 hi2 => hno i (by omega) (by omega)), hdel,
    T_final hS (k := p - 2 * c.first + 1) (e := p) (by omega) (by omega)]

/-- **C31 (later trip of a block).** If the message addresses a later trip of a transport made of several
trips, its events before the first update are on schedule, but not before the previous trip allows. -/
theorem C31_block_start (hS : Situation c us mu st n) (hf : 0 < c.first) {e : Nat}
    (he : Handled c n e) (hno : ∀ i, 2 * c.first ≤ i → i ≤ e → own mu i = none) :
    T c (updateRun c us st).1 e = max (T c (updateRun c us st).1 (e - 1)) (c.static e) := by
  obtain ⟨h3, h4⟩ := handled_lt hS he
  have hK := K_le hS
  have := carry_spec hS he (hno e h3 (Nat.le_refl _)) (d := 0) (by
    rw [delay_stable hS 0 (e - 2 * c.first) (by omega) (by omega) (fun i hi1 hi2 => hno i (by omega) (by omega))]
    simp [runT, initPred, hS.scheduled, hf])
  simpa using this

/-- **C31 (other trips of the transport).** Events behind the addressed stops are only pushed
back as far as necessary. -/
theorem C31_behind (hS : Situation c us mu st n) {e : Nat} (he : e < 2 * n - 2)
    (hb : 2 * (c.first + c.seqs.length - 1) < e) :
    T c (updateRun c us st).1 e = max (T c (updateRun c us st).1 (e - 1)) (T c st e) := by
  have hK := K_le hS
  have hI := runT_inv hS (K c) hK
  have h1 := hS.some_
  have hKe : 2 * c.first + K c ≤ e := by
    have h2 := hS.range
    unfold K nEvents
    rw [if_neg (by omega), hS.nStops]
    split <;> omega
  simp only [T, evTime]
  rw [updateRun_times hS, monoPass_get _ _ _ (by have := hI.len; omega), if_neg (by omega)]
  have := hI.later e hKe
  simp only [List.getD_eq_getElem?_getD, this]
  omega

/-- **C31 (events before the addressed stops)** keep their times. -/
theorem C31_ahead (hS : Situation c us mu st n) {e : Nat} (he : e < 2 * c.first) :
    T c (updateRun c us st).1 e = T c st e := by
  rw [T_final hS (k := 0) (by omega) (by omega)]
  rfl

/-- **C31 (histories).** The hypotheses about the published times hold again afterwards, so the
theorems apply to the next message as well. -/
theorem C31_again (hS : Situation c us mu st n) :
    NonDecreasing (updateRun c us st).1.times ∧ (updateRun c us st).1.times.length = 2 * n - 2 ∧
    ∀ i, i < 2 * n - 2 → c.static i - 16000 ≤ T c (updateRun c us st).1 i ∧
      T c (updateRun c us st).1 i ≤ c.static i + 16000 := by
  refine ⟨C30_trip_update c us st, (updateRun_length c us st).trans hS.size, ?_⟩
  have hK := K_le hS
  have hI := runT_inv hS (K c) hK
  intro i
  induction i with
  | zero =>
    intro hi
    by_cases h : 0 < 2 * c.first + K c
    · rw [T_final_lt hS 0 h]; exact hI.dev 0 hi
    · have h1 := hS.some_
      have h2 := hS.two
      have h3 := hS.range
      exfalso
      have : K c = 0 := by omega
      unfold K nEvents at this
      rw [if_neg (by omega), hS.nStops] at this
      split at this <;> omega
  | succ i ih =>
    intro hi
    by_cases h : i + 1 < 2 * c.first + K c
    · rw [T_final_lt hS _ h]; exact hI.dev _ hi
    · have hb : 2 * (c.first + c.seqs.length - 1) < i + 1 := by
        have h1 := hS.some_
        have h3 := hS.range
        unfold K nEvents at h
        rw [if_neg (by omega), hS.nStops] at h
        split at h <;> omega
      have h1 := C31_behind hS hi hb
      rw [Nat.add_sub_cancel] at h1
      have h2 := ih (by omega)
      have h3 := hS.near (i + 1) hi
      have h4 := hS.staticOrdered i (i + 1) (by omega) hi
      omega

end C31

/-! ### Updates addressed by stop sequence number -/

/-- The usual message: every update names its stop by `stop_sequence` and changes no stop; the
sequence numbers of the trip are distinct. -/
theorem C31_by_sequence (c : Ctx) (mu : Nat → Option StopUpd) (hs : c.scheduled = true)
    (hd : c.seqs.Nodup)
    (hmu : ∀ s u, mu s = some u → c.first ≤ s ∧ u.seq = c.seqs[s - c.first]? ∧ u.seq ≠ none ∧
      u.stopId = none ∧ u.assigned = none) :
    Assigns c ((List.range' c.first c.seqs.length).filterMap mu) mu := by
  refine ⟨rfl, ?_, ?_⟩
  · intro s u h p hp
    obtain ⟨h1, h2, h3, h4, h5⟩ := hmu s u h
    unfold visits at hp
    rw [if_pos hs] at hp
    obtain ⟨i, hi⟩ := List.mem_iff_getElem?.mp hp
    rw [List.getElem?_zip_eq_some] at hi
    obtain ⟨ha, hb⟩ := hi
    have hil : i < c.seqs.length := (List.getElem?_eq_some_iff.mp ha).1
    rw [List.getElem?_range' hil] at hb
    have hb' : c.first + i = p.2 := by simpa using hb
    simp only [matchesAt, hs, h4, Bool.true_and, Option.isSome_none, Bool.false_and, Bool.or_false]
    have key : u.seq = some p.1 ↔ p.2 = s := by
      rw [h2]
      constructor
      · intro h
        have hj : s - c.first < c.seqs.length := (List.getElem?_eq_some_iff.mp h).1
        have : i = s - c.first := by
          rw [← ha] at h
          exact ((List.getElem?_inj hj hd).mp h).symm
        omega
      · intro h
        have : s - c.first = i := by omega
        rw [this]; exact ha
    by_cases hq : p.2 = s
    · rw [beq_iff_eq.mpr (key.mpr hq), beq_iff_eq.mpr hq]
    · have : ¬ u.seq = some p.1 := fun h => hq (key.mp h)
      rw [beq_eq_false_iff_ne.mpr this, beq_eq_false_iff_ne.mpr hq]
  · intro s u h
    obtain ⟨_, _, _, h4, h5⟩ := hmu s u h
    simp [accepted, h4, h5]

/-! ### Updates which match no stop -/

theorem align_filter (c : Ctx) (ps : List (Nat × Nat)) (p : StopUpd → Bool)
    (hp : ∀ u, p u = false → ps.any (matchesAt c u) = false) : ∀ us,
    align c ps (us.filter p) = ((align c ps us).1, (align c ps us).2.filter p) := by
  intro us
  induction us with
  | nil => rfl
  | cons u us ih =>
    cases hu : p u with
    | true =>
      rw [List.filter_cons_of_pos hu]
      simp only [align]
      split
      · simp [hu]
      · exact ih
    | false =>
      rw [List.filter_cons_of_neg (by simp [hu])]
      simp only [align, hp u hu]
      exact ih

theorem align_true {c : Ctx} {ps : List (Nat × Nat)} {us us' : List StopUpd} {u : StopUpd}
    (h : align c ps us = (true, u :: us')) : ps.any (matchesAt c u) = true := by
  induction us with
  | nil => simp [align] at h
  | cons v us ih =>
    simp only [align] at h
    split at h
    · rename_i hv
      simp only [Prod.mk.injEq, List.cons.injEq] at h
      rw [← h.2.1]; exact hv
    · exact ih h

theorem runLoop_filter (c : Ctx) (p : StopUpd → Bool) : ∀ (ps : List (Nat × Nat)) us s,
    (∀ u, p u = false → ps.any (matchesAt c u) = false) →
    runLoop c ps (us.filter p) s = runLoop c ps us s := by
  intro ps
  induction ps with
  | nil => intro us s _; simp [runLoop]
  | cons q ps ih =>
    intro us s hp
    have hp' : ∀ u, p u = false → ps.any (matchesAt c u) = false := by
      intro u hu
      have := hp u hu
      simp only [List.any_cons, Bool.or_eq_false_iff] at this
      exact this.2
    have ha := align_filter c (q :: ps) p hp us
    rw [runLoop, runLoop, ha]
    generalize hal : align c (q :: ps) us = r
    obtain ⟨b, l⟩ := r
    cases b with
    | false => simp only; exact ih _ _ hp'
    | true =>
      cases l with
      | nil => simp only [List.filter_nil]
      | cons u us' =>
        have hpu : p u = true := by
          cases h : p u with
          | true => rfl
          | false => have := align_true hal; rw [hp u h] at this; cases this
        simp only [List.filter_cons_of_pos hpu]
        cases applyStop c s.1 q.2 u with
        | none =>
          simp only
          have := ih (u :: us') s hp'
          rwa [List.filter_cons_of_pos hpu] at this
        | some st => exact ih _ _ hp'

/-- **C31 (unrelated updates).** Stop time updates which match no stop of the run have no influence,
wherever they stand in the message. -/
theorem C31_unmatched_ignored (c : Ctx) (us : List StopUpd) (st : St) :
    updateRun c us st = updateRun c (us.filter (fun u => (visits c).any (matchesAt c u))) st := by
  simp only [updateRun]
  rw [runLoop_filter c _ _ _ _ (fun u h => h)]

/-! ### Example and limits -/

namespace PropagateDemo

/-- A run with three stops (8:00, 8:10/8:12, 8:20 on the base day). -/
def ctx : Ctx where
  scheduled := true
  base := 20000
  static := fun e => 20000 * 1440 + [480, 490, 492, 500].getD e 500
  locSeq := [⟨0, true, true, true, true⟩, ⟨1, true, true, true, true⟩, ⟨2, true, true, true, true⟩]
  seqs := [1, 2, 3]
  first := 0
  locId := fun l => ["A", "B", "C"].getD l ""
  lookup := fun s => if s = "A" then some 0 else if s = "B" then some 1 else if s = "C" then some 2 else none
  equiv := fun l => [l]

/-- The real-time copy before the message. -/
def st : St := ⟨[480, 490, 492, 500], ctx.locSeq, []⟩

/-- 5 minutes delay on arrival at the second stop. -/
def upd : StopUpd := ⟨some 2, none, none, false, some ⟨some 300, none⟩, none⟩

/-- Assignment to stops. -/
def mu : Nat → Option StopUpd := fun s => if s = 1 then some upd else none

theorem C31_demo_situation : Situation ctx [upd] mu st 3 where
  scheduled := rfl
  nStops := rfl
  two := by decide
  some_ := by decide
  range := by decide
  epoch := by decide
  size := rfl
  ordered := by
    intro i j a b hij ha hb
    have hj : j < 4 := (List.getElem?_eq_some_iff.mp hb).1
    have : ∀ j : Fin 4, ∀ i : Fin 4, i ≤ j → [480, 490, 492, 500][i] ≤ ([480, 490, 492, 500] : List Int)[j] := by decide
    have h := this ⟨j, hj⟩ ⟨i, by omega⟩ hij
    have ha' := (List.getElem?_eq_some_iff.mp ha).2
    have hb' := (List.getElem?_eq_some_iff.mp hb).2
    rw [← ha', ← hb']; exact h
  staticOrdered := by
    intro i j hij hj
    have : ∀ j : Fin 4, ∀ i : Fin 4, i ≤ j → ctx.static i ≤ ctx.static j := by decide
    exact this ⟨j, hj⟩ ⟨i, by omega⟩ hij
  staticNear := by
    intro i hi
    have : ∀ i : Fin 4, ctx.base * 1440 - 8000 ≤ ctx.static i ∧ ctx.static i ≤ ctx.base * 1440 + 8000 := by decide
    exact this ⟨i, hi⟩
  near := by
    intro i hi
    have : ∀ i : Fin 4, ctx.static i - 16000 ≤ T ctx st i ∧ T ctx st i ≤ ctx.static i + 16000 := by decide
    exact this ⟨i, hi⟩
  assigns := C31_by_sequence ctx mu rfl (by decide) (by
    intro s u h
    unfold mu at h
    split at h
    · cases h; subst s; decide
    · cases h)
  delays := by
    intro e ev d ho hd
    have key : ∀ k, arrOf (mu k) = none ∨ arrOf (mu k) = some ⟨some 300, none⟩ := by
      intro k; unfold mu; split
      · right; rfl
      · left; rfl
    have key2 : ∀ k, depOf (mu k) = none := by
      intro k; unfold mu; split <;> rfl
    have key3 : dep0Of (mu 0) = none := rfl
    unfold own at ho
    split at ho
    · rcases key ((e + 1) / 2) with h | h
      · rw [h] at ho; cases ho
      · rw [h] at ho; cases ho; cases hd; decide
    · split at ho
      · rw [key3] at ho; cases ho
      · rw [key2] at ho; cases ho
  times := by
    intro e ev ho hd
    have key : ∀ k, arrOf (mu k) = none ∨ arrOf (mu k) = some ⟨some 300, none⟩ := by
      intro k; unfold mu; split
      · right; rfl
      · left; rfl
    have key2 : ∀ k, depOf (mu k) = none := by
      intro k; unfold mu; split <;> rfl
    have key3 : dep0Of (mu 0) = none := rfl
    unfold own at ho
    split at ho
    · rcases key ((e + 1) / 2) with h | h
      · rw [h] at ho; cases ho
      · rw [h] at ho; cases ho; cases hd
    · split at ho
      · rw [key3] at ho; cases ho
      · rw [key2] at ho; cases ho

/-- The delay of the second stop reaches the rest of the run, the first departure stays. -/
example : (updateRun ctx [upd] st).1.times = [480, 495, 497, 505] := by decide

end PropagateDemo

/-- **Finding.** If the stop named by an update is unknown or not merely another track, the `continue` in
the loop skips the stop completely: neither the times in this update nor the delay in force are applied to
this stop, although the stops before and after it are delayed.  Here the run is announced five minutes
late at its first and second stop; the second stop (arrival 490, departure 492) stays on schedule while the
first and the third one are delayed. -/
theorem C31_rejected_stop_counterexample :
    let u0 : StopUpd := ⟨some 1, none, none, false, none, some ⟨some 300, none⟩⟩
    let u1 : StopUpd := ⟨some 2, none, some "X", false, some ⟨some 300, none⟩, some ⟨some 300, none⟩⟩
    (updateRun PropagateDemo.ctx [u0, u1] PropagateDemo.st).1.times = [485, 490, 492, 505] := by decide

/-- **Finding.** For additional (unscheduled) trips the bound is counted twice: an arrival given 10
minutes before the departure is lifted to the departure, and these 10 minutes are then carried over as
"delay" to the next event without an update. -/
theorem C31_added_trip_counterexample :
    let c := { PropagateDemo.ctx with scheduled := false, seqs := [0, 1, 2] }
    let b := 20000 * 1440 * 60
    let u0 : StopUpd := ⟨none, some "A", none, false, none, some ⟨none, some (b + 600 * 60)⟩⟩
    let u1 : StopUpd := ⟨none, some "B", none, false, some ⟨none, some (b + 590 * 60)⟩, none⟩
    let u2 : StopUpd := ⟨none, some "C", none, false, some ⟨none, some (b + 600 * 60)⟩, none⟩
    (updateRun c [u0, u1, u2] ⟨[0, 0, 0, 0], c.locSeq, []⟩).1.times = [600, 600, 610, 610] := by decide

end Nigiri.Rt
