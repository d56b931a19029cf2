import Verif.Props.RtUpdate

/-!
# Proofs for C31: event by event view of `update_run`
-/

namespace Nigiri.Rt

/-- Event time in an array of stop times. -/
def tT (c : Ctx) (ts : List Int) (e : Nat) : Int := dayToUnix c.base + ts.getD e 0

/-- Write an event time. -/
def setT (c : Ctx) (ts : List Int) (e : Nat) (t : Int) : List Int := ts.set e (unixToDelta c.base t)

/-- Event which starts or ends the leg before event `e`. -/
def prevT (c : Ctx) (s : List Int × Option Prop') (e : Nat) : Int :=
  match s.2 with
  | some p => p.time
  | none => if e = 0 then 0 else tT c s.1 (e - 1)

/-- One event of a scheduled run with its own message part `o`. -/
def evStepT (c : Ctx) (o : Option Ev) (s : List Int × Option Prop') (e : Nat) : List Int × Option Prop' :=
  match o with
  | some ev =>
    match ev.delay with
    | some d =>
      let ts := setT c s.1 e (max (prevT c s e) (c.static e + wrap16 (toMinutes d)))
      (ts, some ⟨tT c ts e, wrap16 (toMinutes d)⟩)
    | none =>
      let b := max (prevT c s e) (toMinutes (ev.time.getD 0))
      (setT c s.1 e b, some ⟨b, wrap16 (b - c.static e)⟩)
  | none =>
    match s.2 with
    | some p =>
      let ts := setT c s.1 e (max p.time (c.static e + p.delay))
      (ts, some ⟨tT c ts e, p.delay⟩)
    | none => s

/-- Message part for the arrival at a stop. -/
def arrOf (mu : Option StopUpd) : Option Ev := mu.bind fun u => if Ev.has u.arr then u.arr else none
/-- Message part for the departure at a stop which is not the first one of the transport. -/
def depOf (mu : Option StopUpd) : Option Ev := mu.bind fun u => if Ev.has u.dep then u.dep else none
/-- Message part for the first departure: the arrival counts if no departure is given. -/
def dep0Of (mu : Option StopUpd) : Option Ev :=
  mu.bind fun u => if u.dep.isNone then (if Ev.has u.arr then u.arr else none)
    else (if Ev.has u.dep then u.dep else none)

/-- Projection to the stop times. -/
def pr (s : St × Option Prop') : List Int × Option Prop' := (s.1.times, s.2)

theorem evTime_tT (c : Ctx) (st : St) (e : Nat) : evTime c st e = tT c st.times e := rfl

theorem updateEvent_pr (c : Ctx) (hs : c.scheduled = true) (st : St) (pred : Option Prop') (e : Nat)
    (ev : Ev) (x : Int) (hx : x = prevT c (st.times, pred) e) :
    ((updateEvent c st e ev x).1.times, some (updateEvent c st e ev x).2) =
      evStepT c (some ev) (st.times, pred) e := by
  obtain ⟨del, tim⟩ := ev
  unfold evStepT updateEvent
  cases del with
  | some d => simp [updateDelay, updateTime, hs, setT, evTime_tT, hx]
  | none => simp [updateTime, hs, setT, hx]

theorem updateDelay_pr (c : Ctx) (hs : c.scheduled = true) (st : St) (p : Prop') (e : Nat) :
    ((updateDelay c st e p.delay (some p.time)).1.times,
      some (updateDelay c st e p.delay (some p.time)).2) =
      evStepT c none (st.times, some p) e := by
  simp [evStepT, updateDelay, updateTime, hs, setT, evTime_tT]

theorem stepArr_pr (c : Ctx) (hs : c.scheduled = true) (stop : Nat) (mu : Option StopUpd)
    (s : St × Option Prop') (h : stop ≠ c.first) (h0 : stop ≠ 0) :
    pr (stepArr c stop mu s) = evStepT c (arrOf mu) (pr s) (2 * stop - 1) := by
  obtain ⟨st, pred⟩ := s
  have e1 : evIdx stop true = 2 * stop - 1 := rfl
  unfold stepArr
  rw [if_pos h]
  show pr (match arrOf mu with | some ev => _ | none => _) = _
  cases arrOf mu with
  | some ev =>
    simp only [pr, e1]
    apply updateEvent_pr c hs
    cases pred with
    | some p => rfl
    | none =>
      simp only [fallbackArr, prevT, if_neg h0, evTime_tT]
      rw [if_neg (by omega)]
      simp only [evIdx]
      congr 1
      simp only [Bool.false_eq_true, if_false]
      omega
  | none =>
    cases pred with
    | some p => simp only [pr, e1]; exact updateDelay_pr c hs st p _
    | none => rfl

theorem stepDep_main (c : Ctx) (hs : c.scheduled = true) (stop : Nat) (mu : Option StopUpd)
    (st : St) (pred : Option Prop') :
    pr (match depOf mu with
      | some ev =>
        let r := updateEvent c st (evIdx stop false) ev (fallbackDep c st pred stop)
        (r.1, some r.2)
      | none =>
        match pred with
        | some p =>
          let r := updateDelay c st (evIdx stop false) p.delay (some p.time)
          (r.1, some r.2)
        | none => (st, pred)) = evStepT c (depOf mu) (st.times, pred) (2 * stop) := by
  have e1 : evIdx stop false = 2 * stop := rfl
  cases depOf mu with
  | some ev =>
    simp only [pr, e1]
    apply updateEvent_pr c hs
    cases pred with
    | some p => rfl
    | none =>
      simp only [fallbackDep, prevT, evTime_tT]
      by_cases hz : stop = 0
      · rw [if_pos hz, if_pos (by omega)]
      · rw [if_neg hz, if_neg (by omega)]; rfl
  | none =>
    cases pred with
    | some p => simp only [pr, e1]; exact updateDelay_pr c hs st p _
    | none => rfl

theorem stepDep_pr (c : Ctx) (hs : c.scheduled = true) (stop : Nat) (mu : Option StopUpd)
    (s : St × Option Prop') (h : stop ≠ c.locSeq.length - 1)
    (h0 : stop = 0 → s.2 = none) :
    pr (stepDep c stop mu s) =
      evStepT c (if stop = 0 then dep0Of mu else depOf mu) (pr s) (2 * stop) := by
  obtain ⟨st, pred⟩ := s
  have e1 : evIdx stop false = 2 * stop := rfl
  have hmain := stepDep_main c hs stop mu st pred
  unfold stepDep
  by_cases hz : stop = 0
  · have hp : pred = none := h0 hz
    subst hp
    rw [if_pos hz]
    cases mu with
    | none => simp only [Option.bind_none]; rw [if_pos h]; exact hmain
    | some u =>
      simp only [Option.bind_some, dep0Of]
      by_cases hd : u.dep.isNone
      · by_cases ha : Ev.has u.arr
        · obtain ⟨ev, hev⟩ : ∃ ev, u.arr = some ev := by
            cases h : u.arr with
            | none => rw [h] at ha; cases ha
            | some ev => exact ⟨ev, rfl⟩
          rw [if_pos (by simp [hz, ha, hd]), if_pos hd, if_pos ha, hev]
          simp only [pr, e1]
          apply updateEvent_pr c hs
          simp [prevT, hz]
        · rw [if_neg (by simp [ha]), if_pos hd, if_neg ha]
          rw [if_pos h]
          have : depOf (some u) = none := by
            have hd' : u.dep = none := by simpa using hd
            simp [depOf, hd', Ev.has]
          rw [this] at hmain
          have hm2 : (if Ev.has u.dep then u.dep else none) = none := by simpa [depOf] using this
          simp only [hm2]
          exact hmain
      · rw [if_neg (by simp [hd]), if_neg hd]
        rw [if_pos h]
        exact hmain
  · rw [if_neg hz]
    have : (mu.bind fun u => if (stop = 0 && Ev.has u.arr && u.dep.isNone) = true then u.arr else none) = none := by
      cases mu <;> simp [hz]
    simp only [this]
    rw [if_pos h]
    exact hmain

/-! ### Which update is used at which stop -/

/-- The stop change of the update is possible (no unknown stop, only a change of track). -/
def accepted (c : Ctx) (stop : Nat) (u : StopUpd) : Bool :=
  let orig := c.locSeq.getD stop ⟨0, false, false, false, false⟩
  u.skipped ||
    (if u.assigned.isSome || (u.stopId.isSome && u.stopId != some (c.locId orig.loc)) then
      match c.lookup (u.assigned.getD (u.stopId.getD "")) with
      | none => false
      | some l => (c.equiv orig.loc).contains l
    else true)

theorem applyStop_accepted {c : Ctx} {st : St} {stop : Nat} {u : StopUpd} (h : accepted c stop u = true) :
    ∃ st', applyStop c st stop u = some st' ∧ st'.times = st.times := by
  unfold accepted at h
  simp only at h
  cases hA : applyStop c st stop u with
  | some st' => exact ⟨st', rfl, applyStop_times hA⟩
  | none =>
    exfalso
    unfold applyStop at hA
    simp only at hA
    by_cases h1 : u.skipped = true
    · rw [if_pos h1] at hA; cases hA
    · rw [if_neg h1] at hA
      by_cases h2 : (u.assigned.isSome || (u.stopId.isSome &&
          u.stopId != some (c.locId (c.locSeq.getD stop ⟨0, false, false, false, false⟩).loc))) = true
      · rw [if_pos h2] at hA
        rw [if_pos h2] at h
        cases hl : c.lookup (u.assigned.getD (u.stopId.getD "")) with
        | none => rw [hl] at h; simp [h1] at h
        | some l =>
          rw [hl] at h hA
          simp only at h hA
          simp only [h1, Bool.false_or] at h
          rw [if_pos h] at hA; cases hA
      · rw [if_neg h2] at hA; cases hA

/-- The stop times after the main loop if the update used at each stop is known. -/
def plain (c : Ctx) (mu : Nat → Option StopUpd) : List Nat → List Int × Option Prop' → List Int × Option Prop'
  | [], s => s
  | k :: ks, s =>
    let s := if k ≠ c.first then evStepT c (arrOf (mu k)) s (2 * k - 1) else s
    let s := if k ≠ c.locSeq.length - 1 then
      evStepT c (if k = 0 then dep0Of (mu k) else depOf (mu k)) s (2 * k) else s
    plain c mu ks s

theorem stepArr_first (c : Ctx) (stop : Nat) (mu) (s) (h : stop = c.first) : stepArr c stop mu s = s := by
  simp [stepArr, h]

theorem stepDep_last (c : Ctx) (stop : Nat) (mu) (s) (h : stop = c.locSeq.length - 1) (h0 : stop ≠ 0) :
    stepDep c stop mu s = s := by
  unfold stepDep
  have : (mu.bind fun u => if (stop = 0 && Ev.has u.arr && u.dep.isNone) = true then u.arr else none) = none := by
    cases mu <;> simp [h0]
  simp only [this]
  rw [if_neg (by simp [h])]

theorem steps_pr (c : Ctx) (hs : c.scheduled = true) (k : Nat) (mu : Option StopUpd) (s : St × Option Prop')
    (hn : 2 ≤ c.locSeq.length) (hk : c.first ≤ k) (h0 : k = 0 → s.2 = none) :
    pr (stepDep c k mu (stepArr c k mu s)) =
      (if k ≠ c.locSeq.length - 1 then
        evStepT c (if k = 0 then dep0Of mu else depOf mu)
          (if k ≠ c.first then evStepT c (arrOf mu) (pr s) (2 * k - 1) else pr s) (2 * k)
      else (if k ≠ c.first then evStepT c (arrOf mu) (pr s) (2 * k - 1) else pr s)) := by
  by_cases hl : k ≠ c.locSeq.length - 1
  · rw [if_pos hl]
    by_cases hf : k ≠ c.first
    · rw [if_pos hf, stepDep_pr c hs k mu _ hl (by intro h; omega), stepArr_pr c hs k mu s hf (by omega)]
    · rw [if_neg hf, stepArr_first _ _ _ _ (by omega), stepDep_pr c hs k mu _ hl h0]
  · rw [if_neg hl]
    rw [stepDep_last _ _ _ _ (by omega) (by omega)]
    by_cases hf : k ≠ c.first
    · rw [if_pos hf, stepArr_pr c hs k mu s hf (by omega)]
    · rw [if_neg hf, stepArr_first _ _ _ _ (by omega)]

theorem align_hit {c : Ctx} {p : Nat × Nat} {ps : List (Nat × Nat)} {u : StopUpd} {us : List StopUpd}
    (h : matchesAt c u p = true) : align c (p :: ps) (u :: us) = (true, u :: us) := by
  simp [align, h]

theorem align_miss {c : Ctx} {p : Nat × Nat} {ps : List (Nat × Nat)} {us : List StopUpd}
    (h : ∀ u ∈ us, matchesAt c u p = false ∧ ps.any (matchesAt c u) = true) :
    align c (p :: ps) us = (false, us) := by
  cases us with
  | nil => rfl
  | cons u us =>
    have := h u (by simp)
    simp [align, this.1, this.2]

/-- The message assigns update `mu s` to stop `s`: the updates are in the order of travel, each
matches exactly its stop, and its stop change is acceptable. -/
structure Assigns (c : Ctx) (us : List StopUpd) (mu : Nat → Option StopUpd) : Prop where
  order : us = (List.range' c.first c.seqs.length).filterMap mu
  only : ∀ s u, mu s = some u → ∀ p ∈ visits c, matchesAt c u p = (p.2 == s)
  ok : ∀ s u, mu s = some u → accepted c s u = true

theorem runLoop_plain (c : Ctx) (hs : c.scheduled = true) (mu : Nat → Option StopUpd)
    (hn : 2 ≤ c.locSeq.length)
    (ho : ∀ s u, mu s = some u → ∀ p ∈ visits c, matchesAt c u p = (p.2 == s))
    (hok : ∀ s u, mu s = some u → accepted c s u = true) :
    ∀ (ps : List (Nat × Nat)) (k : Nat) (s : St × Option Prop'), (∀ p ∈ ps, p ∈ visits c) →
      ps.map (·.2) = List.range' k ps.length → c.first ≤ k → (k = 0 → s.2 = none) →
      pr (runLoop c ps ((List.range' k ps.length).filterMap mu) s) =
        plain c mu (List.range' k ps.length) (pr s) := by
  intro ps
  induction ps with
  | nil => intro k s _ _ _ _; rfl
  | cons p ps ih =>
    intro k s hmem hmap hk h0
    simp only [List.map_cons, List.length_cons, List.range'_succ, List.cons.injEq] at hmap
    obtain ⟨hp, hmap⟩ := hmap
    simp only [List.length_cons, List.range'_succ, plain]
    have hlater : ∀ u ∈ (List.range' (k + 1) ps.length).filterMap mu,
        matchesAt c u p = false ∧ ps.any (matchesAt c u) = true := by
      intro u hu
      obtain ⟨j, hj, hju⟩ := List.mem_filterMap.mp hu
      constructor
      · rw [ho j u hju p (hmem p (by simp))]
        simp only [List.mem_range'_1] at hj
        simp; omega
      · rw [← hmap] at hj
        obtain ⟨q, hq, hqj⟩ := List.mem_map.mp hj
        rw [List.any_eq_true]
        exact ⟨q, hq, by rw [ho j u hju q (hmem q (by simp [hq]))]; simp [hqj]⟩
    have hmem' : ∀ q ∈ ps, q ∈ visits c := fun q hq => hmem q (by simp [hq])
    cases hmu : mu k with
    | some u =>
      rw [List.filterMap_cons_some hmu]
      have hm : matchesAt c u p = true := by
        rw [ho k u hmu p (hmem p (by simp))]; simp [hp]
      obtain ⟨st', hst', htimes⟩ := applyStop_accepted (st := s.1) (hok k u hmu)
      rw [runLoop, align_hit hm]
      simp only [hp, hst']
      rw [ih (k + 1) _ hmem' hmap (by omega) (by omega)]
      rw [steps_pr c hs k (some u) (st', s.2) hn hk h0]
      have : pr (st', s.2) = pr s := by simp [pr, htimes]
      rw [this]
    | none =>
      rw [List.filterMap_cons_none hmu]
      rw [runLoop, align_miss hlater]
      simp only [hp]
      rw [ih (k + 1) _ hmem' hmap (by omega) (by omega)]
      rw [steps_pr c hs k none s hn hk h0]

/-- The message part for event `e` (even: departure of stop `e/2`, odd: arrival at `(e+1)/2`). -/
def own (mu : Nat → Option StopUpd) (e : Nat) : Option Ev :=
  if e % 2 = 1 then arrOf (mu ((e + 1) / 2))
  else if e = 0 then dep0Of (mu 0) else depOf (mu (e / 2))

/-- The events handled by the loop for `len` stops from `k` on. -/
def eventsOf (c : Ctx) (k len : Nat) : List Nat :=
  match len with
  | 0 => []
  | len + 1 => (if k ≠ c.first then [2 * k - 1] else []) ++
      (if k ≠ c.locSeq.length - 1 then [2 * k] else []) ++ eventsOf c (k + 1) len

theorem plain_eventsOf (c : Ctx) (mu : Nat → Option StopUpd) : ∀ len k s, c.first ≤ k →
    plain c mu (List.range' k len) s = (eventsOf c k len).foldl (fun s e => evStepT c (own mu e) s e) s := by
  intro len
  induction len with
  | zero => intro k s _; rfl
  | succ len ih =>
    intro k s hk
    simp only [List.range'_succ, plain, eventsOf, List.foldl_append]
    rw [ih _ _ (by omega)]
    congr 1
    have h1 : k ≠ c.first → own mu (2 * k - 1) = arrOf (mu k) := by
      intro h
      have hk0 : k ≠ 0 := by omega
      have : (2 * k - 1) % 2 = 1 := by omega
      have h2 : (2 * k - 1 + 1) / 2 = k := by omega
      simp only [own, this, if_true, h2]
    have h2 : own mu (2 * k) = if k = 0 then dep0Of (mu k) else depOf (mu k) := by
      have : (2 * k) % 2 ≠ 1 := by omega
      simp only [own, if_neg this]
      by_cases hz : k = 0
      · subst hz; rfl
      · rw [if_neg (by omega), if_neg hz]
        congr 2; omega
    by_cases ha : k ≠ c.first <;> by_cases hb : k ≠ c.locSeq.length - 1 <;>
      simp [ha, hb, h1, h2]

/-- Number of events handled. -/
def nEvents (c : Ctx) (k len : Nat) : Nat :=
  if len = 0 then 0 else if k + len = c.locSeq.length then 2 * len - 2 else 2 * len - 1

theorem eventsOf_later (c : Ctx) : ∀ len k, c.first < k → k + len ≤ c.locSeq.length →
    eventsOf c k len = List.range' (2 * k - 1)
      (if len = 0 then 0 else if k + len = c.locSeq.length then 2 * len - 1 else 2 * len) := by
  intro len
  induction len with
  | zero => intro k _ _; rfl
  | succ len ih =>
    intro k hk hl
    rw [eventsOf, ih (k + 1) (by omega) (by omega), if_pos (by omega : k ≠ c.first)]
    have hz : 2 * k = 2 * k - 1 + 1 := by omega
    by_cases hlast : k ≠ c.locSeq.length - 1
    · rw [if_pos hlast]
      have e1 : 2 * (k + 1) - 1 = 2 * k - 1 + 1 + 1 := by omega
      have hgen : ∀ x y, y = x + 2 →
          [2 * k - 1] ++ [2 * k] ++ List.range' (2 * (k + 1) - 1) x = List.range' (2 * k - 1) y := by
        intro x y h; subst h
        rw [List.range'_succ, List.range'_succ, e1]
        simp only [List.cons_append, List.nil_append]
        rw [← hz]
      apply hgen
      split <;> split <;> (try split) <;> (try split) <;> omega
    · have h0 : len = 0 := by omega
      subst h0
      rw [if_neg hlast]
      have hgen : ∀ x y, x = 0 → y = 1 →
          [2 * k - 1] ++ [] ++ List.range' (2 * (k + 1) - 1) x = List.range' (2 * k - 1) y := by
        intro x y hx hy; subst hx hy; rfl
      apply hgen
      · rfl
      · split
        · omega
        · split <;> omega

theorem eventsOf_eq (c : Ctx) (len : Nat) (hn : c.first + len ≤ c.locSeq.length) (hl : 1 ≤ len) :
    eventsOf c c.first len = List.range' (2 * c.first) (nEvents c c.first len) := by
  obtain ⟨len, rfl⟩ : ∃ l, len = l + 1 := ⟨len - 1, by omega⟩
  rw [eventsOf, if_neg (by simp), eventsOf_later c len _ (by omega) (by omega)]
  unfold nEvents
  rw [if_neg (by omega : ¬ len + 1 = 0)]
  by_cases hlast : c.first ≠ c.locSeq.length - 1
  · rw [if_pos hlast]
    have hgen : ∀ x y, y = x + 1 →
        [] ++ [2 * c.first] ++ List.range' (2 * (c.first + 1) - 1) x = List.range' (2 * c.first) y := by
      intro x y h; subst h
      rw [List.range'_succ]
      have : 2 * (c.first + 1) - 1 = 2 * c.first + 1 := by omega
      rw [this]; rfl
    apply hgen
    split <;> split <;> (try split) <;> (try split) <;> omega
  · have h0 : len = 0 := by omega
    subst h0
    rw [if_neg hlast]
    have hgen : ∀ x y, x = 0 → y = 0 →
        [] ++ [] ++ List.range' (2 * (c.first + 1) - 1) x = List.range' (2 * c.first) y := by
      intro x y hx hy; subst hx hy; rfl
    apply hgen
    · rfl
    · split <;> omega

end Nigiri.Rt
