import Verif.Proofs.RtTimetable
import Verif.Proofs.RtPropagate

/-!
# C29, C47, C48: what real-time messages change
-/

namespace Nigiri.Rt

/-- The static timetable has fewer bitfields than the flag bit allows and its index entries are valid
(`create_rt_timetable.cc:13-15` verifies the former). -/
def Tt.Ok (tt : Tt) : Prop :=
  tt.bitfields.length < 2 ^ 31 ∧ ∀ i ∈ tt.trafficDays, i < tt.bitfields.length

/-- A history the real-time timetable can hold: it addresses existing transports and needs fewer than
2^31 bitfields (two per addressed run at most). -/
def Fits (tt : Tt) (es : List Entity) : Prop :=
  (es.map Entity.cost).sum < 2 ^ 31 ∧ ∀ e ∈ es, ∀ k ∈ e.addresses, k.1 < tt.trafficDays.length

/-- Does the transport operate on the day according to the static timetable? -/
def staticActive (tt : Tt) (t d : Nat) : Bool :=
  (tt.bitfields.getD (tt.trafficDays.getD t 0) (fun _ => false)) d

theorem staticActive_eq {tt : Tt} (h : tt.Ok) {t : Nat} (ht : t < tt.trafficDays.length) (d : Nat) :
    isActive tt (create tt 0) t d = staticActive tt t d := by
  have hm : tt.trafficDays.getD t 0 ∈ tt.trafficDays := by
    rw [List.getD_eq_getElem?_getD, List.getElem?_eq_getElem ht, Option.getD_some]; exact List.getElem_mem _
  have h1 := h.2 _ hm
  have h2 := h.1
  have h0 := and_rtFlag_lt (i := tt.trafficDays.getD t 0) (by omega)
  show trafficDaysOf tt (create tt 0) (tt.trafficDays.getD t 0) d = _
  unfold trafficDaysOf
  rw [if_neg (by rw [h0]; simp)]
  rfl

theorem processAll_inv {tt : Tt} (h : tt.Ok) (base : Int) {es : List Entity} (hf : Fits tt es) :
    ∃ A B, (∀ k, k ∈ A ↔ ∃ e ∈ es, k ∈ e.addresses) ∧ Inv tt A B (processAll tt base es) := by
  have h0 := inv_create tt base (fun i hi => by have := h.2 i hi; have := h.1; omega)
  obtain ⟨A, B, hA, _, hI⟩ := inv_processAll es [] 0 _ h0 (by have := hf.1; omega) hf.2
  exact ⟨A, B, by simpa using hA, hI⟩

/-- **C29.** After any history of cancellations, updates and added trips, a (transport, day) is active
in the real-time view if and only if it is in the static timetable and no message addressed it. -/
theorem C29_exactly_the_addressed {tt : Tt} (h : tt.Ok) (base : Int) {es : List Entity} (hf : Fits tt es)
    {t : Nat} (ht : t < tt.trafficDays.length) (d : Nat) :
    isActive tt (processAll tt base es) t d = true ↔
      staticActive tt t d = true ∧ ∀ e ∈ es, (t, d) ∉ e.addresses := by
  obtain ⟨A, B, hA, hI⟩ := processAll_inv h base hf
  rw [hI.active t d ht, staticActive_eq h ht]
  have : (t, d) ∈ A ↔ ∃ e ∈ es, (t, d) ∈ e.addresses := hA _
  simp only [Bool.and_eq_true, Bool.not_eq_true', decide_eq_false_iff_not, this]
  grind

/-- **C29 (one instance).** The lookup from a static (transport, day) to its real-time instance and the
back reference of the instances are inverse to each other; in particular no static run has two
instances. -/
theorem C29_one_instance {tt : Tt} (h : tt.Ok) (base : Int) {es : List Entity} (hf : Fits tt es)
    (k : Nat × Nat) (rt : Nat) :
    (processAll tt base es).byStatic.lookup k = some rt ↔
      ∃ x, (processAll tt base es).transports[rt]? = some x ∧ x.static = some k := by
  obtain ⟨A, B, _, hI⟩ := processAll_inv h base hf
  exact hI.inst k rt

/-- **C29 (never both).** A static run with a real-time instance is not active in the static view, so
routing never sees it twice. -/
theorem C29_not_twice {tt : Tt} (h : tt.Ok) (base : Int) {es : List Entity} (hf : Fits tt es)
    {t d rt : Nat} (ht : t < tt.trafficDays.length) {x : RtTransport}
    (hx : (processAll tt base es).transports[rt]? = some x) (hxs : x.static = some (t, d)) :
    isActive tt (processAll tt base es) t d = false := by
  obtain ⟨A, B, hA, hI⟩ := processAll_inv h base hf
  rw [hI.active t d ht]
  have h1 : (t, d) ∈ A := hI.keys _ (by rw [(hI.inst (t, d) rt).mpr ⟨x, hx, hxs⟩]; rfl)
  simp [h1]

/-! ### Other instances are left alone -/

theorem updateExisting_other (tt : Tt) (r : Rtt) (src : Nat) (run : Run) (rt : Nat) (us : List StopUpd)
    (i : Nat) (hi : i ≠ rt) :
    (updateExisting tt r src run rt us).transports[i]? = r.transports[i]? := by
  unfold updateExisting
  split
  · rfl
  · simp only
    split
    · unfold cancelRun
      simp only
      have h1 : ∀ (r' : Rtt) t d, (deactivate tt r' t d).transports = r'.transports := fun _ _ _ => rfl
      cases run.t with
      | none =>
        simp only
        rw [List.getElem?_modify, List.getElem?_set_ne (fun h => hi h.symm)]
        cases r.transports[i]? with
        | none => rfl
        | some x => show some (if rt = i then _ else x) = some x; rw [if_neg (fun h => hi h.symm)]
      | some td =>
        simp only [h1]
        rw [List.getElem?_modify, List.getElem?_set_ne (fun h => hi h.symm)]
        cases r.transports[i]? with
        | none => rfl
        | some x => show some (if rt = i then _ else x) = some x; rw [if_neg (fun h => hi h.symm)]
    · simp only
      rw [List.getElem?_set_ne (fun h => hi h.symm)]

theorem modify_other (r : Rtt) (rt : Nat) (f : RtTransport → RtTransport) (i : Nat) (hi : i ≠ rt) :
    (r.transports.modify rt f)[i]? = r.transports[i]? := by
  rw [List.getElem?_modify]
  cases r.transports[i]? with
  | none => rfl
  | some x => show some (if rt = i then _ else x) = some x; rw [if_neg (fun h => hi h.symm)]

theorem processRun_other {tt : Tt} {A : List (Nat × Nat)} {B : Nat} {r : Rtt} (h : Inv tt A B r)
    (src : Nat) (us : List StopUpd) (y : Resolved) {i : Nat} {x : RtTransport}
    (hx : r.transports[i]? = some x) (hxs : x.static ≠ some y.t) :
    (processRun tt src us r y).transports[i]? = some x := by
  simp only [processRun, resolveRt_static]
  cases hl : r.byStatic.lookup y.t with
  | some rt =>
    simp only
    have hne : i ≠ rt := by
      rintro rfl
      obtain ⟨z, hz, hzs⟩ := (h.inst _ _).mp hl
      rw [hx] at hz; cases hz
      exact hxs hzs
    rw [updateExisting_other _ _ _ _ _ _ _ hne, modify_other _ _ _ _ hne, hx]
  | none =>
    simp only
    have hlt : i < r.transports.length := (List.getElem?_eq_some_iff.mp hx).1
    obtain ⟨⟨t, d⟩, f, q⟩ := y
    have hrt : (addRtTransport tt r src (some (t, d)) [] [] "").2 = r.transports.length := rfl
    rw [updateExisting_other _ _ _ _ _ _ _ (by rw [hrt]; omega)]
    simp only [addRtTransport, if_true]
    have hd : (deactivate tt r t d).transports = r.transports := rfl
    simp only [hd]
    rw [List.getElem?_append_left hlt]; exact hx

theorem cancel_other {tt : Tt} {A : List (Nat × Nat)} {B : Nat} {r : Rtt} (h : Inv tt A B r)
    (src : Nat) (y : Resolved) {i : Nat} {x : RtTransport}
    (hx : r.transports[i]? = some x) (hxs : x.static ≠ some y.t) :
    (cancelRun tt r (resolveRt r y.run "" src)).transports[i]? = some x := by
  rw [resolveRt_static]
  unfold cancelRun
  have h1 : ∀ (r' : Rtt) t d, (deactivate tt r' t d).transports = r'.transports := fun _ _ _ => rfl
  simp only [h1]
  cases hl : r.byStatic.lookup y.t with
  | some rt =>
    simp only
    have hne : i ≠ rt := by
      rintro rfl
      obtain ⟨z, hz, hzs⟩ := (h.inst _ _).mp hl
      rw [hx] at hz; cases hz
      exact hxs hzs
    rw [modify_other _ _ _ _ hne, hx]
  | none => exact hx

theorem foldl_other {tt : Tt} (f : Rtt → Resolved → Rtt)
    (hf : ∀ (A : List (Nat × Nat)) B r x, Inv tt A B r → B + 1 < 2 ^ 31 → x.t.1 < tt.trafficDays.length →
      Inv tt (x.t :: A) (B + 2) (f r x))
    (ho : ∀ (A : List (Nat × Nat)) B r (y : Resolved) (i : Nat) (x : RtTransport), Inv tt A B r →
      r.transports[i]? = some x → x.static ≠ some y.t → (f r y).transports[i]? = some x) :
    ∀ (runs : List Resolved) A B r, Inv tt A B r → B + 2 * runs.length < 2 ^ 31 →
      (∀ x ∈ runs, x.t.1 < tt.trafficDays.length) → ∀ (i : Nat) (x : RtTransport), r.transports[i]? = some x →
      (∀ y ∈ runs, x.static ≠ some y.t) → (runs.foldl f r).transports[i]? = some x := by
  intro runs
  induction runs with
  | nil => intro A B r _ _ _ i x hx _; exact hx
  | cons y runs ih =>
    intro A B r h hB ht i x hx hn
    simp only [List.length_cons] at hB
    simp only [List.foldl_cons]
    exact ih (y.t :: A) (B + 2) _ (hf A B r y h (by omega) (ht y (by simp))) (by omega)
      (fun z hz => ht z (by simp [hz])) i x (ho A B r y i x h hx (hn y (by simp)))
      (fun z hz => hn z (by simp [hz]))

/-- Is the instance the subject of the entity?  (For added trips: an additional trip.) -/
def Entity.about (e : Entity) (x : RtTransport) : Prop :=
  match e with
  | .added .. => x.static = none
  | e => ∃ k ∈ e.addresses, x.static = some k

/-- **C29 (frame).** A message leaves every real-time instance it is not about completely unchanged:
stop times, stops and cancellation. -/
theorem C29_other_instances {tt : Tt} (h : tt.Ok) (base : Int) {es : List Entity} {e : Entity}
    (hf : Fits tt (es ++ [e])) {i : Nat} {x : RtTransport}
    (hx : (processAll tt base es).transports[i]? = some x) (hn : ¬ e.about x) :
    (processAll tt base (es ++ [e])).transports[i]? = some x := by
  obtain ⟨hc, ht⟩ := hf
  simp only [List.map_append, List.sum_append, List.map_cons, List.map_nil, List.sum_cons, List.sum_nil] at hc
  have h0 := inv_create tt base (fun i hi => by have := h.2 i hi; have := h.1; omega)
  obtain ⟨A, B, hA, hB, hI⟩ := inv_processAll es [] 0 _ h0 (by omega)
    (fun e' he' => ht e' (List.mem_append_left _ he'))
  have hte := ht e (by simp)
  rw [processAll, List.foldl_append]
  change (process tt (processAll tt base es) e).transports[i]? = some x
  change Inv tt A B (processAll tt base es) at hI
  generalize processAll tt base es = r at hI hx ⊢
  cases e with
  | cancel src runs =>
    simp only [Entity.cost] at hc
    refine foldl_other (fun r x => cancelRun tt r (resolveRt r x.run "" src)) ?_ ?_ runs A B r hI (by omega) ?_ i x hx ?_
    · intro A B r x h hB hx
      exact (inv_cancelRun h (by omega) _ (by rw [resolveRt_static]) hx).mono (by omega)
    · intro A B r y i x h hx hxs; exact cancel_other h src y hx hxs
    · intro y hy; exact hte _ (List.mem_map_of_mem hy)
    · intro y hy hh; exact hn ⟨y.t, List.mem_map_of_mem hy, hh⟩
  | update src runs us =>
    simp only [Entity.cost] at hc
    refine foldl_other (processRun tt src us) ?_ ?_ runs A B r hI (by omega) ?_ i x hx ?_
    · intro A B r x h hB hx; exact inv_processRun h hB src us x hx
    · intro A B r y i x h hx hxs; exact processRun_other h src us y hx hxs
    · intro y hy; exact hte _ (List.mem_map_of_mem hy)
    · intro y hy hh; exact hn ⟨y.t, List.mem_map_of_mem hy, hh⟩
  | added src id pl io us =>
    have hxs : x.static ≠ none := hn
    simp only [process]
    split
    · rename_i rt hrt
      have hne : i ≠ rt := by
        rintro rfl
        simp only [resolveRt] at hrt
        split at hrt
        · obtain ⟨z, hz, hzs⟩ := hI.add src _ i hrt
          rw [hx] at hz; cases hz
          exact hxs hzs
        · cases hrt
      rw [updateExisting_other _ _ _ _ _ _ _ hne, modify_other _ _ _ _ hne, hx]
    · split
      · exact hx
      · have hlt : i < r.transports.length := (List.getElem?_eq_some_iff.mp hx).1
        rename_i ss _
        have hrt : (addRtTransport tt r src none ss (List.replicate (2 * ss.length - 2) 0) id).2 = r.transports.length := rfl
        rw [updateExisting_other _ _ _ _ _ _ _ (by rw [hrt]; omega)]
        simp only [addRtTransport]
        rw [List.getElem?_append_left hlt]; exact hx

/-! ### Stops: C48 -/

theorem stepArr_stops (c : Ctx) (stop : Nat) (mu) (s : St × Option Prop') :
    ∃ ts, (stepArr c stop mu s).1 = { s.1 with times := ts } := by
  unfold stepArr
  split
  · split
    · simp only [updateEvent]; split
      · exact ⟨_, rfl⟩
      · exact ⟨_, rfl⟩
    · split
      · exact ⟨_, rfl⟩
      · exact ⟨_, rfl⟩
  · exact ⟨_, rfl⟩

theorem stepDep_stops (c : Ctx) (stop : Nat) (mu) (s : St × Option Prop') :
    ∃ ts, (stepDep c stop mu s).1 = { s.1 with times := ts } := by
  unfold stepDep
  split
  · simp only [updateEvent]; split
    · exact ⟨_, rfl⟩
    · exact ⟨_, rfl⟩
  · split
    · split
      · simp only [updateEvent]; split
        · exact ⟨_, rfl⟩
        · exact ⟨_, rfl⟩
      · split
        · exact ⟨_, rfl⟩
        · exact ⟨_, rfl⟩
    · exact ⟨_, rfl⟩

theorem runLoop_inv (c : Ctx) (J : St → Prop) (ht : ∀ st ts, J st → J { st with times := ts })
    (hs : ∀ st stop u st', J st → applyStop c st stop u = some st' → J st') :
    ∀ ps us s, J s.1 → J (runLoop c ps us s).1 := by
  intro ps
  induction ps with
  | nil => intro us s h; exact h
  | cons p ps ih =>
    intro us s h
    have step : ∀ stop mu (s : St × Option Prop'), J s.1 → J (stepDep c stop mu (stepArr c stop mu s)).1 := by
      intro stop mu s h
      obtain ⟨ts, h1⟩ := stepArr_stops c stop mu s
      obtain ⟨ts', h2⟩ := stepDep_stops c stop mu (stepArr c stop mu s)
      rw [h2, h1]
      exact ht _ ts' (ht _ ts h)
    unfold runLoop
    split
    · split
      · exact ih _ _ h
      · rename_i h2
        exact ih _ _ (step _ _ (_, _) (hs _ _ _ _ h h2))
    · exact ih _ _ (step _ _ _ h)

/-- What applying an update may do to a stop. -/
theorem applyStop_cases {c : Ctx} {st st' : St} {stop : Nat} {u : StopUpd} (h : applyStop c st stop u = some st') :
    st'.times = st.times ∧
    ((u.skipped = true ∧ st'.newLocs = st.newLocs ∧
        st'.stops = st.stops.set stop ⟨(st.stops.getD stop ⟨0, false, false, false, false⟩).loc, false, false, false, false⟩) ∨
     (u.skipped = false ∧ ∃ l, l ∈ c.equiv (c.locSeq.getD stop ⟨0, false, false, false, false⟩).loc ∧
        st'.newLocs = st.newLocs ++ [l] ∧
        st'.stops = st.stops.set stop { st.stops.getD stop ⟨0, false, false, false, false⟩ with loc := l }) ∨
     (u.skipped = false ∧ st'.newLocs = st.newLocs ∧
        st'.stops = st.stops.set stop (c.locSeq.getD stop ⟨0, false, false, false, false⟩))) := by
  unfold applyStop at h
  simp only at h
  split at h
  · rename_i h1
    cases h
    exact ⟨rfl, Or.inl ⟨h1, rfl, rfl⟩⟩
  · rename_i h1
    have h1 : u.skipped = false := by simpa using h1
    split at h
    · split at h
      · cases h
      · rename_i l hl
        split at h
        · rename_i hc
          cases h
          exact ⟨rfl, Or.inr (Or.inl ⟨h1, l, by simpa using hc, rfl, rfl⟩)⟩
        · cases h
    · cases h
      exact ⟨rfl, Or.inr (Or.inr ⟨h1, rfl, rfl⟩)⟩

/-- A stop the real-time run may show where the schedule has `o`: same place or another
track of it, no more boarding or alighting rights than scheduled. -/
def Permitted (equiv : Nat → List Nat) (o s : Stop) : Prop :=
  (s.loc = o.loc ∨ s.loc ∈ equiv o.loc) ∧ (s.inA = true → o.inA = true) ∧ (s.outA = true → o.outA = true) ∧
    (s.inW = true → o.inW = true) ∧ (s.outW = true → o.outW = true)

theorem set_getElem? {α} {l : List α} {i j : Nat} {a b : α} (h : (l.set i a)[j]? = some b) :
    (i = j ∧ j < l.length ∧ b = a) ∨ (i ≠ j ∧ l[j]? = some b) := by
  by_cases hij : i = j
  · subst hij
    by_cases hl : i < l.length
    · rw [List.getElem?_set_self hl] at h
      exact Or.inl ⟨rfl, hl, (Option.some.inj h).symm⟩
    · rw [List.getElem?_eq_none (by simp; omega)] at h; cases h
  · rw [List.getElem?_set_ne hij] at h
    exact Or.inr ⟨hij, h⟩

/-- **C48 (track changes and skipped stops).** A trip update keeps the number of stops, moves a stop of
the run only to a track of the scheduled stop, and never allows boarding or alighting where the
schedule does not. -/
theorem C48_stops_permitted (c : Ctx) (us : List StopUpd) (st : St)
    (hlen : st.stops.length = c.locSeq.length)
    (h : ∀ (i : Nat) o s, c.locSeq[i]? = some o → st.stops[i]? = some s → Permitted c.equiv o s) :
    (updateRun c us st).1.stops.length = c.locSeq.length ∧
    ∀ (i : Nat) o s, c.locSeq[i]? = some o → (updateRun c us st).1.stops[i]? = some s → Permitted c.equiv o s := by
  simp only [updateRun]
  refine runLoop_inv c (fun st => st.stops.length = c.locSeq.length ∧
    ∀ (i : Nat) o s, c.locSeq[i]? = some o → st.stops[i]? = some s → Permitted c.equiv o s) ?_ ?_ _ _ (st, _) ⟨hlen, h⟩
  · intro st ts h; exact h
  · intro st stop u st' ⟨hl, h⟩ ha
    obtain ⟨_, hc⟩ := applyStop_cases ha
    rcases hc with ⟨_, _, hs⟩ | ⟨_, l, hle, _, hs⟩ | ⟨_, _, hs⟩
    · rw [hs]
      refine ⟨by simp [hl], ?_⟩
      intro i o s ho hi
      rcases set_getElem? hi with ⟨rfl, hlt, rfl⟩ | ⟨_, hi⟩
      · have hg : st.stops[stop]? = some st.stops[stop] := List.getElem?_eq_getElem hlt
        have := h stop o _ ho hg
        rw [List.getD_eq_getElem?_getD, hg]
        exact ⟨this.1, by simp, by simp, by simp, by simp⟩
      · exact h i o s ho hi
    · rw [hs]
      refine ⟨by simp [hl], ?_⟩
      intro i o s ho hi
      rcases set_getElem? hi with ⟨rfl, hlt, rfl⟩ | ⟨_, hi⟩
      · have hg : st.stops[stop]? = some st.stops[stop] := List.getElem?_eq_getElem hlt
        have := h stop o _ ho hg
        rw [List.getD_eq_getElem?_getD, ho] at hle
        rw [List.getD_eq_getElem?_getD, hg]
        exact ⟨Or.inr hle, this.2⟩
      · exact h i o s ho hi
    · rw [hs]
      refine ⟨by simp [hl], ?_⟩
      intro i o s ho hi
      rcases set_getElem? hi with ⟨rfl, hlt, rfl⟩ | ⟨_, hi⟩
      · rw [List.getD_eq_getElem?_getD, ho]
        exact ⟨Or.inl rfl, fun h => h, fun h => h, fun h => h, fun h => h⟩
      · exact h i o s ho hi

/-- Stops whose index is not visited stay. -/
theorem runLoop_other_stop (c : Ctx) (i : Nat) : ∀ ps us (s : St × Option Prop'),
    i ∉ ps.map Prod.snd → (runLoop c ps us s).1.stops[i]? = s.1.stops[i]? := by
  intro ps
  induction ps with
  | nil => intro us s _; rfl
  | cons p ps ih =>
    intro us s hi
    simp only [List.map_cons, List.mem_cons, not_or] at hi
    have step : ∀ stop mu (s : St × Option Prop'), (stepDep c stop mu (stepArr c stop mu s)).1.stops = s.1.stops := by
      intro stop mu s
      obtain ⟨ts, h1⟩ := stepArr_stops c stop mu s
      obtain ⟨ts', h2⟩ := stepDep_stops c stop mu (stepArr c stop mu s)
      rw [h2, h1]
    unfold runLoop
    split
    · split
      · exact ih _ _ hi.2
      · rename_i h2
        rw [ih _ _ hi.2, step]
        obtain ⟨_, hc⟩ := applyStop_cases h2
        rcases hc with ⟨_, _, hs⟩ | ⟨_, l, _, _, hs⟩ | ⟨_, _, hs⟩ <;>
          simp only [hs] <;> rw [List.getElem?_set_ne (fun h => hi.1 h.symm)]
    · rw [ih _ _ hi.2, step]

theorem runLoop_stop (c : Ctx) (mu : Nat → Option StopUpd)
    (ho : ∀ s u, mu s = some u → ∀ p ∈ visits c, matchesAt c u p = (p.2 == s))
    (hok : ∀ s u, mu s = some u → accepted c s u = true) :
    ∀ (ps : List (Nat × Nat)) (k : Nat) (s : St × Option Prop') (i : Nat), (∀ p ∈ ps, p ∈ visits c) →
      ps.map (·.2) = List.range' k ps.length → k ≤ i → i < k + ps.length →
      match mu i with
      | none => (runLoop c ps ((List.range' k ps.length).filterMap mu) s).1.stops[i]? = s.1.stops[i]?
      | some u => ∃ st st', st.stops[i]? = s.1.stops[i]? ∧ applyStop c st i u = some st' ∧
          (runLoop c ps ((List.range' k ps.length).filterMap mu) s).1.stops[i]? = st'.stops[i]? := by
  intro ps
  induction ps with
  | nil => intro k s i _ _ h1 h2; simp at h2; omega
  | cons p ps ih =>
    intro k s i hmem hmap hk hi
    simp only [List.map_cons, List.length_cons, List.range'_succ, List.cons.injEq] at hmap hi
    obtain ⟨hp, hmap⟩ := hmap
    simp only [List.length_cons, List.range'_succ]
    have hmem' : ∀ q ∈ ps, q ∈ visits c := fun q hq => hmem q (by simp [hq])
    have step : ∀ stop m (s : St × Option Prop'), (stepDep c stop m (stepArr c stop m s)).1.stops = s.1.stops := by
      intro stop m s
      obtain ⟨ts, h1⟩ := stepArr_stops c stop m s
      obtain ⟨ts', h2⟩ := stepDep_stops c stop m (stepArr c stop m s)
      rw [h2, h1]
    have hlater : ∀ u ∈ (List.range' (k + 1) ps.length).filterMap mu,
        matchesAt c u p = false ∧ ps.any (matchesAt c u) = true := by
      intro u hu
      obtain ⟨j, hj, hju⟩ := List.mem_filterMap.mp hu
      constructor
      · rw [ho j u hju p (hmem p (by simp))]
        simp only [List.mem_range'_1] at hj
        simp; omega
      · rw [← hmap] at hj
        obtain ⟨q, hq, hqj⟩ := List.mem_map.mp hj
        rw [List.any_eq_true]
        exact ⟨q, hq, by rw [ho j u hju q (hmem q (by simp [hq]))]; simp [hqj]⟩
    have hnot : i = k → i ∉ ps.map Prod.snd := by
      intro h; rw [hmap, List.mem_range'_1]; omega
    cases hmu : mu k with
    | some u =>
      rw [List.filterMap_cons_some hmu]
      have hm : matchesAt c u p = true := by
        rw [ho k u hmu p (hmem p (by simp))]; simp [hp]
      obtain ⟨st', hst', htimes⟩ := applyStop_accepted (st := s.1) (hok k u hmu)
      rw [runLoop, align_hit hm]
      simp only [hp, hst']
      by_cases hik : i = k
      · subst hik
        rw [hmu]
        simp only
        refine ⟨s.1, st', rfl, hst', ?_⟩
        rw [runLoop_other_stop c i _ _ _ (hnot rfl), step]
      · have hsame : (stepDep c k (some u) (stepArr c k (some u) (st', s.2))).1.stops[i]? = s.1.stops[i]? := by
          rw [step]
          obtain ⟨_, hc⟩ := applyStop_cases hst'
          rcases hc with ⟨_, _, hs⟩ | ⟨_, l, _, _, hs⟩ | ⟨_, _, hs⟩ <;>
            simp only [hs] <;> rw [List.getElem?_set_ne (fun h => hik h.symm)]
        have := ih (k + 1) (stepDep c k (some u) (stepArr c k (some u) (st', s.2))) i hmem' hmap (by omega) (by omega)
        rw [hsame] at this
        exact this
    | none =>
      rw [List.filterMap_cons_none hmu]
      rw [runLoop, align_miss hlater]
      simp only [hp]
      by_cases hik : i = k
      · subst hik
        rw [hmu]
        simp only
        rw [runLoop_other_stop c i _ _ _ (hnot rfl), step]
      · have := ih (k + 1) (stepDep c k none (stepArr c k none s)) i hmem' hmap (by omega) (by omega)
        rw [step] at this
        exact this

/-- **C48 (meaning of an update for its stop).** In a message which assigns update `mu i` to stop `i`:
a stop without update keeps its real-time stop; a skipped stop can neither be boarded nor alighted at;
an update without a new stop restores the scheduled stop. -/
theorem C48_stop_semantics (c : Ctx) (us : List StopUpd) (mu : Nat → Option StopUpd) (st : St)
    (hs : c.scheduled = true) (ha : Assigns c us mu) (hlen : st.stops.length = c.locSeq.length)
    {i : Nat} (h1 : c.first ≤ i) (h2 : i < c.first + c.seqs.length) (h3 : i < c.locSeq.length) :
    (mu i = none → (updateRun c us st).1.stops[i]? = st.stops[i]?) ∧
    (∀ u, mu i = some u → u.skipped = true →
      ∃ s, (updateRun c us st).1.stops[i]? = some s ∧ s.cancelled = true) ∧
    (∀ u, mu i = some u → u.skipped = false → u.assigned = none → u.stopId = none →
      (updateRun c us st).1.stops[i]? = c.locSeq[i]?) := by
  have hvl : (visits c).length = c.seqs.length := by simp [visits]
  have hvm : (visits c).map (·.2) = List.range' c.first (visits c).length := by
    rw [hvl]; unfold visits; rw [if_pos hs, List.map_snd_zip (by simp)]
  have key := runLoop_stop c mu ha.only ha.ok (visits c) c.first (st, initPred c st) i (fun _ h => h) hvm h1 (by omega)
  rw [hvl, ← ha.order] at key
  simp only [updateRun]
  generalize (runLoop c (visits c) us (st, initPred c st)).1 = res at key ⊢
  refine ⟨?_, ?_, ?_⟩
  · intro hm; rw [hm] at key; exact key
  · intro u hm hsk
    rw [hm] at key
    obtain ⟨a, b, hab, hb, hr⟩ := key
    obtain ⟨_, hc⟩ := applyStop_cases hb
    have hal : i < a.stops.length := by
      rcases Nat.lt_or_ge i a.stops.length with h | h
      · exact h
      · rw [List.getElem?_eq_none h, List.getElem?_eq_getElem (by simp only; omega)] at hab; cases hab
    rcases hc with ⟨_, _, hs⟩ | ⟨hf, _⟩ | ⟨hf, _⟩
    · refine ⟨_, by rw [hr, hs, List.getElem?_set_self hal], rfl⟩
    · rw [hsk] at hf; cases hf
    · rw [hsk] at hf; cases hf
  · intro u hm hsk has hid
    rw [hm] at key
    obtain ⟨a, b, hab, hb, hr⟩ := key
    have hal : i < a.stops.length := by
      rcases Nat.lt_or_ge i a.stops.length with h | h
      · exact h
      · rw [List.getElem?_eq_none h, List.getElem?_eq_getElem (by simp only; omega)] at hab; cases hab
    have : b = { a with stops := a.stops.set i (c.locSeq.getD i ⟨0, false, false, false, false⟩) } := by
      simp [applyStop, hsk, has, hid] at hb
      simp [← hb]
    rw [hr, this]
    simp only
    rw [List.getElem?_set_self hal, List.getD_eq_getElem?_getD, List.getElem?_eq_getElem h3, Option.getD_some]

end Nigiri.Rt
