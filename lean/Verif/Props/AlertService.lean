import Verif.Props.Alerts
import Verif.Props.Time
/-!
# C76: service alerts do not change the service
-/

namespace Nigiri.Alerts
open Nigiri.Rt (Rtt Tt Run RtTransport addRtTransport resolveRt lookup_append_new isActive RegInv)

/-- The run `k` is offered for travel with these stops and these event times: it is active in the static timetable, or
it has a real-time instance which is not cancelled and listed at all its stops. -/
def Offered (tt : Tt) (r : Rtt) (k : Nat × Nat) (stops : List Rt.Stop) (times : List Int) : Prop :=
  (isActive tt r k.1 k.2 = true ∧ stops = tt.stops k.1 ∧
    times = (List.range (2 * (tt.stops k.1).length - 2)).map (tt.eventTime k.1 k.2)) ∨
  ∃ rt x, r.transports[rt]? = some x ∧ x.static = some k ∧ x.cancelled = false ∧
    (∀ s ∈ x.stops, rt ∈ r.locRt s.loc) ∧ stops = x.stops ∧ times = x.times.map (deltaToUnix r.base)

/-- Nothing a traveller can use has changed: the static runs are offered as before, the real-time
instances are the same and at the same places, and there is no additional trip. -/
structure SameService (tt : Tt) (r r' : Rtt) : Prop where
  base : r'.base = r.base
  offered : ∀ k stops times, k.1 < tt.trafficDays.length → (Offered tt r' k stops times ↔ Offered tt r k stops times)
  kept : ∀ (i : Nat) x, r.transports[i]? = some x → r'.transports[i]? = some x
  added : ∀ (i : Nat) x, r'.transports[i]? = some x → x.static = none → r.transports[i]? = some x
  places : ∀ l i, i < r.transports.length → (i ∈ r'.locRt l ↔ i ∈ r.locRt l)

theorem SameService.refl (tt : Tt) (r : Rtt) : SameService tt r r :=
  ⟨rfl, fun _ _ _ _ => Iff.rfl, fun _ _ h => h, fun _ _ h _ => h, fun _ _ _ => Iff.rfl⟩

theorem SameService.trans {tt : Tt} {a b c : Rtt} (h1 : SameService tt a b) (h2 : SameService tt b c) :
    SameService tt a c := by
  refine ⟨h2.base.trans h1.base, fun k s t hk => (h2.offered k s t hk).trans (h1.offered k s t hk),
    fun i x h => h2.kept i x (h1.kept i x h), fun i x h hs => h1.added i x (h2.added i x h hs) hs, fun l i hi => ?_⟩
  have hb : i < b.transports.length := by
    have := h1.kept i _ (List.getElem?_eq_getElem hi)
    exact (List.getElem?_eq_some_iff.mp this).1
  exact (h2.places l i hb).trans (h1.places l i hi)

/-- The run exists, operates or has an instance, and its times can be represented. -/
structure Running (tt : Tt) (r : Rtt) (k : Nat × Nat) : Prop where
  exists_ : k.1 < tt.trafficDays.length
  runs : isActive tt r k.1 k.2 = true ∨ ∃ rt, r.byStatic.lookup k = some rt
  times : ∀ e, e < 2 * (tt.stops k.1).length - 2 → FitsDelta r.base (tt.eventTime k.1 k.2 e)

/-- Everything an alert may meet. -/
structure Ok (tt : Tt) (B : Nat) (r : Rtt) : Prop where
  inv : ∃ A, Rt.Inv tt A B r
  reg : RegInv tt r

theorem add_ok {tt : Tt} {B : Nat} {r : Rtt} (ho : Ok tt B r) (hB : B < 2 ^ 31) (src : Nat) {k : Nat × Nat}
    (hk : Running tt r k) (hno : r.byStatic.lookup k = none) :
    Ok tt (B + 1) (addRtTransport tt r src (some k) [] [] "").1 ∧
      SameService tt r (addRtTransport tt r src (some k) [] [] "").1 ∧
      ∀ k', Running tt r k' → Running tt (addRtTransport tt r src (some k) [] [] "").1 k' := by
  obtain ⟨⟨A, hi⟩, hr⟩ := ho
  obtain ⟨t, d⟩ := k
  have hi' := (Rt.inv_add_static hi hB src hk.exists_ hno).1
  have hr' := hr.add_static src t d
  have hact : isActive tt r t d = true := by
    rcases hk.runs with h | ⟨rt, h⟩
    · exact h
    · rw [hno] at h; cases h
  have hact' : ∀ t' d', t' < tt.trafficDays.length →
      isActive tt (addRtTransport tt r src (some (t, d)) [] [] "").1 t' d' =
        (isActive tt r t' d' && !(decide (t' = t) && decide (d' = d))) :=
    (Rt.deactivate_spec (d := d) hi.wf (by have := hi.count; omega) hk.exists_).2.2
  have hlk : ∀ k', (addRtTransport tt r src (some (t, d)) [] [] "").1.byStatic.lookup k' =
      if k' = (t, d) then some r.transports.length else r.byStatic.lookup k' := by
    intro k'
    simp only [addRtTransport, if_true, hno, Option.isSome_none, Bool.false_eq_true, if_false]
    exact lookup_append_new hno k'
  have htr : (addRtTransport tt r src (some (t, d)) [] [] "").1.transports = r.transports ++
      [⟨some (t, d), src, Rt.copyTimes tt r.base t d (tt.stops t).length, tt.stops t, false⟩] := by
    simp [addRtTransport, Rt.deactivate]
  have hloc : ∀ l i, i ∈ (addRtTransport tt r src (some (t, d)) [] [] "").1.locRt l ↔
      i ∈ r.locRt l ∨ (i = r.transports.length ∧ ∃ s ∈ tt.stops t, s.loc = l) := by
    intro l i
    have := Rt.foldl_pushLast r.transports.length (tt.stops t) r.locRt l i
    simpa [addRtTransport, Rt.deactivate] using this
  have hbase : (addRtTransport tt r src (some (t, d)) [] [] "").1.base = r.base := by
    simp [addRtTransport, Rt.deactivate]
  generalize (addRtTransport tt r src (some (t, d)) [] [] "").1 = r' at *
  have hkept : ∀ (i : Nat) x, r.transports[i]? = some x → r'.transports[i]? = some x := by
    intro i x hx
    rw [htr, List.getElem?_append_left (List.getElem?_eq_some_iff.mp hx).1]; exact hx
  have hplaces : ∀ l i, i < r.transports.length → (i ∈ r'.locRt l ↔ i ∈ r.locRt l) := by
    intro l i hlt
    rw [hloc]
    constructor
    · rintro (h | ⟨rfl, -⟩)
      · exact h
      · omega
    · exact Or.inl
  have htimes : (Rt.copyTimes tt r.base t d (tt.stops t).length).map (deltaToUnix r.base) =
      (List.range (2 * (tt.stops t).length - 2)).map (tt.eventTime t d) := by
    unfold Rt.copyTimes
    rw [List.map_map]
    apply List.map_congr_left
    intro e he
    have he := List.mem_range.mp he
    simp only [Function.comp, if_pos he]
    exact C01_delta_roundtrip _ _ (hk.times e he)
  refine ⟨⟨⟨_, hi'⟩, hr'⟩, ⟨hbase, ?_, hkept, ?_, hplaces⟩, ?_⟩
  · rintro ⟨t', d'⟩ stops times ht'
    unfold Offered
    simp only
    rw [hact' t' d' ht', hbase]
    by_cases he : t' = t ∧ d' = d
    · obtain ⟨rfl, rfl⟩ := he
      constructor
      · rintro (h | ⟨rt, x, hx, hs, hc, hl, h1, h2⟩)
        · simp at h
        · rw [htr] at hx
          rcases Rt.getElem?_snoc hx with ⟨-, hx⟩ | ⟨rfl, rfl⟩
          · have := (hi.inst (t', d') rt).mpr ⟨x, hx, hs⟩
            rw [hno] at this; cases this
          · exact Or.inl ⟨hact, h1, h2.trans htimes⟩
      · rintro (⟨-, h1, h2⟩ | ⟨rt, x, hx, hs, -⟩)
        · right
          refine ⟨r.transports.length, _, by rw [htr, List.getElem?_append_right (Nat.le_refl _), Nat.sub_self]; rfl,
            rfl, rfl, ?_, h1, h2.trans htimes.symm⟩
          intro s hs
          exact (hloc _ _).mpr (Or.inr ⟨rfl, s, hs, rfl⟩)
        · have := (hi.inst (t', d') rt).mpr ⟨x, hx, hs⟩
          rw [hno] at this; cases this
    · have hb : (decide (t' = t) && decide (d' = d)) = false := by
        refine Bool.eq_false_iff.mpr fun h => he ?_
        simpa using h
      rw [hb]
      simp only [Bool.not_false, Bool.and_true]
      refine or_congr Iff.rfl ⟨?_, ?_⟩
      · rintro ⟨rt, x, hx, hs, hc, hl, h1, h2⟩
        rw [htr] at hx
        rcases Rt.getElem?_snoc hx with ⟨hlt, hx⟩ | ⟨rfl, rfl⟩
        · exact ⟨rt, x, hx, hs, hc, fun s hs => (hplaces _ _ hlt).mp (hl s hs), h1, h2⟩
        · simp only [Option.some.injEq, Prod.mk.injEq] at hs
          exact absurd ⟨hs.1.symm, hs.2.symm⟩ he
      · rintro ⟨rt, x, hx, hs, hc, hl, h1, h2⟩
        have hlt := (List.getElem?_eq_some_iff.mp hx).1
        exact ⟨rt, x, hkept _ _ hx, hs, hc, fun s hs => (hplaces _ _ hlt).mpr (hl s hs), h1, h2⟩
  · intro i x hx hs
    rw [htr] at hx
    rcases Rt.getElem?_snoc hx with ⟨-, hx⟩ | ⟨rfl, rfl⟩
    · exact hx
    · cases hs
  · rintro ⟨t', d'⟩ hk'
    refine ⟨hk'.exists_, ?_, by rw [hbase]; exact hk'.times⟩
    rw [hlk]
    by_cases he : (t', d') = (t, d)
    · exact Or.inr ⟨_, if_pos he⟩
    · rw [if_neg he]
      rcases hk'.runs with h | h
      · left
        simp only
        rw [hact' t' d' hk'.exists_, h]
        refine (Bool.true_and _).trans ?_
        simp only [Bool.not_eq_true']
        refine Bool.eq_false_iff.mpr fun h => he ?_
        simpa using h
      · exact Or.inr h

/-- The static runs named by the selectors are running. -/
def AllRunning (tt : Tt) (r : Rtt) (es : List Selector) : Prop :=
  ∀ e ∈ es, ∀ k id, e.trip = some (.found (some k) id) → Running tt r k

theorem entity_same {st : Static} {B : Nat} {s s' : S} {src i : Nat} {e : Selector} {ok : Bool} (ho : Ok st.tt B s.rtt)
    (hB : B < 2 ^ 31) (hr : ∀ k id, e.trip = some (.found (some k) id) → Running st.tt s.rtt k)
    (h : entity st s src i e = some (s', ok)) :
    Ok st.tt (B + 1) s'.rtt ∧ SameService st.tt s.rtt s'.rtt ∧ ∀ k, Running st.tt s.rtt k → Running st.tt s'.rtt k := by
  have hsame : s'.rtt = s.rtt → Ok st.tt (B + 1) s'.rtt ∧ SameService st.tt s.rtt s'.rtt ∧
      ∀ k, Running st.tt s.rtt k → Running st.tt s'.rtt k := by
    intro hs
    rw [hs]
    obtain ⟨⟨A, hi⟩, hg⟩ := ho
    exact ⟨⟨⟨A, hi.mono (Nat.le_succ _)⟩, hg⟩, .refl _ _, fun _ h => h⟩
  unfold entity at h
  simp only at h
  split at h
  · simp only [Option.some.injEq, Prod.mk.injEq] at h
    exact hsame (by rw [← h.1])
  · cases ht : e.trip with
    | some t =>
      rw [ht] at h
      cases t with
      | bad => cases h
      | found t id =>
        simp only [Option.some.injEq] at h
        unfold tripEntity at h
        simp only at h
        cases hrt : (runOf s.rtt src t id).rt with
        | some rt =>
          rw [hrt] at h
          simp only [Prod.mk.injEq] at h
          exact hsame (by rw [← h.1])
        | none =>
          rw [hrt, runOf_t] at h
          cases t with
          | none =>
            simp only [Prod.mk.injEq] at h
            exact hsame (by rw [← h.1])
          | some k =>
            simp only [Prod.mk.injEq] at h
            obtain ⟨rfl, -⟩ := h
            rw [runOf_static] at hrt
            exact add_ok ho hB src (hr k id ht) hrt
    | none =>
      rw [ht] at h
      simp only at h
      repeat' split at h
      all_goals
        simp only [Option.some.injEq, Prod.mk.injEq] at h
        exact hsame (by rw [← h.1])

theorem entities_same {st : Static} (es : List Selector) {B : Nat} {s : S} {src i : Nat} {any : Bool}
    (ho : Ok st.tt B s.rtt) (hB : B + es.length < 2 ^ 31) (hr : AllRunning st.tt s.rtt es) :
    Ok st.tt (B + es.length) (entities st src i s any es).1.rtt ∧
      SameService st.tt s.rtt (entities st src i s any es).1.rtt ∧
      ∀ k, Running st.tt s.rtt k → Running st.tt (entities st src i s any es).1.rtt k := by
  induction es generalizing s any B with
  | nil => exact ⟨ho, .refl _ _, fun _ h => h⟩
  | cons e es ih =>
    simp only [List.length_cons] at hB
    simp only [entities, List.length_cons]
    split
    · obtain ⟨⟨A, hi⟩, hg⟩ := ho
      exact ⟨⟨⟨A, hi.mono (by omega)⟩, hg⟩, .refl _ _, fun _ h => h⟩
    · rename_i s1 ok he
      obtain ⟨h1, h2, h3⟩ := entity_same ho (by omega) (fun k id => hr e (by simp) k id) he
      obtain ⟨h4, h5, h6⟩ := ih (any := any || ok) h1 (by omega)
        (fun e' he' k id hk => h3 k (hr e' (by simp [he']) k id hk))
      exact ⟨by rw [show B + (es.length + 1) = B + 1 + es.length by omega]; exact h4, h2.trans h5,
        fun k hk => h6 k (h3 k hk)⟩

theorem alert_same {st : Static} (a : Alert) {B : Nat} {s : S} (ho : Ok st.tt B s.rtt)
    (hB : B + a.entities.length < 2 ^ 31) (hr : AllRunning st.tt s.rtt a.entities) :
    Ok st.tt (B + a.entities.length) (handleAlert st s a).1.rtt ∧
      SameService st.tt s.rtt (handleAlert st s a).1.rtt ∧
      ∀ k, Running st.tt s.rtt k → Running st.tt (handleAlert st s a).1.rtt k := by
  have := entities_same (st := st) (src := a.src) (i := s.contents.length) (any := false) a.entities ho hB hr
  unfold handleAlert
  split
  rename_i s1 any threw h1
  rw [h1] at this
  split <;> exact this

/-- **C76 (partial).** A message of alerts does not change the service: every run of the static timetable is offered with the
same stops and times as before — statically or by a real-time instance with exactly the scheduled times —, every
existing real-time instance is as it was and listed at the same places, and no additional trip appears; this even if
the processing of the message is aborted by an exception.  It also keeps the invariants used by C29/C47.
Missing: alerts for runs which have been cancelled (see `C76_cancelled_reappears`). -/
theorem C76_same_service_partial (st : Static) (as : List Alert) {B : Nat} (s : S) (ho : Ok st.tt B s.rtt)
    (hB : B + (as.map fun a => a.entities.length).sum < 2 ^ 31)
    (hr : ∀ a ∈ as, AllRunning st.tt s.rtt a.entities) :
    SameService st.tt s.rtt (message st s (as.map .alert)).rtt ∧
      Ok st.tt (B + (as.map fun a => a.entities.length).sum) (message st s (as.map .alert)).rtt := by
  induction as generalizing s B with
  | nil => exact ⟨.refl _ _, ho⟩
  | cons a as ih =>
    simp only [List.map_cons, List.sum_cons] at hB
    obtain ⟨h1, h2, h3⟩ := alert_same (st := st) a ho (by omega) (hr a (by simp))
    simp only [List.map_cons, message, List.sum_cons]
    split
    · rename_i s1 he
      rw [he] at h1 h2
      obtain ⟨⟨A, hi⟩, hg⟩ := h1
      exact ⟨h2, ⟨⟨A, hi.mono (by omega)⟩, hg⟩⟩
    · rename_i s1 he
      rw [he] at h1 h2 h3
      obtain ⟨h4, h5⟩ := ih s1 h1 (by omega) (fun b hb e he k id hk => h3 k (hr b (by simp [hb]) e he k id hk))
      exact ⟨h2.trans h4, by rw [← Nat.add_assoc]; exact h5⟩

/-- **C76 (partial), for feeds.** The same after any history of trip updates. -/
theorem C76_after_feed_partial (st : Static) (h : st.tt.Ok) (base : Int) {es : List Rt.Entity} (hf : Rt.Fits st.tt es) (as : List Alert)
    (hB : (es.map Rt.Entity.cost).sum + (as.map fun a => a.entities.length).sum < 2 ^ 31)
    (hr : ∀ a ∈ as, AllRunning st.tt (Rt.processAll st.tt base es) a.entities) :
    SameService st.tt (Rt.processAll st.tt base es)
      (message st (S.init (Rt.processAll st.tt base es)) (as.map .alert)).rtt := by
  have h0 := Rt.inv_create st.tt base (fun i hi => by have := h.2 i hi; have := h.1; omega)
  obtain ⟨A, B, -, hB', hI⟩ := Rt.inv_processAll es [] 0 _ h0 (by have := hf.1; omega) hf.2
  refine (C76_same_service_partial st as (B := B) (S.init (Rt.processAll st.tt base es)) ⟨⟨A, hI⟩, Rt.processAll_reg h base hf⟩
    (by omega) hr).1

namespace Demo

theorem ok : st.tt.Ok := ⟨by decide, by decide⟩

theorem fits : Rt.Fits st.tt [.update 0 [Rt.FeedDemo.run] [Rt.FeedDemo.late]] := ⟨by decide, by decide⟩

/-- Alert for the late run (0, 6) and for the run (1, 7) without real-time data. -/
def two : Alert := ⟨0, [{ trip := some (.found (some (0, 6)) "T") }, { trip := some (.found (some (1, 7)) "U") }], "full"⟩

theorem twoRunning : ∀ a ∈ [two], AllRunning st.tt
    (Rt.processAll st.tt 6 [.update 0 [Rt.FeedDemo.run] [Rt.FeedDemo.late]]) a.entities := by
  intro a ha e he k id hk
  simp only [List.mem_singleton] at ha
  subst ha
  simp only [two, List.mem_cons, List.not_mem_nil, or_false] at he
  rcases he with rfl | rfl
  · simp only [Option.some.injEq, TripRef.found.injEq] at hk
    obtain ⟨rfl, -⟩ := hk
    refine ⟨by decide, Or.inr ⟨0, by decide +kernel⟩, ?_⟩
    have : ∀ e < 4, FitsDelta (Rt.processAll st.tt 6 [.update 0 [Rt.FeedDemo.run] [Rt.FeedDemo.late]]).base
        (st.tt.eventTime 0 6 e) := by unfold FitsDelta; decide +kernel
    intro e he
    exact this e (by simpa [st, Rt.FeedDemo.tt] using he)
  · simp only [Option.some.injEq, TripRef.found.injEq] at hk
    obtain ⟨rfl, -⟩ := hk
    refine ⟨by decide, Or.inl (by decide +kernel), ?_⟩
    have : ∀ e < 4, FitsDelta (Rt.processAll st.tt 6 [.update 0 [Rt.FeedDemo.run] [Rt.FeedDemo.late]]).base
        (st.tt.eventTime 1 7 e) := by unfold FitsDelta; decide +kernel
    intro e he
    exact this e (by simpa [st, Rt.FeedDemo.tt] using he)

/-- The hypotheses of `C76_after_feed_partial` hold for an alert with an effect: a second instance is created. -/
example : SameService st.tt (Rt.processAll st.tt 6 [.update 0 [Rt.FeedDemo.run] [Rt.FeedDemo.late]])
      (message st (S.init (Rt.processAll st.tt 6 [.update 0 [Rt.FeedDemo.run] [Rt.FeedDemo.late]])) [.alert two]).rtt ∧
    (message st (S.init (Rt.processAll st.tt 6 [.update 0 [Rt.FeedDemo.run] [Rt.FeedDemo.late]]))
      [.alert two]).rtt.transports.map (·.times) = [[480, 495, 505, 515], [1980, 1990, 2000, 2010]] :=
  ⟨C76_after_feed_partial st ok 6 fits [two] (by decide) twoRunning, by decide +kernel⟩

/-- **C76 (limitation).** An alert for a cancelled run ("trip does not operate") brings it back: the run had no instance
and was not active; the alert creates an instance which is not flagged as cancelled, with the scheduled times, listed
at its stops. -/
theorem C76_cancelled_reappears :
    (∀ stops times, ¬ Offered st.tt (Rt.processAll st.tt 6 [.cancel 0 [Rt.FeedDemo.run]]) (0, 6) stops times) ∧
    Offered st.tt (message st (S.init (Rt.processAll st.tt 6 [.cancel 0 [Rt.FeedDemo.run]])) [.alert onTrip]).rtt (0, 6)
      (st.tt.stops 0) [9120, 9130, 9140, 9150] := by
  constructor
  · rintro stops times (⟨h, -⟩ | ⟨rt, x, h, -⟩)
    · exact absurd h (by decide +kernel)
    · have : (Rt.processAll st.tt 6 [.cancel 0 [Rt.FeedDemo.run]]).transports = [] := by decide +kernel
      rw [this] at h; simp at h
  · refine Or.inr ⟨0, ⟨some (0, 6), 0, [480, 490, 500, 510], st.tt.stops 0, false⟩, by decide +kernel, rfl, rfl,
      by decide +kernel, rfl, by decide +kernel⟩

end Demo

end Nigiri.Alerts
