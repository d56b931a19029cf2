import Verif.Model.RtMessage
import Verif.Props.RtAdded

/-!
# C114: what a feed message does and how it is counted
-/

namespace Nigiri.Rt

/-- No two consecutive stops of an added trip are too far apart for the time between them. -/
def Plausible (env : Env) (us : List StopUpd) : Prop :=
  ∀ (i : Nat) (u v : StopUpd) (l m : Nat) (s t : Int), us[i]? = some u → us[i + 1]? = some v →
    env.tt.lookup env.src (u.stopId.getD "") = some l → env.tt.lookup env.src (v.stopId.getD "") = some m →
    stopTime u = some s → stopTime v = some t → s ≠ 0 → env.tooFast m l (t - s) = false

/-- The stops an added trip is made of: every stop update has a time and a known stop, and there are two of them. -/
structure IsNewTrip (env : Env) (us : List StopUpd) (ss : List Stop) : Prop where
  two : 1 < us.length
  len : ss.length = us.length
  given : ∀ u ∈ us, (stopTime u).isSome ∧ u.stopId.isSome
  stops : ∀ (i : Nat) (u : StopUpd), us[i]? = some u → ∃ l, env.tt.lookup env.src (u.stopId.getD "") = some l ∧
      ss[i]? = some ⟨l, (env.inOut u).1, (env.inOut u).2, false, false⟩
  speed : Plausible env us

theorem stopTime_isSome (u : StopUpd) :
    (stopTime u).isSome = ((u.dep.bind Ev.time).isSome || (u.arr.bind Ev.time).isSome) := by
  unfold stopTime
  cases h1 : u.dep.bind Ev.time with
  | some t => simp
  | none => cases u.arr.bind Ev.time <;> rfl

theorem newTripLoop_ok (env : Env) (pre : List StopUpd) (acc : List Stop) (last : Option (Nat × Int))
    (us : List StopUpd) (ss : List Stop)
    (hacc : acc.length = pre.length)
    (hgiven : ∀ u ∈ pre, (stopTime u).isSome ∧ u.stopId.isSome)
    (hst : ∀ (i : Nat) (u : StopUpd), pre[i]? = some u → ∃ l, env.tt.lookup env.src (u.stopId.getD "") = some l ∧
      acc[i]? = some ⟨l, (env.inOut u).1, (env.inOut u).2, false, false⟩)
    (hsp : Plausible env pre)
    (hlast : ∀ u, pre.getLast? = some u → ∃ l t, last = some (l, t) ∧ stopTime u = some t ∧
      env.tt.lookup env.src (u.stopId.getD "") = some l) (hl0 : pre = [] → last = none) :
    newTripLoop env last acc us = .ok ss ↔ IsNewTrip env (pre ++ us) ss := by
  induction us generalizing pre acc last with
  | nil =>
    simp only [newTripLoop, List.append_nil]
    by_cases h : 1 < acc.length
    · rw [if_pos h]
      constructor
      · intro he
        cases he
        exact ⟨by omega, hacc, hgiven, hst, hsp⟩
      · intro hn
        congr 1
        apply List.ext_getElem?
        intro i
        by_cases hi : i < pre.length
        · obtain ⟨l, h1, h2⟩ := hst i _ (List.getElem?_eq_getElem hi)
          obtain ⟨l', h3, h4⟩ := hn.stops i _ (List.getElem?_eq_getElem hi)
          rw [h1] at h3
          cases h3
          rw [h2, h4]
        · rw [List.getElem?_eq_none (by omega), List.getElem?_eq_none (by have := hn.len; omega)]
    · rw [if_neg h]
      constructor
      · intro he; cases he
      · intro hn
        have := hn.two
        omega
  | cons u us ih =>
    have hassoc : pre ++ u :: us = (pre ++ [u]) ++ us := by simp
    have hmem : u ∈ pre ++ u :: us := by simp
    have hat : (pre ++ u :: us)[pre.length]? = some u := by simp
    rw [newTripLoop]
    cases ht : stopTime u with
    | none =>
      simp only
      constructor
      · intro he; cases he
      · intro hn
        have := (hn.given u hmem).1
        rw [ht] at this
        cases this
    | some t =>
      cases hid : u.stopId with
      | none =>
        simp only
        constructor
        · intro he; cases he
        · intro hn
          have := (hn.given u hmem).2
          rw [hid] at this
          cases this
      | some id =>
        have hg : u.stopId.getD "" = id := by rw [hid]; rfl
        cases hlo : env.tt.lookup env.src id with
        | none =>
          simp only [hlo]
          constructor
          · intro he; cases he
          · intro hn
            obtain ⟨l, h1, _⟩ := hn.stops _ _ hat
            rw [hg, hlo] at h1
            cases h1
        | some l =>
          simp only [hlo]
          have hpl : env.fast last l t = true →
              ¬ IsNewTrip env (pre ++ u :: us) ss := by
            intro hf hn
            cases hpre : pre.getLast? with
            | none =>
              rw [List.getLast?_eq_none_iff] at hpre
              rw [hl0 hpre] at hf
              cases hf
            | some v =>
              obtain ⟨l', t', h1, h2, h3⟩ := hlast v hpre
              rw [h1] at hf
              simp only [Env.fast, Bool.and_eq_true, decide_eq_true_eq] at hf
              have hne : 0 < pre.length := by
                cases hp : pre with
                | nil => rw [hp] at hpre; cases hpre
                | cons _ _ => simp
              have hv : (pre ++ u :: us)[pre.length - 1]? = some v := by
                rw [List.getElem?_append_left (by omega), ← List.getLast?_eq_getElem?]
                exact hpre
              have := hn.speed (pre.length - 1) v u l' l t' t hv
                (by rw [show pre.length - 1 + 1 = pre.length by omega]; exact hat) h3 (by rw [hg]; exact hlo) h2 ht hf.1
              rw [hf.2] at this
              cases this
          by_cases hf : env.fast last l t = true
          · rw [if_pos hf]
            constructor
            · intro he; cases he
            · intro hn; exact absurd hn (hpl hf)
          · rw [if_neg hf, hassoc]
            apply ih
            · simp [hacc]
            · intro w hw
              rcases List.mem_append.mp hw with hw | hw
              · exact hgiven w hw
              · rw [List.mem_singleton] at hw
                subst hw
                exact ⟨by rw [ht]; rfl, by rw [hid]; rfl⟩
            · intro i w hw
              rcases getElem?_snoc hw with ⟨_, h⟩ | ⟨hi, he⟩
              · obtain ⟨l', h1, h2⟩ := hst i w h
                refine ⟨l', h1, ?_⟩
                rw [List.getElem?_append_left ((List.getElem?_eq_some_iff.mp h2).1)]
                exact h2
              · subst he
                refine ⟨l, by rw [hg]; exact hlo, ?_⟩
                rw [hi, ← hacc]
                simp
            · intro i a b la lb s s' ha hb h1 h2 h3 h4 h0
              rcases getElem?_snoc hb with ⟨hi, hb'⟩ | ⟨hi, he⟩
              · rcases getElem?_snoc ha with ⟨_, ha'⟩ | ⟨hi', _⟩
                · exact hsp i a b la lb s s' ha' hb' h1 h2 h3 h4 h0
                · omega
              · rcases getElem?_snoc ha with ⟨_, ha'⟩ | ⟨hi', _⟩
                · subst he
                  have hgl : pre.getLast? = some a := by
                    rw [List.getLast?_eq_getElem?, show pre.length - 1 = i by omega]
                    exact ha'
                  obtain ⟨l', t', h5, h6, h7⟩ := hlast a hgl
                  rw [h5] at hf
                  rw [h1] at h7
                  rw [h3] at h6
                  rw [ht] at h4
                  rw [hg, hlo] at h2
                  cases h7
                  cases h6
                  cases h4
                  cases h2
                  simp only [Env.fast, Bool.and_eq_true, decide_eq_true_eq, not_and, Bool.not_eq_true] at hf
                  exact hf h0
                · omega
            · intro w hw
              rw [List.getLast?_concat] at hw
              cases hw
              exact ⟨l, t, rfl, ht, by rw [hg]; exact hlo⟩
            · intro h
              simp at h

/-- **C114 (added trips).** An added trip is accepted iff every stop update has a time and a known stop, there are
at least two, and no two consecutive ones are too far apart for the time between them; its stops are the
announced ones. -/
theorem C114_new_trip (env : Env) (us : List StopUpd) (ss : List Stop) :
    newTrip env us = .ok ss ↔ IsNewTrip env us ss := by
  have := newTripLoop_ok env [] [] none us ss rfl (by simp) (by simp) (by intro i u v _ _ _ _ h; simp at h) (by simp)
    (fun _ => rfl)
  rw [List.nil_append] at this
  exact this

open Classical in
theorem newStops_iff (env : Env) (us : List StopUpd) (ss : List Stop) :
    newStops env.tt env.src (fun us => decide (Plausible env us)) env.inOut us = some ss ↔ IsNewTrip env us ss := by
  constructor
  · intro h
    obtain ⟨h1, h2, h3, h4⟩ := newStops_spec h
    refine ⟨h1, h2, ?_, h4, ?_⟩
    · intro u hu
      obtain ⟨a, b⟩ := h3 u hu
      refine ⟨?_, b⟩
      rw [stopTime_isSome, Bool.or_eq_true]
      exact a
    · unfold newStops at h
      by_cases hp : Plausible env us
      · exact hp
      · simp only [hp, decide_false, Bool.false_and, Bool.false_eq_true, if_false] at h
        cases h
  · intro h
    unfold newStops
    rw [if_pos]
    · have hm : us.mapM (fun u => (env.tt.lookup env.src (u.stopId.getD "")).map fun l =>
          (⟨l, (env.inOut u).1, (env.inOut u).2, false, false⟩ : Stop)) = some ss := by
        have gen : ∀ (us : List StopUpd) (ss : List Stop), ss.length = us.length →
            (∀ (i : Nat) (u : StopUpd), us[i]? = some u → ∃ l, env.tt.lookup env.src (u.stopId.getD "") = some l ∧
              ss[i]? = some ⟨l, (env.inOut u).1, (env.inOut u).2, false, false⟩) →
            us.mapM (fun u => (env.tt.lookup env.src (u.stopId.getD "")).map fun l =>
              (⟨l, (env.inOut u).1, (env.inOut u).2, false, false⟩ : Stop)) = some ss := by
          intro us
          induction us with
          | nil => intro ss hl _; rw [List.eq_nil_of_length_eq_zero hl]; rfl
          | cons u us ih =>
            intro ss hl hs
            cases ss with
            | nil => simp at hl
            | cons s ss =>
              obtain ⟨l, h1, h2⟩ := hs 0 u rfl
              have h2' : s = ⟨l, (env.inOut u).1, (env.inOut u).2, false, false⟩ := by simpa using h2
              rw [List.mapM_cons, h1, ih ss (by simpa using hl) (by
                intro i w hw
                have := hs (i + 1) w (by simpa using hw)
                simpa using this)]
              rw [h2']
              rfl
        exact gen us ss h.len h.stops
      rw [hm]
      simp only
      rw [if_pos (by have := h.two; have := h.len; omega)]
    · rw [Bool.and_eq_true, List.all_eq_true]
      refine ⟨decide_eq_true h.speed, ?_⟩
      intro u hu
      obtain ⟨a, b⟩ := h.given u hu
      rw [stopTime_isSome] at a
      rw [Bool.and_eq_true]
      exact ⟨a, b⟩

/-- A trip descriptor says which trip it is about: by a trip id, or - scheduled or cancelled, explicitly - by route, direction,
start date and start time. -/
def Identified (d : Descr) : Prop :=
  d.tripId ≠ none ∨ (d.rel = some .scheduled ∨ d.rel = some .canceled) ∧ d.startDate ≠ none ∧ d.startTime ≠ none ∧
    d.routeId ≠ none ∧ d.direction ≠ none

theorem identifiable_iff (d : Descr) : d.identifiable = true ↔ Identified d := by
  have hs : ∀ {α : Type} (o : Option α), o.isSome = true ↔ o ≠ none := by
    intro α o
    cases o <;> simp
  have hr : ∀ (a : Option Rel) (b : Rel), (a == some b) = true ↔ a = some b := by
    intro a b
    cases a with
    | none => simp
    | some c => cases c <;> cases b <;> decide
  unfold Descr.identifiable Identified
  rw [Bool.or_eq_true, Bool.and_eq_true, Bool.and_eq_true, Bool.and_eq_true, Bool.and_eq_true, Bool.or_eq_true,
    hs, hs, hs, hs, hs, hr, hr, and_assoc, and_assoc, and_assoc]

open Classical in
/-- What an entity of a feed of trip updates means: cancel or update the runs its trip descriptor stands
for, add a trip, or nothing (alerts, entities without trip update or identifiable trip, unsupported kinds, unreadable
descriptors, added trips which are in the timetable). -/
noncomputable def meant (env : Env) (e : FeedEntity) : Option Entity :=
  if e.alert then none
  else match e.upd with
    | none => none
    | some u => match u.trip with
      | none => none
      | some d => match env.resolve d with
        | none => none
        | some runs =>
          if Identified d then
            match d.rel.getD .scheduled with
            | .scheduled => some (.update env.src runs u.us)
            | .canceled => some (.cancel env.src runs)
            | .added | .new =>
              if runs = [] then
                some (.added env.src (d.tripId.getD "") (fun us => decide (Plausible env us)) env.inOut u.us)
              else none
            | _ => none
          else none

/-- The id of an added trip is not changed by `trip_properties`. -/
def SameId (e : FeedEntity) : Prop :=
  ∀ u d, e.upd = some u → u.trip = some d → (d.rel.getD .scheduled).isAdded = true →
    ∀ id, u.propsId = some id → id = "" ∨ id = d.tripId.getD ""

theorem SameId.eq {e : FeedEntity} (h : SameId e) {u : TripUpd} {d : Descr} (hu : e.upd = some u) (hd : u.trip = some d)
    (ha : (d.rel.getD .scheduled).isAdded = true) : u.lookupId d = storeId d := by
  unfold TripUpd.lookupId storeId
  cases hp : u.propsId with
  | none => rfl
  | some id =>
    simp only
    rcases h u d hu hd ha id hp with h1 | h1
    · rw [if_pos h1]
    · split
      · rfl
      · exact h1

open Classical in
theorem addTrip_eq (env : Env) (r : Rtt) (id : String) (us : List StopUpd) :
    (addTrip env r id id us).1 =
      process env.tt r (.added env.src id (fun us => decide (Plausible env us)) env.inOut us) := by
  unfold addTrip process
  simp only
  cases hr : (resolveRt r ⟨none, none, 0, []⟩ id env.src).rt with
  | some rt => rfl
  | none =>
    simp only
    cases hn : newTrip env us with
    | ok ss =>
      have := (newStops_iff env us ss).mpr ((C114_new_trip env us ss).mp hn)
      rw [this]
    | fail =>
      cases hs : newStops env.tt env.src (fun us => decide (Plausible env us)) env.inOut us with
      | none => rfl
      | some ss =>
        have := (C114_new_trip env us ss).mpr ((newStops_iff env us ss).mp hs)
        rw [hn] at this
        cases this
    | reject =>
      cases hs : newStops env.tt env.src (fun us => decide (Plausible env us)) env.inOut us with
      | none => rfl
      | some ss =>
        have := (C114_new_trip env us ss).mpr ((newStops_iff env us ss).mp hs)
        rw [hn] at this
        cases this

theorem applyTrip_added (env : Env) (s : Rtt × Stats) (u : TripUpd) (d : Descr) (rel : Rel) (hr : rel.isAdded = true)
    (h : env.resolve d = some []) :
    (applyTrip env s u d rel).1 = (addTrip env s.1 (u.lookupId d) (storeId d) u.us).1 := by
  unfold applyTrip
  rw [h]
  simp only [hr, if_true, List.isEmpty_nil]
  generalize addTrip env s.1 (u.lookupId d) (storeId d) u.us = z
  obtain ⟨z1, z2⟩ := z
  cases z2 with
  | none => rfl
  | some b => cases b <;> rfl

theorem feedEntity_eq (env : Env) (now : Int) (s : Rtt × Stats) (e : FeedEntity) (h : SameId e) :
    (feedEntity env now false s e).1 =
      (match meant env e with | some m => process env.tt s.1 m | none => s.1) := by
  unfold feedEntity meant
  by_cases ha : e.alert = true
  · simp only [ha, if_true]
  · simp only [ha, Bool.false_eq_true, if_false]
    cases hu : e.upd with
    | none => rfl
    | some u =>
      simp only [tripEntity]
      cases hd : u.trip with
      | none => rfl
      | some d =>
        simp only
        cases hi : d.identifiable with
        | false =>
          have hid : ¬ Identified d := fun hx => by rw [(identifiable_iff d).mpr hx] at hi; cases hi
          simp only [Bool.false_eq_true, if_false, if_neg hid]
          cases env.resolve d <;> rfl
        | true =>
          have hid : Identified d := (identifiable_iff d).mp hi
          simp only [if_true, if_pos hid]
          have hsame := fun ha => h.eq hu hd ha
          generalize d.rel.getD .scheduled = rel at hsame
          have hadd : rel.isAdded = true → (applyTrip env (s.1, if e.deleted = true then
                { s.2 with deleted := s.2.deleted + 1 } else s.2) u d rel).1 =
              (match (match env.resolve d with
                | none => none
                | some runs => if runs = [] then
                    some (.added env.src (d.tripId.getD "") (fun us => @decide (Plausible env us) (Classical.propDecidable _)) env.inOut u.us)
                    else none : Option Entity) with | some m => process env.tt s.1 m | none => s.1) := by
            intro hr
            cases hres : env.resolve d with
            | none =>
              simp only [applyTrip, hres]
            | some runs =>
              cases runs with
              | nil =>
                rw [applyTrip_added env _ u d rel hr hres, hsame hr]
                simp only [if_true]
                exact addTrip_eq env s.1 (storeId d) u.us
              | cons x xs =>
                simp only [applyTrip, hres, hr, if_true, List.isEmpty_cons, Bool.false_eq_true, if_false, reduceCtorEq]
          cases rel with
          | scheduled =>
            simp only [reduceCtorEq, false_and, if_false, ne_eq, not_true_eq_false]
            unfold applyTrip
            cases hres : env.resolve d with
            | none => rfl
            | some runs =>
              simp only [Rel.isAdded]
              rfl
          | canceled =>
            simp only [reduceCtorEq, false_and, if_false, ne_eq, not_true_eq_false, not_false_eq_true, true_and]
            unfold applyTrip
            cases hres : env.resolve d with
            | none => rfl
            | some runs =>
              simp only [Rel.isAdded]
              rfl
          | added => exact hadd rfl
          | new => exact hadd rfl
          | unscheduled => cases env.resolve d <;> simp [Rel.isAdded]
          | replacement => cases env.resolve d <;> simp [Rel.isAdded]
          | duplicated =>
            cases env.resolve d <;> simp only [Rel.isAdded] <;> (by_cases hp : u.propsId = none <;> simp [hp])
          | deleted => cases env.resolve d <;> simp [Rel.isAdded]

/-- **C114.** A message of trip updates does exactly what its entities mean, in their order; entities which
mean nothing change nothing, whatever else they contain.  (All that is proved about histories of cancellations,
updates and added trips - C29, C30, C47, C48, C111 - holds for histories of messages therefore.) -/
theorem C114_effect (env : Env) (now : Int) (es : List FeedEntity) (r : Rtt) (h : ∀ e ∈ es, SameId e) :
    (feedMessage env now false es r).1 = (es.filterMap (meant env)).foldl (process env.tt) r := by
  have gen : ∀ (es : List FeedEntity) (s : Rtt × Stats), (∀ e ∈ es, SameId e) →
      (es.foldl (feedEntity env now false) s).1 = (es.filterMap (meant env)).foldl (process env.tt) s.1 := by
    intro es
    induction es with
    | nil => intro s _; rfl
    | cons e es ih =>
      intro s hs
      rw [List.foldl_cons, ih _ (fun x hx => hs x (List.mem_cons_of_mem _ hx)), feedEntity_eq env now s e (hs e List.mem_cons_self),
        List.filterMap_cons]
      cases meant env e <;> rfl
  exact gen es (r, {}) h

/-! ### Counters -/

/-- The counters of what became of the entities of a message of trip updates. -/
def Stats.outcomes (s : Stats) : Nat :=
  s.success + s.fail + s.alerts + s.noTripId + s.noTripUpdate + s.withoutTrip + s.resolveError + s.unsupportedRel

/-- The counters of what became of the entities of a message of vehicle positions. -/
def Stats.vehicleOutcomes (s : Stats) : Nat :=
  s.success + s.fail + s.alerts + s.noVehicle + s.noPosition + s.vehicleNoTrip + s.vehicleNoTripId + s.notAtStop

theorem applyTrip_count (env : Env) (s : Rtt × Stats) (u : TripUpd) (d : Descr) (rel : Rel)
    (h1 : ∀ runs, env.resolve d = some runs → runs.length ≤ 1) (h2 : newTrip env u.us ≠ .reject) :
    (applyTrip env s u d rel).2.outcomes = s.2.outcomes + 1 ∧ (applyTrip env s u d rel).2.deleted = s.2.deleted := by
  unfold applyTrip
  cases hres : env.resolve d with
  | none => simp only [Stats.outcomes, and_true, true_and]; omega
  | some runs =>
    have hl := h1 runs hres
    simp only
    by_cases ha : rel.isAdded = true
    · rw [if_pos ha]
      by_cases he : runs.isEmpty = true
      · rw [if_pos he]
        have hz : (addTrip env s.1 (u.lookupId d) (storeId d) u.us).2 ≠ some false := by
          unfold addTrip
          simp only
          cases (resolveRt s.1 ⟨none, none, 0, []⟩ (u.lookupId d) env.src).rt with
          | some rt => simp
          | none =>
            simp only
            cases hn : newTrip env u.us with
            | fail => simp
            | reject => exact absurd hn h2
            | ok ss => simp
        generalize addTrip env s.1 (u.lookupId d) (storeId d) u.us = z at hz
        obtain ⟨z1, z2⟩ := z
        cases z2 with
        | none => simp only [Stats.outcomes, and_true, true_and]; omega
        | some b =>
          cases b with
          | false => exact absurd rfl hz
          | true => simp only [Stats.outcomes, and_true, true_and]; omega
      · rw [if_neg he]
        simp only [Stats.outcomes, and_true, true_and]
        omega
    · rw [if_neg ha]
      by_cases he : runs.isEmpty = true
      · simp only [he, if_true, Stats.outcomes, and_true, true_and]; omega
      · simp only [he, Bool.false_eq_true, if_false, Stats.outcomes, and_true, true_and]
        have : runs.length ≠ 0 := by
          intro h
          exact he (by rw [List.eq_nil_of_length_eq_zero h]; rfl)
        omega

theorem tripEntity_count (env : Env) (s : Rtt × Stats) (upd : Option TripUpd)
    (h : ∀ u d, upd = some u → u.trip = some d →
      (∀ runs, env.resolve d = some runs → runs.length ≤ 1) ∧ newTrip env u.us ≠ .reject) :
    (tripEntity env s upd).2.outcomes = s.2.outcomes + 1 ∧ (tripEntity env s upd).2.deleted = s.2.deleted := by
  unfold tripEntity
  cases hu : upd with
  | none => simp only [Stats.outcomes, and_true, true_and]; omega
  | some u =>
    cases hd : u.trip with
    | none => simp only [hd, Stats.outcomes, and_true, true_and]; omega
    | some d =>
      obtain ⟨h1, h2⟩ := h u d hu hd
      simp only [hd]
      split
      · split
        · simp only [Stats.outcomes, and_true, true_and]; omega
        · split
          · simp only [Stats.outcomes, and_true, true_and]; omega
          · exact applyTrip_count env s u d _ h1 h2
      · simp only [Stats.outcomes, and_true, true_and]; omega

theorem vehicleEntity_count (env : Env) (now : Int) (s : Rtt × Stats) (v : Option Vehicle)
    (h : ∀ w d, v = some w → w.trip = some d → env.resolveOne d ≠ some none) :
    (vehicleEntity env now s v).2.vehicleOutcomes = s.2.vehicleOutcomes + 1 ∧
      (vehicleEntity env now s v).2.deleted = s.2.deleted ∧ (vehicleEntity env now s v).2.alerts = s.2.alerts ∧
      (vehicleEntity env now s v).2.vehicles = s.2.vehicles + 1 := by
  unfold vehicleEntity
  cases hv : v with
  | none => simp only [Stats.vehicleOutcomes, and_true, true_and]; omega
  | some w =>
    simp only
    split
    · cases hd : w.trip with
      | none => simp only [Stats.vehicleOutcomes, and_true, true_and]; omega
      | some d =>
        have hr := h w d hv hd
        simp only
        split
        · unfold vehicleUpdate
          cases ho : env.resolveOne d with
          | none => simp only [Stats.vehicleOutcomes, and_true, true_and]; omega
          | some o =>
            cases o with
            | none => exact absurd ho hr
            | some x =>
              simp only
              split
              · simp only [Stats.vehicleOutcomes, and_true, true_and]; omega
              · simp only [Stats.vehicleOutcomes, and_true, true_and]; omega
        · simp only [Stats.vehicleOutcomes, and_true, true_and]; omega
    · simp only [Stats.vehicleOutcomes, and_true, true_and]; omega

/-- **C114 (counted).** Every entity of a message of trip updates is counted in exactly one counter (and the
deleted ones in their own) - if no trip descriptor stands for several runs and no added trip has
unknown stops or is too fast. -/
theorem C114_counted_partial (env : Env) (now : Int) (es : List FeedEntity) (r : Rtt)
    (h : ∀ e ∈ es, ∀ u d, e.upd = some u → u.trip = some d →
      (∀ runs, env.resolve d = some runs → runs.length ≤ 1) ∧ newTrip env u.us ≠ .reject) :
    (feedMessage env now false es r).2.outcomes = es.length ∧
    (feedMessage env now false es r).2.deleted = es.countP (·.deleted) := by
  have gen : ∀ (es : List FeedEntity) (s : Rtt × Stats), (∀ e ∈ es, ∀ u d, e.upd = some u → u.trip = some d →
      (∀ runs, env.resolve d = some runs → runs.length ≤ 1) ∧ newTrip env u.us ≠ .reject) →
      (es.foldl (feedEntity env now false) s).2.outcomes = s.2.outcomes + es.length ∧
      (es.foldl (feedEntity env now false) s).2.deleted = s.2.deleted + es.countP (·.deleted) := by
    intro es
    induction es with
    | nil => intro s _; exact ⟨rfl, rfl⟩
    | cons e es ih =>
      intro s hs
      rw [List.foldl_cons]
      obtain ⟨i1, i2⟩ := ih (feedEntity env now false s e) (fun x hx => hs x (List.mem_cons_of_mem _ hx))
      have step : (feedEntity env now false s e).2.outcomes = s.2.outcomes + 1 ∧
          (feedEntity env now false s e).2.deleted = s.2.deleted + (if e.deleted = true then 1 else 0) := by
        unfold feedEntity
        obtain ⟨st, hst⟩ : ∃ st, (if e.deleted = true then { s.2 with deleted := s.2.deleted + 1 } else s.2) = st := ⟨_, rfl⟩
        have h1 : st.outcomes = s.2.outcomes ∧ st.deleted = s.2.deleted + (if e.deleted = true then 1 else 0) := by
          rw [← hst]
          split <;> exact ⟨rfl, rfl⟩
        simp only [hst]
        split
        · simp only [Stats.outcomes] at h1 ⊢
          omega
        · obtain ⟨a, b⟩ := tripEntity_count env (s.1, st) e.upd (hs e List.mem_cons_self)
          simp only [Bool.false_eq_true, if_false]
          exact ⟨a.trans (by rw [h1.1]), b.trans h1.2⟩
      rw [i1, i2, step.1, step.2, List.countP_cons, List.length_cons]
      omega
  have := gen es (r, {}) h
  refine ⟨this.1.trans ?_, this.2.trans ?_⟩
  · show 0 + es.length = es.length
    omega
  · show 0 + es.countP (·.deleted) = es.countP (·.deleted)
    omega

/-- **C114 (counted, vehicles).** The same for vehicle positions, unless the trip is not scheduled. -/
theorem C114_counted_vehicles_partial (env : Env) (now : Int) (es : List FeedEntity) (r : Rtt)
    (h : ∀ e ∈ es, ∀ v d, e.vehicle = some v → v.trip = some d → env.resolveOne d ≠ some none) :
    (feedMessage env now true es r).2.vehicleOutcomes = es.length ∧
    (feedMessage env now true es r).2.vehicles + (feedMessage env now true es r).2.alerts = es.length ∧
    (feedMessage env now true es r).2.deleted = es.countP (·.deleted) := by
  have gen : ∀ (es : List FeedEntity) (s : Rtt × Stats),
      (∀ e ∈ es, ∀ v d, e.vehicle = some v → v.trip = some d → env.resolveOne d ≠ some none) →
      (es.foldl (feedEntity env now true) s).2.vehicleOutcomes = s.2.vehicleOutcomes + es.length ∧
      (es.foldl (feedEntity env now true) s).2.vehicles + (es.foldl (feedEntity env now true) s).2.alerts =
        s.2.vehicles + s.2.alerts + es.length ∧
      (es.foldl (feedEntity env now true) s).2.deleted = s.2.deleted + es.countP (·.deleted) := by
    intro es
    induction es with
    | nil => intro s _; exact ⟨rfl, rfl, rfl⟩
    | cons e es ih =>
      intro s hs
      rw [List.foldl_cons]
      obtain ⟨i1, i2, i3⟩ := ih (feedEntity env now true s e) (fun x hx => hs x (List.mem_cons_of_mem _ hx))
      have step : (feedEntity env now true s e).2.vehicleOutcomes = s.2.vehicleOutcomes + 1 ∧
          (feedEntity env now true s e).2.vehicles + (feedEntity env now true s e).2.alerts = s.2.vehicles + s.2.alerts + 1 ∧
          (feedEntity env now true s e).2.deleted = s.2.deleted + (if e.deleted = true then 1 else 0) := by
        unfold feedEntity
        obtain ⟨st, hst⟩ : ∃ st, (if e.deleted = true then { s.2 with deleted := s.2.deleted + 1 } else s.2) = st := ⟨_, rfl⟩
        have h1 : st.vehicleOutcomes = s.2.vehicleOutcomes ∧ st.vehicles = s.2.vehicles ∧ st.alerts = s.2.alerts ∧
            st.deleted = s.2.deleted + (if e.deleted = true then 1 else 0) := by
          rw [← hst]
          split <;> exact ⟨rfl, rfl, rfl, rfl⟩
        simp only [hst]
        split
        · simp only [Stats.vehicleOutcomes] at h1 ⊢
          omega
        · obtain ⟨a, b, c, d⟩ := vehicleEntity_count env now (s.1, st) e.vehicle (hs e List.mem_cons_self)
          simp only [if_true]
          simp only at a b c d
          omega
      rw [i1, i2, i3, step.1, step.2.1, step.2.2, List.countP_cons, List.length_cons]
      omega
  have := gen es (r, {}) h
  refine ⟨this.1.trans ?_, this.2.1.trans ?_, this.2.2.trans ?_⟩
  · show 0 + es.length = es.length
    omega
  · show 0 + 0 + es.length = es.length
    omega
  · show 0 + es.countP (·.deleted) = es.countP (·.deleted)
    omega

/-! ### Vehicle positions -/

/-- The run a vehicle entity is about. -/
def FeedEntity.vehicleRun (env : Env) (e : FeedEntity) : Option Resolved :=
  if e.alert then none
  else e.vehicle.bind fun v => if v.hasPosition then
    v.trip.bind fun d => if d.tripId.isSome then (env.resolveOne d).bind id else none
  else none

theorem vehicle_step {env : Env} {A : List (Nat × Nat)} {B : Nat} {r : Rtt} (h : Inv env.tt A B r) (hB : B < 2 ^ 31)
    (now : Int) (st : Stats) (e : FeedEntity)
    (ht : ∀ x, e.vehicleRun env = some x → x.t.1 < env.tt.trafficDays.length) :
    ∃ A', (∀ k, k ∈ A' → k ∈ A ∨ ∃ x, e.vehicleRun env = some x ∧ x.t = k) ∧
      Inv env.tt A' (B + 1) (feedEntity env now true (r, st) e).1 ∧
      ∀ (i : Nat) (y : RtTransport), r.transports[i]? = some y →
        (∀ x, e.vehicleRun env = some x → y.static ≠ some x.t) →
        (feedEntity env now true (r, st) e).1.transports[i]? = some y := by
  have same : ∀ s' : Rtt × Stats, s'.1 = r → ∃ A', (∀ k, k ∈ A' → k ∈ A ∨ ∃ x, e.vehicleRun env = some x ∧ x.t = k) ∧
      Inv env.tt A' (B + 1) s'.1 ∧
      ∀ (i : Nat) (y : RtTransport), r.transports[i]? = some y →
        (∀ x, e.vehicleRun env = some x → y.static ≠ some x.t) → s'.1.transports[i]? = some y := by
    intro s' hs'
    rw [hs']
    exact ⟨A, fun k hk => Or.inl hk, h.mono (by omega), fun i y hy _ => hy⟩
  unfold feedEntity
  simp only
  by_cases ha : e.alert = true
  · rw [if_pos ha]
    exact same _ rfl
  · rw [if_neg ha, if_pos trivial]
    unfold vehicleEntity
    cases hv : e.vehicle with
    | none => exact same _ rfl
    | some v =>
      simp only
      by_cases hp : v.hasPosition = true
      · rw [if_pos hp]
        cases hd : v.trip with
        | none => exact same _ rfl
        | some d =>
          simp only
          by_cases hid : d.tripId.isSome = true
          · rw [if_pos hid]
            unfold vehicleUpdate
            cases ho : env.resolveOne d with
            | none => exact same _ rfl
            | some o =>
              cases o with
              | none => exact same _ rfl
              | some x =>
                have hrun : e.vehicleRun env = some x := by
                  unfold FeedEntity.vehicleRun
                  rw [if_neg ha, hv, Option.bind_some, if_pos hp, hd, Option.bind_some, if_pos hid, ho]
                  rfl
                simp only
                have hx := ht x hrun
                obtain ⟨r1, rt, hi⟩ : ∃ r1 rt, instanceOf env r x = (r1, rt) := ⟨_, _, rfl⟩
                have key : Inv env.tt (x.t :: A) (B + 1) r1 ∧
                    (∀ (i : Nat) (y : RtTransport), r.transports[i]? = some y → r1.transports[i]? = some y) ∧
                    (∀ y, r1.transports[rt]? = some y → y.static = some x.t) := by
                  unfold instanceOf at hi
                  cases hl : r.byStatic.lookup x.t with
                  | some rt' =>
                    rw [hl] at hi
                    simp only [Prod.mk.injEq] at hi
                    obtain ⟨rfl, rfl⟩ := hi
                    refine ⟨(h.mono (show B ≤ B + 1 by omega)).congr ?_, fun i y hy => hy, ?_⟩
                    · intro k
                      constructor
                      · intro hk
                        exact List.mem_cons_of_mem _ hk
                      · intro hk
                        rcases List.mem_cons.mp hk with rfl | hk
                        · exact h.keys _ (by rw [hl]; rfl)
                        · exact hk
                    · intro y hy
                      obtain ⟨y', h1, h2⟩ := (h.inst x.t rt').mp hl
                      rw [hy] at h1
                      cases h1
                      exact h2
                  | none =>
                    rw [hl] at hi
                    rcases x with ⟨⟨t, d'⟩, f, q⟩
                    simp only at hi hl hx ⊢
                    obtain ⟨h1, h2⟩ := inv_add_static h hB env.src hx hl
                    rw [hi] at h1 h2
                    have htr : r1.transports = r.transports ++ [⟨some (t, d'), env.src,
                        copyTimes env.tt r.base t d' (env.tt.stops t).length, env.tt.stops t, false⟩] := by
                      have := congrArg (fun z => z.1.transports) hi
                      simp only at this
                      rw [← this]
                      simp [addRtTransport, deactivate]
                    refine ⟨h1, ?_, ?_⟩
                    · intro i y hy
                      rw [htr, List.getElem?_append_left (List.getElem?_eq_some_iff.mp hy).1]
                      exact hy
                    · intro y hy
                      simp only at h2
                      rw [htr, h2] at hy
                      simp only [List.getElem?_concat_length, Option.some.injEq] at hy
                      rw [← hy]
                rw [hi]
                simp only
                have hA : ∀ k, k ∈ x.t :: A → k ∈ A ∨ ∃ y, e.vehicleRun env = some y ∧ y.t = k := by
                  intro k hk
                  rcases List.mem_cons.mp hk with rfl | hk
                  · exact Or.inr ⟨x, hrun, rfl⟩
                  · exact Or.inl hk
                split
                · exact ⟨x.t :: A, hA, key.1, fun i y hy _ => key.2.1 i y hy⟩
                · refine ⟨x.t :: A, hA, ?_, ?_⟩
                  · exact key.1.same (modify_same r1 rt _ (fun _ => rfl))
                  · intro i y hy hn
                    have h1 := key.2.1 i y hy
                    have hne : i ≠ rt := by
                      intro he
                      subst he
                      exact hn x hrun (key.2.2 y h1)
                    show (r1.transports.modify rt _)[i]? = some y
                    rw [modify_other r1 rt _ i hne]
                    exact h1
          · rw [if_neg hid]
            exact same _ rfl
      · rw [if_neg hp]
        exact same _ rfl

/-- **C114 (vehicle positions).** A message of vehicle positions changes only the runs its entities are about: every
other instance stays as it is, every other run stays active, and there is still one instance per run. -/
theorem C114_vehicles (env : Env) (h : env.tt.Ok) (base now : Int) {hist : List Entity} (es : List FeedEntity)
    (hf : Fits env.tt hist) (hc : (hist.map Entity.cost).sum + es.length < 2 ^ 31)
    (ht : ∀ e ∈ es, ∀ x, e.vehicleRun env = some x → x.t.1 < env.tt.trafficDays.length) :
    let r := processAll env.tt base hist
    let r' := (feedMessage env now true es r).1
    (∀ (i : Nat) (y : RtTransport), r.transports[i]? = some y →
      (∀ e ∈ es, ∀ x, e.vehicleRun env = some x → y.static ≠ some x.t) → r'.transports[i]? = some y) ∧
    (∀ t d, t < env.tt.trafficDays.length → isActive env.tt r t d = true →
      (∀ e ∈ es, ∀ x, e.vehicleRun env = some x → x.t ≠ (t, d)) → isActive env.tt r' t d = true) ∧
    (∀ k rt, r'.byStatic.lookup k = some rt ↔ ∃ x, r'.transports[rt]? = some x ∧ x.static = some k) := by
  intro r r'
  have h0 := inv_create env.tt base (fun i hi => by have := h.2 i hi; have := h.1; omega)
  obtain ⟨A, B, _, hB, hI⟩ := inv_processAll hist [] 0 _ h0 (by have := hf.1; omega) hf.2
  have gen : ∀ (es : List FeedEntity) (A : List (Nat × Nat)) (B : Nat) (s : Rtt × Stats), Inv env.tt A B s.1 →
      B + es.length < 2 ^ 31 → (∀ e ∈ es, ∀ x, e.vehicleRun env = some x → x.t.1 < env.tt.trafficDays.length) →
      ∃ A' B', (∀ k, k ∈ A' → k ∈ A ∨ ∃ e ∈ es, ∃ x, e.vehicleRun env = some x ∧ x.t = k) ∧
        Inv env.tt A' B' (es.foldl (feedEntity env now true) s).1 ∧
        ∀ (i : Nat) (y : RtTransport), s.1.transports[i]? = some y →
          (∀ e ∈ es, ∀ x, e.vehicleRun env = some x → y.static ≠ some x.t) →
          (es.foldl (feedEntity env now true) s).1.transports[i]? = some y := by
    intro es
    induction es with
    | nil => intro A B s hI _ _; exact ⟨A, B, fun k hk => Or.inl hk, hI, fun i y hy _ => hy⟩
    | cons e es ih =>
      intro A B s hI hB ht
      rw [List.length_cons] at hB
      obtain ⟨A1, h1, h2, h3⟩ := vehicle_step hI (by omega) now s.2 e (ht e List.mem_cons_self)
      obtain ⟨A2, B2, h4, h5, h6⟩ := ih A1 (B + 1) (feedEntity env now true s e) h2 (by omega)
        (fun x hx => ht x (List.mem_cons_of_mem _ hx))
      refine ⟨A2, B2, ?_, h5, ?_⟩
      · intro k hk
        rcases h4 k hk with hk | ⟨e', he', hx⟩
        · rcases h1 k hk with hk | hx
          · exact Or.inl hk
          · exact Or.inr ⟨e, List.mem_cons_self, hx⟩
        · exact Or.inr ⟨e', List.mem_cons_of_mem _ he', hx⟩
      · intro i y hy hn
        exact h6 i y (h3 i y hy (hn e List.mem_cons_self)) (fun e' he' => hn e' (List.mem_cons_of_mem _ he'))
  have hBB : B + es.length < 2 ^ 31 := by omega
  obtain ⟨A', B', h1, h2, h3⟩ := gen es A B (r, {}) hI hBB ht
  refine ⟨h3, ?_, h2.inst⟩
  intro t d htl hact hn
  have ha := hI.active t d htl
  have hb := h2.active t d htl
  show isActive env.tt (es.foldl (feedEntity env now true) (r, {})).1 t d = true
  rw [hb]
  change isActive env.tt r t d = true at hact
  have hact' : isActive env.tt (processAll env.tt base hist) t d = true := hact
  unfold processAll at hact'
  rw [ha, Bool.and_eq_true] at hact'
  rw [hact'.1, Bool.true_and, Bool.not_eq_true', decide_eq_false_iff_not]
  intro hk
  rcases h1 _ hk with hk | ⟨e, he, x, hx, hxk⟩
  · have := hact'.2
    simp [hk] at this
  · exact hn e he x hx hxk

end Nigiri.Rt
