import Verif.Props.RtLocations

/-!
# Applying the same trip update to two states

The events and stops a trip update writes, and the values, depend on the state only through the one event
before the first event it writes.
-/

namespace Nigiri.Rt

/-- A step at event `e` on arrays of `n` times: it writes nothing or event `e`; the written value depends on
the carried delay if there is one, else on the time of the event before. -/
def StepOk (n : Nat) (f : St × Option Prop' → St × Option Prop') (e : Nat) : Prop :=
  (∀ p, (∀ st : St, st.times.length = n → f (st, some p) = (st, some p)) ∨
    ∃ v q, ∀ st : St, st.times.length = n → f (st, some p) = ({ st with times := st.times.set e v }, some q)) ∧
  ((∀ st : St, st.times.length = n → f (st, none) = (st, none)) ∨
    ∃ (g : Int → Int) (q : Int → Prop'), ∀ st : St, st.times.length = n →
      f (st, none) = ({ st with times := st.times.set e (g (if e = 0 then 0 else st.times.getD (e - 1) 0)) },
        some (q (if e = 0 then 0 else st.times.getD (e - 1) 0))))

theorem getD_set (l : List Int) (e i : Nat) (v : Int) :
    (l.set e v).getD i 0 = if i = e ∧ e < l.length then v else l.getD i 0 := by
  simp only [List.getD_eq_getElem?_getD, List.getElem?_set]
  by_cases h : e = i
  · subst h
    by_cases hl : e < l.length
    · simp [hl]
    · simp [hl]
  · rw [if_neg h, if_neg (by omega)]

theorem updateDelay_uni (c : Ctx) (n e : Nat) (d : Int) (m : Int) :
    ∃ v q, ∀ st : St, st.times.length = n →
      updateDelay c st e d (some m) = ({ st with times := st.times.set e v }, q) := by
  refine ⟨unixToDelta c.base (max m ((if c.scheduled then c.static e else m) + d)),
    ⟨dayToUnix c.base + (if e < n then unixToDelta c.base (max m ((if c.scheduled then c.static e else m) + d)) else 0), d⟩, ?_⟩
  intro st hn
  simp only [updateDelay, updateTime, evTime, Option.getD_some, Prod.mk.injEq, true_and, Prop'.mk.injEq, and_true]
  rw [getD_set]
  by_cases h : e < n
  · rw [if_pos ⟨rfl, by omega⟩, if_pos h]
  · rw [if_neg (by omega), if_neg h]
    simp only [List.getD_eq_getElem?_getD]
    rw [List.getElem?_eq_none (by omega)]; rfl

theorem updateEvent_uni (c : Ctx) (n e : Nat) (ev : Ev) (m : Int) :
    ∃ v q, ∀ st : St, st.times.length = n →
      updateEvent c st e ev m = ({ st with times := st.times.set e v }, q) := by
  by_cases h : (ev.delay.isSome && c.scheduled) = true
  · obtain ⟨v, q, hu⟩ := updateDelay_uni c n e (wrap16 (toMinutes (ev.delay.getD 0))) m
    refine ⟨v, q, ?_⟩
    intro st hn
    simp only [updateEvent]
    rw [if_pos h]
    exact hu st hn
  · refine ⟨unixToDelta c.base (max m (toMinutes (ev.time.getD 0))),
      ⟨max m (toMinutes (ev.time.getD 0)), wrap16 (max m (toMinutes (ev.time.getD 0)) -
        (if c.scheduled then c.static e else toMinutes (ev.time.getD 0)))⟩, ?_⟩
    intro st hn
    simp only [updateEvent]
    rw [if_neg h]
    simp only [updateTime]

/-- `updateEvent` with the value read. -/
theorem updateEvent_uni' (c : Ctx) (n e : Nat) (ev : Ev) (m : Int → Int) :
    ∃ (g : Int → Int) (q : Int → Prop'), ∀ (st : St) (z : Int), st.times.length = n →
      updateEvent c st e ev (m z) = ({ st with times := st.times.set e (g z) }, q z) := by
  refine ⟨fun z => Classical.choose (updateEvent_uni c n e ev (m z)),
    fun z => Classical.choose (Classical.choose_spec (updateEvent_uni c n e ev (m z))), ?_⟩
  intro st z hn
  exact Classical.choose_spec (Classical.choose_spec (updateEvent_uni c n e ev (m z))) st hn

theorem stepArr_ok (c : Ctx) (n stop : Nat) (mu : Option StopUpd) (h0 : stop ≠ c.first → 0 < stop) :
    StepOk n (stepArr c stop mu) (evIdx stop true) := by
  by_cases hf : stop ≠ c.first
  · have h0 := h0 hf
    have he : evIdx stop true ≠ 0 := by simp only [evIdx, if_true]; omega
    have he1 : evIdx (stop - 1) false = evIdx stop true - 1 := by
      simp only [evIdx, if_true]; simp; omega
    unfold StepOk stepArr
    simp only [if_pos hf]
    cases hm : mu.bind (fun u => if Ev.has u.arr then u.arr else none) with
    | some ev =>
      refine ⟨?_, ?_⟩
      · intro p
        right
        obtain ⟨v, q, hu⟩ := updateEvent_uni c n (evIdx stop true) ev p.time
        exact ⟨v, q, fun st hn => by simp only [fallbackArr]; rw [hu st hn]⟩
      · right
        obtain ⟨g, q, hu⟩ := updateEvent_uni' c n (evIdx stop true) ev (fun z => dayToUnix c.base + z)
        refine ⟨g, q, fun st hn => ?_⟩
        simp only [fallbackArr]
        rw [if_neg (by omega : ¬ stop = 0), if_neg he]
        simp only [evTime]
        rw [he1, hu st _ hn]
    | none =>
      refine ⟨?_, ?_⟩
      · intro p
        right
        obtain ⟨v, q, hu⟩ := updateDelay_uni c n (evIdx stop true) p.delay p.time
        exact ⟨v, q, fun st hn => by simp only []; rw [hu st hn]⟩
      · left
        intro st _
        rfl
  · refine ⟨fun p => Or.inl fun st _ => ?_, Or.inl fun st _ => ?_⟩ <;>
    · unfold stepArr; rw [if_neg hf]

theorem stepDep_ok (c : Ctx) (n stop : Nat) (mu : Option StopUpd) :
    StepOk n (stepDep c stop mu) (evIdx stop false) := by
  unfold StepOk stepDep
  cases hd : mu.bind (fun u => if stop = 0 && Ev.has u.arr && u.dep.isNone then u.arr else none) with
  | some ev =>
    obtain ⟨v, q, hu⟩ := updateEvent_uni c n (evIdx stop false) ev 0
    refine ⟨fun p => Or.inr ⟨v, q, fun st hn => ?_⟩, Or.inr ⟨fun _ => v, fun _ => q, fun st hn => ?_⟩⟩ <;>
    · simp only []
      rw [hu st hn]
  | none =>
    by_cases hl : stop ≠ c.locSeq.length - 1
    · simp only [if_pos hl]
      cases hm : mu.bind (fun u => if Ev.has u.dep then u.dep else none) with
      | some ev =>
        refine ⟨?_, ?_⟩
        · intro p
          right
          obtain ⟨v, q, hu⟩ := updateEvent_uni c n (evIdx stop false) ev p.time
          exact ⟨v, q, fun st hn => by simp only [fallbackDep]; rw [hu st hn]⟩
        · right
          by_cases hs : stop = 0
          · obtain ⟨v, q, hu⟩ := updateEvent_uni c n (evIdx stop false) ev 0
            refine ⟨fun _ => v, fun _ => q, fun st hn => ?_⟩
            simp only [fallbackDep]
            rw [if_pos hs, hu st hn]
          · obtain ⟨g, q, hu⟩ := updateEvent_uni' c n (evIdx stop false) ev (fun z => dayToUnix c.base + z)
            refine ⟨g, q, fun st hn => ?_⟩
            have he : evIdx stop false ≠ 0 := by simp only [evIdx]; simp; omega
            have he1 : evIdx stop true = evIdx stop false - 1 := by simp [evIdx]
            simp only [fallbackDep]
            rw [if_neg hs, if_neg he]
            simp only [evTime]
            rw [he1, hu st _ hn]
      | none =>
        refine ⟨?_, ?_⟩
        · intro p
          right
          obtain ⟨v, q, hu⟩ := updateDelay_uni c n (evIdx stop false) p.delay p.time
          exact ⟨v, q, fun st hn => by simp only []; rw [hu st hn]⟩
        · left
          intro st _
          rfl
    · refine ⟨fun p => Or.inl fun st _ => ?_, Or.inl fun st _ => ?_⟩ <;>
      · simp only []
        rw [if_neg hl]

/-- Each event of `r`, `r'` was written with the same value or is untouched in both. -/
def Both (x x' r r' : List Int) : Prop :=
  r.length = x.length ∧ r'.length = x'.length ∧
    ∀ i : Nat, r.getD i 0 = r'.getD i 0 ∨ (r.getD i 0 = x.getD i 0 ∧ r'.getD i 0 = x'.getD i 0)

theorem Both.refl (x x' : List Int) : Both x x' x x' := ⟨rfl, rfl, fun _ => Or.inr ⟨rfl, rfl⟩⟩

theorem Both.trans {x x' y y' z z' : List Int} (h : Both x x' y y') (h2 : Both y y' z z') : Both x x' z z' := by
  refine ⟨by rw [h2.1, h.1], by rw [h2.2.1, h.2.1], ?_⟩
  intro i
  rcases h2.2.2 i with e | ⟨e1, e2⟩
  · exact Or.inl e
  · rcases h.2.2 i with f | ⟨f1, f2⟩
    · exact Or.inl (by rw [e1, e2, f])
    · exact Or.inr ⟨by rw [e1, f1], by rw [e2, f2]⟩

theorem Both.set {x x' : List Int} (hl : x.length = x'.length) (e : Nat) (v : Int) : Both x x' (x.set e v) (x'.set e v) := by
  refine ⟨by simp, by simp, ?_⟩
  intro i
  rw [getD_set, getD_set]
  by_cases h : i = e ∧ e < x.length
  · left; rw [if_pos h, if_pos (by rw [← hl]; exact h)]
  · right; rw [if_neg h, if_neg (by rw [← hl]; exact h)]; exact ⟨rfl, rfl⟩

/-- Times below `e` are kept. -/
def Keeps (e : Nat) (x r : List Int) : Prop := ∀ i : Nat, i < e → r.getD i 0 = x.getD i 0

theorem Keeps.set {e k : Nat} (x : List Int) (v : Int) (h : e ≤ k) : Keeps e x (x.set k v) := by
  intro i hi
  rw [getD_set, if_neg (by omega)]

theorem Keeps.trans {e : Nat} {x y z : List Int} (h : Keeps e x y) (h2 : Keeps e y z) : Keeps e x z :=
  fun i hi => by rw [h2 i hi, h i hi]

theorem Keeps.mono {e e' : Nat} {x y : List Int} (h : Keeps e x y) (he : e' ≤ e) : Keeps e' x y :=
  fun i hi => h i (by omega)

/-- The behaviour of a piece of the loop which writes at event `k` or later, its first event at `hi` or
earlier. -/
structure PieceOk (n : Nat) (F : St × Option Prop' → St × Option Prop') (k hi : Nat) : Prop where
  le : k ≤ hi
  some_ : ∀ p, (∃ q, ∀ st : St, st.times.length = n → (F (st, some p)).2 = some q) ∧
    (∀ st : St, st.times.length = n → Keeps k st.times (F (st, some p)).1.times) ∧
    ∀ st st' : St, st.times.length = n → st'.times.length = n →
      Both st.times st'.times (F (st, some p)).1.times (F (st', some p)).1.times
  none_ : (∀ st : St, st.times.length = n → (F (st, none)).1.times = st.times ∧ (F (st, none)).2 = none) ∨
    ∃ e0, k ≤ e0 ∧ e0 ≤ hi ∧ (∀ st : St, st.times.length = n → Keeps e0 st.times (F (st, none)).1.times) ∧
      ∀ st st' : St, st.times.length = n → st'.times.length = n →
        (e0 ≠ 0 → st.times.getD (e0 - 1) 0 = st'.times.getD (e0 - 1) 0) →
        Both st.times st'.times (F (st, none)).1.times (F (st', none)).1.times ∧
        (F (st, none)).2 = (F (st', none)).2 ∧ (F (st, none)).2.isSome

theorem PieceOk.ofStep {n : Nat} {f : St × Option Prop' → St × Option Prop'} {e : Nat} (h : StepOk n f e) :
    PieceOk n f e e where
  le := Nat.le_refl _
  some_ := by
    intro p
    rcases h.1 p with h | ⟨v, q, h⟩
    · refine ⟨⟨p, fun st hn => by rw [h st hn]⟩, fun st hn => ?_, fun st st' hn hn' => ?_⟩
      · rw [h st hn]; exact fun i _ => rfl
      · rw [h st hn, h st' hn']; exact Both.refl _ _
    · refine ⟨⟨q, fun st hn => by rw [h st hn]⟩, fun st hn => ?_, fun st st' hn hn' => ?_⟩
      · rw [h st hn]; exact Keeps.set _ _ (Nat.le_refl _)
      · rw [h st hn, h st' hn']; exact Both.set (by omega) _ _
  none_ := by
    rcases h.2 with h | ⟨g, q, h⟩
    · left
      intro st hn
      rw [h st hn]; exact ⟨rfl, rfl⟩
    · right
      refine ⟨e, Nat.le_refl _, Nat.le_refl _, fun st hn => ?_, fun st st' hn hn' hz => ?_⟩
      · rw [h st hn]; exact Keeps.set _ _ (Nat.le_refl _)
      · have : (if e = 0 then (0 : Int) else st.times.getD (e - 1) 0) =
            (if e = 0 then 0 else st'.times.getD (e - 1) 0) := by
          by_cases h0 : e = 0
          · rw [if_pos h0, if_pos h0]
          · rw [if_neg h0, if_neg h0, hz h0]
        rw [h st hn, h st' hn', this]
        exact ⟨Both.set (by omega) _ _, rfl, rfl⟩

theorem PieceOk.id (n k : Nat) : PieceOk n (fun s => s) k k where
  le := Nat.le_refl _
  some_ := fun p => ⟨⟨p, fun _ _ => rfl⟩, fun _ _ _ _ => rfl, fun _ _ _ _ => Both.refl _ _⟩
  none_ := Or.inl fun _ _ => ⟨rfl, rfl⟩

theorem PieceOk.comp {n : Nat} {F G : St × Option Prop' → St × Option Prop'} {k k' l l' : Nat}
    (hF : PieceOk n F k k') (hG : PieceOk n G l l') (hl : k' ≤ l) : PieceOk n (fun s => G (F s)) k l' where
  le := by have := hF.le; have := hG.le; omega
  some_ := by
    intro p
    obtain ⟨⟨q, h1⟩, h2, h3⟩ := hF.some_ p
    obtain ⟨⟨q', g1⟩, g2, g3⟩ := hG.some_ q
    have e : ∀ st : St, st.times.length = n → F (st, some p) = ((F (st, some p)).1, some q) := by
      intro st hn; exact Prod.ext rfl (h1 st hn)
    have ln : ∀ st : St, st.times.length = n → (F (st, some p)).1.times.length = n := by
      intro st hn
      rw [(h3 st st hn hn).1, hn]
    refine ⟨⟨q', fun st hn => ?_⟩, fun st hn => ?_, fun st st' hn hn' => ?_⟩
    · rw [e st hn]; exact g1 _ (ln st hn)
    · rw [e st hn]
      exact (h2 st hn).trans ((g2 _ (ln st hn)).mono (by have := hF.le; omega))
    · rw [e st hn, e st' hn']
      exact (h3 st st' hn hn').trans (g3 _ _ (ln st hn) (ln st' hn'))
  none_ := by
    rcases hF.none_ with h | ⟨e0, hk, hk', hkeep, hb⟩
    · have e : ∀ st : St, st.times.length = n → F (st, none) = ((F (st, none)).1, none) := by
        intro st hn; exact Prod.ext rfl (h st hn).2
      have ln : ∀ st : St, st.times.length = n → (F (st, none)).1.times.length = n := by
        intro st hn; rw [(h st hn).1, hn]
      rcases hG.none_ with g | ⟨e1, gk, gk', gkeep, gb⟩
      · left
        intro st hn
        rw [e st hn]
        obtain ⟨a, b⟩ := g _ (ln st hn)
        exact ⟨by rw [a, (h st hn).1], b⟩
      · right
        refine ⟨e1, by have := hF.le; omega, gk', fun st hn => ?_, fun st st' hn hn' hz => ?_⟩
        · rw [e st hn]
          have := gkeep _ (ln st hn)
          rw [(h st hn).1] at this; exact this
        · rw [e st hn, e st' hn']
          have := gb _ _ (ln st hn) (ln st' hn') (by rw [(h st hn).1, (h st' hn').1]; exact hz)
          rw [(h st hn).1, (h st' hn').1] at this
          exact this
    · right
      refine ⟨e0, hk, by have := hG.le; omega, ?_, ?_⟩
      · intro st hn
        obtain ⟨b1, b2, b3⟩ := hb st st hn hn (fun _ => rfl)
        obtain ⟨q, hq⟩ := Option.isSome_iff_exists.mp b3
        have e : F (st, none) = ((F (st, none)).1, some q) := Prod.ext rfl hq
        have ln : (F (st, none)).1.times.length = n := by rw [b1.1, hn]
        rw [e]
        have hg := (hG.some_ q).2.1 _ ln
        exact Keeps.trans (hkeep st hn) (hg.mono (by omega))
      · intro st st' hn hn' hz
        obtain ⟨b1, b2, b3⟩ := hb st st' hn hn' hz
        obtain ⟨q, hq⟩ := Option.isSome_iff_exists.mp b3
        have e : F (st, none) = ((F (st, none)).1, some q) := Prod.ext rfl hq
        have e' : F (st', none) = ((F (st', none)).1, some q) := Prod.ext rfl (by rw [← b2, hq])
        have ln : (F (st, none)).1.times.length = n := by rw [b1.1, hn]
        have ln' : (F (st', none)).1.times.length = n := by rw [b1.2.1, hn']
        obtain ⟨⟨q', g1⟩, g2, g3⟩ := hG.some_ q
        rw [e, e']
        exact ⟨b1.trans (g3 _ _ ln ln'), by rw [g1 _ ln, g1 _ ln'], by rw [g1 _ ln]; rfl⟩

theorem PieceOk.ofTimes {n : Nat} (A : St × Option Prop' → St × Option Prop') (k : Nat)
    (h : ∀ s, (A s).1.times = s.1.times ∧ (A s).2 = s.2) : PieceOk n A k k where
  le := Nat.le_refl _
  some_ := fun p => ⟨⟨p, fun st _ => (h (st, some p)).2⟩, fun st _ i _ => by rw [(h (st, some p)).1],
    fun st st' _ _ => by rw [(h (st, some p)).1, (h (st', some p)).1]; exact Both.refl _ _⟩
  none_ := Or.inl fun st _ => h (st, none)

theorem PieceOk.widen {n : Nat} {F : St × Option Prop' → St × Option Prop'} {k k' l : Nat} (h : PieceOk n F k k')
    (hl : l ≤ k) : PieceOk n F l k' where
  le := by have := h.le; omega
  some_ := fun p => ⟨(h.some_ p).1, fun st hn => ((h.some_ p).2.1 st hn).mono hl, (h.some_ p).2.2⟩
  none_ := by
    rcases h.none_ with g | ⟨e0, a, b, c⟩
    · exact Or.inl g
    · exact Or.inr ⟨e0, by omega, b, c⟩

/-- What a matching update does to its stop, given that it is not rejected. -/
def stopFn (c : Ctx) (stop : Nat) (u : StopUpd) (s : Stop) : Stop :=
  if u.skipped then ⟨s.loc, false, false, false, false⟩
  else if u.assigned.isSome ||
      (u.stopId.isSome && u.stopId != some (c.locId (c.locSeq.getD stop ⟨0, false, false, false, false⟩).loc)) then
    { s with loc := (c.lookup (u.assigned.getD (u.stopId.getD ""))).getD 0 }
  else c.locSeq.getD stop ⟨0, false, false, false, false⟩

/-- The locations a matching update adds. -/
def stopNew (c : Ctx) (stop : Nat) (u : StopUpd) : List Nat :=
  if u.skipped then []
  else if u.assigned.isSome ||
      (u.stopId.isSome && u.stopId != some (c.locId (c.locSeq.getD stop ⟨0, false, false, false, false⟩).loc)) then
    [(c.lookup (u.assigned.getD (u.stopId.getD ""))).getD 0]
  else []

theorem applyStop_fn (c : Ctx) (stop : Nat) (u : StopUpd) :
    (∀ st, applyStop c st stop u = none) ∨
    (∀ st, applyStop c st stop u = some { st with
      stops := st.stops.set stop (stopFn c stop u (st.stops.getD stop ⟨0, false, false, false, false⟩))
      newLocs := st.newLocs ++ stopNew c stop u }) := by
  unfold applyStop stopFn stopNew
  by_cases h1 : u.skipped = true
  · right; intro st; simp only [if_pos h1, List.append_nil]
  · simp only [if_neg h1]
    by_cases h2 : (u.assigned.isSome ||
      (u.stopId.isSome && u.stopId != some (c.locId (c.locSeq.getD stop ⟨0, false, false, false, false⟩).loc))) = true
    · simp only [if_pos h2]
      cases hl : c.lookup (u.assigned.getD (u.stopId.getD "")) with
      | none => left; intro st; rfl
      | some l =>
        simp only [Option.getD_some]
        by_cases h3 : (c.equiv (c.locSeq.getD stop ⟨0, false, false, false, false⟩).loc).contains l = true
        · right; intro st; rw [if_pos h3]
        · left; intro st; rw [if_neg h3]
    · right; intro st; simp only [if_neg h2, List.append_nil]

theorem stopFn_idem (c : Ctx) (stop : Nat) (u : StopUpd) (s : Stop) :
    stopFn c stop u (stopFn c stop u s) = stopFn c stop u s := by
  unfold stopFn
  split
  · rfl
  · split <;> rfl

/-- `applyStop` of an accepted update. -/
def putStop (c : Ctx) (k : Nat) (u : StopUpd) (s : St × Option Prop') : St × Option Prop' :=
  ({ s.1 with
      stops := s.1.stops.set k (stopFn c k u (s.1.stops.getD k ⟨0, false, false, false, false⟩))
      newLocs := s.1.newLocs ++ stopNew c k u }, s.2)

/-- The loop over consecutive stops: how it treats the times. -/
theorem runLoop_piece (c : Ctx) (n : Nat) : ∀ (sq : List Nat) (k : Nat) (us : List StopUpd), c.first ≤ k →
    ∃ hi, PieceOk n (runLoop c (sq.zip (List.range' k sq.length)) us) (if k = c.first then 2 * k else 2 * k - 1) hi := by
  intro sq
  induction sq with
  | nil => intro k us _; exact ⟨_, PieceOk.id n _⟩
  | cons a sq ih =>
    intro k us hk
    simp only [List.length_cons, List.range'_succ, List.zip_cons_cons]
    have hA : ∀ mu, PieceOk n (stepArr c k mu) (if k = c.first then 2 * k else 2 * k - 1)
        (if k = c.first then 2 * k else 2 * k - 1) := by
      intro mu
      by_cases hf : k = c.first
      · simp only [if_pos hf]
        have e : stepArr c k mu = fun s => s := by
          funext s
          exact stepArr_first c k mu s hf
        rw [e]
        exact PieceOk.id n _
      · simp only [if_neg hf]
        have := PieceOk.ofStep (stepArr_ok c n k mu (by omega))
        simpa [evIdx] using this
    have hle : (if k = c.first then 2 * k else 2 * k - 1) ≤ 2 * k := by split <;> omega
    have hle' : 2 * k ≤ (if k + 1 = c.first then 2 * (k + 1) else 2 * (k + 1) - 1) := by split <;> omega
    have hD : ∀ mu, PieceOk n (stepDep c k mu) (2 * k) (2 * k) := by
      intro mu
      have := PieceOk.ofStep (stepDep_ok c n k mu)
      simpa [evIdx] using this
    cases hal : align c ((a, k) :: sq.zip (List.range' (k + 1) sq.length)) us with
    | mk b us' =>
      by_cases hb : ∃ u us'', b = true ∧ us' = u :: us''
      · obtain ⟨u, us'', rfl, rfl⟩ := hb
        rcases applyStop_fn c k u with hf | hf
        · obtain ⟨hi, h⟩ := ih (k + 1) (u :: us'') (by omega)
          refine ⟨hi, ?_⟩
          have e : runLoop c ((a, k) :: sq.zip (List.range' (k + 1) sq.length)) us =
              runLoop c (sq.zip (List.range' (k + 1) sq.length)) (u :: us'') := by
            funext s
            rw [runLoop, hal]
            simp only []
            rw [hf]
          rw [e]
          exact h.widen (by omega)
        · obtain ⟨hi, h⟩ := ih (k + 1) us'' (by omega)
          refine ⟨hi, ?_⟩
          have e : runLoop c ((a, k) :: sq.zip (List.range' (k + 1) sq.length)) us =
              fun s => runLoop c (sq.zip (List.range' (k + 1) sq.length)) us'' (stepDep c k (some u) (stepArr c k (some u)
                (putStop c k u s))) := by
            funext s
            rw [runLoop, hal]
            simp only []
            rw [hf]
            rfl
          rw [e]
          exact (((PieceOk.ofTimes (putStop c k u) _ (fun s => ⟨rfl, rfl⟩)).comp (hA (some u)) (Nat.le_refl _)).comp
            (hD (some u)) hle).comp h hle'
      · obtain ⟨hi, h⟩ := ih (k + 1) us' (by omega)
        refine ⟨hi, ?_⟩
        have e : runLoop c ((a, k) :: sq.zip (List.range' (k + 1) sq.length)) us =
            fun s => runLoop c (sq.zip (List.range' (k + 1) sq.length)) us' (stepDep c k none (stepArr c k none s)) := by
          funext s
          rw [runLoop, hal]
          cases b with
          | false => rfl
          | true =>
            cases us' with
            | nil => rfl
            | cons u v => exact absurd ⟨u, v, rfl, rfl⟩ hb
        rw [e]
        exact ((hA none).comp (hD none) hle).comp h hle'

theorem set_mapIdx {α} (l : List α) (i : Nat) (f : α → α) (d : α) :
    l.set i (f (l.getD i d)) = l.mapIdx (fun j s => if j = i then f s else s) := by
  apply List.ext_getElem?
  intro j
  rw [List.getElem?_mapIdx, List.getElem?_set]
  by_cases h : i = j
  · subst h
    by_cases hl : i < l.length
    · rw [if_pos rfl, if_pos hl, List.getElem?_eq_getElem hl]
      simp [hl]
    · rw [if_pos rfl, if_neg hl, List.getElem?_eq_none (by omega)]; rfl
  · rw [if_neg h]
    cases l[j]? with
    | none => rfl
    | some x => simp [Ne.symm h]

/-- The loop over consecutive stops: how it treats the stops. -/
theorem runLoop_stops (c : Ctx) : ∀ (sq : List Nat) (k : Nat) (us : List StopUpd),
    ∃ (F : Nat → Stop → Stop) (N : List Nat), (∀ i s, F i (F i s) = F i s) ∧ (∀ i s, i < k → F i s = s) ∧
      ∀ s, (runLoop c (sq.zip (List.range' k sq.length)) us s).1.stops = s.1.stops.mapIdx F ∧
        (runLoop c (sq.zip (List.range' k sq.length)) us s).1.newLocs = s.1.newLocs ++ N := by
  intro sq
  induction sq with
  | nil =>
    intro k us
    refine ⟨fun _ s => s, [], fun _ _ => rfl, fun _ _ _ => rfl, fun s => ⟨?_, ?_⟩⟩
    · show s.1.stops = _
      apply List.ext_getElem?
      intro j
      rw [List.getElem?_mapIdx]; cases s.1.stops[j]? <;> rfl
    · show s.1.newLocs = _; simp
  | cons a sq ih =>
    intro k us
    simp only [List.length_cons, List.range'_succ, List.zip_cons_cons]
    have hstep : ∀ mu (s : St × Option Prop'), (stepDep c k mu (stepArr c k mu s)).1.stops = s.1.stops ∧
        (stepDep c k mu (stepArr c k mu s)).1.newLocs = s.1.newLocs := by
      intro mu s
      obtain ⟨ts, h1⟩ := stepArr_stops c k mu s
      obtain ⟨ts', h2⟩ := stepDep_stops c k mu (stepArr c k mu s)
      rw [h2, h1]
      exact ⟨rfl, rfl⟩
    cases hal : align c ((a, k) :: sq.zip (List.range' (k + 1) sq.length)) us with
    | mk b us' =>
      by_cases hb : ∃ u us'', b = true ∧ us' = u :: us''
      · obtain ⟨u, us'', rfl, rfl⟩ := hb
        rcases applyStop_fn c k u with hf | hf
        · obtain ⟨F, N, h1, h2, h3⟩ := ih (k + 1) (u :: us'')
          refine ⟨F, N, h1, fun i s hi => h2 i s (by omega), fun s => ?_⟩
          have e : runLoop c ((a, k) :: sq.zip (List.range' (k + 1) sq.length)) us s =
              runLoop c (sq.zip (List.range' (k + 1) sq.length)) (u :: us'') s := by
            rw [runLoop, hal]
            simp only []
            rw [hf]
          rw [e]
          exact h3 s
        · obtain ⟨F, N, h1, h2, h3⟩ := ih (k + 1) us''
          refine ⟨fun i s => if i = k then stopFn c k u s else F i s, stopNew c k u ++ N, ?_, ?_, ?_⟩
          · intro i s
            by_cases hi : i = k
            · simp only [if_pos hi]; exact stopFn_idem c k u s
            · simp only [if_neg hi]; exact h1 i s
          · intro i s hi
            simp only [if_neg (show ¬ i = k by omega)]
            exact h2 i s (by omega)
          · intro s
            have e : runLoop c ((a, k) :: sq.zip (List.range' (k + 1) sq.length)) us s =
              runLoop c (sq.zip (List.range' (k + 1) sq.length)) us'' (stepDep c k (some u) (stepArr c k (some u)
                (({ s.1 with
                  stops := s.1.stops.set k (stopFn c k u (s.1.stops.getD k ⟨0, false, false, false, false⟩))
                  newLocs := s.1.newLocs ++ stopNew c k u } : St), s.2))) := by
              rw [runLoop, hal]
              simp only []
              rw [hf]
            rw [e]
            obtain ⟨g1, g2⟩ := h3 (stepDep c k (some u) (stepArr c k (some u)
                (({ s.1 with
                  stops := s.1.stops.set k (stopFn c k u (s.1.stops.getD k ⟨0, false, false, false, false⟩))
                  newLocs := s.1.newLocs ++ stopNew c k u } : St), s.2)))
            rw [g1, g2, (hstep _ _).1, (hstep _ _).2]
            refine ⟨?_, by rw [List.append_assoc]⟩
            show (s.1.stops.set k _).mapIdx F = _
            rw [set_mapIdx]
            apply List.ext_getElem?
            intro j
            simp only [List.getElem?_mapIdx]
            cases s.1.stops[j]? with
            | none => rfl
            | some x =>
              simp only [Option.map_some, Option.some.injEq]
              by_cases hj : j = k
              · simp only [if_pos hj]; exact h2 j _ (by omega)
              · simp only [if_neg hj]
      · obtain ⟨F, N, h1, h2, h3⟩ := ih (k + 1) us'
        refine ⟨F, N, h1, fun i s hi => h2 i s (by omega), fun s => ?_⟩
        have e : runLoop c ((a, k) :: sq.zip (List.range' (k + 1) sq.length)) us s =
            runLoop c (sq.zip (List.range' (k + 1) sq.length)) us' (stepDep c k none (stepArr c k none s)) := by
          rw [runLoop, hal]
          cases b with
          | false => rfl
          | true =>
            cases us' with
            | nil => rfl
            | cons u v => exact absurd ⟨u, v, rfl, rfl⟩ hb
        rw [e]
        obtain ⟨g1, g2⟩ := h3 (stepDep c k none (stepArr c k none s))
        rw [g1, g2, (hstep none s).1, (hstep none s).2]
        exact ⟨rfl, rfl⟩


theorem monoPass_both : ∀ (r r2 : List Int) (p : Int), r2.length = r.length →
    (∀ i : Nat, r.getD i 0 = r2.getD i 0 ∨ r2.getD i 0 = (monoPass p r).getD i 0) →
    monoPass p r2 = monoPass p r := by
  intro r
  induction r with
  | nil => intro r2 p hl _; rw [List.eq_nil_of_length_eq_zero hl]
  | cons a r ih =>
    intro r2 p hl h
    cases r2 with
    | nil => simp at hl
    | cons b r2 =>
      have h0 := h 0
      simp only [monoPass, List.getD_cons_zero] at h0
      have hb : (if b < p then p else b) = (if a < p then p else a) := by
        rcases h0 with h0 | h0
        · rw [h0]
        · by_cases ha : a < p
          · rw [if_pos ha] at h0; rw [if_pos ha, h0, if_neg (by omega)]
          · rw [if_neg ha] at h0; rw [h0]
      simp only [monoPass, hb, List.cons.injEq, true_and]
      apply ih
      · simpa using hl
      · intro i
        have := h (i + 1)
        simpa [monoPass] using this

theorem monoPass_keep (r : List Int) (p : Int) (i : Nat) (hp : ∀ (j : Nat) (a : Int), j ≤ i → r[j]? = some a → p ≤ a)
    (hr : ∀ (j k : Nat) (a b : Int), j ≤ k → k ≤ i → r[j]? = some a → r[k]? = some b → a ≤ b) :
    (monoPass p r).getD i 0 = r.getD i 0 := by
  simp only [List.getD_eq_getElem?_getD]
  by_cases h : i < r.length
  · have hm : i < (monoPass p r).length := by rw [monoPass_length]; exact h
    obtain ⟨h1, h2⟩ := monoPass_eq r p i _ (List.getElem?_eq_getElem hm)
    have hi := List.getElem?_eq_getElem h
    rw [List.getElem?_eq_getElem hm, hi]
    simp only [Option.getD_some]
    have h3 := h2 i _ (Nat.le_refl _) hi
    rcases h1 with h1 | ⟨j, hj, h1⟩
    · have := hp i _ (Nat.le_refl _) hi; omega
    · have := hr j i _ _ hj (Nat.le_refl _) h1 hi; omega
  · rw [List.getElem?_eq_none (by rw [monoPass_length]; omega), List.getElem?_eq_none (by omega)]

theorem getElem?_of_keeps {e : Nat} {x r : List Int} (h : Keeps e x r) (hl : r.length = x.length) {i : Nat} (hi : i < e) :
    r[i]? = x[i]? := by
  have := h i hi
  simp only [List.getD_eq_getElem?_getD] at this
  by_cases hx : i < x.length
  · rw [List.getElem?_eq_getElem hx, List.getElem?_eq_getElem (by omega)] at this ⊢
    simpa using this
  · rw [List.getElem?_eq_none (by omega), List.getElem?_eq_none (by omega)]

theorem monoPass_keeps {e : Nat} {x r : List Int} (h : Keeps e x r) (hl : r.length = x.length) (hn : NonDecreasing x)
    (hp : ∀ t ∈ x, deltaMin ≤ t) : Keeps e x (monoPass deltaMin r) := by
  intro i hi
  rw [monoPass_keep, h i hi]
  · intro j a hj ha
    rw [getElem?_of_keeps h hl (by omega)] at ha
    exact hp a (List.mem_of_getElem? ha)
  · intro j k a b hjk hk ha hb
    rw [getElem?_of_keeps h hl (by omega)] at ha hb
    exact hn j k a b hjk ha hb

theorem monoPass_id {x : List Int} (hn : NonDecreasing x) (hp : ∀ t ∈ x, deltaMin ≤ t) : monoPass deltaMin x = x := by
  apply List.ext_getElem?
  intro i
  have hk : Keeps (i + 1) x x := fun _ _ => rfl
  exact getElem?_of_keeps (monoPass_keeps hk rfl hn hp) (monoPass_length _ _) (by omega)

theorem visits_eq (c : Ctx) (hv : c.scheduled = true ∨ c.first = 0) :
    visits c = c.seqs.zip (List.range' c.first c.seqs.length) := by
  unfold visits
  rcases hv with h | h
  · rw [if_pos h]
  · rw [h]; simp

/-- The times after a second application of the same update. -/
theorem resend_times (c : Ctx) (us : List StopUpd) (st st2 : St) (hv : c.scheduled = true ∨ c.first = 0)
    (hn : NonDecreasing st.times) (hp : ∀ t ∈ st.times, deltaMin ≤ t)
    (h2 : st2.times = (updateRun c us st).1.times) :
    (updateRun c us st2).1.times = (updateRun c us st).1.times := by
  obtain ⟨hi, hP⟩ := runLoop_piece c st.times.length c.seqs c.first us (Nat.le_refl _)
  rw [← visits_eq c hv, if_pos rfl] at hP
  have hlen2 : st2.times.length = st.times.length := by rw [h2]; exact updateRun_length c us st
  simp only [updateRun] at h2 ⊢
  have hl1 : (runLoop c (visits c) us (st, initPred c st)).1.times.length = st.times.length :=
    runLoop_length c _ us (st, initPred c st)
  have key : Both st.times st2.times (runLoop c (visits c) us (st, initPred c st)).1.times
      (runLoop c (visits c) us (st2, initPred c st2)).1.times := by
    by_cases hi0 : (c.scheduled && decide (0 < c.first)) = true
    · have hf : 0 < c.first := by simp at hi0; exact hi0.2
      have hip : initPred c st2 = initPred c st := by
        have hk := (hP.some_ ⟨evTime c st (evIdx c.first true), 0⟩).2.1 st rfl
        have e1 : initPred c st = some ⟨evTime c st (evIdx c.first true), 0⟩ := by
          simp only [initPred]; rw [if_pos hi0]
        rw [← e1] at hk
        have hk2 := monoPass_keeps hk hl1 hn hp
        rw [← h2] at hk2
        simp only [initPred]
        rw [if_pos hi0, if_pos hi0]
        simp only [evTime, Option.some.injEq, Prop'.mk.injEq, and_true]
        rw [hk2 (evIdx c.first true) (by simp only [evIdx, if_true]; omega)]
      rw [hip]
      have e1 : initPred c st = some ⟨evTime c st (evIdx c.first true), 0⟩ := by
        simp only [initPred]; rw [if_pos hi0]
      rw [e1]
      exact (hP.some_ _).2.2 st st2 rfl hlen2
    · have e1 : initPred c st = none := by simp only [initPred]; rw [if_neg hi0]
      have e2 : initPred c st2 = none := by simp only [initPred]; rw [if_neg hi0]
      rw [e1] at h2 hl1 ⊢
      rw [e2]
      rcases hP.none_ with h | ⟨e0, _, _, hk, hb⟩
      · rw [(h st rfl).1, (h st2 hlen2).1]; exact Both.refl _ _
      · have hk2 := monoPass_keeps (hk st rfl) hl1 hn hp
        rw [← h2] at hk2
        exact (hb st st2 rfl hlen2 (fun h0 => (hk2 (e0 - 1) (by omega)).symm)).1
  apply monoPass_both
  · rw [key.1, key.2.1, hlen2]
  · intro i
    rcases key.2.2 i with h | ⟨_, h⟩
    · exact Or.inl h
    · right; rw [h, h2]

/-- The stops after a second application of the same update. -/
theorem resend_stops (c : Ctx) (us : List StopUpd) (st st2 : St) (hv : c.scheduled = true ∨ c.first = 0)
    (h2 : st2.stops = (updateRun c us st).1.stops) :
    (updateRun c us st2).1.stops = (updateRun c us st).1.stops := by
  obtain ⟨F, N, h1, _, h3⟩ := runLoop_stops c c.seqs c.first us
  rw [← visits_eq c hv] at h3
  simp only [updateRun] at h2 ⊢
  rw [(h3 _).1] at h2 ⊢
  rw [(h3 _).1, h2]
  apply List.ext_getElem?
  intro j
  simp only [List.getElem?_mapIdx]
  cases st.stops[j]? with
  | none => rfl
  | some x => simp only [Option.map_some, Option.some.injEq]; exact h1 j x

/-- The locations added do not depend on the state. -/
theorem resend_newLocs (c : Ctx) (us : List StopUpd) (st st2 : St) (hv : c.scheduled = true ∨ c.first = 0)
    (h : st.newLocs = st2.newLocs) :
    (updateRun c us st2).1.newLocs = (updateRun c us st).1.newLocs := by
  obtain ⟨F, N, h1, _, h3⟩ := runLoop_stops c c.seqs c.first us
  rw [← visits_eq c hv] at h3
  simp only [updateRun]
  rw [(h3 _).2, (h3 _).2]
  exact congrArg (· ++ N) h.symm

end Nigiri.Rt
