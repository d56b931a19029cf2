import Verif.Model.StartTimes
import Verif.Props.RaptorDemo
/-!
# Property C27: the start times of a query cover every departure in its interval
-/

namespace Nigiri.StartTimes
open Nigiri.Raptor Nigiri.Lb

/-! ## Specification -/

/-- One may start a journey at stop `i` of `n`: board there and ride on (backward search: alight there). -/
def MayStart (d : Dir) (wheelchair : Bool) (s : StopData) (i n : Nat) : Prop := match d with
  | .fwd => i + 1 ≠ n ∧ (if wheelchair then s.inWheelchair else s.inAllowed) = true
  | .bwd => i ≠ 0 ∧ (if wheelchair then s.outWheelchair else s.outAllowed) = true

/-- At `l` some vehicle departs (backward search: arrives) at minute `time`. -/
def Departure (d : Dir) (N : Net) (l : Loc) (time : Int) : Prop :=
  (∃ r ∈ N.routes, ∃ (i t : Nat) (s : StopData) (day : Int), r.stops[i]? = some s ∧ s.loc = l ∧ MayStart d N.wheelchair s i r.stops.length ∧
    t < r.nTr ∧ r.days t day = true ∧ time = day * 1440 + (match d with | .fwd => r.dep t i | .bwd => r.arr t i)) ∨
  (∃ r ∈ N.rts, ∃ (i : Nat) (s : StopData), r.stops[i]? = some s ∧ s.loc = l ∧ MayStart d N.wheelchair s i r.stops.length ∧
    time = N.base * 1440 + (match d with | .fwd => r.dep i | .bwd => r.arr i))

/-- To be at the stop at `time` one must leave the origin at `tas` (backward search: coming from there at
`time` one is at the destination at `tas`); 511 minutes stand for "not possible". -/
def Leave (d : Dir) (off : Off) (time tas : Int) : Prop :=
  ∃ x : Int, x ≠ 511 ∧ (match off with | .const y => y = x | .td td => (match d with
      | .fwd => (TdFootpath.bwd time td).map (·.1)
      | .bwd => (TdFootpath.fwd time td).map (·.1)) = some x) ∧
    tas = (match d with | .fwd => time - x | .bwd => time + x)

/-- A start event of the query for the location `l`, in the interval. -/
structure IsStart (d : Dir) (N : Net) (iv : Interval) (l : Loc) (off : Off) (e : Ev) : Prop where
  stop : e.stop = l
  departure : Departure d N l e.timeAtStop
  leave : Leave d off e.timeAtStop e.timeAtStart
  inside : iv.from' ≤ e.timeAtStart ∧ e.timeAtStart < iv.to'

/-- `a` makes `b` superfluous: same stop, same time of leaving the origin, at the stop no later (backward
search: no earlier). -/
def Covers (d : Dir) (a b : Ev) : Prop :=
  a.stop = b.stop ∧ a.timeAtStart = b.timeAtStart ∧ (match d with | .fwd => a.timeAtStop ≤ b.timeAtStop | .bwd => b.timeAtStop ≤ a.timeAtStop)

/-- `x` minutes after `t` (backward search: before it). -/
def After (d : Dir) (t x : Int) : Int := match d with
  | .fwd => t + x
  | .bwd => t - x

/-- Duration of a time-dependent offset when leaving at `t` (backward search: when arriving at `t`). -/
def WalkAt (d : Dir) (td : List TdEntry) (t : Int) : Option Int := match d with
  | .fwd => (TdFootpath.fwd t td).map (·.1)
  | .bwd => (TdFootpath.bwd t td).map (·.1)

/-- The additional start that leaves directly after the interval (backward search: directly before it), at the
location `l` after the offset. -/
structure IsOntrip (d : Dir) (iv : Interval) (l : Loc) (off : Off) (e : Ev) : Prop where
  stop : e.stop = l
  leave : e.timeAtStart = (match d with | .fwd => iv.to' | .bwd => iv.from' - 1)
  walk : ∃ x : Int, x ≠ 511 ∧ (match off with | .const y => y = x | .td td => WalkAt d td e.timeAtStart = some x) ∧
    e.timeAtStop = After d e.timeAtStart x

/-! ## Proof -/

theorem covers_refl (d : Dir) (a : Ev) : Covers d a a := by cases d <;> exact ⟨rfl, rfl, Int.le_refl _⟩

theorem startable_iff (d : Dir) (w : Bool) (s : StopData) (i n : Nat) : startable d w s i n = true ↔ MayStart d w s i n := by
  cases d <;> simp [startable, MayStart, StopData.canStart]

/-- The last entry cannot hide an event of `l` in `iv`. -/
def LastOk (iv : Interval) (l : Loc) (st : List Ev) : Prop := ∀ b, st.getLast? = some b → b.stop = l ∨ iv.contains b.timeAtStart = false

/-- What a step may add (`Q`), and what it must cover (`C`). -/
structure Step (d : Dir) (iv : Interval) (l : Loc) (Q C : Ev → Prop) (st st' : List Ev) : Prop where
  keep : ∀ e ∈ st, e ∈ st'
  sound : ∀ e ∈ st', e ∈ st ∨ Q e
  cover : LastOk iv l st → ∀ e, C e → ∃ e' ∈ st', Covers d e' e
  last : LastOk iv l st → LastOk iv l st'

theorem step_refl {d : Dir} {iv : Interval} {l : Loc} {Q C : Ev → Prop} {st : List Ev} (h : ∀ e, ¬ C e) : Step d iv l Q C st st :=
  ⟨fun _ h => h, fun _ h => Or.inl h, fun _ e he => absurd he (h e), fun h => h⟩

theorem step_foldl {d : Dir} {iv : Interval} {l : Loc} {α : Type} {Q C : α → Ev → Prop} {f : List Ev → α → List Ev} (as : List α)
    (h : ∀ st, ∀ a ∈ as, Step d iv l (Q a) (C a) st (f st a)) (st : List Ev) :
    Step d iv l (fun e => ∃ a ∈ as, Q a e) (fun e => ∃ a ∈ as, C a e) st (as.foldl f st) := by
  induction as generalizing st with
  | nil => exact step_refl (by rintro e ⟨a, h, -⟩; cases h)
  | cons a as ih =>
    have h1 := h st a (by simp)
    have h2 := ih (fun st a ha => h st a (by simp [ha])) (f st a)
    refine ⟨fun e he => h2.keep e (h1.keep e he), ?_, ?_, fun hl => h2.last (h1.last hl)⟩
    · intro e he
      rcases h2.sound e he with he | ⟨b, hb, hq⟩
      · rcases h1.sound e he with he | hq
        · exact Or.inl he
        · exact Or.inr ⟨a, by simp, hq⟩
      · exact Or.inr ⟨b, by simp [hb], hq⟩
    · rintro hl e ⟨b, hb, hc⟩
      rcases List.mem_cons.mp hb with rfl | hb
      · obtain ⟨e', g1, g2⟩ := h1.cover hl e hc
        exact ⟨e', h2.keep e' g1, g2⟩
      · exact h2.cover (h1.last hl) e ⟨b, hb, hc⟩

theorem step_weaken {d : Dir} {iv : Interval} {l : Loc} {Q C Q' C' : Ev → Prop} {st st' : List Ev} (h : Step d iv l Q C st st')
    (hq : ∀ e, Q e → Q' e) (hc : ∀ e, C' e → C e) : Step d iv l Q' C' st st' :=
  ⟨h.keep, fun e he => (h.sound e he).imp id (hq e), fun hl e he => h.cover hl e (hc e he), h.last⟩

theorem step_trans {d : Dir} {iv : Interval} {l : Loc} {Q1 C1 Q2 C2 : Ev → Prop} {s1 s2 s3 : List Ev} (h1 : Step d iv l Q1 C1 s1 s2)
    (h2 : Step d iv l Q2 C2 s2 s3) : Step d iv l (fun e => Q1 e ∨ Q2 e) (fun e => C1 e ∨ C2 e) s1 s3 := by
  refine ⟨fun e he => h2.keep e (h1.keep e he), ?_, ?_, fun h => h2.last (h1.last h)⟩
  · intro e he
    rcases h2.sound e he with he | he
    · exact (h1.sound e he).imp id Or.inl
    · exact Or.inr (Or.inr he)
  · rintro hl e (he | he)
    · obtain ⟨e', g1, g2⟩ := h1.cover hl e he
      exact ⟨e', h2.keep e' g1, g2⟩
    · exact h2.cover (h1.last hl) e he

theorem lastOk_append {iv : Interval} {l : Loc} {st : List Ev} {e : Ev} (h : e.stop = l ∨ iv.contains e.timeAtStart = false) : LastOk iv l (st ++ [e]) := by
  intro b hb
  simp at hb
  subst hb
  exact h

theorem step_append {d : Dir} {iv : Interval} {l : Loc} {st : List Ev} {e : Ev} (h : e.stop = l) : Step d iv l (· = e) (· = e) st (st ++ [e]) :=
  ⟨fun _ h => List.mem_append_left _ h, fun x hx => by simpa using hx, fun _ x hx => ⟨e, by simp, by rw [hx]; exact covers_refl d e⟩,
    fun _ => lastOk_append (Or.inl h)⟩

theorem step_push {d : Dir} {iv : Interval} {l : Loc} {st : List Ev} {e : Ev} (h : e.stop = l) (hi : iv.contains e.timeAtStart = true) :
    Step d iv l (· = e) (· = e) st (pushStart d st e) := by
  unfold pushStart
  split
  · rename_i b hb
    split
    · rename_i hc
      refine ⟨fun _ h => h, fun _ h => Or.inl h, ?_, fun h => h⟩
      intro hl x hx
      subst hx
      refine ⟨b, List.mem_of_getLast? hb, ?_⟩
      rcases hl b hb with g | g
      · refine ⟨by rw [g, h], hc.1, ?_⟩
        have := hc.2
        cases d <;> simpa [betterOrEq] using this
      · rw [hc.1, hi] at g; cases g
    · exact step_append h
  · exact step_append h

theorem getDuration_leave {d : Dir} {off : Off} {time x : Int} (h : getDuration d time off true = x) (hx : x ≠ 511) :
    Leave d off time (atStart d time x) := by
  refine ⟨x, hx, ?_, by cases d <;> rfl⟩
  cases off with
  | const y => exact h
  | td td =>
    simp only [getDuration, if_true] at h
    cases d <;> simp only [flip, tdDuration] at h ⊢ <;> revert h <;> generalize Option.map _ _ = o <;> cases o <;> simp <;> omega

theorem leave_getDuration {d : Dir} {off : Off} {time tas : Int} (h : Leave d off time tas) :
    getDuration d time off true ≠ 511 ∧ tas = atStart d time (getDuration d time off true) := by
  obtain ⟨x, hx, h1, h2⟩ := h
  have : getDuration d time off true = x := by
    cases off with
    | const y => exact h1
    | td td =>
      simp only [getDuration, if_true]
      cases d <;> simp only [flip, tdDuration] at h1 ⊢ <;> rw [h1] <;> rfl
  rw [this]
  exact ⟨hx, by cases d <;> exact h2⟩

theorem contains_iff (iv : Interval) (t : Int) : iv.contains t = true ↔ iv.from' ≤ t ∧ t < iv.to' := by
  simp [Interval.contains]

/-- The event of one transport on one day. -/
def DayEv (d : Dir) (r : RouteData) (l : Loc) (ivStart : Interval) (off : Off) (t i : Nat) (day : Int) (e : Ev) : Prop :=
  e.stop = l ∧ r.days t (day - ((evAt d r t i / 1440 : Nat) : Int)) = true ∧ e.timeAtStop = day * 1440 + ((evAt d r t i % 1440 : Nat) : Int) ∧
    Leave d off e.timeAtStop e.timeAtStart ∧ ivStart.contains e.timeAtStart = true

theorem addDay_step (d : Dir) (r : RouteData) (l : Loc) (ivStart ivStop : Interval) (off : Off) (t i : Nat) (st : List Ev) (day : Int) :
    Step d ivStart l (DayEv d r l ivStart off t i day) (fun e => DayEv d r l ivStart off t i day e ∧ ivStop.contains e.timeAtStop = true) st
      (addDay d r l ivStart ivStop off t i st day) := by
  unfold addDay
  simp only
  generalize htime : day * 1440 + ((evAt d r t i % 1440 : Nat) : Int) = time
  by_cases h1 : (r.days t (day - ((evAt d r t i / 1440 : Nat) : Int)) && ivStop.contains time) = true
  · rw [if_pos h1]
    rw [Bool.and_eq_true] at h1
    by_cases h2 : getDuration d time off true = 511
    · rw [if_pos h2]
      apply step_refl
      rintro e ⟨⟨-, -, he, hl, -⟩, -⟩
      rw [he, htime] at hl
      exact (leave_getDuration hl).1 h2
    · rw [if_neg h2]
      by_cases h3 : ivStart.contains (atStart d time (getDuration d time off true)) = true
      · rw [if_neg (by simp [h3])]
        refine step_weaken (step_push (e := ⟨atStart d time (getDuration d time off true), time, l⟩) rfl h3) ?_ ?_
        · rintro e rfl
          exact ⟨rfl, h1.1, htime.symm, getDuration_leave rfl h2, h3⟩
        · rintro ⟨a, b, c⟩ ⟨⟨g1, -, g2, g3, -⟩, -⟩
          simp only at g1 g2 g3
          rw [htime] at g2
          subst g1 g2
          rw [(leave_getDuration g3).2]
      · rw [if_pos (by simpa using h3)]
        apply step_refl
        rintro e ⟨⟨-, -, he, hl, hc⟩, -⟩
        rw [he, htime] at hl
        rw [(leave_getDuration hl).2] at hc
        exact h3 hc
  · rw [if_neg h1]
    apply step_refl
    rintro e ⟨⟨-, hd, he, -, -⟩, hc⟩
    rw [he, htime] at hc
    rw [Bool.and_eq_true] at h1
    exact h1 ⟨hd, hc⟩

theorem mem_dayRange {iv : Interval} {day : Int} : day ∈ dayRange iv ↔ iv.from' / 1440 ≤ day ∧ day ≤ iv.to' / 1440 := by
  unfold dayRange
  rw [List.mem_map]
  constructor
  · rintro ⟨n, h1, rfl⟩
    rw [List.mem_range] at h1
    omega
  · rintro ⟨h1, h2⟩
    exact ⟨(day - iv.from' / 1440).toNat, by rw [List.mem_range]; omega, by omega⟩

/-- A departure of a scheduled transport at stop `i` of the route. -/
def StopEv (d : Dir) (r : RouteData) (l : Loc) (ivStart : Interval) (off : Off) (i : Nat) (e : Ev) : Prop :=
  e.stop = l ∧ (∃ t day, t < r.nTr ∧ r.days t day = true ∧ e.timeAtStop = day * 1440 + (evAt d r t i : Int)) ∧
    Leave d off e.timeAtStop e.timeAtStart ∧ ivStart.contains e.timeAtStart = true

theorem addAtStop_step (d : Dir) (r : RouteData) (i : Nat) (l : Loc) (ivStart ivStop : Interval) (off : Off) (st : List Ev) :
    Step d ivStart l (StopEv d r l ivStart off i) (fun e => StopEv d r l ivStart off i e ∧ ivStop.contains e.timeAtStop = true) st
      (addAtStop d r i l ivStart ivStop off st) := by
  unfold addAtStop
  refine step_weaken (step_foldl (List.range r.nTr) (fun st t _ =>
    step_foldl (dayRange ivStop) (fun st day _ => addDay_step d r l ivStart ivStop off t i st day) st) st) ?_ ?_
  · rintro e ⟨t, ht, day, -, h1, h2, h3, h4, h5⟩
    refine ⟨h1, ⟨t, _, List.mem_range.mp ht, h2, ?_⟩, h4, h5⟩
    rw [h3]
    omega
  · rintro e ⟨⟨h1, ⟨t, day, ht, h2, h3⟩, h4, h5⟩, h6⟩
    refine ⟨t, List.mem_range.mpr ht, day + ((evAt d r t i / 1440 : Nat) : Int), ?_, ⟨h1, ?_, ?_, h4, h5⟩, h6⟩
    · rw [mem_dayRange]
      rw [contains_iff] at h6
      omega
    · rw [show day + ((evAt d r t i / 1440 : Nat) : Int) - ((evAt d r t i / 1440 : Nat) : Int) = day by omega]; exact h2
    · rw [h3]; omega

theorem routes_step (d : Dir) (N : Net) (iv : Interval) (l : Loc) (off : Off) (maxOff : Int) (st : List Ev) :
    Step d iv l
      (fun e => ∃ r ∈ N.routes, ∃ i s, r.stops[i]? = some s ∧ s.loc = l ∧ MayStart d N.wheelchair s i r.stops.length ∧ StopEv d r l iv off i e)
      (fun e => (∃ r ∈ N.routes, ∃ i s, r.stops[i]? = some s ∧ s.loc = l ∧ MayStart d N.wheelchair s i r.stops.length ∧ StopEv d r l iv off i e) ∧
        (ivAtStop d iv maxOff).contains e.timeAtStop = true) st
      ((N.routes.filter fun r => r.stops.any fun s => s.loc == l).foldl
        (fun st r => (List.range r.stops.length).foldl (addRouteStop d N.wheelchair iv l off maxOff r) st) st) := by
  have hone : ∀ (r : RouteData) (st : List Ev) (i : Nat), Step d iv l
      (fun e => ∃ s, r.stops[i]? = some s ∧ s.loc = l ∧ MayStart d N.wheelchair s i r.stops.length ∧ StopEv d r l iv off i e)
      (fun e => (∃ s, r.stops[i]? = some s ∧ s.loc = l ∧ MayStart d N.wheelchair s i r.stops.length ∧ StopEv d r l iv off i e) ∧
        (ivAtStop d iv maxOff).contains e.timeAtStop = true) st (addRouteStop d N.wheelchair iv l off maxOff r st i) := by
    intro r st i
    unfold addRouteStop
    split
    · rename_i s hs
      by_cases hc : s.loc = l ∧ startable d N.wheelchair s i r.stops.length = true
      · rw [if_pos hc]
        refine step_weaken (addAtStop_step d r i l iv (ivAtStop d iv maxOff) off st) ?_ ?_
        · intro e he; exact ⟨s, hs, hc.1, (startable_iff _ _ _ _ _).mp hc.2, he⟩
        · rintro e ⟨⟨s', hs', -, -, he⟩, h⟩; exact ⟨he, h⟩
      · rw [if_neg hc]
        apply step_refl
        rintro e ⟨⟨s', hs', h1, h2, -⟩, -⟩
        rw [hs] at hs'
        cases hs'
        exact hc ⟨h1, (startable_iff _ _ _ _ _).mpr h2⟩
    · rename_i hs
      apply step_refl
      rintro e ⟨⟨s', hs', -⟩, -⟩
      rw [hs] at hs'; cases hs'
  refine step_weaken (step_foldl _ (fun st r _ => step_foldl (List.range r.stops.length) (fun st i _ => hone r st i) st) st) ?_ ?_
  · rintro e ⟨r, hr, i, -, s, h⟩
    exact ⟨r, (List.mem_filter.mp hr).1, i, s, h⟩
  · rintro e ⟨⟨r, hr, i, s, h1, h2, h3, h4⟩, h5⟩
    refine ⟨r, List.mem_filter.mpr ⟨hr, ?_⟩, i, List.mem_range.mpr (List.getElem?_eq_some_iff.mp h1).1, ⟨s, h1, h2, h3, h4⟩, h5⟩
    rw [List.any_eq_true]
    exact ⟨s, List.mem_of_getElem? h1, by simp [h2]⟩

/-- A start with a real-time transport as the code takes it. -/
def RtEv (d : Dir) (N : Net) (iv : Interval) (l : Loc) (off : Off) (e : Ev) : Prop :=
  ∃ r ∈ N.rts, ∃ i s, r.stops[i]? = some s ∧ s.loc = l ∧ MayStart d N.wheelchair s i r.stops.length ∧ e.stop = l ∧
    e.timeAtStop = rtEvAt d N.base r i ∧ e.timeAtStart = atStart d e.timeAtStop (getDuration d e.timeAtStop off true) ∧
    iv.contains e.timeAtStart = true

theorem rts_step (d : Dir) (N : Net) (iv : Interval) (l : Loc) (off : Off) (st : List Ev) :
    Step d iv l (RtEv d N iv l off) (RtEv d N iv l off) st
      ((N.rts.filter fun r => r.stops.any fun s => s.loc == l).foldl
        (fun st r => (List.range r.stops.length).foldl (addRtStop d N.wheelchair N.base iv l off r) st) st) := by
  have hone : ∀ (r : RtData) (st : List Ev) (i : Nat), Step d iv l
      (fun e => ∃ s, r.stops[i]? = some s ∧ s.loc = l ∧ MayStart d N.wheelchair s i r.stops.length ∧ e.stop = l ∧
        e.timeAtStop = rtEvAt d N.base r i ∧ e.timeAtStart = atStart d e.timeAtStop (getDuration d e.timeAtStop off true) ∧
        iv.contains e.timeAtStart = true)
      (fun e => ∃ s, r.stops[i]? = some s ∧ s.loc = l ∧ MayStart d N.wheelchair s i r.stops.length ∧ e.stop = l ∧
        e.timeAtStop = rtEvAt d N.base r i ∧ e.timeAtStart = atStart d e.timeAtStop (getDuration d e.timeAtStop off true) ∧
        iv.contains e.timeAtStart = true) st (addRtStop d N.wheelchair N.base iv l off r st i) := by
    intro r st i
    unfold addRtStop
    split
    · rename_i s hs
      by_cases hc : s.loc = l ∧ startable d N.wheelchair s i r.stops.length = true
      · rw [if_pos hc]
        simp only
        generalize htas : atStart d (rtEvAt d N.base r i) (getDuration d (rtEvAt d N.base r i) off true) = tas
        by_cases hi : iv.contains tas = true
        · rw [if_pos hi]
          refine step_weaken (step_append rfl) ?_ ?_
          · rintro e rfl
            exact ⟨s, hs, hc.1, (startable_iff _ _ _ _ _).mp hc.2, rfl, rfl, htas.symm, hi⟩
          · rintro ⟨a, b, c⟩ ⟨s', -, -, -, g1, g2, g3, -⟩
            simp only at g1 g2 g3
            rw [g2, htas] at g3
            rw [g1, g2, g3]
        · rw [if_neg hi]
          apply step_refl
          rintro e ⟨s', -, -, -, -, g2, g3, g4⟩
          rw [g2, htas] at g3
          rw [g3] at g4
          exact hi g4
      · rw [if_neg hc]
        apply step_refl
        rintro e ⟨s', hs', h1, h2, -⟩
        rw [hs] at hs'
        cases hs'
        exact hc ⟨h1, (startable_iff _ _ _ _ _).mpr h2⟩
    · rename_i hs
      apply step_refl
      rintro e ⟨s', hs', -⟩
      rw [hs] at hs'; cases hs'
  refine step_weaken (step_foldl _ (fun st r _ => step_foldl (List.range r.stops.length) (fun st i _ => hone r st i) st) st) ?_ ?_
  · rintro e ⟨r, hr, i, -, s, h⟩
    exact ⟨r, (List.mem_filter.mp hr).1, i, s, h⟩
  · rintro e ⟨r, hr, i, s, h1, h2, h3⟩
    refine ⟨r, List.mem_filter.mpr ⟨hr, ?_⟩, i, List.mem_range.mpr (List.getElem?_eq_some_iff.mp h1).1, s, h1, h2, h3⟩
    rw [List.any_eq_true]
    exact ⟨s, List.mem_of_getElem? h1, by simp [h2]⟩

/-- An offset is usable at all real-time departures of `l` (see `C27_rt_infeasible_counterexample`). -/
def RtFeasible (d : Dir) (N : Net) (l : Loc) (off : Off) : Prop :=
  ∀ r ∈ N.rts, ∀ i s, r.stops[i]? = some s → s.loc = l → ∃ tas, Leave d off (rtEvAt d N.base r i) tas

theorem isOntrip_iff (d : Dir) (iv : Interval) (l : Loc) (off : Off) (e : Ev) : IsOntrip d iv l off e ↔
    getDuration d (ontripStart d iv) off false ≠ 511 ∧
      e = ⟨ontripStart d iv, atStop d (ontripStart d iv) (getDuration d (ontripStart d iv) off false), l⟩ := by
  have ho : ontripStart d iv = (match d with | .fwd => iv.to' | .bwd => iv.from' - 1) := by cases d <;> rfl
  have hw : ∀ td t, WalkAt d td t = tdDuration d td t := by intro td t; cases d <;> rfl
  have ha : ∀ t x, After d t x = atStop d t x := by intro t x; cases d <;> rfl
  constructor
  · rintro ⟨h1, h2, x, h3, h4, h5⟩
    rw [← ho] at h2
    have hx : getDuration d (ontripStart d iv) off false = x := by
      cases off with
      | const y => exact h4
      | td td =>
        simp only [getDuration, Bool.false_eq_true, if_false]
        simp only [h2, hw] at h4
        rw [h4]; rfl
    rw [hx]
    refine ⟨h3, ?_⟩
    obtain ⟨a, b, c⟩ := e
    simp only at h1 h2 h5
    rw [ha, h2] at h5
    rw [h1, h2, h5]
  · rintro ⟨h1, rfl⟩
    refine ⟨rfl, ho, _, h1, ?_, by rw [ha]⟩
    cases off with
    | const y => rfl
    | td td =>
      simp only [getDuration, Bool.false_eq_true, if_false, hw] at h1 ⊢
      revert h1
      cases tdDuration d td (ontripStart d iv) <;> simp

/-- What the search does for one start location. -/
structure LocStep (d : Dir) (N : Net) (iv : Interval) (maxOff : Int) (l : Loc) (off : Off) (ontrip : Bool) (st st' : List Ev) : Prop where
  keep : ∀ e ∈ st, e ∈ st'
  sound : RtFeasible d N l off → ∀ e ∈ st', e ∈ st ∨ IsStart d N iv l off e ∨ (ontrip = true ∧ IsOntrip d iv l off e)
  extra : ontrip = true → ∀ e, IsOntrip d iv l off e → e ∈ st'
  cover : LastOk iv l st → ∀ e, IsStart d N iv l off e → (∃ x, 0 ≤ x ∧ x ≤ maxOff ∧ e.timeAtStart = atStart d e.timeAtStop x) →
    ∃ e' ∈ st', Covers d e' e
  last : ontrip = true → getDuration d (ontripStart d iv) off false ≠ 511 → ∀ l', LastOk iv l' st'

theorem locStep (d : Dir) (N : Net) (iv : Interval) (l : Loc) (off : Off) (maxOff : Int) (ontrip : Bool) (st : List Ev) :
    LocStep d N iv maxOff l off ontrip st (addInInterval d N iv l off maxOff ontrip st) := by
  unfold addInInterval
  simp only
  have h := step_trans (routes_step d N iv l off maxOff st) (rts_step d N iv l off _)
  revert h
  generalize (N.rts.filter fun r => r.stops.any fun s => s.loc == l).foldl
    (fun st r => (List.range r.stops.length).foldl (addRtStop d N.wheelchair N.base iv l off r) st) _ = s2
  intro h
  have hstart : RtFeasible d N l off → ∀ e ∈ s2, e ∈ st ∨ IsStart d N iv l off e := by
    intro hf e he
    rcases h.sound e he with he | ⟨r, hr, i, s, h1, h2, h3, g1, ⟨t, day, g2, g3, g4⟩, g5, g6⟩ | ⟨r, hr, i, s, h1, h2, h3, g1, g2, g3, g4⟩
    · exact Or.inl he
    · right
      refine ⟨g1, Or.inl ⟨r, hr, i, t, s, day, h1, h2, h3, g2, g3, ?_⟩, g5, (contains_iff _ _).mp g6⟩
      rw [g4]; cases d <;> rfl
    · right
      refine ⟨g1, Or.inr ⟨r, hr, i, s, h1, h2, h3, ?_⟩, ?_, (contains_iff _ _).mp g4⟩
      · rw [g2]; cases d <;> rfl
      · obtain ⟨tas, ht⟩ := hf r hr i s h1 h2
        rw [g2] at g3 ⊢
        rw [g3, ← (leave_getDuration ht).2]
        exact ht
  have hcover : LastOk iv l st → ∀ e, IsStart d N iv l off e → (∃ x, 0 ≤ x ∧ x ≤ maxOff ∧ e.timeAtStart = atStart d e.timeAtStop x) →
      ∃ e' ∈ s2, Covers d e' e := by
    intro hl e he ⟨x, hx0, hx1, hx2⟩
    apply h.cover hl
    have hin := (contains_iff _ _).mpr he.inside
    rcases he.departure with ⟨r, hr, i, t, s, day, h1, h2, h3, h4, h5, h6⟩ | ⟨r, hr, i, s, h1, h2, h3, h4⟩
    · left
      refine ⟨⟨r, hr, i, s, h1, h2, h3, he.stop, ⟨t, day, h4, h5, by rw [h6]; cases d <;> rfl⟩, he.leave, hin⟩, ?_⟩
      rw [contains_iff]
      have := he.inside
      cases d <;> simp only [atStart, ivAtStop] at * <;> omega
    · right
      have ht : e.timeAtStop = rtEvAt d N.base r i := by rw [h4]; cases d <;> rfl
      exact ⟨r, hr, i, s, h1, h2, h3, he.stop, ht, (leave_getDuration he.leave).2, hin⟩
  cases ontrip with
  | false =>
    exact ⟨h.keep, fun hf e he => (hstart hf e he).imp id Or.inl, (by intro h; cases h), hcover, by intro h; cases h⟩
  | true =>
    simp only [if_true]
    unfold addOntrip
    simp only
    by_cases hx : getDuration d (ontripStart d iv) off false ≠ 511
    · rw [if_pos hx]
      refine ⟨fun e he => List.mem_append_left _ (h.keep e he), ?_, ?_, ?_, ?_⟩
      · intro hf e he
        rcases List.mem_append.mp he with he | he
        · exact (hstart hf e he).imp id Or.inl
        · rw [List.mem_singleton] at he
          subst he
          exact Or.inr (Or.inr ⟨rfl, (isOntrip_iff d iv l off _).mpr ⟨hx, rfl⟩⟩)
      · intro _ e he
        obtain ⟨_, he⟩ := (isOntrip_iff d iv l off e).mp he
        simp [he]
      · intro hl e he hm
        obtain ⟨e', g1, g2⟩ := hcover hl e he hm
        exact ⟨e', List.mem_append_left _ g1, g2⟩
      · intro _ _ l'
        apply lastOk_append
        right
        simp only [Interval.contains]
        cases d <;> simp only [ontripStart] <;> simp <;> omega
    · rw [if_neg hx]
      exact ⟨h.keep, fun hf e he => (hstart hf e he).imp id Or.inl, fun _ e he => absurd ((isOntrip_iff d iv l off e).mp he).1 hx, hcover, fun _ hx' => absurd hx' hx⟩

/-- All start locations with their offsets. -/
def offsets (entries : List (Loc × Int)) (tds : List (Loc × List TdEntry)) : List (Loc × Off) :=
  entries.map (fun e => (e.1, Off.const e.2)) ++ tds.map (fun e => (e.1, Off.td e.2))

theorem getStarts_interval (d : Dir) (N : Net) (iv : Interval) (entries : List (Loc × Int)) (tds : List (Loc × List TdEntry)) (maxOff : Int)
    (ontrip : Bool) (st : List Ev) :
    getStarts d N (.interval iv) entries tds maxOff ontrip st =
      (offsets entries tds).foldl (fun st o => addInInterval d N iv o.1 o.2 maxOff ontrip st) st := by
  unfold getStarts offsets
  rw [List.foldl_append, List.foldl_map, List.foldl_map]
  rfl

/-- C27 (soundness): every start time of an interval query belongs to a departure at one of the start
locations, leaves the origin exactly in time for it and inside of the interval, or is the additional start
directly after the interval. -/
theorem C27_sound (d : Dir) (N : Net) (iv : Interval) (entries : List (Loc × Int)) (tds : List (Loc × List TdEntry)) (maxOff : Int)
    (ontrip : Bool) (st : List Ev) (hrt : ∀ o ∈ offsets entries tds, RtFeasible d N o.1 o.2) (e : Ev)
    (he : e ∈ getStarts d N (.interval iv) entries tds maxOff ontrip st) :
    e ∈ st ∨ ∃ o ∈ offsets entries tds, IsStart d N iv o.1 o.2 e ∨ (ontrip = true ∧ IsOntrip d iv o.1 o.2 e) := by
  rw [getStarts_interval] at he
  revert he hrt
  generalize offsets entries tds = os
  intro hrt he
  induction os generalizing st with
  | nil => exact Or.inl he
  | cons o os ih =>
    rcases ih _ (fun o ho => hrt o (by simp [ho])) he with he | ⟨o', ho', he⟩
    · rcases (locStep d N iv o.1 o.2 maxOff ontrip st).sound (hrt o (by simp)) e he with he | he
      · exact Or.inl he
      · exact Or.inr ⟨o, by simp, he⟩
    · exact Or.inr ⟨o', by simp [ho'], he⟩

/-- C27 (completeness): if the additional start after the interval is requested (every first search of a query)
or there is only one start location, every departure in the interval whose offset is not longer than the
maximum is covered by a start time at the same stop that leaves the origin at the same time, for every order
of the start locations. -/
theorem C27_complete (d : Dir) (N : Net) (iv : Interval) (entries : List (Loc × Int)) (tds : List (Loc × List TdEntry)) (maxOff : Int)
    (ontrip : Bool) (st : List Ev) (hst : ∀ b, st.getLast? = some b → iv.contains b.timeAtStart = false)
    (hon : (ontrip = true ∧ ∀ o ∈ offsets entries tds, getDuration d (ontripStart d iv) o.2 false ≠ 511) ∨ (offsets entries tds).length ≤ 1)
    (o : Loc × Off) (ho : o ∈ offsets entries tds) (e : Ev) (he : IsStart d N iv o.1 o.2 e)
    (hm : ∃ x, 0 ≤ x ∧ x ≤ maxOff ∧ e.timeAtStart = atStart d e.timeAtStop x) :
    ∃ e' ∈ getStarts d N (.interval iv) entries tds maxOff ontrip st, Covers d e' e := by
  rw [getStarts_interval]
  revert ho hon
  generalize offsets entries tds = os
  intro hon ho
  have hkeep : ∀ (os : List (Loc × Off)) (st : List Ev), ∀ e ∈ st, e ∈ os.foldl (fun st o => addInInterval d N iv o.1 o.2 maxOff ontrip st) st := by
    intro os
    induction os with
    | nil => intro st e h; exact h
    | cons o os ih => intro st e h; exact ih _ e ((locStep d N iv o.1 o.2 maxOff ontrip st).keep e h)
  have hlast : ∀ l, LastOk iv l st := fun l b hb => Or.inr (hst b hb)
  clear hst
  induction os generalizing st with
  | nil => cases ho
  | cons p os ih =>
    rcases List.mem_cons.mp ho with rfl | ho
    · obtain ⟨e', g1, g2⟩ := (locStep d N iv o.1 o.2 maxOff ontrip st).cover (hlast _) e he hm
      exact ⟨e', hkeep os _ e' g1, g2⟩
    · rcases hon with ⟨h1, h2⟩ | h
      · exact ih _ (Or.inl ⟨h1, fun o ho => h2 o (by simp [ho])⟩) ho
          ((locStep d N iv p.1 p.2 maxOff ontrip st).last h1 (h2 p (by simp)))
      · cases os with
        | nil => cases ho
        | cons _ _ => simp at h

/-- C27 (additional starts): if they are requested, there is one for every start location that leaves directly
after the interval. -/
theorem C27_ontrip (d : Dir) (N : Net) (iv : Interval) (entries : List (Loc × Int)) (tds : List (Loc × List TdEntry)) (maxOff : Int)
    (st : List Ev) (o : Loc × Off) (ho : o ∈ offsets entries tds) (e : Ev) (he : IsOntrip d iv o.1 o.2 e) :
    e ∈ getStarts d N (.interval iv) entries tds maxOff true st := by
  rw [getStarts_interval]
  revert ho
  generalize offsets entries tds = os
  intro ho
  induction os generalizing st with
  | nil => cases ho
  | cons p os ih =>
    rw [List.foldl_cons]
    rcases List.mem_cons.mp ho with rfl | ho
    · have h := (locStep d N iv o.1 o.2 maxOff true st).extra rfl e he
      clear ih ho he
      revert h
      generalize addInInterval d N iv o.1 o.2 maxOff true st = st
      intro h
      induction os generalizing st with
      | nil => exact h
      | cons p os ih => exact ih _ ((locStep d N iv p.1 p.2 maxOff true st).keep e h)
    · exact ih _ ho

/-- C27 (fixed start time): the start times are exactly "leave at `t`" for every start location; a
time-dependent offset that is not usable at `t` gives none. -/
theorem C27_point (d : Dir) (N : Net) (t : Int) (entries : List (Loc × Int)) (tds : List (Loc × List TdEntry)) (maxOff : Int)
    (ontrip : Bool) (st : List Ev) (e : Ev) :
    e ∈ getStarts d N (.point t) entries tds maxOff ontrip st ↔ e ∈ st ∨ (e.timeAtStart = t ∧
      ((∃ x, (e.stop, x) ∈ entries ∧ e.timeAtStop = After d t x) ∨
       (∃ td x, (e.stop, td) ∈ tds ∧ WalkAt d td t = some x ∧ x ≠ 511 ∧ e.timeAtStop = After d t x))) := by
  unfold getStarts
  have h1 : ∀ st : List Ev, e ∈ entries.foldl (addEntry d N (.point t) maxOff ontrip) st ↔
      e ∈ st ∨ (e.timeAtStart = t ∧ ∃ x, (e.stop, x) ∈ entries ∧ e.timeAtStop = atStop d t x) := by
    induction entries with
    | nil => intro st; simp
    | cons p ps ih =>
      intro st
      rw [List.foldl_cons, ih]
      simp only [addEntry, List.mem_append, List.mem_cons, List.not_mem_nil, or_false]
      constructor
      · rintro ((h | rfl) | ⟨h1, x, h2, h3⟩)
        · exact Or.inl h
        · exact Or.inr ⟨rfl, p.2, Or.inl rfl, by cases d <;> rfl⟩
        · exact Or.inr ⟨h1, x, Or.inr h2, h3⟩
      · rintro (h | ⟨h1, x, h2 | h2, h3⟩)
        · exact Or.inl (Or.inl h)
        · refine Or.inl (Or.inr ?_)
          obtain ⟨a, b, c⟩ := e
          simp only at h1 h2 h3
          subst h1 h3
          rw [← h2]
        · exact Or.inr ⟨h1, x, h2, h3⟩
  have h2 : ∀ st : List Ev, e ∈ tds.foldl (addTdEntry d N (.point t) maxOff ontrip) st ↔
      e ∈ st ∨ (e.timeAtStart = t ∧ ∃ td x, (e.stop, td) ∈ tds ∧ tdDuration d td t = some x ∧ x ≠ 511 ∧ e.timeAtStop = atStop d t x) := by
    clear h1
    induction tds with
    | nil => intro st; simp
    | cons p ps ih =>
      intro st
      rw [List.foldl_cons, ih]
      simp only [addTdEntry, getDuration, Bool.false_eq_true, if_false, List.mem_cons]
      cases hd : tdDuration d p.2 t with
      | none =>
        simp only [Option.getD_none, ne_eq, not_true_eq_false, if_false]
        constructor
        · rintro (h | ⟨h1, td, x, h2, h3⟩)
          · exact Or.inl h
          · exact Or.inr ⟨h1, td, x, Or.inr h2, h3⟩
        · rintro (h | ⟨h1, td, x, h2 | h2, h3⟩)
          · exact Or.inl h
          · rw [← h2] at hd; simp only at hd; rw [hd] at h3; cases h3.1
          · exact Or.inr ⟨h1, td, x, h2, h3⟩
      | some y =>
        simp only [Option.getD_some]
        by_cases hy : y ≠ 511
        · rw [if_pos hy]
          simp only [List.mem_append, List.mem_cons, List.not_mem_nil, or_false]
          constructor
          · rintro ((h | rfl) | ⟨h1, td, x, h2, h3⟩)
            · exact Or.inl h
            · exact Or.inr ⟨rfl, p.2, y, Or.inl rfl, hd, hy, rfl⟩
            · exact Or.inr ⟨h1, td, x, Or.inr h2, h3⟩
          · rintro (h | ⟨h1, td, x, h2 | h2, h3⟩)
            · exact Or.inl (Or.inl h)
            · refine Or.inl (Or.inr ?_)
              rw [← h2] at hd; simp only at hd
              rw [hd] at h3
              obtain ⟨a, b, c⟩ := e
              simp only [Option.some.injEq] at h1 h2 h3
              obtain ⟨rfl, -, rfl⟩ := h3
              rw [h1, ← h2]
            · exact Or.inr ⟨h1, td, x, h2, h3⟩
        · rw [if_neg hy]
          constructor
          · rintro (h | ⟨h1, td, x, h2, h3⟩)
            · exact Or.inl h
            · exact Or.inr ⟨h1, td, x, Or.inr h2, h3⟩
          · rintro (h | ⟨h1, td, x, h2 | h2, h3⟩)
            · exact Or.inl h
            · rw [← h2] at hd; simp only at hd; rw [hd] at h3
              simp only [Option.some.injEq] at h3
              omega
            · exact Or.inr ⟨h1, td, x, h2, h3⟩
  rw [h2, h1]
  have e1 : ∀ x, atStop d t x = After d t x := by intro x; cases d <;> rfl
  have e2 : ∀ td, tdDuration d td t = WalkAt d td t := by intro td; cases d <;> rfl
  simp only [e1, e2]
  constructor
  · rintro ((h | ⟨h1, h2⟩) | ⟨h1, h2⟩)
    · exact Or.inl h
    · exact Or.inr ⟨h1, Or.inl h2⟩
    · exact Or.inr ⟨h1, Or.inr h2⟩
  · rintro (h | ⟨h1, h2 | h2⟩)
    · exact Or.inl (Or.inl h)
    · exact Or.inl (Or.inr ⟨h1, h2⟩)
    · exact Or.inr ⟨h1, h2⟩

/-! ## Start locations -/

/-- Minutes to stay at `l` before the journey starts: those of the first via stop if it is `l`. -/
def FirstStay (via : List (Loc × Int)) (l : Loc) : Int := if via.head?.map (·.1) = some l then (via.head?.map (·.2)).getD 0 else 0

theorem viaStay_eq (via : List (Loc × Int)) (l : Loc) : viaStay via l = FirstStay via l := by
  cases via with
  | nil => simp [viaStay, FirstStay]
  | cons v vs => simp [viaStay, FirstStay]

/-- A way to be at the location `l` after `x` minutes: the offset to one of the matching start locations, if
requested with a footpath, and the stay if `l` is the first via stop. -/
def Way (T : Tt) (fps : Loc → List (Loc × Int)) (q : SQry) (l : Loc) (x : Int) : Prop :=
  ∃ o ∈ q.start, ∃ m ∈ forEachMeta T q.mode o.1,
    (m = l ∧ x = o.2 + FirstStay q.via l) ∨ (q.useFootpaths = true ∧ ∃ w, (l, w) ∈ fps m ∧ x = o.2 + w + FirstStay q.via l)

/-- The entries of `m` are the minima of the offered pairs. -/
def MinOf (m : List (Loc × Int)) (W : Loc → Int → Prop) : Prop :=
  (m.map (·.1)).Nodup ∧ (∀ e ∈ m, W e.1 e.2) ∧ ∀ l x, W l x → ∃ y, (l, y) ∈ m ∧ y ≤ x

theorem updateShortest_key (m : List (Loc × Int)) (l : Loc) (x : Int) : ∀ k, k ∈ (updateShortest m l x).map (·.1) ↔ k = l ∨ k ∈ m.map (·.1) := by
  induction m with
  | nil => intro k; simp [updateShortest]
  | cons p m ih =>
    obtain ⟨l', y⟩ := p
    intro k
    unfold updateShortest
    by_cases h : l' = l
    · rw [if_pos h]; subst h; simp
    · rw [if_neg h]
      simp only [List.map_cons, List.mem_cons, ih k]
      constructor
      · rintro (h | h | h)
        · exact Or.inr (Or.inl h)
        · exact Or.inl h
        · exact Or.inr (Or.inr h)
      · rintro (h | h | h)
        · exact Or.inr (Or.inl h)
        · exact Or.inl h
        · exact Or.inr (Or.inr h)

theorem updateShortest_nodup {m : List (Loc × Int)} (l : Loc) (x : Int) (h : (m.map (·.1)).Nodup) : ((updateShortest m l x).map (·.1)).Nodup := by
  induction m with
  | nil => simp [updateShortest]
  | cons p m ih =>
    obtain ⟨l', y⟩ := p
    simp only [List.map_cons, List.nodup_cons] at h
    unfold updateShortest
    by_cases hl : l' = l
    · rw [if_pos hl]; simpa using h
    · rw [if_neg hl]
      simp only [List.map_cons, List.nodup_cons]
      refine ⟨?_, ih h.2⟩
      rw [updateShortest_key]
      rintro (h' | h')
      · exact hl h'
      · exact h.1 h'

theorem updateShortest_mem (m : List (Loc × Int)) (l : Loc) (x : Int) : ∀ e ∈ updateShortest m l x, e ∈ m ∨ e = (l, x) := by
  induction m with
  | nil => intro e he; simpa [updateShortest] using he
  | cons p m ih =>
    obtain ⟨l', y⟩ := p
    intro e he
    unfold updateShortest at he
    by_cases hl : l' = l
    · rw [if_pos hl] at he
      rcases List.mem_cons.mp he with rfl | he
      · subst hl
        rcases Int.le_total y x with h | h
        · left; rw [Int.min_eq_left h]; simp
        · right; rw [Int.min_eq_right h]
      · left; simp [he]
    · rw [if_neg hl] at he
      rcases List.mem_cons.mp he with rfl | he
      · left; simp
      · rcases ih e he with h | h
        · left; simp [h]
        · exact Or.inr h

theorem updateShortest_le (m : List (Loc × Int)) (l : Loc) (x : Int) :
    (∃ y, (l, y) ∈ updateShortest m l x ∧ y ≤ x) ∧ ∀ k y, (k, y) ∈ m → ∃ z, (k, z) ∈ updateShortest m l x ∧ z ≤ y := by
  induction m with
  | nil => refine ⟨⟨x, by simp [updateShortest], Int.le_refl _⟩, ?_⟩; intro k y h; cases h
  | cons p m ih =>
    obtain ⟨l', w⟩ := p
    unfold updateShortest
    by_cases hl : l' = l
    · rw [if_pos hl]
      subst hl
      refine ⟨⟨min w x, by simp, Int.min_le_right _ _⟩, ?_⟩
      intro k y h
      rcases List.mem_cons.mp h with h | h
      · cases h; exact ⟨min w x, by simp, Int.min_le_left _ _⟩
      · exact ⟨y, by simp [h], Int.le_refl _⟩
    · rw [if_neg hl]
      obtain ⟨⟨y, h1, h2⟩, h3⟩ := ih
      refine ⟨⟨y, by simp [h1], h2⟩, ?_⟩
      intro k y h
      rcases List.mem_cons.mp h with h | h
      · cases h; exact ⟨w, by simp, Int.le_refl _⟩
      · obtain ⟨z, h4, h5⟩ := h3 k y h
        exact ⟨z, by simp [h4], h5⟩

theorem minOf_update {m : List (Loc × Int)} {W : Loc → Int → Prop} (h : MinOf m W) (l : Loc) (x : Int) :
    MinOf (updateShortest m l x) (fun k y => W k y ∨ (k = l ∧ y = x)) := by
  refine ⟨updateShortest_nodup l x h.1, ?_, ?_⟩
  · intro e he
    rcases updateShortest_mem m l x e he with h' | rfl
    · exact Or.inl (h.2.1 e h')
    · exact Or.inr ⟨rfl, rfl⟩
  · rintro k y (hw | ⟨rfl, rfl⟩)
    · obtain ⟨z, h1, h2⟩ := h.2.2 k y hw
      obtain ⟨z', h3, h4⟩ := (updateShortest_le m l x).2 k z h1
      exact ⟨z', h3, Int.le_trans h4 h2⟩
    · exact (updateShortest_le m k y).1

theorem minOf_congr {m : List (Loc × Int)} {W W' : Loc → Int → Prop} (h : MinOf m W) (hw : ∀ l x, W l x ↔ W' l x) : MinOf m W' :=
  ⟨h.1, fun e he => (hw _ _).mp (h.2.1 e he), fun l x hx => h.2.2 l x ((hw _ _).mpr hx)⟩

theorem minOf_foldl {α : Type} {f : List (Loc × Int) → α → List (Loc × Int)} {V : α → Loc → Int → Prop} (as : List α)
    (hf : ∀ m W, ∀ a ∈ as, MinOf m W → MinOf (f m a) (fun k y => W k y ∨ V a k y)) {m : List (Loc × Int)} {W : Loc → Int → Prop} (h : MinOf m W) :
    MinOf (as.foldl f m) (fun k y => W k y ∨ ∃ a ∈ as, V a k y) := by
  induction as generalizing m W with
  | nil => exact minOf_congr h (by intro l x; simp)
  | cons a as ih =>
    refine minOf_congr (ih (fun m W b hb => hf m W b (by simp [hb])) (hf m W a (by simp) h)) ?_
    intro l x
    constructor
    · rintro ((h | h) | ⟨b, hb, h⟩)
      · exact Or.inl h
      · exact Or.inr ⟨a, by simp, h⟩
      · exact Or.inr ⟨b, by simp [hb], h⟩
    · rintro (h | ⟨b, hb, h⟩)
      · exact Or.inl (Or.inl h)
      · rcases List.mem_cons.mp hb with rfl | hb
        · exact Or.inl (Or.inr h)
        · exact Or.inr ⟨b, hb, h⟩

/-- The entries are the shortest ways. -/
theorem shortestStart_min (T : Tt) (fps : Loc → List (Loc × Int)) (q : SQry) : MinOf (shortestStart T fps q) (Way T fps q) := by
  unfold shortestStart Way
  simp only [← viaStay_eq]
  have h0 : MinOf [] (fun _ _ => False) := ⟨by simp, by simp, by simp⟩
  refine minOf_congr (minOf_foldl (V := fun o l x => ∃ m ∈ forEachMeta T q.mode o.1,
    (m = l ∧ x = o.2 + viaStay q.via l) ∨ (q.useFootpaths = true ∧ ∃ w, (l, w) ∈ fps m ∧ x = o.2 + w + viaStay q.via l)) q.start ?_ h0) ?_
  · intro m W o _ hm
    refine minOf_foldl (V := fun k l x => (k = l ∧ x = o.2 + viaStay q.via l) ∨
      (q.useFootpaths = true ∧ ∃ w, (l, w) ∈ fps k ∧ x = o.2 + w + viaStay q.via l)) (forEachMeta T q.mode o.1) ?_ hm
    intro m W k _ hm
    have h1 := minOf_update hm k (o.2 + viaStay q.via k)
    by_cases hu : q.useFootpaths = true
    · rw [if_pos hu]
      refine minOf_congr (minOf_foldl (V := fun fp l x => l = fp.1 ∧ x = o.2 + fp.2 + viaStay q.via fp.1) (fps k)
        (fun m W fp _ hm => minOf_update hm _ _) h1) ?_
      intro l x
      constructor
      · rintro ((h | ⟨rfl, h⟩) | ⟨⟨a, w⟩, h1, rfl, h2⟩)
        · exact Or.inl h
        · exact Or.inr (Or.inl ⟨rfl, h⟩)
        · exact Or.inr (Or.inr ⟨hu, w, h1, h2⟩)
      · rintro (h | ⟨rfl, h⟩ | ⟨-, w, h1, h2⟩)
        · exact Or.inl (Or.inl h)
        · exact Or.inl (Or.inr ⟨rfl, h⟩)
        · exact Or.inr ⟨(l, w), h1, rfl, h2⟩
    · rw [if_neg hu]
      refine minOf_congr h1 ?_
      intro l x
      constructor
      · rintro (h | ⟨rfl, h⟩)
        · exact Or.inl h
        · exact Or.inr (Or.inl ⟨rfl, h⟩)
      · rintro (h | ⟨rfl, h⟩ | ⟨h, -⟩)
        · exact Or.inl h
        · exact Or.inr ⟨rfl, h⟩
        · exact absurd h hu
  · intro l x
    simp only [false_or]

/-- C27 (start locations): the locations where a search starts are exactly those that match one of the query's
start offsets (directly or, if requested, by a footpath), each once and with the shortest way to it. -/
theorem C27_locations (T : Tt) (fps : Loc → List (Loc × Int)) (q : SQry) :
    ((shortestStart T fps q).map (·.1)).Nodup ∧
    ∀ l x, (l, x) ∈ shortestStart T fps q ↔ Way T fps q l x ∧ ∀ y, Way T fps q l y → x ≤ y := by
  have h := shortestStart_min T fps q
  refine ⟨h.1, fun l x => ⟨fun hm => ⟨h.2.1 _ hm, fun y hy => ?_⟩, fun ⟨h1, h2⟩ => ?_⟩⟩
  · obtain ⟨z, h1, h2⟩ := h.2.2 l y hy
    have : z = x := by
      have hn := h.1
      revert hn h1 hm
      generalize shortestStart T fps q = m
      intro hm h1 hn
      induction m with
      | nil => cases hm
      | cons p m ih =>
        simp only [List.map_cons, List.nodup_cons] at hn
        rcases List.mem_cons.mp hm with rfl | hm'
        · rcases List.mem_cons.mp h1 with h1 | h1
          · cases h1; rfl
          · exact absurd (List.mem_map.mpr ⟨_, h1, rfl⟩) hn.1
        · rcases List.mem_cons.mp h1 with rfl | h1
          · exact absurd (List.mem_map.mpr ⟨_, hm', rfl⟩) hn.1
          · exact ih hm' h1 hn.2
    omega
  · obtain ⟨z, h3, h4⟩ := h.2.2 l x h1
    have := h2 z (h.2.1 _ h3)
    rw [show x = z by omega]; exact h3

/-! ## Destinations -/

theorem upd_foldl_true (ls : List Loc) (f : Loc → Bool) (l : Loc) : ls.foldl (fun f l => upd f l true) f l = true ↔ f l = true ∨ l ∈ ls := by
  induction ls generalizing f with
  | nil => simp
  | cons a as ih =>
    rw [List.foldl_cons, ih]
    by_cases h : l = a
    · subst h; simp [upd]
    · simp [upd, h]

/-- C27 (destinations): without an offset at the end of the journey, exactly the locations that match one of
the destinations are destinations. -/
theorem C27_destinations (T : Tt) (m : Mode) (hm : m ≠ .intermodal) (endLoc : Loc) (dest : List (Loc × Nat)) (l : Loc) :
    (collectDest T m endLoc dest).1 l = true ↔ ∃ o ∈ dest, l ∈ forEachMeta T m o.1 := by
  unfold collectDest
  rw [if_neg hm]
  have h : ∀ f : Loc → Bool, dest.foldl (fun f o => (forEachMeta T m o.1).foldl (fun f l => upd f l true) f) f l = true ↔
      f l = true ∨ ∃ o ∈ dest, l ∈ forEachMeta T m o.1 := by
    induction dest with
    | nil => intro f; simp
    | cons o os ih =>
      intro f
      rw [List.foldl_cons, ih, upd_foldl_true]
      simp only [List.mem_cons, exists_eq_or_imp, or_assoc]
  simpa using h (fun _ => false)

theorem minDist_foldl (ls : List Loc) (x : Nat) (f : Loc → Option Nat) (l : Loc) :
    (∀ y, ls.foldl (fun f l => upd f l (some (minDist (f l) x))) f l = some y →
      f l = some y ∨ (l ∈ ls ∧ y = x)) ∧
    (∀ y, (f l = some y ∨ (l ∈ ls ∧ y = x)) →
      ∃ z, ls.foldl (fun f l => upd f l (some (minDist (f l) x))) f l = some z ∧ z ≤ y) := by
  induction ls generalizing f with
  | nil =>
    refine ⟨fun y hy => Or.inl hy, ?_⟩
    rintro y (h | ⟨h, -⟩)
    · exact ⟨y, h, Nat.le_refl _⟩
    · cases h
  | cons a as ih =>
    rw [List.foldl_cons]
    obtain ⟨h1, h2⟩ := ih (upd f a (some (minDist (f a) x)))
    constructor
    · intro y hy
      rcases h1 y hy with h | ⟨h, h'⟩
      · by_cases hl : l = a
        · subst hl
          simp only [upd, if_true] at h
          cases hf : f l with
          | none => rw [hf] at h; right; exact ⟨by simp, (Option.some.inj h).symm⟩
          | some w =>
            rw [hf] at h
            have : min w x = y := Option.some.inj h
            rcases Nat.le_total w x with g | g
            · left; rw [← this, Nat.min_eq_left g]
            · right; exact ⟨by simp, by rw [← this, Nat.min_eq_right g]⟩
        · simp only [upd, if_neg hl] at h; exact Or.inl h
      · exact Or.inr ⟨by simp [h], h'⟩
    · intro y hy
      by_cases hl : l = a
      · subst hl
        have hval : upd f l (some (minDist (f l) x)) l = some (minDist (f l) x) := by
          simp [upd]
        obtain ⟨z, g1, g2⟩ := h2 _ (Or.inl hval)
        refine ⟨z, g1, Nat.le_trans g2 ?_⟩
        rcases hy with hy | ⟨-, rfl⟩
        · rw [hy]; exact Nat.min_le_left _ _
        · cases f l with
          | none => exact Nat.le_refl _
          | some w => exact Nat.min_le_right _ _
      · apply h2
        rcases hy with hy | ⟨hy, h⟩
        · left; simp only [upd, if_neg hl]; exact hy
        · right
          rcases List.mem_cons.mp hy with hy | hy
          · exact absurd hy hl
          · exact ⟨hy, h⟩

/-- C27 (destination offsets): with offsets at the end of the journey, the distance of a location to the
destination is the shortest of the offsets that match it, and only the additional end location is a
destination. -/
theorem C27_dest_offsets (T : Tt) (endLoc : Loc) (dest : List (Loc × Nat)) (l : Loc) (y : Nat) :
    ((collectDest T .intermodal endLoc dest).2 l = some y ↔
      (∃ o ∈ dest, l ∈ forEachMeta T .intermodal o.1 ∧ o.2 = y) ∧ ∀ o ∈ dest, l ∈ forEachMeta T .intermodal o.1 → y ≤ o.2) ∧
    ((collectDest T .intermodal endLoc dest).1 l = true ↔ l = endLoc) := by
  refine ⟨?_, by simp [collectDest]⟩
  simp only [collectDest, if_true]
  have h : ∀ (f : Loc → Option Nat), (∀ y, dest.foldl (fun f o => (forEachMeta T .intermodal o.1).foldl
        (fun f l => upd f l (some (minDist (f l) o.2))) f) f l = some y →
        f l = some y ∨ ∃ o ∈ dest, l ∈ forEachMeta T .intermodal o.1 ∧ o.2 = y) ∧
      (∀ y, (f l = some y ∨ ∃ o ∈ dest, l ∈ forEachMeta T .intermodal o.1 ∧ o.2 = y) →
        ∃ z, dest.foldl (fun f o => (forEachMeta T .intermodal o.1).foldl
        (fun f l => upd f l (some (minDist (f l) o.2))) f) f l = some z ∧ z ≤ y) := by
    induction dest with
    | nil =>
      intro f
      refine ⟨fun y hy => Or.inl hy, ?_⟩
      rintro y (h | ⟨o, ho, -⟩)
      · exact ⟨y, h, Nat.le_refl _⟩
      · cases ho
    | cons o os ih =>
      intro f
      rw [List.foldl_cons]
      have h1 := minDist_foldl (forEachMeta T .intermodal o.1) o.2 f l
      have h2 := ih ((forEachMeta T .intermodal o.1).foldl (fun f l => upd f l (some (minDist (f l) o.2))) f)
      constructor
      · intro y hy
        rcases h2.1 y hy with h | ⟨p, hp, h⟩
        · rcases h1.1 y h with h | ⟨h, h'⟩
          · exact Or.inl h
          · exact Or.inr ⟨o, by simp, h, h'.symm⟩
        · exact Or.inr ⟨p, by simp [hp], h⟩
      · rintro y (h | ⟨p, hp, h, h'⟩)
        · obtain ⟨z, g1, g2⟩ := h1.2 y (Or.inl h)
          obtain ⟨z', g3, g4⟩ := h2.2 z (Or.inl g1)
          exact ⟨z', g3, Nat.le_trans g4 g2⟩
        · rcases List.mem_cons.mp hp with rfl | hp
          · obtain ⟨z, g1, g2⟩ := h1.2 y (Or.inr ⟨h, h'.symm⟩)
            obtain ⟨z', g3, g4⟩ := h2.2 z (Or.inl g1)
            exact ⟨z', g3, Nat.le_trans g4 g2⟩
          · exact h2.2 y (Or.inr ⟨p, hp, h, h'⟩)
  obtain ⟨h1, h2⟩ := h (fun _ => none)
  constructor
  · intro hy
    refine ⟨?_, fun o ho hl => ?_⟩
    · rcases h1 y hy with h | h
      · cases h
      · exact h
    · obtain ⟨z, g1, g2⟩ := h2 o.2 (Or.inr ⟨o, ho, hl, rfl⟩)
      rw [hy] at g1
      cases g1
      exact g2
  · rintro ⟨⟨o, ho, hl, rfl⟩, hmin⟩
    obtain ⟨z, g1, g2⟩ := h2 o.2 (Or.inr ⟨o, ho, hl, rfl⟩)
    rcases h1 z g1 with h | ⟨p, hp, hl', h'⟩
    · cases h
    · have := hmin p hp hl'
      have hz : z = o.2 := by omega
      rw [← hz]; exact g1

/-! ## Examples and limits -/

namespace Demo
open Nigiri.Raptor.Demo

/-- Leaving between 10:00 and 10:20 on day 5: one departure from 0 after a walk of one minute, two departures
from 1 after a walk of 10 minutes, and both locations again at the end of the interval. -/
example : getStarts .fwd net (.interval ⟨7800, 7820⟩) [(0, 1), (1, 10)] [] 60 true [] =
    [⟨7801, 7802, 0⟩, ⟨7802, 7803, 0⟩, ⟨7820, 7821, 0⟩, ⟨7802, 7812, 1⟩, ⟨7810, 7820, 1⟩, ⟨7820, 7830, 1⟩] := by decide +kernel

example : ∀ o ∈ offsets [(0, 1), (1, 10)] [], getDuration .fwd (ontripStart .fwd ⟨7800, 7820⟩) o.2 false ≠ 511 := by
  intro o ho
  simp only [offsets, List.map_cons, List.map_nil, List.append_nil, List.mem_cons, List.not_mem_nil, or_false] at ho
  rcases ho with rfl | rfl <;> decide

/-- The additional start at location 1. -/
example : IsOntrip .fwd ⟨7800, 7820⟩ 1 (.const 10) ⟨7820, 7830, 1⟩ := ⟨rfl, rfl, 10, by decide, rfl, rfl⟩

/-- The departure at 10:20 of line B is one of the starts that `C27_complete` is about. -/
theorem start_B : IsStart .fwd net ⟨7800, 7820⟩ 1 (.const 10) ⟨7810, 7820, 1⟩ := by
  refine ⟨rfl, Or.inl ⟨lineB, by simp [net], 0, 0, st 1, 5, rfl, rfl, ?_, by decide, by decide, by decide⟩, ⟨10, by decide, rfl, rfl⟩, by decide⟩
  simp [MayStart, lineB, net, st]

/-- Offsets that are usable at every real-time departure. -/
example : ∀ o ∈ offsets [(0, 1), (2, 10)] [], RtFeasible .fwd net o.1 o.2 := by
  intro o ho r hr i s _ _
  simp only [offsets, List.map_cons, List.map_nil, List.append_nil, List.mem_cons, List.not_mem_nil, or_false] at ho
  rcases ho with rfl | rfl
  · exact ⟨_, 1, by decide, rfl, rfl⟩
  · exact ⟨_, 10, by decide, rfl, rfl⟩

end Demo

/-- Finding: when an interval is extended (no additional start at its end), the last start of one location
hides the first start of the next location that leaves the origin at the same time: the departure from
location 1 is in the interval, but no start is at location 1. -/
theorem C27_extension_counterexample :
    IsStart .fwd Raptor.Demo.net ⟨7802, 7803⟩ 1 (.const 10) ⟨7802, 7812, 1⟩ ∧
    getStarts .fwd Raptor.Demo.net (.interval ⟨7802, 7803⟩) [(0, 0), (1, 10)] [] 60 false [] = [⟨7802, 7802, 0⟩] ∧
    getStarts .fwd Raptor.Demo.net (.interval ⟨7802, 7803⟩) [(1, 10), (0, 0)] [] 60 false [] = [⟨7802, 7812, 1⟩, ⟨7802, 7802, 0⟩] := by
  refine ⟨⟨rfl, Or.inl ⟨Raptor.Demo.lineA, by simp [Raptor.Demo.net], 1, 0, Raptor.Demo.st 1, 5, rfl, rfl, ?_, by decide, by decide, by decide⟩,
    ⟨10, by decide, rfl, rfl⟩, by decide⟩, by decide +kernel, by decide +kernel⟩
  simp [MayStart, Raptor.Demo.lineA, Raptor.Demo.net, Raptor.Demo.st]

/-- Finding: for real-time transports a time-dependent offset that is never usable is taken as one of 511
minutes. -/
theorem C27_rt_infeasible_counterexample :
    getStarts .fwd Raptor.Demo.net (.interval ⟨7329, 7330⟩) [] [(2, [])] 600 false [] = [⟨7329, 7840, 2⟩] ∧
    ∀ tas, ¬ Leave .fwd (.td []) 7840 tas := by
  refine ⟨by decide +kernel, ?_⟩
  rintro tas ⟨x, -, h, -⟩
  cases h

/-- Finding: a constant offset of exactly 511 minutes gives no start in an interval. -/
theorem C27_511_counterexample :
    getStarts .fwd Raptor.Demo.net (.interval ⟨7000, 8000⟩) [(0, 511)] [] 600 true [] = [] ∧
    getStarts .fwd Raptor.Demo.net (.interval ⟨7000, 8000⟩) [(0, 510)] [] 600 true [] ≠ [] := by
  refine ⟨by decide +kernel, by decide +kernel⟩

end Nigiri.StartTimes
