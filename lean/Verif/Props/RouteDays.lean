import Verif.Model.RouteDays
import Verif.Spec.RouteDays
import Verif.Proofs.Earliest
/-!
# C142: the days of a route
-/

namespace Nigiri.RouteDays
open Nigiri.Raptor

theorem addTransport_iff (tb : Bitfield) (n : Nat) (c : Bitfield) (i : Nat) :
    addTransport tb n c i = true ↔ c i = true ∨ (i < kMaxDays ∧ ∃ d, d ≤ n ∧ d ≤ i ∧ tb (i - d) = true) := by
  unfold addTransport
  have key : ∀ (l : List Nat) (c : Bitfield), l.foldl (fun c d => orBits c (shiftLeft tb d)) c i = true ↔
      c i = true ∨ (i < kMaxDays ∧ ∃ d, d ∈ l ∧ d ≤ i ∧ tb (i - d) = true) := by
    intro l
    induction l with
    | nil => simp
    | cons a l ih =>
      intro c
      rw [List.foldl_cons, ih]
      simp only [orBits, shiftLeft, Bool.or_eq_true, Bool.and_eq_true, decide_eq_true_eq, List.mem_cons]
      constructor
      · rintro ((h | ⟨⟨h, ha⟩, hb⟩) | ⟨h, d, hd, h2⟩)
        · exact Or.inl h
        · exact Or.inr ⟨h, a, Or.inl rfl, ha, hb⟩
        · exact Or.inr ⟨h, d, Or.inr hd, h2⟩
      · rintro (h | ⟨h, d, rfl | hd, h2⟩)
        · exact Or.inl (Or.inl h)
        · exact Or.inl (Or.inr ⟨⟨h, h2.1⟩, h2.2⟩)
        · exact Or.inr ⟨h, d, hd, h2⟩
  rw [key]
  simp only [List.mem_range, Nat.lt_succ_iff]

theorem storedDays_iff (r : RouteData) (tb : Nat → Bitfield) (i : Nat) :
    storedDays r tb i = true ↔ i < kMaxDays ∧ ∃ t, t < r.nTr ∧ ∃ d, d ≤ maxDayDelta r t ∧ d ≤ i ∧ tb t (i - d) = true := by
  unfold storedDays
  have key : ∀ (l : List Nat) (c : Bitfield), l.foldl (fun c t => addTransport (tb t) (maxDayDelta r t) c) c i = true ↔
      c i = true ∨ (i < kMaxDays ∧ ∃ t, t ∈ l ∧ ∃ d, d ≤ maxDayDelta r t ∧ d ≤ i ∧ tb t (i - d) = true) := by
    intro l
    induction l with
    | nil => simp
    | cons a l ih =>
      intro c
      rw [List.foldl_cons, ih, addTransport_iff]
      simp only [List.mem_cons]
      constructor
      · rintro ((h | ⟨h, h2⟩) | ⟨h, t, ht, h2⟩)
        · exact Or.inl h
        · exact Or.inr ⟨h, a, Or.inl rfl, h2⟩
        · exact Or.inr ⟨h, t, Or.inr ht, h2⟩
      · rintro (h | ⟨h, t, rfl | ht, h2⟩)
        · exact Or.inl (Or.inl h)
        · exact Or.inl (Or.inr ⟨h, h2⟩)
        · exact Or.inr ⟨h, t, ht, h2⟩
  rw [key]
  simp [Bitfield.empty]

/-- The largest day offset is 0 or that of an event. -/
theorem maxDayDelta_attained (r : RouteData) (t : Nat) :
    maxDayDelta r t = 0 ∨ ∃ m, EventAt r t m ∧ maxDayDelta r t = m / 1440 := by
  unfold maxDayDelta
  have key : ∀ (l : List Nat), (∀ s ∈ l, s < r.stops.length) → ∀ m0, (m0 = 0 ∨ ∃ m, EventAt r t m ∧ m0 = m / 1440) →
      (fun x => x = 0 ∨ ∃ m, EventAt r t m ∧ x = m / 1440) (l.foldl (fun m s =>
        let m := if s ≠ 0 then max m (r.arr t s / 1440) else m
        if s + 1 ≠ r.stops.length then max m (r.dep t s / 1440) else m) m0) := by
    intro l
    induction l with
    | nil => intro _ m0 h; exact h
    | cons a l ih =>
      intro hl m0 h
      rw [List.foldl_cons]
      have ha : a < r.stops.length := hl a (List.mem_cons_self ..)
      refine ih (fun s hs => hl s (List.mem_cons_of_mem _ hs)) _ ?_
      have max_or : ∀ x y : Nat, max x y = x ∨ max x y = y := by intro x y; omega
      have h1 : (fun x => x = 0 ∨ ∃ m, EventAt r t m ∧ x = m / 1440) (if a ≠ 0 then max m0 (r.arr t a / 1440) else m0) := by
        show _ ∨ _
        by_cases h0 : a ≠ 0
        · rw [if_pos h0]
          rcases max_or m0 (r.arr t a / 1440) with e | e
          · rw [e]; exact h
          · rw [e]; exact Or.inr ⟨_, ⟨a, ha, Or.inl ⟨by omega, rfl⟩⟩, rfl⟩
        · rw [if_neg h0]; exact h
      generalize (if a ≠ 0 then max m0 (r.arr t a / 1440) else m0) = m1 at h1
      show _ ∨ _
      by_cases h0 : a + 1 ≠ r.stops.length
      · simp only [if_pos h0]
        rcases max_or m1 (r.dep t a / 1440) with e | e
        · rw [e]; exact h1
        · rw [e]; exact Or.inr ⟨_, ⟨a, ha, Or.inr ⟨by omega, rfl⟩⟩, rfl⟩
      · simp only [if_neg h0]; exact h1
  exact key _ (fun s hs => by simpa using hs) 0 (Or.inl rfl)

theorem le_maxDayDelta (r : RouteData) (t m : Nat) (h : EventAt r t m) : m / 1440 ≤ maxDayDelta r t := by
  obtain ⟨s, hs, ⟨h0, rfl⟩ | ⟨h0, rfl⟩⟩ := h
  · exact maxDayDelta_arr r t s hs (by omega)
  · exact maxDayDelta_dep r t s hs (by omega)

/-- **C142** (the stored days).  A route is active on a day exactly if the timetable has this day (0 to
511) and one of its transports is on its way then: it starts on this day, or on an earlier traffic day
and some event of it is not before this day. -/
theorem C142_active_days (r : RouteData) (tb : Nat → Bitfield) (day : Nat) :
    isRouteActive r tb day = true ↔ day < 512 ∧ ∃ t s, t < r.nTr ∧ OnTheWay r tb t s day := by
  unfold isRouteActive test
  constructor
  · intro h
    by_cases hd : day ≥ kMaxDays
    · rw [if_pos hd] at h; cases h
    rw [if_neg hd, storedDays_iff] at h
    obtain ⟨hk, t, ht, d, h1, h2, h3⟩ := h
    refine ⟨hk, t, day - d, ht, h3, by omega, ?_⟩
    rcases maxDayDelta_attained r t with h0 | ⟨m, hm, e⟩
    · exact Or.inl (by omega)
    · exact Or.inr ⟨m, hm, by omega⟩
  · rintro ⟨hd, t, s, ht, hb, hs, h⟩
    have hk : ¬ day ≥ kMaxDays := by simp only [kMaxDays]; omega
    rw [if_neg hk, storedDays_iff]
    refine ⟨by omega, t, ht, day - s, ?_, by omega, ?_⟩
    · rcases h with rfl | ⟨m, hm, h⟩
      · omega
      · have := le_maxDayDelta r t m hm; omega
    · rw [show day - (day - s) = s by omega]; exact hb

/-- **C142** (no event of the timetable is skipped).  A transport that runs on traffic day `s` has its
event on a day of the timetable on which the route is active: leaving out the inactive days of a route
leaves out no event.  Partial: only events up to day 511; `C142_last_days_false`. -/
theorem C142_event_days_partial (r : RouteData) (tb : Nat → Bitfield) (t s m : Nat) (ht : t < r.nTr) (hb : tb t s = true)
    (hm : EventAt r t m) (hd : s + m / 1440 < 512) : isRouteActive r tb (s + m / 1440) = true :=
  (C142_active_days r tb _).2 ⟨hd, t, s, ht, hb, by omega, Or.inr ⟨m, hm, by omega⟩⟩

/-- **C142** (agreement with the searches).  The predicate the search theorems use (`routeActive`) is
this stored one, for the days of the timetable, if the transports of the route have the traffic days of
the stored bitfields. -/
theorem C142_search_days (r : RouteData) (tb : Nat → Bitfield)
    (hdays : ∀ (t : Nat) (x : Int), r.days t x = true ↔ 0 ≤ x ∧ tb t x.toNat = true) (day : Nat) (hd : day < 512) :
    routeActive r (day : Int) = isRouteActive r tb day := by
  rw [Bool.eq_iff_iff]
  unfold isRouteActive test
  have hk : ¬ day ≥ kMaxDays := by simp only [kMaxDays]; omega
  rw [if_neg hk, storedDays_iff]
  unfold routeActive
  simp only [List.any_eq_true, List.mem_range]
  constructor
  · rintro ⟨t, ht, d, h1, h2⟩
    obtain ⟨h3, h4⟩ := (hdays t _).1 h2
    refine ⟨by omega, t, ht, d, by omega, by omega, ?_⟩
    rw [show day - d = ((day : Int) - (d : Int)).toNat by omega]; exact h4
  · rintro ⟨_, t, ht, d, h1, h2, h3⟩
    refine ⟨t, ht, d, by omega, (hdays t _).2 ⟨by omega, ?_⟩⟩
    rw [show ((day : Int) - (d : Int)).toNat = day - d by omega]; exact h3

/-! ## Examples -/

/-- Two stops; transport 0 leaves at 23:00 and arrives 01:00 two days later, transport 1 runs in the
morning. -/
def exRoute : RouteData :=
  { stops := [⟨1, true, true, true, true⟩, ⟨2, true, true, true, true⟩], nTr := 2,
    arr := fun t _ => if t = 0 then 2 * 1440 + 60 else 600, dep := fun t _ => if t = 0 then 1380 else 480,
    days := fun t x => if t = 0 then x == 5 || x == 511 else x == 9, clasz := 3, secFlags := [] }

def exDays : Nat → Bitfield := fun t i => if t = 0 then i == 5 || i == 511 else i == 9

theorem ex_hdays : ∀ (t : Nat) (x : Int), exRoute.days t x = true ↔ 0 ≤ x ∧ exDays t x.toNat = true := by
  intro t x
  simp only [exRoute, exDays]
  split <;> simp <;> omega

theorem ex_event : EventAt exRoute 0 (2 * 1440 + 60) := ⟨1, by decide, Or.inl ⟨by decide, rfl⟩⟩

example : isRouteActive exRoute exDays 7 = true :=
  C142_event_days_partial exRoute exDays 0 5 (2 * 1440 + 60) (by decide) (by decide) ex_event (by decide)
example : routeActive exRoute ((6 : Nat) : Int) = isRouteActive exRoute exDays 6 := C142_search_days _ _ ex_hdays 6 (by decide)
example : (List.range 12).filter (isRouteActive exRoute exDays) = [5, 6, 7, 9] := by decide +kernel

/-- Full claim false at the end of the timetable: the transport starts on day 511, the last day that
exists, and arrives on day 513; on this day its route is not active, so that a search backwards from
the arrival does not look at it. -/
theorem C142_last_days_false : exDays 0 511 = true ∧ EventAt exRoute 0 (2 * 1440 + 60) ∧
    isRouteActive exRoute exDays (511 + (2 * 1440 + 60) / 1440) = false := by
  refine ⟨by decide, ex_event, ?_⟩
  exact Bool.eq_false_iff.2 fun h => absurd ((C142_active_days _ _ _).1 h).1 (by decide)

end Nigiri.RouteDays
