import Verif.Proofs.HrdUtc
/-!
# C95, C96: local times of HRD services
-/

namespace Nigiri.Hrd
open Spec

/-! ## C95: conversion to UTC -/

/-- **C95** (partial: `Runs` excludes days with an event at the very first local minute after the
clock was set forward, see `C95_first_minute_false`).  The services handed on for a part service and a repetition
contain the UTC day `u` with the times `times` and the stops `stops` iff some local traffic day of
the interval is represented by them: every event takes place at the UTC time of its local time. -/
theorem C95_utc_partial (x : ToUtc) (hx : EvsOk x.evs) (hne : x.evs ≠ []) (out : List UtcService)
    (h : x.run = some out) (times : List Int) (stops : List SeqStop) (u : Nat) :
    (∃ e ∈ out, e.times = times ∧ e.stops = stops ∧ e.days u = true) ↔
      ∃ D, Runs x D u times stops := by
  obtain ⟨_, h2⟩ := loop_has x x.hrd.points [] out h List.Pairwise.nil
  have := h2 times stops u
  refine this.trans ?_
  constructor
  · rintro (⟨e, he, _⟩ | ⟨D, hD, hk⟩)
    · cases he
    · rw [mem_points] at hD
      exact ⟨D, (stepKey_iff x hx hne D hD.1 hD.2 times stops u).1 hk⟩
  · rintro ⟨D, hr⟩
    exact Or.inr ⟨D, (mem_points _ _).2 hr.inHrd, (stepKey_iff x hx hne D hr.inHrd.1 hr.inHrd.2 times stops u).2 hr⟩

/-- **C95**.  No two of the services have the same times and stops: a traffic day of the local
calendar is in exactly one of them. -/
theorem C95_unique (x : ToUtc) (out : List UtcService) (h : x.run = some out) (i j : Nat)
    (a b : UtcService) (ha : out[i]? = some a) (hb : out[j]? = some b) (hij : i < j) :
    ¬ (a.times = b.times ∧ a.stops = b.stops) := by
  obtain ⟨hk, _⟩ := loop_has x x.hrd.points [] out h List.Pairwise.nil
  have hi := (List.getElem?_eq_some_iff.1 ha).1
  have hj := (List.getElem?_eq_some_iff.1 hb).1
  have := (List.pairwise_iff_getElem.1 hk) i j hi hj hij
  rw [(List.getElem?_eq_some_iff.1 ha).2, (List.getElem?_eq_some_iff.1 hb).2] at this
  exact this

/-- **C95**.  The conversion never writes outside of the 512 days iff no day of the service is
represented by a UTC day beyond them. -/
theorem C95_defined (x : ToUtc) (hx : EvsOk x.evs) (hne : x.evs ≠ []) :
    (∃ out, x.run = some out) ↔ ∀ D u times stops, Runs x D u times stops → u < 512 := by
  have hn := loop_none x x.hrd.points []
  constructor
  · rintro ⟨out, ho⟩ D u times stops hr
    refine Classical.byContradiction fun hu => ?_
    have : x.run = none := hn.2 ⟨D, (mem_points _ _).2 hr.inHrd, times, stops, u,
      (stepKey_iff x hx hne D hr.inHrd.1 hr.inHrd.2 times stops u).2 hr, hu⟩
    rw [this] at ho; cases ho
  · intro h
    cases hr : x.run with
    | some out => exact ⟨out, rfl⟩
    | none =>
      obtain ⟨D, hD, t, s, u, hk, hu⟩ := hn.1 hr
      rw [mem_points] at hD
      exact absurd (h D u t s ((stepKey_iff x hx hne D hD.1 hD.2 t s u).1 hk)) hu

/-- **C95**.  Two different local days are never mapped to the same UTC day and times, if the UTC
offsets of the first stop vary by less than a day. -/
theorem C95_injective (x : ToUtc) (D D' : Int) (u : Nat) (times : List Int) (s s' : List SeqStop)
    (h : Runs x D u times s) (h' : Runs x D' u times s') (t : Int) (tz : Tz)
    (h0 : x.evs[0]? = some (t, tz))
    (hoff : ∀ a b, offsetAt tz a - offsetAt tz b < 1440) : D = D' := by
  have hl : 0 < times.length := by
    rw [h.len]; exact (List.getElem?_eq_some_iff.1 h0).1
  have hm := List.getElem?_eq_getElem hl
  have e1 := h.utc 0 t tz _ h0 hm
  have e2 := h'.utc 0 t tz _ h0 hm
  have o1 := hoff (D * 1440 + t) (D' * 1440 + t)
  have o2 := hoff (D' * 1440 + t) (D * 1440 + t)
  unfold utcOf at e1 e2
  omega

/-! ### a concrete service -/

/-- Central European time, days numbered such that daylight saving time begins on day 10 at 02:00 and
ends on day 200 at 03:00 (local time). -/
def cet : Tz := { offset := 60, seasons := [⟨120, 10 * 1440, 200 * 1440, 120, 180⟩] }

/-- A service every day of the days 5 … 14, 00:30 – 02:30, in Central European time. -/
def night : ToUtc :=
  { hrd := ⟨5, 15⟩, selection := ⟨5, 15⟩, evs := [(30, cet), (250, cet)]
    localDays := fun _ => true, stopSeq := fun _ => [⟨1, true, true⟩, ⟨2, true, true⟩] }

def showUtc (x : ToUtc) : Option (List (List Int × List Nat)) :=
  x.run.map fun out => out.map fun e => (e.times, (List.range 32).filter e.days)

/-- In winter the service starts at 23:30 UTC of the day before; on the day of the change its times
differ, afterwards it starts at 22:30 UTC. -/
example : showUtc night =
    some [([1410, 1630], [4, 5, 6, 7, 8]), ([1410, 1570], [9]), ([1350, 1570], [10, 11, 12, 13])] := by
  decide +kernel
theorem night_ok : EvsOk night.evs := by
  refine ⟨?_, ?_⟩
  · intro e he; simp [night] at he; rcases he with rfl | rfl <;> simp
  · intro e he; simp [night] at he; rcases he with rfl | rfl <;> simp [cet]
/-- the hypotheses of `C95_utc_partial` are met by this service -/
example : EvsOk night.evs ∧ night.evs ≠ [] ∧ ∃ out, night.run = some out := by
  refine ⟨night_ok, by simp [night], ?_⟩
  have : night.run.isSome = true := by decide +kernel
  exact Option.isSome_iff_exists.1 this

/-- A service with a single section, departing at 03:00, arriving at 04:00 on day 10. -/
def three : ToUtc :=
  { hrd := ⟨5, 15⟩, selection := ⟨5, 15⟩, evs := [(180, cet), (240, cet)]
    localDays := fun d => decide (d = 5), stopSeq := fun _ => [⟨1, true, true⟩, ⟨2, true, true⟩] }

/-- **C95** (why only partial, 1).  At the change to daylight saving time the clock jumps from 02:00
to 03:00: 03:00 exists, and is 01:00 UTC.  A service departing at exactly 03:00 on that day is
dropped. -/
theorem C95_first_minute_false :
    showUtc three = some [] ∧ utcOf cet (10 * 1440 + 180) = 10 * 1440 + 60 ∧
      toLocalTimeOffsets cet (10 * 1440 + 60) = 10 * 1440 + 180 ∧
      toLocalTimeOffsets cet (10 * 1440 + 59) = 10 * 1440 + 119 := by
  refine ⟨?_, ?_, ?_, ?_⟩ <;> decide +kernel

/-- A service that runs on every day of a file whose last date is day 14. -/
def lastDate : ToUtc :=
  { hrd := parseInterval 5 14, selection := ⟨5, 15⟩, evs := [(600, { offset := 60 }), (660, { offset := 60 })]
    localDays := fun _ => true, stopSeq := fun _ => [] }

/-- **C95** (2).  The last date of the file is not part of the interval: the service does not run on
day 14 (UTC day index 14), although the traffic day bit is set and the day is selected. -/
theorem C95_last_date_false :
    showUtc lastDate = some [([540, 600], [5, 6, 7, 8, 9, 10, 11, 12, 13])] := by decide +kernel

/-! ## C96: local and UTC times fit together -/

/-- A local time that does not exist: it is skipped when the clock is set forward. -/
def Skipped (tz : Tz) (t : Int) : Prop :=
  ∃ s, tz.seasons.find? (fun s => decide (InLocal s t)) = some s ∧
    t < s.begin + s.beginMam + (s.offset - tz.offset)

/-- A UTC time whose local time occurs twice: the clock was set back and has not yet reached the
moment at which it was set back. -/
def Repeated (tz : Tz) (u : Int) : Prop :=
  ∃ s ∈ tz.seasons, s.end' + s.endMam - s.offset ≤ u ∧ u < s.end' + s.endMam - tz.offset

/-- seasons that contain `t` are the same -/
theorem season_unique {tz : Tz} (h : TzOk tz) {s r : Season} (hs : s ∈ tz.seasons) (hr : r ∈ tz.seasons)
    (hx : ¬ (s.end' + s.endMam ≤ r.begin + r.beginMam ∨ r.end' + r.endMam ≤ s.begin + s.beginMam)) :
    s = r := by
  obtain ⟨i, hi⟩ := List.getElem?_of_mem hs
  obtain ⟨j, hj⟩ := List.getElem?_of_mem hr
  by_cases hij : i = j
  · subst hij; rw [hi] at hj; cases hj; rfl
  · exact absurd (h.apart i j s r hi hj hij) hx

theorem find_some {l : List Season} {p : Season → Bool} {s : Season} (hm : s ∈ l) (hp : p s = true) :
    ∃ r, l.find? p = some r ∧ r ∈ l ∧ p r = true := by
  cases h : l.find? p with
  | none => exact absurd hp (by simpa using List.find?_eq_none.1 h s hm)
  | some r => exact ⟨r, rfl, List.mem_of_find?_eq_some h, List.find?_some h⟩

theorem toLocal_utcOf (tz : Tz) (h : TzOk tz) (t : Int) (hv : ¬ Skipped tz t) :
    toLocalTimeOffsets tz (utcOf tz t) = t := by
  unfold toLocalTimeOffsets
  cases hf : tz.seasons.find? (fun s => decide (InLocal s t)) with
  | some s =>
    have hs := List.mem_of_find?_eq_some hf
    have hin : InLocal s t := by simpa using List.find?_some hf
    have hge : s.begin + s.beginMam + (s.offset - tz.offset) ≤ t := by
      refine Classical.byContradiction fun hlt => hv ⟨s, hf, by omega⟩
    have hu : utcOf tz t = t - s.offset := by unfold utcOf offsetAt; rw [hf]
    have hfw := h.forward s hs
    unfold InLocal at hin
    obtain ⟨r, hr, hrm, hrp⟩ := find_some (p := fun s => decide (utcOf tz t ≥ s.begin + s.beginMam - tz.offset) &&
      decide (utcOf tz t < s.end' + s.endMam - s.offset)) hs (by simp; rw [hu]; omega)
    rw [hr]
    simp only [Bool.and_eq_true, decide_eq_true_eq] at hrp
    have hfr := h.forward r hrm
    have : s = r := by
      refine season_unique h hs hrm ?_
      rw [hu] at hrp
      omega
    subst this
    show utcOf tz t + s.offset = t
    rw [hu]; omega
  | none =>
    have hu : utcOf tz t = t - tz.offset := by unfold utcOf offsetAt; rw [hf]
    cases hg : tz.seasons.find? (fun s => decide (utcOf tz t ≥ s.begin + s.beginMam - tz.offset) &&
        decide (utcOf tz t < s.end' + s.endMam - s.offset)) with
    | none => show utcOf tz t + tz.offset = t; rw [hu]; omega
    | some r =>
      exfalso
      have hrm := List.mem_of_find?_eq_some hg
      have hrp := List.find?_some hg
      simp only [Bool.and_eq_true, decide_eq_true_eq] at hrp
      have hfr := h.forward r hrm
      have hno : ¬ InLocal r t := by simpa using List.find?_eq_none.1 hf r hrm
      unfold InLocal at hno
      rw [hu] at hrp
      omega

/-- **C96** (local → UTC → local).  If the conversion of a local time is reported as valid, the UTC
time is shown as the local time it was computed from. -/
theorem C96_round_trip (tz : Tz) (h : TzOk tz) (day mam : Int) (first : Bool) (m off : Int)
    (hc : localMamToUtcMam tz day mam first = (m, off, true)) :
    toLocalTimeOffsets tz (day + off + m) = day + mam := by
  have hv : (localMamToUtcMam tz day mam first).2.2 = true := by rw [hc]
  have hns := (lm_valid tz day mam first).1 hv
  have he : day + off + m = utcOf tz (day + mam) := by
    have := lm_value tz day mam first hv
    rw [hc] at this
    dsimp only at this
    split at this
    · rename_i h1
      simp only [Prod.mk.injEq] at this
      have hd := Int.tmod_add_mul_tdiv (utcOf tz (day + mam) - day) 1440
      omega
    · split at this
      · simp only [Prod.mk.injEq] at this; omega
      · simp only [Prod.mk.injEq] at this; omega
  rw [he]
  refine toLocal_utcOf tz h _ ?_
  rintro ⟨s, hs, hlt⟩
  exact hns ⟨s, hs, by omega⟩

/-- **C96** (every existing local time).  The same holds for every local time that is not skipped
by a change of the clock. -/
theorem C96_existing (tz : Tz) (h : TzOk tz) (t : Int) (hv : ¬ Skipped tz t) :
    toLocalTimeOffsets tz (utcOf tz t) = t := toLocal_utcOf tz h t hv

/-- **C96** (UTC → local → UTC).  Except in the repeated hour the local time of a UTC time belongs to
that UTC time, and it is never a skipped one. -/
theorem C96_inverse (tz : Tz) (h : TzOk tz) (u : Int) (hr : ¬ Repeated tz u) :
    utcOf tz (toLocalTimeOffsets tz u) = u ∧ ¬ Skipped tz (toLocalTimeOffsets tz u) := by
  unfold toLocalTimeOffsets
  cases hf : tz.seasons.find? (fun s => decide (u ≥ s.begin + s.beginMam - tz.offset) &&
        decide (u < s.end' + s.endMam - s.offset)) with
  | some s =>
    have hs := List.mem_of_find?_eq_some hf
    have hp := List.find?_some hf
    simp only [Bool.and_eq_true, decide_eq_true_eq] at hp
    have hfw := h.forward s hs
    show utcOf tz (u + s.offset) = u ∧ ¬ Skipped tz (u + s.offset)
    obtain ⟨r, hr, hrm, hrp⟩ := find_some (p := fun r => decide (InLocal r (u + s.offset)))
      hs (decide_eq_true (show InLocal s (u + s.offset) from ⟨by omega, by omega⟩))
    have : s = r := by
      refine season_unique h hs hrm ?_
      have hin : InLocal r (u + s.offset) := by simpa using hrp
      unfold InLocal at hin
      omega
    subst this
    refine ⟨?_, ?_⟩
    · unfold utcOf offsetAt; rw [hr]; show u + s.offset - s.offset = u; omega
    · rintro ⟨s', hs', hlt⟩
      rw [hr] at hs'; cases hs'; omega
  | none =>
    show utcOf tz (u + tz.offset) = u ∧ ¬ Skipped tz (u + tz.offset)
    have hnone : tz.seasons.find? (fun r => decide (InLocal r (u + tz.offset))) = none := by
      rw [List.find?_eq_none]
      intro r hrm hin
      have hin' : InLocal r (u + tz.offset) := by simpa using hin
      unfold InLocal at hin'
      have := List.find?_eq_none.1 hf r hrm
      simp only [Bool.and_eq_true, decide_eq_true_eq] at this
      refine hr ⟨r, hrm, by omega, by omega⟩
    refine ⟨?_, ?_⟩
    · unfold utcOf offsetAt; rw [hnone]; show u + tz.offset - tz.offset = u; omega
    · rintro ⟨s', hs', _⟩; rw [hnone] at hs'; cases hs'

/-- **C96** (the repeated hour).  In the repeated hour the local time is that of the first pass: the
UTC times of the second pass are never produced by the loader. -/
theorem C96_repeated (tz : Tz) (s : Season) (hz : tz.seasons = [s]) (u : Int)
    (hlong : s.begin + s.beginMam ≤ s.end' + s.endMam - s.offset + tz.offset)
    (h1 : s.end' + s.endMam - s.offset ≤ u) (h2 : u < s.end' + s.endMam - tz.offset) :
    utcOf tz (toLocalTimeOffsets tz u) = u - (s.offset - tz.offset) := by
  have e1 : toLocalTimeOffsets tz u = u + tz.offset := by
    unfold toLocalTimeOffsets
    rw [hz, List.find?_cons_of_neg (by simp; omega)]
    rfl
  rw [e1]
  unfold utcOf offsetAt
  rw [hz, List.find?_cons_of_pos (p := fun s => decide (InLocal s (u + tz.offset)))
    (decide_eq_true (show InLocal s (u + tz.offset) from ⟨by omega, by omega⟩))]
  show u + tz.offset - s.offset = _
  omega

/-- the time zone of the examples meets the hypothesis -/
theorem cet_ok : TzOk cet := by
  refine ⟨by simp [cet], ?_⟩
  intro i j s r hi hj hij
  cases i <;> cases j <;> simp_all [cet]
example : localMamToUtcMam cet (11 * 1440) 30 true = (1350, -1440, true) ∧
    toLocalTimeOffsets cet (11 * 1440 - 1440 + 1350) = 11 * 1440 + 30 := by decide

end Nigiri.Hrd
