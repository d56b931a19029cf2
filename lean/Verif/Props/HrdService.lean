import Verif.Proofs.HrdService
import Verif.Props.HrdDays
import Verif.Props.HrdTimes
/-!
# C97, C98: stops and tracks of HRD services, the whole way of a service
-/

namespace Nigiri.Hrd
open Spec

/-! ## C97: tracks -/

/-- A rule applies at the time of day and day. -/
def Applies (bitfields : Nat → Option Bitfield) (r : TrackRule) (mam : Int) (day : Nat) : Prop :=
  (r.mam = -1 ∨ r.mam = mam) ∧ day < 512 ∧
    (r.bitfield = 0 ∨ bitfields r.bitfield = none ∨ ∃ b, bitfields r.bitfield = some b ∧ b day = true)

theorem applies_iff (bitfields : Nat → Option Bitfield) (r : TrackRule) (mam : Int) (day : Nat) :
    ((decide (r.mam = -1) || decide (r.mam = mam)) &&
      (decide (day < kMaxDays) && resolveBitfield bitfields r.bitfield day)) = true ↔
      Applies bitfields r mam day := by
  unfold Applies resolveBitfield
  simp only [Bool.and_eq_true, Bool.or_eq_true, decide_eq_true_eq]
  refine and_congr_right fun _ => ?_
  constructor
  · rintro ⟨h1, h2⟩
    refine ⟨h1, ?_⟩
    by_cases h0 : r.bitfield = 0
    · exact Or.inl h0
    · rw [if_neg h0] at h2
      cases hb : bitfields r.bitfield with
      | none => exact Or.inr (Or.inl rfl)
      | some b => rw [hb] at h2; exact Or.inr (Or.inr ⟨b, rfl, h2⟩)
  · rintro ⟨h1, h2⟩
    refine ⟨h1, ?_⟩
    split
    · exact decide_eq_true h1
    · rename_i hne
      rcases h2 with h2 | h2 | ⟨b, hb, h2⟩
      · exact absurd h2 hne
      · rw [h2]; exact decide_eq_true h1
      · rw [hb]; exact h2

/-- **C97** (tracks).  The track of a stop is that of the first rule (in the order of the file) for
this station, train number and administration that applies at the time and on the day … -/
theorem C97_track (bitfields : Nat → Option Bitfield) (rules : TrackKey → List TrackRule) (k : TrackKey)
    (mam : Int) (day : Nat) (pre post : List TrackRule) (r : TrackRule)
    (hr : rules k = pre ++ r :: post) (hpre : ∀ q ∈ pre, ¬ Applies bitfields q mam day)
    (h : Applies bitfields r mam day) : resolveTrack bitfields rules k mam day = r.track := by
  unfold resolveTrack
  rw [hr, List.find?_append, List.find?_eq_none.2, List.find?_cons_of_pos]
  · rfl
  · exact (applies_iff _ _ _ _).2 h
  · intro q hq hc
    exact hpre q hq ((applies_iff _ _ _ _).1 hc)

/-- **C97** … and the station itself, if no rule applies. -/
theorem C97_no_track (bitfields : Nat → Option Bitfield) (rules : TrackKey → List TrackRule) (k : TrackKey)
    (mam : Int) (day : Nat) (h : ∀ r ∈ rules k, ¬ Applies bitfields r mam day) :
    resolveTrack bitfields rules k mam day = k.location := by
  unfold resolveTrack
  rw [List.find?_eq_none.2]
  intro q hq hc
  exact h q hq ((applies_iff _ _ _ _).1 hc)

/-- Train number and administration of section `k` of a service: that of the whole service, if given,
else that of the section. -/
def NumberOf (s : Service) (k num admin : Nat) : Prop :=
  (s.beginToEnd.trainNum = some num ∨ (s.beginToEnd.trainNum = none ∧
    ∃ sec, s.sections[k]? = some sec ∧ sec.trainNum = some num)) ∧
  (s.beginToEnd.admin = some admin ∨ (s.beginToEnd.admin = none ∧
    ∃ sec, s.sections[k]? = some sec ∧ sec.admin = some admin))

theorem trainAndAdmin_spec (s : Service) (f i num admin : Nat) (h : trainAndAdmin s f i = some (num, admin)) :
    NumberOf s (f + i) num admin := by
  unfold trainAndAdmin at h
  unfold NumberOf
  split at h
  · rename_i n a h1 h2
    cases h; exact ⟨Or.inl h1, Or.inl h2⟩
  · rename_i n h1 h2
    obtain ⟨a, ha, he⟩ := Option.map_eq_some_iff.1 h
    cases he
    obtain ⟨sec, hs, hsa⟩ := Option.bind_eq_some_iff.1 ha
    exact ⟨Or.inl h1, Or.inr ⟨h2, sec, hs, hsa⟩⟩
  · rename_i a h1 h2
    obtain ⟨n, hn, he⟩ := Option.map_eq_some_iff.1 h
    cases he
    obtain ⟨sec, hs, hsa⟩ := Option.bind_eq_some_iff.1 hn
    exact ⟨Or.inr ⟨h1, sec, hs, hsa⟩, Or.inl h2⟩
  · rename_i h1 h2
    split at h
    · rename_i n a hn ha
      cases h
      obtain ⟨sec, hs, hsn⟩ := Option.bind_eq_some_iff.1 hn
      obtain ⟨sec', hs', hsa⟩ := Option.bind_eq_some_iff.1 ha
      exact ⟨Or.inr ⟨h1, sec, hs, hsn⟩, Or.inr ⟨h2, sec', hs', hsa⟩⟩
    · cases h

/-- **C97** (stop sequence, partial).  For a service that is not split (or whose train number and
administration are the same on all sections) every stop of the stop sequence is the track chosen for
the station of the stop, the train number and administration of the section that departs there (at
the last stop: arrives there), the time of the departure (at the last stop: the arrival) and the day
on which that takes place; boarding / alighting is permitted as in the file.  For other services the
claim is false, see `C97_split_service_false`. -/
theorem C97_stops_partial (st : Stamm) (s : Service) (r : RefService) (times : List Int) (day : Nat)
    (seq : List SeqStop) (hp : r.part.from' < r.part.to') (ht : localTimes s r = some times)
    (h : buildStopSeq st s r times day = some seq)
    (hfrom : r.part.from' = 0 ∨ (s.beginToEnd.trainNum.isSome = true ∧ s.beginToEnd.admin.isSome = true)) :
    seq.length = r.part.to' - r.part.from' + 1 ∧
    ∀ i, r.part.from' + i ≤ r.part.to' → ∃ stop num admin t,
      s.stops[r.part.from' + i]? = some stop ∧
      NumberOf s (if r.part.from' + i = r.part.to' then r.part.from' + i - 1 else r.part.from' + i) num admin ∧
      t = (if r.part.from' + i = r.part.to' then stop.arr.time else stop.dep.time) +
        ((r.repetition * s.interval : Nat) : Int) ∧
      seq[i]? = some ⟨resolveTrack st.bitfields st.rules ⟨st.location stop.eva, num, admin⟩
        (Int.tmod t 1440) (day + (Int.tdiv t 1440).toNat), stop.dep.inOutAllowed, stop.arr.inOutAllowed⟩ := by
  unfold buildStopSeq at h
  obtain ⟨_, _, h3, h4⟩ := mapM_mem _ _ _ h
  refine ⟨by simp at h3; omega, ?_⟩
  intro i hi
  obtain ⟨y, hy, hf⟩ := h4 i i (by rw [List.getElem?_eq_getElem (by simp; omega)]; simp)
  unfold seqStop at hf
  dsimp only at hf
  split at hf
  · rename_i stop num admin t h1 h2 h3'
    cases hf
    have hlast : (decide (i = r.part.to' + 1 - r.part.from' - 1) = true) ↔ r.part.from' + i = r.part.to' := by
      rw [decide_eq_true_iff]; omega
    obtain ⟨_, hts⟩ := localTimes_spec s r times ht
    have hnum := trainAndAdmin_spec s _ _ _ _ h2
    refine ⟨stop, num, admin, t, h1, ?_, ?_, hy⟩
    · rcases hfrom with h0 | ⟨hn, ha⟩
      · rw [h0] at hnum hlast ⊢
        by_cases hl : 0 + i = r.part.to'
        · rw [if_pos hl]
          rw [if_pos (hlast.2 hl)] at hnum
          rw [show 0 + (0 + i - 1) = 0 + i - 1 by omega] at hnum
          exact hnum
        · rw [if_neg hl]
          rw [if_neg (fun h => hl (hlast.1 h))] at hnum
          rw [show 0 + (0 + i - 0) = 0 + i by omega] at hnum
          exact hnum
      · obtain ⟨n, hn⟩ := Option.isSome_iff_exists.1 hn
        obtain ⟨a, ha⟩ := Option.isSome_iff_exists.1 ha
        unfold NumberOf at hnum ⊢
        rw [hn, ha] at hnum ⊢
        simp only [Option.some.injEq, reduceCtorEq, false_and, or_false] at hnum ⊢
        exact hnum
    · by_cases hl : r.part.from' + i = r.part.to'
      · rw [if_pos (hlast.2 hl)] at h3'
        rw [if_pos hl]
        obtain ⟨a, b, g1, g2, g3, g4⟩ := hts (i - 1) (by omega)
        rw [show 2 * (i - 1) + 1 = i * 2 - 1 by omega, h3'] at g4
        rw [show r.part.from' + (i - 1) + 1 = r.part.from' + i by omega, h1] at g2
        cases g2
        exact Option.some.inj g4
      · rw [if_neg (fun h => hl (hlast.1 h))] at h3'
        rw [if_neg hl]
        obtain ⟨a, b, g1, g2, g3, g4⟩ := hts i (by omega)
        rw [show 2 * i = i * 2 - 0 by omega, h3'] at g3
        rw [h1] at g1
        cases g1
        exact Option.some.inj g3
  · cases hf

/-! ### why only partial -/

/-- A service with four stops whose train number is 1, 2, 3 on its sections. -/
def splitService : Service :=
  { stops := [⟨10, ⟨0, true⟩, ⟨600, true⟩⟩, ⟨20, ⟨610, true⟩, ⟨611, true⟩⟩, ⟨30, ⟨620, true⟩, ⟨621, true⟩⟩,
      ⟨40, ⟨630, true⟩, ⟨0, true⟩⟩]
    sections := [{ trainNum := some 1, admin := some 0 }, { trainNum := some 2, admin := some 0 },
      { trainNum := some 3, admin := some 0 }] }

/-- Train 2 departs from track 102 of station 20, train 3 from track 103. -/
def splitStamm : Stamm :=
  { bitfields := fun _ => none
    rules := fun k =>
      if k = ⟨20, 2, 0⟩ then [⟨0, 102, -1⟩] else if k = ⟨20, 3, 0⟩ then [⟨0, 103, -1⟩] else []
    location := id }

/-- **C97** (why only partial).  The sections of the part service are addressed with the offset of its
first section twice: in the part that begins at section 1, station 20 is left by train 2 from
track 102, but the loader chooses the track of train 3; with one more stop in the part it reads beyond the
end of the sections. -/
theorem C97_split_service_false :
    localTimes splitService ⟨⟨daysB [1], 1, 2⟩, 0⟩ = some [611, 620] ∧
    NumberOf splitService 1 2 0 ∧
    (buildStopSeq splitStamm splitService ⟨⟨daysB [1], 1, 2⟩, 0⟩ [611, 620] 1).map (·.map (·.location)) =
      some [103, 30] ∧
    buildStopSeq splitStamm splitService ⟨⟨daysB [1], 1, 3⟩, 0⟩ [611, 620, 621, 630] 1 = none := by
  refine ⟨by decide, ?_, by decide +kernel, by decide +kernel⟩
  exact ⟨Or.inr ⟨rfl, _, rfl, rfl⟩, Or.inr ⟨rfl, _, rfl, rfl⟩⟩

/-- the hypotheses of `C97_stops_partial` are met by the unsplit service -/
example : localTimes splitService ⟨⟨daysB [1], 0, 3⟩, 0⟩ = some [600, 610, 611, 620, 621, 630] ∧
    (buildStopSeq splitStamm splitService ⟨⟨daysB [1], 0, 3⟩, 0⟩ [600, 610, 611, 620, 621, 630] 1).map
      (·.map (·.location)) = some [10, 102, 30, 40] := by
  refine ⟨by decide, by decide +kernel⟩

/-! ## C98: the whole way of a service -/

/-- **C98** (time zone of a stop).  In the sorted table of time zones a stop belongs to the entry with
the largest number that is not greater than its own. -/
theorem C98_timezone (m : List (Nat × Tz)) (hm : m.Pairwise fun a b => a.1 < b.1) (eva : Nat) (tz : Tz)
    (h : getTz m eva = some tz) :
    ∃ k, (k, tz) ∈ m ∧ k ≤ eva ∧ ∀ e ∈ m, e.1 ≤ eva → e.1 ≤ k := by
  unfold getTz at h
  obtain ⟨e, he, rfl⟩ := Option.map_eq_some_iff.1 h
  have hmem := List.mem_of_getLast? he
  refine ⟨e.1, List.takeWhile_subset _ hmem, ?_, ?_⟩
  · have htw : ∀ l : List (Nat × Tz), e ∈ l.takeWhile (fun e => decide (e.1 ≤ eva)) → e.1 ≤ eva := by
      intro l
      induction l with
      | nil => intro h; cases h
      | cons a l ih =>
        intro h
        rw [List.takeWhile_cons] at h
        split at h
        · rename_i ha
          rcases List.mem_cons.1 h with h | h
          · subst h; simpa using ha
          · exact ih h
        · cases h
    exact htw m hmem
  · induction m with
    | nil => simp at he
    | cons a l ih =>
      obtain ⟨ha, hl⟩ := List.pairwise_cons.1 hm
      intro x hx hle
      rw [List.takeWhile_cons] at he
      by_cases hae : a.1 ≤ eva
      · rw [if_pos (by simpa using hae)] at he
        cases htw : l.takeWhile (fun e => decide (e.1 ≤ eva)) with
        | nil =>
          rw [htw] at he
          simp at he; subst he
          rcases List.mem_cons.1 hx with hx | hx
          · rw [hx]; exact Nat.le_refl _
          · exfalso
            have hfirst : ∀ l : List (Nat × Tz), l.Pairwise (fun a b => a.1 < b.1) →
                l.takeWhile (fun e => decide (e.1 ≤ eva)) = [] → x ∈ l → False := by
              intro l hl htw hx
              cases l with
              | nil => cases hx
              | cons b l =>
                rw [List.takeWhile_cons] at htw
                split at htw
                · cases htw
                · rename_i hb
                  simp at hb
                  rcases List.mem_cons.1 hx with hx | hx
                  · subst hx; omega
                  · have := (List.pairwise_cons.1 hl).1 x hx; omega
            exact hfirst l hl htw hx
        | cons y ys =>
          rw [htw] at he
          have he' : (l.takeWhile (fun e => decide (e.1 ≤ eva))).getLast? = some e := by
            rw [htw]; simpa using he
          have hmem' := List.mem_of_getLast? he'
          rcases List.mem_cons.1 hx with hx | hx
          · subst hx
            exact Nat.le_of_lt (ha e (List.takeWhile_subset _ hmem'))
          · exact ih hl he' (by rw [he']; rfl) hmem' x hx hle
      · rw [if_neg (by simpa using hae)] at he
        simp at he

/-- **C98** (events).  The events of repetition `r` of a part service are the departures and arrivals
of its sections, `r` times the interval later than in the file, each with the time zone of its stop. -/
theorem C98_events (st : Stamm) (tzs : List (Nat × Tz)) (hrd sel : Interval) (s : Service) (r : RefService)
    (x : ToUtc) (h : toUtcOf st tzs hrd sel s r = some x) :
    x.hrd = hrd ∧ x.selection = sel ∧ x.localDays = r.part.days ∧
    x.evs.length = 2 * (r.part.to' - r.part.from') ∧
    ∀ j, j < r.part.to' - r.part.from' →
      ∃ a b u v, s.stops[r.part.from' + j]? = some a ∧ s.stops[r.part.from' + j + 1]? = some b ∧
        getTz tzs a.eva = some u ∧ getTz tzs b.eva = some v ∧
        x.evs[2 * j]? = some (a.dep.time + ((r.repetition * s.interval : Nat) : Int), u) ∧
        x.evs[2 * j + 1]? = some (b.arr.time + ((r.repetition * s.interval : Nat) : Int), v) := by
  unfold toUtcOf at h
  split at h
  · rename_i ts zs h1 h2
    cases h
    obtain ⟨l1, t1⟩ := localTimes_spec s r ts h1
    obtain ⟨l2, t2⟩ := stopTimezones_spec tzs s r zs h2
    refine ⟨rfl, rfl, rfl, by simp [l1, l2], ?_⟩
    intro j hj
    obtain ⟨a, b, g1, g2, g3, g4⟩ := t1 j hj
    obtain ⟨a', b', u, v, k1, k2, k3, k4, k5, k6⟩ := t2 j hj
    rw [g1] at k1; cases k1
    rw [g2] at k2; cases k2
    refine ⟨a, b, u, v, g1, g2, k3, k4, ?_, ?_⟩
    · show (ts.zip zs)[2 * j]? = _
      rw [List.getElem?_zip_eq_some]; exact ⟨g3, k5⟩
    · show (ts.zip zs)[2 * j + 1]? = _
      rw [List.getElem?_zip_eq_some]; exact ⟨g4, k6⟩
  · cases h

/-- **C98** (from the file to the timetable, partial as C95).  A service with one traffic day bitfield
for all its sections is handed on with times `times` and stops `stops` on UTC day `u` iff for one of
its repetitions and one of its local traffic days these are the UTC times of its events. -/
theorem C98_service_partial (st : Stamm) (tzs : List (Nat × Tz)) (hrd sel : Interval) (s : Service)
    (out : List UtcService) (h : expandService st tzs hrd sel s = some out) (nr : Nat)
    (hnr : s.beginToEnd.trafficDays = some nr) (hstops : 2 ≤ s.stops.length)
    (hnn : ∀ stop ∈ s.stops, 0 ≤ stop.arr.time ∧ 0 ≤ stop.dep.time)
    (htz : ∀ e ∈ tzs, e.2.offset ≤ 1440 ∧ ∀ q ∈ e.2.seasons, q.offset ≤ 1440)
    (times : List Int) (stops : List SeqStop) (u : Nat) :
    (∃ e ∈ out, e.times = times ∧ e.stops = stops ∧ e.days u = true) ↔
      ∃ r x D, r ≤ s.numRepetitions ∧
        toUtcOf st tzs hrd sel s ⟨⟨resolveBitfield st.bitfields nr, 0, s.stops.length - 1⟩, r⟩ = some x ∧
        Runs x D u times stops := by
  unfold expandService at h
  have hsec : sectionBitfields st.bitfields s =
      some (List.replicate (s.stops.length - 1) (resolveBitfield st.bitfields nr)) := by
    unfold sectionBitfields; rw [hnr]
  rw [hsec] at h
  dsimp only at h
  obtain ⟨yss, hy, rfl⟩ := Option.map_eq_some_iff.1 h
  obtain ⟨m1, m2, _, _⟩ := mapM_mem _ _ _ hy
  by_cases hany : Seated.any (resolveBitfield st.bitfields nr) = true
  · have hparts := (C94_uniform (s.stops.length - 1) (resolveBitfield st.bitfields nr) (by omega)
      ((any_iff _).1 hany)).1
    rw [hparts] at m1 m2
    have hreps : ∀ q, q ∈ [(⟨resolveBitfield st.bitfields nr, 0, s.stops.length - 1⟩ : Part)].flatMap
        (expandRepetitions s) ↔ ∃ r, r ≤ s.numRepetitions ∧
          q = ⟨⟨resolveBitfield st.bitfields nr, 0, s.stops.length - 1⟩, r⟩ := by
      intro q
      simp only [List.flatMap_cons, List.flatMap_nil, List.append_nil, expandRepetitions, List.mem_map,
        List.mem_range]
      constructor
      · rintro ⟨r, h1, h2⟩; exact ⟨r, by omega, h2.symm⟩
      · rintro ⟨r, h1, h2⟩; exact ⟨r, by omega, h2.symm⟩
    have hrun : ∀ r x o, toUtcOf st tzs hrd sel s
        ⟨⟨resolveBitfield st.bitfields nr, 0, s.stops.length - 1⟩, r⟩ = some x → x.run = some o →
        ((∃ e ∈ o, e.times = times ∧ e.stops = stops ∧ e.days u = true) ↔ ∃ D, Runs x D u times stops) := by
      intro r x o hx ho
      obtain ⟨_, _, _, hl, hev⟩ := C98_events st tzs hrd sel s _ x hx
      have hall : ∀ e ∈ x.evs, 0 ≤ e.1 ∧ e.2.offset ≤ 1440 ∧ ∀ q ∈ e.2.seasons, q.offset ≤ 1440 := by
        intro e he
        obtain ⟨i, hi⟩ := List.getElem?_of_mem he
        have hil := (List.getElem?_eq_some_iff.1 hi).1
        rw [hl] at hil
        obtain ⟨a, b, y, z, g1, g2, g3, g4, g5, g6⟩ := hev (i / 2) (by omega)
        have hz : ∀ n t, getTz tzs n = some t → t.offset ≤ 1440 ∧ ∀ q ∈ t.seasons, q.offset ≤ 1440 := by
          intro n t hg
          unfold getTz at hg
          obtain ⟨e, he, rfl⟩ := Option.map_eq_some_iff.1 hg
          exact htz e (List.takeWhile_subset _ (List.mem_of_getLast? he))
        rcases Nat.mod_two_eq_zero_or_one i with hmod | hmod
        · rw [show 2 * (i / 2) = i by omega, hi] at g5
          cases g5
          have := (hnn a (List.mem_of_getElem? g1)).2
          exact ⟨by show 0 ≤ a.dep.time + _; omega, hz _ _ g3⟩
        · rw [show 2 * (i / 2) + 1 = i by omega, hi] at g6
          cases g6
          have := (hnn b (List.mem_of_getElem? g2)).1
          exact ⟨by show 0 ≤ b.arr.time + _; omega, hz _ _ g4⟩
      refine C95_utc_partial x ⟨fun e he => (hall e he).1, fun e he => (hall e he).2⟩ ?_ o ho times stops u
      intro hnil
      rw [hnil] at hl
      simp at hl
      omega
    constructor
    · rintro ⟨e, he, hk⟩
      obtain ⟨o, ho, heo⟩ := List.mem_flatten.1 he
      obtain ⟨q, hq, hfq⟩ := (m1 o).1 ho
      obtain ⟨r, hr, rfl⟩ := (hreps q).1 hq
      obtain ⟨x, hx, hxo⟩ := Option.bind_eq_some_iff.1 hfq
      obtain ⟨D, hD⟩ := (hrun r x o hx hxo).1 ⟨e, heo, hk⟩
      exact ⟨r, x, D, hr, hx, hD⟩
    · rintro ⟨r, x, D, hr, hx, hD⟩
      have hq := (hreps _).2 ⟨r, hr, rfl⟩
      obtain ⟨o, ho⟩ := m2 _ hq
      have hom := (m1 o).2 ⟨_, hq, ho⟩
      rw [hx] at ho
      obtain ⟨e, he, hk⟩ := (hrun r x o hx ho).2 ⟨D, hD⟩
      exact ⟨e, List.mem_flatten.2 ⟨o, hom, he⟩, hk⟩
  · have hany' : Seated.any (resolveBitfield st.bitfields nr) = false := by simpa using hany
    rw [expand_none _ _ hany'] at hy
    simp at hy
    subst hy
    constructor
    · rintro ⟨e, he, _⟩; simp at he
    · rintro ⟨r, x, D, _, hx, hD⟩
      obtain ⟨_, _, h3, _⟩ := C98_events st tzs hrd sel s _ x hx
      have h4 := hD.bit
      rw [h3] at h4
      rw [any_false_iff] at hany'
      have := hany' _ h4.1
      rw [show (⟨⟨resolveBitfield st.bitfields nr, 0, s.stops.length - 1⟩, r⟩ : RefService).part.days =
        resolveBitfield st.bitfields nr from rfl, this] at h4
      cases h4.2

/-- The service of the examples, every hour, three times, with traffic days `0653`. -/
def hourly : Service :=
  { numRepetitions := 2, interval := 60
    stops := [⟨10, ⟨0, true⟩, ⟨600, true⟩⟩, ⟨20, ⟨610, true⟩, ⟨0, true⟩⟩]
    beginToEnd := { trainNum := some 1, admin := some 0, trafficDays := some 7 } }

def hourlyStamm : Stamm :=
  { bitfields := fun i => if i = 7 then hexStrToBitset [48, 54, 53, 51] else none
    rules := fun _ => [], location := id }

/-- the traffic days 2 and 4 of the file (days 7 and 9) are the UTC days with index 7 and 9 -/
example : (expandService hourlyStamm [(0, cet)] ⟨5, 15⟩ ⟨5, 15⟩ hourly).map
    (fun out => out.map fun e => (e.times, (List.range 32).filter e.days)) =
    some [([540, 550], [7, 9]), ([600, 610], [7, 9]), ([660, 670], [7, 9])] := by decide +kernel

end Nigiri.Hrd
