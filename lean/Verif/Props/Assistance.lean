import Verif.Model.Assistance
import Verif.Props.WriteTrips
import Verif.Props.LocalToUtc
/-!
# Property C133: wheelchair boarding depends on the assistance at the time of the train
-/

namespace Nigiri.Assistance
open WriteTrips (Stop UtcTrip Feed getStopSeq Good sections)

/-! ### Specification -/

/-- The stop of a service with `n` stops on a day: boarding with a wheelchair needs assistance at the time of the
departure, alighting at the time of the arrival (`base + ` UTC time). -/
def stopOn (avail : Nat → Int → Bool) (base : Int) (n : Nat) (times : List Nat) (i : Nat) (x : Stop) : Stop :=
  { x with
    inW := x.inW && (if i + 1 < n then avail x.loc (base + (times.getD (2 * i) 0 : Nat)) else true)
    outW := x.outW && (if 1 ≤ i then avail x.loc (base + (times.getD (2 * i - 1) 0 : Nat)) else true) }

/-- Midnight UTC of day `d` as a local time: UTC times of the day count from here. -/
def localBase (s : UtcTrip Bitfield) (d : Nat) : Int := (d : Int) * 1440 + s.tz

theorem markPairs_eq (avail : Nat → Int → Bool) (base : Int) (stops : List Stop) : ∀ (times : List Nat),
    times.length = 2 * (stops.length - 1) →
    markPairs avail base stops times = stops.mapIdx (stopOn avail base stops.length times) := by
  match stops with
  | [] => intro times _; cases times <;> rfl
  | [a] =>
    intro times h
    have : times = [] := List.eq_nil_of_length_eq_zero (by simpa using h)
    subst this
    simp [markPairs, stopOn]
  | a :: b :: r =>
    intro times h
    match times, h with
    | [], h => simp at h
    | [x], h => simp at h; omega
    | dep :: arr :: ts, h =>
      have h' : ts.length = 2 * ((b :: r).length - 1) := by simp at h ⊢; omega
      rw [markPairs]
      have ih := markPairs_eq avail base ({ b with outW := b.outW && avail b.loc (base + arr) } :: r) ts (by simpa using h')
      rw [ih]
      rw [List.mapIdx_cons, List.mapIdx_cons, List.mapIdx_cons]
      congr 1
      · simp [stopOn]
      · congr 1
        · simp [stopOn]
        · apply List.ext_getElem
          · simp
          · intro i h1 h2
            simp only [List.getElem_mapIdx, stopOn]
            have e1 : 2 * (i + 1 + 1) = 2 * (i + 1) + 1 + 1 := by omega
            have e2 : 2 * (i + 1 + 1) - 1 = (2 * (i + 1) - 1) + 1 + 1 := by omega
            have e3 : (i + 1 + 1 < (b :: r).length) = (i + 1 + 1 + 1 < (a :: b :: r).length) := by
              simp
            rw [e2, e1]
            simp only [List.getD_cons_succ, List.length_cons]
            have e4 : (1 ≤ i + 1) = (1 ≤ i + 1 + 1) := by simp
            simp
  termination_by stops.length

/-! ### Days -/

theorem setIn_keys (k : List Stop) (d : Nat) (m : Map) : (setIn k d m).map (·.1) = m.map (·.1) := by
  induction m with
  | nil => rfl
  | cons x m ih =>
    obtain ⟨k', b⟩ := x
    unfold setIn
    split
    · rfl
    · simp only [List.map_cons, ih]

theorem mem_setIn (k : List Stop) (d : Nat) (m : Map) (hn : (m.map (·.1)).Nodup) (k' : List Stop) (b' : Bitfield)
    (h : (k', b') ∈ setIn k d m) : ∃ b, (k', b) ∈ m ∧ ∀ i, b' i = true ↔ b i = true ∨ (k' = k ∧ i = d) := by
  induction m with
  | nil => exact absurd h List.not_mem_nil
  | cons x m ih =>
    obtain ⟨k0, b0⟩ := x
    rw [List.map_cons, List.nodup_cons] at hn
    unfold setIn at h
    split at h
    · rename_i hk
      rcases List.mem_cons.mp h with h | h
      · cases h
        refine ⟨b0, List.mem_cons_self, fun i => ?_⟩
        unfold LocalToUtc.setBit
        by_cases hi : i = d
        · rw [if_pos hi]; simp [hi, hk]
        · rw [if_neg hi]; simp [hi]
      · refine ⟨b', List.mem_cons_of_mem _ h, fun i => ⟨Or.inl, ?_⟩⟩
        rintro (h' | ⟨h', _⟩)
        · exact h'
        · subst hk
          have := List.mem_map_of_mem (f := (·.1)) h
          rw [h'] at this
          exact absurd this hn.1
    · rename_i hk
      rcases List.mem_cons.mp h with h | h
      · cases h
        refine ⟨b', List.mem_cons_self, fun i => ⟨Or.inl, ?_⟩⟩
        rintro (h' | ⟨h', _⟩)
        · exact h'
        · exact absurd h' hk
      · obtain ⟨b, h1, h2⟩ := ih hn.2 h
        exact ⟨b, List.mem_cons_of_mem _ h1, h2⟩

/-- Invariant of the loop: `ds` are the days processed. -/
structure MInv (key : Nat → List Stop) (st : St) (ds : List Nat) : Prop where
  nodup : (st.map.map (·.1)).Nodup
  bits : ∀ k b, (k, b) ∈ st.map → ∀ i, b i = true ↔ i ∈ ds ∧ key i = k
  all : ∀ i ∈ ds, key i ∈ st.map.map (·.1)
  prev : match st.prevIt with
    | none => st.prevKey = []
    | some k => k = st.prevKey ∧ k ∈ st.map.map (·.1)

theorem emplace_keys (k : List Stop) (m : Map) (hn : (m.map (·.1)).Nodup) :
    ((emplace k m).map (·.1)).Nodup ∧ (∀ x, x ∈ (emplace k m).map (·.1) ↔ x ∈ m.map (·.1) ∨ x = k) ∧
    ∀ k' b, (k', b) ∈ emplace k m → (k', b) ∈ m ∨ (k' = k ∧ k ∉ m.map (·.1) ∧ b = fun _ => false) := by
  unfold emplace
  by_cases h : m.any (fun x => x.1 = k)
  · rw [if_pos h]
    obtain ⟨x, hx, hk⟩ := List.any_eq_true.mp h
    have hk' : x.1 = k := by simpa using hk
    refine ⟨hn, fun y => ⟨Or.inl, ?_⟩, fun k' b hb => Or.inl hb⟩
    rintro (h' | h')
    · exact h'
    · rw [h', ← hk']; exact List.mem_map_of_mem hx
  · rw [if_neg h]
    have hk : k ∉ m.map (·.1) := by
      intro hc
      obtain ⟨x, hx, hk⟩ := List.mem_map.mp hc
      exact h (List.any_eq_true.mpr ⟨x, hx, by simpa using hk⟩)
    refine ⟨?_, ?_, ?_⟩
    · rw [List.map_append, List.nodup_append]
      refine ⟨hn, by simp, ?_⟩
      intro a ha b hb
      simp at hb
      subst hb
      intro hc; subst hc; exact hk ha
    · intro x; simp
    · intro k' b hb
      rcases List.mem_append.mp hb with hb | hb
      · exact Or.inl hb
      · rw [List.mem_singleton] at hb
        cases hb
        exact Or.inr ⟨rfl, hk, rfl⟩

theorem step_inv (key : Nat → List Stop) (hne : ∀ d, key d ≠ []) (st : St) (ds : List Nat) (h : MInv key st ds) (d : Nat) :
    ∃ st', step key st d = some st' ∧ MInv key st' (ds ++ [d]) := by
  have general : ∀ (m : Map), (m.map (·.1)).Nodup → (∀ k b, (k, b) ∈ m → ∀ i, b i = true ↔ i ∈ ds ∧ key i = k) →
      (∀ i ∈ ds, key i ∈ m.map (·.1)) → key d ∈ m.map (·.1) →
      MInv key ⟨setIn (key d) d m, key d, some (key d)⟩ (ds ++ [d]) := by
    intro m h1 h2 h3 h4
    refine ⟨?_, ?_, ?_, ?_⟩
    · show ((setIn (key d) d m).map (·.1)).Nodup
      rw [setIn_keys]; exact h1
    · intro k b hb i
      obtain ⟨b0, c1, c2⟩ := mem_setIn (key d) d m h1 k b hb
      rw [c2 i, h2 k b0 c1 i, List.mem_append, List.mem_singleton]
      constructor
      · rintro (⟨a1, a2⟩ | ⟨a1, a2⟩)
        · exact ⟨Or.inl a1, a2⟩
        · subst a2; exact ⟨Or.inr rfl, a1.symm⟩
      · rintro ⟨a1 | a1, a2⟩
        · exact Or.inl ⟨a1, a2⟩
        · subst a1; exact Or.inr ⟨a2.symm, rfl⟩
    · intro i hi
      show key i ∈ (setIn (key d) d m).map (·.1)
      rw [setIn_keys]
      rcases List.mem_append.mp hi with hi | hi
      · exact h3 i hi
      · rw [List.mem_singleton] at hi
        subst hi; exact h4
    · refine ⟨rfl, ?_⟩
      show key d ∈ (setIn (key d) d m).map (·.1)
      rw [setIn_keys]; exact h4
  unfold step
  by_cases hk : key d = st.prevKey
  · rw [if_pos hk]
    have hp := h.prev
    cases hi : st.prevIt with
    | none =>
      rw [hi] at hp
      exact absurd (hk.trans hp) (hne d)
    | some k =>
      rw [hi] at hp
      obtain ⟨p1, p2⟩ := hp
      have hkd : k = key d := p1.trans hk.symm
      subst hkd
      refine ⟨_, rfl, ?_⟩
      have := general st.map h.nodup h.bits h.all p2
      rw [← hk]
      exact this
  · rw [if_neg hk]
    refine ⟨_, rfl, ?_⟩
    obtain ⟨e1, e2, e3⟩ := emplace_keys (key d) st.map h.nodup
    apply general _ e1
    · intro k b hb i
      rcases e3 k b hb with hb | ⟨a1, a2, a3⟩
      · exact h.bits k b hb i
      · subst a3
        constructor
        · intro hc; cases hc
        · rintro ⟨c1, c2⟩
          have := h.all i c1
          rw [c2, a1] at this
          exact absurd this a2
    · intro i hi
      exact (e2 _).mpr (Or.inl (h.all i hi))
    · exact (e2 _).mpr (Or.inr rfl)

theorem loop_inv (key : Nat → List Stop) (hne : ∀ d, key d ≠ []) (rest : List Nat) : ∀ (st : St) (ds : List Nat), MInv key st ds →
    ∃ st', loop key st rest = some st' ∧ MInv key st' (ds ++ rest) := by
  induction rest with
  | nil => intro st ds h; exact ⟨st, rfl, by simpa using h⟩
  | cons d rest ih =>
    intro st ds h
    obtain ⟨st', h1, h2⟩ := step_inv key hne st ds h d
    obtain ⟨st'', h3, h4⟩ := ih st' _ h2
    refine ⟨st'', ?_, by simpa using h4⟩
    unfold loop
    rw [h1]; exact h3

/-- What `expand_assistance` gives, whatever the base of the times it looks up. -/
theorem expand_spec (avail : Nat → Int → Bool) (f : Feed) (s : UtcTrip Bitfield) (hs : Good f s) (stops : List Stop)
    (hst : getStopSeq f s = some stops) :
    ∃ out, expand avail f s = some out ∧
      (∀ u ∈ out, u.firstDep = s.firstDep ∧ u.tz = s.tz ∧ u.trips = s.trips ∧ u.times = s.times) ∧
      (out.map fun u => u.stopSeq).Nodup ∧
      (∀ u ∈ out, ∀ d, u.days d = true ↔ (d < kMaxDays ∧ s.days d = true) ∧
        u.stopSeq = stops.mapIdx (stopOn avail (lookupBase s d) stops.length s.times)) ∧
      ∀ d, d < kMaxDays → s.days d = true → ∃ u ∈ out, u.days d = true := by
  have hlen := WriteTrips.stops_length f s hs stops hst
  have hkey : ∀ d, stopsOn avail s stops d = stops.mapIdx (stopOn avail (lookupBase s d) stops.length s.times) := by
    intro d
    exact markPairs_eq avail _ stops s.times (by rw [hs.times, hlen, Nat.add_sub_cancel])
  have hne : ∀ d, stopsOn avail s stops d ≠ [] := by
    intro d h
    rw [hkey] at h
    have := congrArg List.length h
    simp at this
    rw [this] at hlen
    simp at hlen
  obtain ⟨st, h1, h2⟩ := loop_inv (stopsOn avail s stops) hne ((List.range kMaxDays).filter s.days) ⟨[], [], none⟩ []
    ⟨List.nodup_nil, fun _ _ h => absurd h List.not_mem_nil, fun _ h => absurd h List.not_mem_nil, rfl⟩
  rw [List.nil_append] at h2
  have hmem : ∀ d, d ∈ (List.range kMaxDays).filter s.days ↔ d < kMaxDays ∧ s.days d = true := by
    intro d; rw [List.mem_filter, List.mem_range]
  refine ⟨st.map.map fun (k, b) => { s with days := b, stopSeq := k }, ?_, ?_, ?_, ?_, ?_⟩
  · unfold expand
    rw [hst]
    simp only
    rw [h1]; rfl
  · intro u hu
    obtain ⟨⟨k, b⟩, _, rfl⟩ := List.mem_map.mp hu
    exact ⟨rfl, rfl, rfl, rfl⟩
  · have : (st.map.map fun (k, b) => ({ s with days := b, stopSeq := k } : UtcTrip Bitfield)).map (fun u => u.stopSeq) = st.map.map (·.1) := by
      rw [List.map_map]; rfl
    rw [this]; exact h2.nodup
  · intro u hu d
    obtain ⟨⟨k, b⟩, hkb, rfl⟩ := List.mem_map.mp hu
    show b d = true ↔ _ ∧ k = _
    rw [h2.bits k b hkb d, hmem, hkey]
    constructor
    · rintro ⟨a, b⟩; exact ⟨a, b.symm⟩
    · rintro ⟨a, b⟩; exact ⟨a, b.symm⟩
  · intro d hd hsd
    have := h2.all d ((hmem d).mpr ⟨hd, hsd⟩)
    obtain ⟨⟨k, b⟩, hkb, hk⟩ := List.mem_map.mp this
    refine ⟨_, List.mem_map_of_mem hkb, ?_⟩
    show b d = true
    rw [h2.bits k b hkb d, hmem]
    exact ⟨⟨hd, hsd⟩, hk.symm⟩

/-- C133: on each day of a service, exactly one of the services it is expanded to runs; its stops allow boarding
(alighting) with a wheelchair iff the feed does and there is assistance at the *local time* of the departure
(arrival).  Partial: the service starts on the UTC day that is its local day (`firstDep = 0`), see
`C133_counterexample`. -/
theorem C133_days_partial (avail : Nat → Int → Bool) (f : Feed) (s : UtcTrip Bitfield) (hs : Good f s) (stops : List Stop)
    (hst : getStopSeq f s = some stops) (h0 : s.firstDep = 0) :
    ∃ out, expand avail f s = some out ∧
      (∀ u ∈ out, u.firstDep = s.firstDep ∧ u.tz = s.tz ∧ u.trips = s.trips ∧ u.times = s.times ∧
        ∀ d, u.days d = true → d < kMaxDays ∧ s.days d = true) ∧
      ∀ d, d < kMaxDays → s.days d = true →
        (∃ u ∈ out, u.days d = true) ∧ (∀ i j (hi : i < out.length) (hj : j < out.length), out[i].days d = true → out[j].days d = true → i = j) ∧
        ∀ u ∈ out, u.days d = true → u.stopSeq = stops.mapIdx (stopOn avail (localBase s d) stops.length s.times) := by
  obtain ⟨out, a1, a2, a3, a4, a5⟩ := expand_spec avail f s hs stops hst
  have hb : ∀ d, lookupBase s d = localBase s d := by
    intro d; unfold lookupBase localBase; rw [h0]; omega
  refine ⟨out, a1, ?_, ?_⟩
  · intro u hu
    obtain ⟨b1, b2, b3, b4⟩ := a2 u hu
    exact ⟨b1, b2, b3, b4, fun d hd => ((a4 u hu d).mp hd).1⟩
  · intro d hd hsd
    refine ⟨a5 d hd hsd, ?_, ?_⟩
    · intro i j hi hj h1 h2
      have e1 := ((a4 _ (List.getElem_mem hi) d).mp h1).2
      have e2 := ((a4 _ (List.getElem_mem hj) d).mp h2).2
      apply Classical.byContradiction
      intro hij
      rcases Nat.lt_or_gt_of_ne hij with hlt | hlt
      · exact (List.pairwise_iff_getElem.mp a3 i j (by simpa using hi) (by simpa using hj) hlt) (by simp [e1, e2])
      · exact (List.pairwise_iff_getElem.mp a3 j i (by simpa using hj) (by simpa using hi) hlt) (by simp [e1, e2])
    · intro u hu hud
      rw [((a4 u hu d).mp hud).2, hb d]

/-- The expanded services are as consistent as the service: they can be written (C132). -/
theorem C133_good (avail : Nat → Int → Bool) (f : Feed) (s : UtcTrip Bitfield) (hs : Good f s) :
    ∃ out, expand avail f s = some out ∧ ∀ u ∈ out, (∃ d, u.days d = true) → Good f u ∧ getStopSeq f u = some u.stopSeq := by
  obtain ⟨k, hk⟩ := hs.key
  unfold WriteTrips.keyOf at hk
  obtain ⟨stops, hst, _⟩ := Option.map_eq_some_iff.mp hk
  obtain ⟨out, a1, a2, _, a4, _⟩ := expand_spec avail f s hs stops hst
  refine ⟨out, a1, fun u hu ⟨d, hd⟩ => ?_⟩
  obtain ⟨b1, b2, b3, b4⟩ := a2 u hu
  have hl : u.stopSeq.length = (sections f s.trips).length + 1 := by
    rw [((a4 u hu d).mp hd).2, List.length_mapIdx]
    exact WriteTrips.stops_length f s hs stops hst
  refine ⟨⟨by rw [b3]; exact hs.ne, by rw [b3]; exact hs.two, by rw [b3]; exact hs.heads, by rw [b3, b4]; exact hs.times,
    Or.inr (by rw [b3]; exact hl)⟩, ?_⟩
  unfold getStopSeq
  rw [if_pos]
  intro h; rw [h] at hl; simp at hl

/-- The local time of an event of a trip: the UTC times of C15 are such that `localBase` and the UTC time give the
local time of the timetable on the local day. -/
theorem C133_local_time (k : LocalToUtc.Key) (g : Nat) (d : Nat) (hd : (d : Int) = g + k.dayOffset) (s : UtcTrip Bitfield)
    (hs : s.tz = k.tz) (localT utcT : Int) (hu : utcT = localT - k.tz - k.dayOffset * 1440) :
    localBase s d + utcT = (g : Int) * 1440 + localT := by
  unfold localBase
  rw [hu, hd, hs, Int.add_mul]
  omega

/-- A service from 00:30 to 00:50 local time, one hour east of UTC: its UTC day is the day before.  Assistance on the
local day only (minutes 1440 to 2880 after the start of day 0, service on local day 1, UTC day 0): the program looks
up the day before and removes the permission. -/
def exService : UtcTrip Bitfield := ⟨-1, 60, [2], [1410, 1430], fun d => d == 0, []⟩
def exAvail : Nat → Int → Bool := fun _ t => decide (1440 ≤ t) && decide (t < 2880)

theorem C133_counterexample :
    Good WriteTrips.exFeed exService ∧
    (getStopSeq WriteTrips.exFeed exService).map (fun st => st.mapIdx (stopOn exAvail (localBase exService 0) st.length exService.times)) =
      some [⟨0, true, true, true, true⟩, ⟨1, true, true, true, true⟩] ∧
    (expand exAvail WriteTrips.exFeed exService).map (fun out => out.map fun u => u.stopSeq) =
      some [[⟨0, true, true, false, true⟩, ⟨1, true, true, true, false⟩]] := by
  refine ⟨⟨by simp [exService], ?_, ?_, by decide, Or.inl rfl⟩, by decide, ?_⟩
  · intro t ht
    simp [exService] at ht
    subst ht; decide
  · intro t ht
    simp [exService] at ht
    subst ht; exact Or.inr rfl
  · have h : (List.range kMaxDays).filter exService.days = [0] := by
      unfold exService kMaxDays
      decide +kernel
    unfold expand
    have hs : getStopSeq WriteTrips.exFeed exService = some [⟨0, true, true, true, true⟩, ⟨1, true, true, true, true⟩] := by decide
    rw [hs]
    simp only
    rw [h]
    decide

/-- A service that meets the hypotheses of C133_days_partial: 08:00 to 08:20 UTC on days 3 and 4, assistance on day 3
only. -/
def exService0 : UtcTrip Bitfield := ⟨0, 60, [2], [480, 500], fun d => d == 3 || d == 4, []⟩

theorem C133_example : Good WriteTrips.exFeed exService0 ∧
    (expand (fun _ t => decide (t < 5760)) WriteTrips.exFeed exService0).map (fun out => out.map fun u => (u.stopSeq, u.days 3, u.days 4)) =
      some [([⟨0, true, true, true, true⟩, ⟨1, true, true, true, true⟩], true, false),
        ([⟨0, true, true, false, true⟩, ⟨1, true, true, true, false⟩], false, true)] := by
  refine ⟨⟨by simp [exService0], ?_, ?_, by decide, Or.inl rfl⟩, ?_⟩
  · intro t ht
    simp [exService0] at ht
    subst ht; decide
  · intro t ht
    simp [exService0] at ht
    subst ht; exact Or.inr rfl
  · have h : (List.range kMaxDays).filter exService0.days = [3, 4] := by
      unfold exService0 kMaxDays
      decide +kernel
    unfold expand
    have hs : getStopSeq WriteTrips.exFeed exService0 = some [⟨0, true, true, true, true⟩, ⟨1, true, true, true, true⟩] := by decide
    rw [hs]
    simp only
    rw [h]
    decide

/-! ### The file -/

theorem read_eq {P : Type} (rows : List (Row P)) : read rows = ⟨rows.map (·.pos), rows.filterMap (·.rule)⟩ := by
  have : ∀ (rows : List (Row P)) (a : Times P),
      rows.foldl (fun a r => (⟨a.pos ++ [r.pos], match r.rule with | some x => a.rules ++ [x] | none => a.rules⟩ : Times P)) a =
        ⟨a.pos ++ rows.map (·.pos), a.rules ++ rows.filterMap (·.rule)⟩ := by
    intro rows
    induction rows with
    | nil => intro a; simp
    | cons r rows ih =>
      intro a
      rw [List.foldl_cons, ih]
      cases h : r.rule <;> simp [h]
  exact (this rows ⟨[], []⟩).trans (by simp)

/-- C133 (file): a stop has assistance iff there is a station near it whose opening hours contain the time.  Partial:
all opening hours of the file can be parsed, see `C133_rules_counterexample`. -/
theorem C133_rules_partial {P : Type} (rows : List (Row P)) (hp : ∀ r ∈ rows, r.rule ≠ none) (near : Nat → Option Nat)
    (hn : ∀ l i, near l = some i → i < rows.length) (l : Nat) (t : Int) :
    isAvailable (read rows) near l t = some (match near l with
      | none => false
      | some i => match rows[i]? with
        | some r => (match r.rule with | some x => x t | none => false)
        | none => false) := by
  unfold isAvailable
  cases h : near l with
  | none => rfl
  | some i =>
    have hi := hn l i h
    rw [read_eq]
    simp only
    have key : ∀ (rows : List (Row P)), (∀ r ∈ rows, r.rule ≠ none) → ∀ (i : Nat), (rows.filterMap (fun r : Row P => r.rule))[i]? = (rows[i]?).bind (fun r : Row P => r.rule) := by
      intro rows
      induction rows with
      | nil => intro _ i; simp
      | cons r rows ih =>
        intro hp i
        cases hr : r.rule with
        | none => exact absurd hr (hp r List.mem_cons_self)
        | some x =>
          rw [List.filterMap_cons_some hr]
          cases i with
          | zero => simp [hr]
          | succ i =>
            rw [List.getElem?_cons_succ, List.getElem?_cons_succ]
            exact ih (fun r' h' => hp r' (List.mem_cons_of_mem _ h')) i
    rw [key rows hp i, List.getElem?_eq_getElem hi]
    have hr := hp _ (List.getElem_mem hi)
    cases hx : rows[i].rule with
    | none => exact absurd hx hr
    | some x => simp [hx]

/-- With opening hours that cannot be parsed in the first row, the second station has none, or those of a later one:
here the access is out of range, and with a third station the second gets its opening hours. -/
theorem C133_rules_counterexample :
    isAvailable (read [⟨(), none⟩, ⟨(), some fun _ => true⟩]) (fun _ => some 1) 0 0 = none ∧
    isAvailable (read [⟨(), none⟩, ⟨(), some fun _ => true⟩, ⟨(), some fun _ => false⟩]) (fun _ => some 1) 0 0 = some false :=
  ⟨rfl, rfl⟩

theorem C133_rules_example :
    isAvailable (read [⟨(), some fun t => decide (t < 10)⟩, ⟨(), some fun _ => true⟩]) (fun _ => some 1) 0 50 = some true := rfl

end Nigiri.Assistance
