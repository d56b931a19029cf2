import Verif.Model.FreqBlock
/-!
# Property C134: frequency trips of a block
-/

namespace Nigiri.FreqBlock

open Nigiri.Frequency (Freq numberOfIterations iterationStart)

/-- Specification: trip `t` alone runs, with its first departure moved to `start`; a trip without
frequencies runs at its own times. -/
def RunsAlone (d : List Trip) (t : Nat) (c : Fet) : Prop :=
  c.trips = [t] ∧
  ((∃ dep fs, (get d t).firstDep = some dep ∧ (get d t).freqs = some fs ∧
      ∃ f ∈ fs, ∃ n, numberOfIterations f = some n ∧ ∃ i < n, c.offsets = [dep - iterationStart f i]) ∨
   (((get d t).firstDep = none ∨ (get d t).freqs = none) ∧ c.offsets = [0]))

/-- Specification: the trips run jointly: a passenger can stay on board from one to the next. -/
def Through (c : Fet) : Prop := 2 ≤ c.trips.length

/-- The trips all run by frequency, with the same headways in all windows. -/
def SameHeadways (d : List Trip) (trips : List Nat) : Prop :=
  ∃ hs : List Int, hs ≠ [] ∧ ∀ t ∈ trips, (get d t).firstDep.isSome ∧
    ∃ fs, (get d t).freqs = some fs ∧ fs.map Freq.headway = hs

theorem joint_spec (d : List Trip) (t : Nat) (pre fs : List Freq) (dep : Int)
    (hd : (get d t).firstDep = some dep) (hf : (get d t).freqs = some (pre ++ fs)) :
    ∀ out, joint d [t] pre.length fs = some out →
      ∀ c, c ∈ out ↔ c.trips = [t] ∧ ∃ f ∈ fs, ∃ n, numberOfIterations f = some n ∧
        ∃ i < n, c.offsets = [dep - iterationStart f i] := by
  induction fs generalizing pre with
  | nil => intro out h c; simp [joint] at h; subst h; simp
  | cons f fs ih =>
    intro out h c
    unfold joint at h
    cases hn : numberOfIterations f with
    | none => rw [hn] at h; simp at h
    | some n =>
      rw [hn] at h
      cases hr : joint d [t] (pre.length + 1) fs with
      | none => rw [hr] at h; simp at h
      | some rest =>
        rw [hr] at h
        simp only [Option.some.injEq] at h
        subst h
        have hr' := ih (pre ++ [f]) (by rw [hf]; simp) rest (by simpa using hr) c
        rw [List.mem_append, hr']
        have hw : c ∈ windowCalls d [t] pre.length n ↔
            c.trips = [t] ∧ ∃ i < n, c.offsets = [dep - iterationStart f i] := by
          unfold windowCalls
          rw [List.mem_map]
          constructor
          · rintro ⟨i, hi, rfl⟩
            refine ⟨rfl, i, List.mem_range.mp hi, ?_⟩
            simp [hd, hf]
          · rintro ⟨h1, i, hi, h2⟩
            refine ⟨i, List.mem_range.mpr hi, ?_⟩
            cases c
            simp only at h1 h2
            subst h1; subst h2
            simp [hd, hf]
        rw [hw]
        constructor
        · rintro (⟨h1, i, hi, h2⟩ | ⟨h1, g, hg, m, hm, i, hi, h2⟩)
          · exact ⟨h1, f, List.mem_cons_self, n, hn, i, hi, h2⟩
          · exact ⟨h1, g, List.mem_cons_of_mem _ hg, m, hm, i, hi, h2⟩
        · rintro ⟨h1, g, hg, m, hm, i, hi, h2⟩
          rcases List.mem_cons.mp hg with rfl | hg
          · rw [hn] at hm
            cases hm
            exact Or.inl ⟨h1, i, hi, h2⟩
          · exact Or.inr ⟨h1, g, hg, m, hm, i, hi, h2⟩

theorem expandOne_spec (d : List Trip) (t : Nat) (out : List Fet) (h : expandOne d t = some out) (c : Fet) :
    c ∈ out ↔ RunsAlone d t c := by
  unfold expandOne at h
  unfold RunsAlone
  by_cases hh : hasFrequency d t = true
  · rw [if_pos hh] at h
    unfold hasFrequency at hh
    rw [Bool.and_eq_true] at hh
    obtain ⟨dep, hd⟩ := Option.isSome_iff_exists.mp hh.1
    obtain ⟨fs, hf⟩ := Option.isSome_iff_exists.mp hh.2
    rw [hf] at h
    rw [joint_spec d t [] fs dep hd (by simpa using hf) out h c]
    constructor
    · rintro ⟨h1, h2⟩
      exact ⟨h1, Or.inl ⟨dep, fs, hd, hf, h2⟩⟩
    · rintro ⟨h1, ⟨dep', fs', hd', hf', h2⟩ | ⟨hn, _⟩⟩
      · rw [hd] at hd'; rw [hf] at hf'
        cases hd'; cases hf'
        exact ⟨h1, h2⟩
      · rw [hd, hf] at hn
        simp at hn
  · rw [if_neg hh] at h
    cases h
    have hno : (get d t).firstDep = none ∨ (get d t).freqs = none := by
      unfold hasFrequency at hh
      cases h1 : (get d t).firstDep with
      | none => exact Or.inl rfl
      | some x =>
        cases h2 : (get d t).freqs with
        | none => exact Or.inr rfl
        | some y => rw [h1, h2] at hh; simp at hh
    unfold plain
    rw [List.mem_singleton]
    constructor
    · rintro rfl
      exact ⟨rfl, Or.inr ⟨hno, rfl⟩⟩
    · rintro ⟨h1, ⟨dep, fs, hd, hf, _⟩ | ⟨_, h2⟩⟩
      · rw [hd, hf] at hno
        simp at hno
      · cases c
        simp only at h1 h2
        subst h1; subst h2
        rfl

theorem expandEach_spec (d : List Trip) : ∀ (trips : List Nat) (out : List Fet),
    expandEach d trips = some out → ∀ c, c ∈ out ↔ ∃ t ∈ trips, RunsAlone d t c := by
  intro trips
  induction trips with
  | nil => intro out h c; simp [expandEach] at h; subst h; simp
  | cons t ts ih =>
    intro out h c
    unfold expandEach at h
    cases h1 : expandOne d t with
    | none => rw [h1] at h; simp at h
    | some a =>
      cases h2 : expandEach d ts with
      | none => rw [h1, h2] at h; simp at h
      | some b =>
        rw [h1, h2] at h
        simp only [Option.some.injEq] at h
        subst h
        rw [List.mem_append, expandOne_spec d t a h1 c, ih b h2 c]
        simp

/-- `headways_match` never holds for two or more trips with frequencies: it compares the first trip
with itself, and says "no" because the headways are the same. -/
theorem headwaysMatch_false (d : List Trip) (t u : Nat) (ts : List Nat) (f : Freq) (fs : List Freq)
    (hf : (get d t).freqs = some (f :: fs)) : headwaysMatch d (t :: u :: ts) = false := by
  unfold headwaysMatch
  simp only [List.all_cons, hf, Option.getD_some]
  simp [zipLoop]

/-- C134: a block of trips none of which runs by frequency runs once, all trips one after the other
at their own times. -/
theorem C134_plain (d : List Trip) (trips : List Nat) (h : ∀ t ∈ trips, hasFrequency d t = false) :
    expand d trips = some [{ trips := trips, offsets := trips.map fun _ => 0 }] := by
  unfold expand
  rw [if_neg]
  · rfl
  · rw [List.any_eq_true]
    rintro ⟨t, ht, h'⟩
    rw [h t ht] at h'
    cases h'

/-- C134, the part that holds: if one trip of the list runs by frequency, every trip has exactly the
departures of its own windows (or its own times, without frequencies) — no departure is lost and none is
added — but each of them alone. -/
theorem C134_departures_partial (d : List Trip) (trips : List Nat) (out : List Fet)
    (hne : ∀ t ∈ trips, (get d t).freqs ≠ some [])
    (hany : ∃ t ∈ trips, hasFrequency d t = true) (h : expand d trips = some out) :
    ∀ c, c ∈ out ↔ ∃ t ∈ trips, RunsAlone d t c := by
  unfold expand at h
  rw [if_pos (List.any_eq_true.mpr hany)] at h
  rcases trips with _ | ⟨t, _ | ⟨u, ts⟩⟩
  · obtain ⟨t, ht, _⟩ := hany
    exact absurd ht List.not_mem_nil
  · intro c
    rw [expandOne_spec d t out h c]
    simp
  · simp only at h
    split at h
    · rename_i hall
      simp only [Bool.and_eq_true] at hall
      obtain ⟨⟨h1, h2⟩, _⟩ := hall
      have h3 := List.all_eq_true.mp h1 t List.mem_cons_self
      unfold hasFrequency at h3
      rw [Bool.and_eq_true] at h3
      obtain ⟨fs, hfs⟩ := Option.isSome_iff_exists.mp h3.2
      cases fs with
      | nil => exact absurd hfs (hne t List.mem_cons_self)
      | cons f fs =>
        rw [headwaysMatch_false d t u ts f fs hfs] at h2
        cases h2
    · exact expandEach_spec d _ out h

/-- C134 fails, for every block: if its trips (at least two) all run by frequency with the same
headways, no run of the block goes through to the next trip. -/
theorem C134_never_through (d : List Trip) (trips : List Nat) (out : List Fet)
    (_h2 : 2 ≤ trips.length) (hs : SameHeadways d trips) (h : expand d trips = some out) :
    ∀ c ∈ out, ¬ Through c := by
  obtain ⟨hws, hne, hs⟩ := hs
  intro c hc
  have hany : ∃ t ∈ trips, hasFrequency d t = true := by
    cases trips with
    | nil => simp at _h2
    | cons t ts =>
      obtain ⟨h3, fs, h4, _⟩ := hs t List.mem_cons_self
      exact ⟨t, List.mem_cons_self, by unfold hasFrequency; simp [h3, h4]⟩
  obtain ⟨t, _, h5, _⟩ := (C134_departures_partial d trips out (by
    intro t ht h6
    obtain ⟨_, fs, h7, h8⟩ := hs t ht
    rw [h6] at h7
    cases h7
    exact hne h8.symm) hany h c).mp hc
  unfold Through
  rw [h5]
  simp

/-- C134 fails for a mix, too: trips with and without frequencies, none goes through.  And for a block
of two trips with the same window and headway, whose second trip starts where and when the first one
ends, the four runs are all separate. -/
theorem C134_counterexample :
    let d : List Trip := [⟨some 0, some [⟨360, 420, 30⟩]⟩, ⟨some 20, some [⟨380, 440, 30⟩]⟩]
    SameHeadways d [0, 1] ∧ expand d [0, 1] = some
      [⟨[0], [-360]⟩, ⟨[0], [-390]⟩, ⟨[1], [-360]⟩, ⟨[1], [-390]⟩] := by
  refine ⟨⟨[30], by decide, ?_⟩, by decide⟩
  intro t ht
  simp only [List.mem_cons, List.not_mem_nil, or_false] at ht
  rcases ht with rfl | rfl
  · exact ⟨rfl, _, rfl, rfl⟩
  · exact ⟨rfl, _, rfl, rfl⟩

example : expand [⟨some 0, some [⟨360, 420, 30⟩]⟩, ⟨some 400, none⟩] [0, 1] = some
    [⟨[0], [-360]⟩, ⟨[0], [-390]⟩, ⟨[1], [0]⟩] ∧
    expand [⟨some 400, none⟩, ⟨some 430, none⟩] [0, 1] = some [⟨[0, 1], [0, 0]⟩] := by decide

end Nigiri.FreqBlock
