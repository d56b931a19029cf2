import Verif.Spec.FeedServices
import Verif.Props.FeedNet
/-!
# Property C137: from the trips of a feed at their local times to the journeys
-/

namespace Nigiri.FeedServices

open Raptor hiding Stop Route FlagData
open WriteTrips
open LocalToUtc (Ev FTrip)
open FreqBlock (Fet)
open FeedNet

theorem mem_collect {α β : Type} {g : α → Option (List β)} {l : List α} : ∀ {out : List β}, collect g l = some out → ∀ y,
    (y ∈ out ↔ ∃ x ∈ l, ∃ o, g x = some o ∧ y ∈ o) := by
  induction l with
  | nil => intro out h y; simp only [collect, Option.some.injEq] at h; subst h; simp
  | cons a as ih =>
    intro out h y
    unfold collect at h
    split at h
    · rename_i x z hx hz
      simp only [Option.some.injEq] at h
      subst h
      rw [List.mem_append, ih hz y]
      constructor
      · rintro (h | ⟨b, hb, o, h1, h2⟩)
        · exact ⟨a, List.mem_cons_self, x, hx, h⟩
        · exact ⟨b, List.mem_cons_of_mem _ hb, o, h1, h2⟩
      · rintro ⟨b, hb, o, h1, h2⟩
        rcases List.mem_cons.mp hb with rfl | hb
        · rw [hx, Option.some.injEq] at h1; subst h1; exact Or.inl h2
        · exact Or.inr ⟨b, hb, o, h1, h2⟩
    · cases h

theorem collect_some {α β : Type} {g : α → Option (List β)} {l : List α} (h : ∀ x ∈ l, ∃ o, g x = some o) : ∃ out, collect g l = some out := by
  induction l with
  | nil => exact ⟨_, rfl⟩
  | cons a as ih =>
    obtain ⟨o, ho⟩ := h a List.mem_cons_self
    obtain ⟨p, hp⟩ := ih fun x hx => h x (List.mem_cons_of_mem _ hx)
    exact ⟨o ++ p, by unfold collect; rw [ho, hp]⟩

theorem get_freq {F : Source} {t : Nat} (ht : t < F.nTrips) :
    FreqBlock.get (freqTrips F) t = ⟨(F.events t).head?.map Ev.dep, F.freqs t⟩ := by
  unfold FreqBlock.get freqTrips
  rw [List.getD_eq_getElem?_getD, List.getElem?_map, List.getElem?_range ht]; rfl

section
variable {F : Source} {jobs : List Job} (hF : SourceOk F jobs) {j : Job} (hj : j ∈ jobs)
include hF hj

theorem hasFreq_iff {t : Nat} (ht : t ∈ j.trips) : FreqBlock.hasFrequency (freqTrips F) t = true ↔ Frequent F t := by
  unfold FreqBlock.hasFrequency Frequent
  rw [get_freq (hF.known j hj t ht)]
  cases F.freqs t <;> cases F.events t <;> simp

/-- The calls of the consumer of the frequency expansion, before trips are left out. -/
def Calls (F : Source) (j : Job) (ts : List Nat) (off : Int) : Prop :=
  ((∀ t ∈ j.trips, ¬Frequent F t) ∧ ts = j.trips ∧ off = 0) ∨
  ((∃ t ∈ j.trips, Frequent F t) ∧ ∃ t ∈ j.trips, ts = [t] ∧
    (((F.events t = [] ∨ F.freqs t = none) ∧ off = 0) ∨
     ∃ fs e, F.freqs t = some fs ∧ (F.events t).head? = some e ∧ ∃ f ∈ fs, ∃ n, Frequency.numberOfIterations f = some n ∧
       ∃ i < n, off = e.dep - (f.startTime + (i : Int) * f.headway)))

theorem calls_iff {cs : List Fet} (h : FreqBlock.expand (freqTrips F) j.trips = some cs) (c : Fet) :
    c ∈ cs ↔ ∃ ts off, Calls F j ts off ∧ c = ⟨ts, ts.map fun _ => off⟩ := by
  by_cases hany : ∃ t ∈ j.trips, Frequent F t
  · have hd := FreqBlock.C134_departures_partial (freqTrips F) j.trips cs (by
      intro t ht hc
      rw [get_freq (hF.known j hj t ht)] at hc
      exact (hF.freqs j hj t ht _ hc).1 rfl) (by
      obtain ⟨t, ht, h1⟩ := hany
      exact ⟨t, ht, (hasFreq_iff hF hj ht).mpr h1⟩) h
    rw [hd c]
    constructor
    · rintro ⟨t, ht, h1, h2⟩
      rw [get_freq (hF.known j hj t ht)] at h2
      rcases h2 with ⟨dep, fs, a1, a2, f, a3, n, a4, i, a5, a6⟩ | ⟨a1, a2⟩
      · obtain ⟨e, he, rfl⟩ := Option.map_eq_some_iff.mp a1
        refine ⟨[t], _, Or.inr ⟨hany, t, ht, rfl, Or.inr ⟨fs, e, a2, he, f, a3, n, a4, i, a5, rfl⟩⟩, ?_⟩
        cases c
        simp only at h1 a6
        rw [h1, a6]; rfl
      · refine ⟨[t], 0, Or.inr ⟨hany, t, ht, rfl, Or.inl ⟨?_, rfl⟩⟩, ?_⟩
        · rcases a1 with a1 | a1
          · left
            simpa using a1
          · exact Or.inr a1
        · cases c
          simp only at h1 a2
          rw [h1, a2]; rfl
    · rintro ⟨ts, off, hr, rfl⟩
      rcases hr with ⟨h1, _, _⟩ | ⟨_, t, ht, rfl, h2⟩
      · obtain ⟨t, ht, h2⟩ := hany
        exact absurd h2 (h1 t ht)
      · refine ⟨t, ht, rfl, ?_⟩
        rw [get_freq (hF.known j hj t ht)]
        rcases h2 with ⟨h2 | h2, rfl⟩ | ⟨fs, e, a1, a2, f, a3, n, a4, i, a5, rfl⟩
        · exact Or.inr ⟨Or.inl (by simp [h2]), rfl⟩
        · exact Or.inr ⟨Or.inr h2, rfl⟩
        · exact Or.inl ⟨e.dep, fs, by simp [a2], a1, f, a3, n, a4, i, a5, rfl⟩
  · have hno : ∀ t ∈ j.trips, ¬Frequent F t := fun t ht hc => hany ⟨t, ht, hc⟩
    rw [FreqBlock.C134_plain (freqTrips F) j.trips (fun t ht => by
      cases hb : FreqBlock.hasFrequency (freqTrips F) t with
      | false => rfl
      | true => exact absurd ((hasFreq_iff hF hj ht).mp hb) (hno t ht)), Option.some.injEq] at h
    subst h
    rw [List.mem_singleton]
    constructor
    · rintro rfl
      exact ⟨j.trips, 0, Or.inl ⟨hno, rfl, rfl⟩, rfl⟩
    · rintro ⟨ts, off, hr, rfl⟩
      rcases hr with ⟨_, rfl, rfl⟩ | ⟨h1, _⟩
      · rfl
      · exact absurd h1 hany

omit hF hj in
/-- The runs are the calls without the unusable trips. -/
theorem runs_calls (ts : List Nat) (off : Int) : Runs F j ts off ↔
    ts ≠ [] ∧ ∃ ts0, Calls F j ts0 off ∧ ts = ts0.filter (fun t => decide (Usable F t)) := by
  constructor
  · rintro (⟨h1, rfl, h3, rfl⟩ | ⟨h1, t, ht, h2, rfl, h4⟩)
    · exact ⟨h3, _, Or.inl ⟨h1, rfl, rfl⟩, rfl⟩
    · refine ⟨by simp, [t], Or.inr ⟨h1, t, ht, rfl, ?_⟩, ?_⟩
      · rcases h4 with ⟨a, b⟩ | h4
        · exact Or.inl ⟨Or.inr a, b⟩
        · exact Or.inr h4
      · simp [h2]
  · rintro ⟨hne, ts0, h1 | ⟨h1, t, ht, rfl, h4⟩, rfl⟩
    · obtain ⟨h1, rfl, rfl⟩ := h1
      exact Or.inl ⟨h1, rfl, hne, rfl⟩
    · have hu : Usable F t := by
        apply Classical.byContradiction
        intro hc
        exact hne (by simp [hc])
      refine Or.inr ⟨h1, t, ht, hu, by simp [hu], ?_⟩
      rcases h4 with ⟨a | a, b⟩ | h4
      · exfalso
        have : (F.events t).length = 0 := by rw [a]; rfl
        have : 2 ≤ (F.events t).length := hu
        omega
      · exact Or.inl ⟨a, b⟩
      · exact Or.inr h4

/-- The trips of a run belong to the job. -/
theorem runs_sub {ts : List Nat} {off : Int} (h : Runs F j ts off) : ts ≠ [] ∧ ∀ t ∈ ts, t ∈ j.trips ∧ Usable F t := by
  rcases h with ⟨_, rfl, h, _⟩ | ⟨_, t, ht, hu, rfl, _⟩
  · exact ⟨h, fun t h => by simpa using h⟩
  · exact ⟨by simp, fun u hu' => by rw [List.mem_singleton.mp hu']; exact ⟨ht, hu⟩⟩

theorem runs_two {ts : List Nat} {off : Int} (h : Runs F j ts off) : ∀ t ∈ ts, 2 ≤ (F.events t).length ∧ (F.feed.trip t).stops.length = (F.events t).length :=
  fun t ht => ⟨((runs_sub hF hj h).2 t ht).2, hF.len j hj t ((runs_sub hF hj h).2 t ht).1 ((runs_sub hF hj h).2 t ht).2⟩

omit hF hj in
theorem kept_eq (F : Source) (ts : List Nat) (off : Int) :
    kept F ⟨ts, ts.map fun _ => off⟩ = (ts.filter fun t => decide (Usable F t)).map fun t => (t, off) := by
  have hz : ts.zip (ts.map fun _ => off) = ts.map fun t => (t, off) := by
    induction ts with
    | nil => rfl
    | cons t ts ih => simp only [List.map_cons, List.zip_cons_cons, ih]
  unfold kept
  simp only
  rw [hz, List.filter_map]
  rfl

omit hF hj in
theorem ofRun_eq (ts : List Nat) (off : Int) :
    ofRun F j.days ⟨ts, ts.map fun _ => off⟩ =
      (LocalToUtc.expand (envOf F j.days) (runEvents F (ts.filter fun t => decide (Usable F t)) off)).map fun us =>
        us.map (toService (ts.filter fun t => decide (Usable F t))) := by
  unfold ofRun
  rw [kept_eq]
  unfold ftrips runEvents
  simp only [List.map_map, Function.comp_def, List.map_id']

end

section
variable {F : Source} {jobs : List Job} (hF : SourceOk F jobs) {ss : List (UtcTrip Bitfield)} (h : services F jobs = some ss)
include hF h

theorem mem_services (s : UtcTrip Bitfield) : s ∈ ss ↔ ∃ j ∈ jobs, ∃ ts off, Runs F j ts off ∧
    ∃ us, LocalToUtc.expand (envOf F j.days) (runEvents F ts off) = some us ∧ ∃ u ∈ us, s = toService ts u := by
  rw [mem_collect h s]
  constructor
  · rintro ⟨j, hj, o, h1, h2⟩
    unfold ofJob at h1
    obtain ⟨cs, h3, h4⟩ := Option.bind_eq_some_iff.mp h1
    obtain ⟨c, hc, o', h5, h6⟩ := (mem_collect h4 s).mp h2
    obtain ⟨ts, off, hr, rfl⟩ := (calls_iff hF hj h3 c).mp hc
    rw [ofRun_eq] at h5
    obtain ⟨us, h7, rfl⟩ := Option.map_eq_some_iff.mp h5
    obtain ⟨u, hu, rfl⟩ := List.mem_map.mp h6
    refine ⟨j, hj, _, off, (runs_calls _ _).mpr ⟨?_, ts, hr, rfl⟩, us, h7, u, hu, rfl⟩
    intro hc
    rw [hc] at h7
    have : us = [] := by simpa [runEvents, LocalToUtc.expand] using h7.symm
    subst this
    exact absurd hu List.not_mem_nil
  · rintro ⟨j, hj, ts, off, hr, us, h7, u, hu, rfl⟩
    obtain ⟨o, ho⟩ : ∃ o, ofJob F j = some o := by
      have : ∀ (l : List Job) (out : List (UtcTrip Bitfield)), collect (ofJob F) l = some out → j ∈ l → ∃ o, ofJob F j = some o := by
        intro l
        induction l with
        | nil => intro _ _ hm; exact absurd hm List.not_mem_nil
        | cons a as ih =>
          intro out hc hm
          unfold collect at hc
          split at hc
          · rename_i x z hx hz
            rcases List.mem_cons.mp hm with rfl | hm
            · exact ⟨x, hx⟩
            · exact ih z hz hm
          · cases hc
      exact this jobs ss h hj
    refine ⟨j, hj, o, ho, ?_⟩
    unfold ofJob at ho
    obtain ⟨cs, h3, h4⟩ := Option.bind_eq_some_iff.mp ho
    obtain ⟨_, ts0, hr0, rfl⟩ := (runs_calls _ _).mp hr
    refine (mem_collect h4 _).mpr ⟨_, (calls_iff hF hj h3 _).mpr ⟨ts0, off, hr0, rfl⟩, us.map (toService _), ?_, List.mem_map.mpr ⟨u, hu, rfl⟩⟩
    rw [ofRun_eq, h7]; rfl

end

/-! ### Local times -/

theorem pairTimes_get (l : List Ev) : ∀ (p : Nat) (e e' : Ev), l[p]? = some e → l[p + 1]? = some e' →
    (LocalToUtc.pairTimes l)[2 * p]? = some e.dep ∧ (LocalToUtc.pairTimes l)[2 * p + 1]? = some e'.arr := by
  induction l with
  | nil => intro p e e' h; simp at h
  | cons a l ih =>
    intro p e e' h h'
    cases l with
    | nil => simp at h'
    | cons b r =>
      rw [LocalToUtc.pairTimes]
      cases p with
      | zero =>
        simp only [List.getElem?_cons_zero, Option.some.injEq, Nat.zero_add, List.getElem?_cons_succ] at h h'
        subst h; subst h'
        exact ⟨rfl, rfl⟩
      | succ p =>
        simp only [List.getElem?_cons_succ] at h
        rw [List.getElem?_cons_succ] at h'
        obtain ⟨h1, h2⟩ := ih p e e' h h'
        rw [show 2 * (p + 1) = 2 * p + 1 + 1 by omega, show 2 * p + 1 + 1 + 1 = (2 * p + 1) + 1 + 1 by omega]
        simp only [List.getElem?_cons_succ]
        exact ⟨h1, h2⟩

theorem pairTimes_length (l : List Ev) : (LocalToUtc.pairTimes l).length = 2 * (l.length - 1) := by
  induction l with
  | nil => rfl
  | cons a l ih =>
    cases l with
    | nil => rfl
    | cons b r =>
      rw [LocalToUtc.pairTimes]
      simp only [List.length_cons] at ih ⊢
      omega

/-- The local times of section `k`. -/
theorem localTimes_get (F : Source) (off : Int) (ts : List Nat)
    (h2 : ∀ t ∈ ts, 2 ≤ (F.events t).length ∧ (F.feed.trip t).stops.length = (F.events t).length) :
    (LocalToUtc.localTimes (runEvents F ts off)).length = 2 * (sections F.feed ts).length ∧
    ∀ (k t p : Nat), (sections F.feed ts)[k]? = some (t, p) → t ∈ ts ∧ ∃ e e', (F.events t)[p]? = some e ∧ (F.events t)[p + 1]? = some e' ∧
      (LocalToUtc.localTimes (runEvents F ts off))[2 * k]? = some (e.dep - off) ∧
      (LocalToUtc.localTimes (runEvents F ts off))[2 * k + 1]? = some (e'.arr - off) := by
  induction ts with
  | nil => exact ⟨rfl, fun k t p h => by simp [sections] at h⟩
  | cons u ts ih =>
    obtain ⟨i1, i2⟩ := ih fun t ht => h2 t (List.mem_cons_of_mem _ ht)
    obtain ⟨u1, u2⟩ := h2 u List.mem_cons_self
    have hl : LocalToUtc.localTimes (runEvents F (u :: ts) off) =
        (LocalToUtc.pairTimes (F.events u)).map (· - off) ++ LocalToUtc.localTimes (runEvents F ts off) := rfl
    have hpl := pairTimes_length (F.events u)
    have hsl := sections_length_single F.feed u
    rw [hl, sections_cons]
    refine ⟨?_, ?_⟩
    · simp only [List.length_append, List.length_map, i1, hpl, hsl, u2]; omega
    · intro k t p h
      by_cases hk : k < (sections F.feed [u]).length
      · rw [List.getElem?_append_left hk] at h
        have hs : (sections F.feed [u]) = (List.range ((F.feed.trip u).stops.length - 1)).map fun q => (u, q) := by
          simp [sections]
        rw [hs, List.getElem?_map, List.getElem?_range (by omega)] at h
        simp only [Option.map_some, Option.some.injEq, Prod.mk.injEq] at h
        obtain ⟨rfl, rfl⟩ := h
        have h1 : k < (F.events u).length := by omega
        have h3 : k + 1 < (F.events u).length := by omega
        obtain ⟨g1, g2⟩ := pairTimes_get (F.events u) k _ _ (List.getElem?_eq_getElem h1) (List.getElem?_eq_getElem h3)
        refine ⟨List.mem_cons_self, _, _, List.getElem?_eq_getElem h1, List.getElem?_eq_getElem h3, ?_, ?_⟩
        · rw [List.getElem?_append_left (by rw [List.length_map]; omega), List.getElem?_map, g1]; rfl
        · rw [List.getElem?_append_left (by rw [List.length_map]; omega), List.getElem?_map, g2]; rfl
      · rw [List.getElem?_append_right (by omega)] at h
        obtain ⟨m, e, e', g1, g2, g3, g4⟩ := i2 _ t p h
        refine ⟨List.mem_cons_of_mem _ m, e, e', g1, g2, ?_, ?_⟩
        · rw [List.getElem?_append_right (by rw [List.length_map]; omega), List.length_map, hpl, ← g3]
          congr 1; omega
        · rw [List.getElem?_append_right (by rw [List.length_map]; omega), List.length_map, hpl, ← g4]
          congr 1; omega

/-! ### Services and rides -/

/-- `bitfield::test`. -/
def bit (b : Bitfield) (day : Int) : Bool := decide (0 ≤ day) && b day.toNat

theorem bit_iff (b : Bitfield) (day : Int) : bit b day = true ↔ ∃ d : Nat, day = d ∧ b d = true := by
  unfold bit
  rw [Bool.and_eq_true, decide_eq_true_eq]
  constructor
  · rintro ⟨h1, h2⟩; exact ⟨day.toNat, by omega, h2⟩
  · rintro ⟨d, rfl, h⟩; exact ⟨by omega, by simpa using h⟩

/-- The times of a service in relation to the local times of its run. -/
theorem run_times {F : Source} {jobs : List Job} (hF : SourceOk F jobs) {j : Job} (hj : j ∈ jobs) {ts : List Nat} {off : Int}
    (hr : Runs F j ts off) {us : List LocalToUtc.UtcTrip} (hu : LocalToUtc.expand (envOf F j.days) (runEvents F ts off) = some us)
    {u : LocalToUtc.UtcTrip} (hm : u ∈ us) {d g : Nat} (hg : F.noon g = u.tzOffset) (hd : (d : Int) = (g : Int) + u.firstDepOffset)
    (hfirst : u.firstDepOffset = (LocalToUtc.firstDep (runEvents F ts off) - F.noon g) / 1440) (i : Nat) (x : Int)
    (hx : (LocalToUtc.localTimes (runEvents F ts off))[i]? = some x) :
    ∃ y : Nat, (toService ts u).times[i]? = some y ∧ (d : Int) * 1440 + y = (g : Int) * 1440 - F.noon g + x := by
  obtain ⟨_, hsub⟩ := runs_sub hF hj hr
  have hev : ∀ t ∈ runEvents F ts off, t.offset = off ∧ 2 ≤ t.events.length := by
    intro t ht
    obtain ⟨v, hv, rfl⟩ := List.mem_map.mp ht
    exact ⟨rfl, (hsub v hv).2⟩
  have hi := LocalToUtc.C15_instants (envOf F j.days) (runEvents F ts off) us off hu (fun t ht => (hev t ht).1) (fun t ht => (hev t ht).2)
    (hF.mono j hj ts off hr) u hm d g hg hd hfirst
  have hn := LocalToUtc.C15_monotone _ _ us hu u hm
  have := congrArg (fun l => l[i]?) hi
  simp only [List.getElem?_map, hx, Option.map_some] at this
  obtain ⟨z, hz, hz'⟩ := Option.map_eq_some_iff.mp this
  have h0 : 0 ≤ z := (List.pairwise_cons.mp hn).1 z (List.mem_of_getElem? hz)
  refine ⟨z.toNat, ?_, ?_⟩
  · show (u.utcTimes.map Int.toNat)[i]? = _
    rw [List.getElem?_map, hz]; rfl
  · have : ((z.toNat : Nat) : Int) = z := by omega
    rw [this]; exact hz'

theorem good_of {F : Source} {jobs : List Job} (hF : SourceOk F jobs) {ss : List (UtcTrip Bitfield)} (h : services F jobs = some ss) :
    ∀ s ∈ ss, Good F.feed s := by
  intro s hs
  obtain ⟨j, hj, ts, off, hr, us, hu, u, hm, rfl⟩ := (mem_services hF h s).mp hs
  obtain ⟨hne, hsub⟩ := runs_sub hF hj hr
  have h2 : ∀ t ∈ ts, 2 ≤ (F.events t).length ∧ (F.feed.trip t).stops.length = (F.events t).length := runs_two hF hj hr
  refine ⟨hne, fun t ht => by have := h2 t ht; omega, fun t ht => hF.heads j hj t (hsub t ht).1, ?_, Or.inl rfl⟩
  show (u.utcTimes.map Int.toNat).length = 2 * (sections F.feed ts).length
  rw [List.length_map, ← (localTimes_get F off ts h2).1]
  unfold LocalToUtc.expand at hu
  split at hu
  · rename_i he
    unfold runEvents at he
    rw [List.isEmpty_map] at he
    exact absurd (List.isEmpty_iff.mp he) hne
  · obtain ⟨st, _, rfl⟩ := Option.map_eq_some_iff.mp hu
    obtain ⟨⟨k, b⟩, _, rfl⟩ := List.mem_map.mp hm
    show (LocalToUtc.buildTimes _ k).length = _
    unfold LocalToUtc.buildTimes
    have : ∀ (l : List Int) (p : Int), (LocalToUtc.runMax p l).length = l.length := by
      intro l
      induction l with
      | nil => intro p; rfl
      | cons x l ih => intro p; simp only [LocalToUtc.runMax, List.length_cons, ih]
    rw [this, List.length_map]

theorem sorted_of {F : Source} {jobs : List Job} (hF : SourceOk F jobs) {ss : List (UtcTrip Bitfield)} (h : services F jobs = some ss) :
    TimesSorted ss := by
  intro s hs
  obtain ⟨j, hj, ts, off, hr, us, hu, u, hm, rfl⟩ := (mem_services hF h s).mp hs
  have hn := (List.pairwise_cons.mp (LocalToUtc.C15_monotone _ _ us hu u hm)).2
  show (u.utcTimes.map Int.toNat).Pairwise (· ≤ ·)
  exact List.Pairwise.map _ (fun a b hab => by omega) hn

/-- The expansion does not fail. -/
theorem C137_no_throw (F : Source) (jobs : List Job) (hF : SourceOk F jobs) : ∃ ss, services F jobs = some ss := by
  apply collect_some
  intro j hj
  have hone : ∀ t ∈ j.trips, ∃ cs, FreqBlock.expandOne (freqTrips F) t = some cs := by
    intro t ht
    unfold FreqBlock.expandOne
    split
    · rw [get_freq (hF.known j hj t ht)]
      have : ∀ (fs : List Frequency.Freq) (i : Nat), (∀ f ∈ fs, f.headway ≠ 0) → ∃ cs, FreqBlock.joint (freqTrips F) [t] i fs = some cs := by
        intro fs
        induction fs with
        | nil => intro i _; exact ⟨_, rfl⟩
        | cons f fs ih =>
          intro i hf
          obtain ⟨cs, hc⟩ := ih (i + 1) fun g hg => hf g (List.mem_cons_of_mem _ hg)
          have : ∃ n, Frequency.numberOfIterations f = some n := by
            unfold Frequency.numberOfIterations
            rw [if_neg (hf f List.mem_cons_self)]
            exact ⟨_, rfl⟩
          obtain ⟨n, hn⟩ := this
          exact ⟨FreqBlock.windowCalls (freqTrips F) [t] i n ++ cs, by unfold FreqBlock.joint; rw [hn, hc]⟩
      cases hfs : F.freqs t with
      | none => exact this [] 0 (fun f hf => absurd hf List.not_mem_nil)
      | some fs => exact this fs 0 (hF.freqs j hj t ht fs hfs).2
    · exact ⟨_, rfl⟩
  have heach : ∀ ts : List Nat, (∀ t ∈ ts, t ∈ j.trips) → ∃ cs, FreqBlock.expandEach (freqTrips F) ts = some cs := by
    intro ts
    induction ts with
    | nil => intro _; exact ⟨_, rfl⟩
    | cons t ts ih =>
      intro hs
      obtain ⟨a, ha⟩ := hone t (hs t List.mem_cons_self)
      obtain ⟨b, hb⟩ := ih fun u hu => hs u (List.mem_cons_of_mem _ hu)
      exact ⟨a ++ b, by unfold FreqBlock.expandEach; rw [ha, hb]⟩
  have hjoint : ∀ (fs : List Frequency.Freq) (i : Nat), (∀ f ∈ fs, f.headway ≠ 0) → ∃ cs, FreqBlock.joint (freqTrips F) j.trips i fs = some cs := by
    intro fs
    induction fs with
    | nil => intro i _; exact ⟨_, rfl⟩
    | cons f fs ih =>
      intro i hf
      obtain ⟨cs, hc⟩ := ih (i + 1) fun g hg => hf g (List.mem_cons_of_mem _ hg)
      have : ∃ n, Frequency.numberOfIterations f = some n := by
        unfold Frequency.numberOfIterations
        rw [if_neg (hf f List.mem_cons_self)]
        exact ⟨_, rfl⟩
      obtain ⟨n, hn⟩ := this
      exact ⟨FreqBlock.windowCalls (freqTrips F) j.trips i n ++ cs, by unfold FreqBlock.joint; rw [hn, hc]⟩
  have hexp : ∃ cs, FreqBlock.expand (freqTrips F) j.trips = some cs := by
    unfold FreqBlock.expand
    split
    · split
      · rename_i t ht
        exact hone t (by rw [ht]; exact List.mem_cons_self)
      · split
        · apply hjoint
          intro f hf
          cases hts : j.trips with
          | nil => exact absurd hts (hF.ne j hj)
          | cons a as =>
            rw [hts] at hf
            simp only [List.headD_cons] at hf
            have ha : a ∈ j.trips := by rw [hts]; exact List.mem_cons_self
            rw [get_freq (hF.known j hj a ha)] at hf
            cases hfs : F.freqs a with
            | none => simp only [hfs, Option.getD_none] at hf; exact absurd hf List.not_mem_nil
            | some fs => simp only [hfs, Option.getD_some] at hf; exact (hF.freqs j hj a ha fs hfs).2 f hf
        · exact heach _ fun t ht => ht
    · exact ⟨_, rfl⟩
  obtain ⟨cs, hcs⟩ := hexp
  unfold ofJob
  rw [hcs, Option.bind_some]
  apply collect_some
  intro c hc
  obtain ⟨ts, off, hr, rfl⟩ := (calls_iff hF hj hcs c).mp hc
  rw [ofRun_eq]
  by_cases hne : runEvents F (ts.filter fun t => decide (Usable F t)) off = []
  · rw [hne]; exact ⟨_, rfl⟩
  · obtain ⟨us, hu, _⟩ := LocalToUtc.C15_one_run_per_service_day (envOf F j.days) _ hne hF.noon
    exact ⟨_, by rw [hu]; rfl⟩

/-- The imported service days in terms of the model of the expansion. -/
theorem day_iff {F : Source} {jobs : List Job} (hF : SourceOk F jobs) {j : Job} (hj : j ∈ jobs) {ts : List Nat} {off : Int}
    (hr : Runs F j ts off) (g : Nat) : Day F j ts off g ↔ LocalToUtc.ServiceDay (envOf F j.days) (runEvents F ts off) g := by
  obtain ⟨hne, hsub⟩ := runs_sub hF hj hr
  have hev : ∀ t ∈ ts, F.events t ≠ [] := by
    intro t ht hc
    have : 2 ≤ (F.events t).length := (hsub t ht).2
    rw [hc] at this
    simp at this
  obtain ⟨t, h1⟩ : ∃ t, ts.head? = some t := by
    cases h : ts.head? with
    | none => exact absurd (List.head?_eq_none_iff.mp h) hne
    | some t => exact ⟨t, rfl⟩
  obtain ⟨t', h2⟩ : ∃ t, ts.getLast? = some t := by
    cases h : ts.getLast? with
    | none => exact absurd (List.getLast?_eq_none_iff.mp h) hne
    | some t => exact ⟨t, rfl⟩
  obtain ⟨e, h3⟩ : ∃ e, (F.events t).head? = some e := by
    cases h : (F.events t).head? with
    | none => exact absurd (List.head?_eq_none_iff.mp h) (hev t (List.mem_of_head? h1))
    | some t => exact ⟨t, rfl⟩
  obtain ⟨e', h4⟩ : ∃ e, (F.events t').getLast? = some e := by
    cases h : (F.events t').getLast? with
    | none => exact absurd (List.getLast?_eq_none_iff.mp h) (hev t' (List.mem_of_getLast? h2))
    | some t => exact ⟨t, rfl⟩
  have f1 : LocalToUtc.firstDep (runEvents F ts off) = e.dep - off := by
    unfold LocalToUtc.firstDep runEvents
    rw [List.head?_map, List.getLast?_map, h1, h2]
    simp only [Option.map_some, h3]
  have f2 : LocalToUtc.lastArr (runEvents F ts off) = e'.arr - off := by
    unfold LocalToUtc.lastArr runEvents
    rw [List.getLast?_map, h2]
    simp only [Option.map_some, h4]
  have hs : LocalToUtc.inSelection (envOf F j.days) (runEvents F ts off) g = true ↔
      F.selFrom ≤ (g : Int) + (e'.arr - off).tdiv 1440 ∧ (g : Int) + (e.dep - off).tdiv 1440 < F.selTo := by
    unfold LocalToUtc.inSelection
    rw [f1, f2]
    show (decide (F.selFrom < _) && decide (_ < F.selTo)) = true ↔ _
    rw [Bool.and_eq_true, decide_eq_true_iff, decide_eq_true_iff]
    omega
  unfold LocalToUtc.ServiceDay
  rw [f1, hs]
  show _ ↔ g < F.nDays ∧ j.days g = true ∧ _ ∧ 0 ≤ (g : Int) + (e.dep - off - F.noon g) / 1440 ∧ (g : Int) + (e.dep - off - F.noon g) / 1440 < 512
  constructor
  · rintro ⟨a1, a2, a, b, ⟨u, v, b1, b2, rfl⟩, ⟨u', v', b3, b4, rfl⟩, c1, c2, c3, c4⟩
    rw [h1, Option.some.injEq] at b1; subst b1
    rw [h2, Option.some.injEq] at b3; subst b3
    rw [h3, Option.some.injEq] at b2; subst b2
    rw [h4, Option.some.injEq] at b4; subst b4
    exact ⟨a2, a1, ⟨c1, c2⟩, by omega, by omega⟩
  · rintro ⟨a2, a1, ⟨c1, c2⟩, c3, c4⟩
    exact ⟨a1, a2, _, _, ⟨t, e, h1, h3, rfl⟩, ⟨t', e', h2, h4, rfl⟩, c1, c2, by omega, by omega⟩

/-- The rides with the services are the rides with the trips of the feed. -/
theorem feed_gtfs {F : Source} {jobs : List Job} (hF : SourceOk F jobs) {ss : List (UtcTrip Bitfield)} (h : services F jobs = some ss)
    (E : Net) (x : Loc) (tdep : Int) (y : Loc) (tarr : Int) :
    FeedRide F.feed ss bit E x tdep y tarr ↔ GtfsRide F jobs E x tdep y tarr := by
  constructor
  · rintro ⟨s, hs, day, hday, st, i, j, si, sj, dep, arr, hR⟩
    obtain ⟨jb, hj, ts, off, hr, us, hu, u, hm, rfl⟩ := (mem_services hF h s).mp hs
    obtain ⟨hne, hsub⟩ := runs_sub hF hj hr
    have h2 : ∀ t ∈ ts, 2 ≤ (F.events t).length ∧ (F.feed.trip t).stops.length = (F.events t).length := runs_two hF hj hr
    obtain ⟨out, o1, o2, _, _⟩ := LocalToUtc.C15_one_run_per_service_day (envOf F jb.days) (runEvents F ts off)
      (by unfold runEvents; intro hc; exact hne (List.map_eq_nil_iff.mp hc)) hF.noon
    rw [hu, Option.some.injEq] at o1
    subst o1
    obtain ⟨d, rfl, hd⟩ := (bit_iff _ _).mp hday
    obtain ⟨g, g1, g2, g3, g4⟩ := o2 u hm d hd
    obtain ⟨l1, l2⟩ := localTimes_get F off ts h2
    have hsl := stops_length F.feed _ (good_of hF h _ hs) st hR.stops
    have hjl := (List.getElem?_eq_some_iff.mp hR.to_).1
    have hlt := hR.lt
    have hsl' : st.length = (sections F.feed ts).length + 1 := hsl
    have hsi : i < (sections F.feed ts).length := by omega
    have hsj : j - 1 < (sections F.feed ts).length := by omega
    obtain ⟨⟨t, p⟩, ht⟩ : ∃ z, (sections F.feed ts)[i]? = some z := ⟨_, List.getElem?_eq_getElem hsi⟩
    obtain ⟨⟨t', p'⟩, ht'⟩ : ∃ z, (sections F.feed ts)[j - 1]? = some z := ⟨_, List.getElem?_eq_getElem hsj⟩
    obtain ⟨_, e, _, e1, _, e3, _⟩ := l2 i t p ht
    obtain ⟨_, _, e', _, f2, _, f4⟩ := l2 (j - 1) t' p' ht'
    obtain ⟨z, z1, z2⟩ := run_times hF hj hr hu hm g2 g3 g4 _ _ e3
    obtain ⟨z', z1', z2'⟩ := run_times hF hj hr hu hm g2 g3 g4 _ _ f4
    rw [hR.dep.1, Option.some.injEq] at z1
    rw [show 2 * (j - 1) + 1 = 2 * j - 1 by omega, hR.arr.1, Option.some.injEq] at z1'
    subst z1; subst z1'
    refine ⟨jb, hj, ts, off, hr, g, (day_iff hF hj hr g).mpr g1, st, i, j, si, sj, t, p, t', p', e, e', ⟨hR.stops, hlt, hR.from_, hR.to_, hR.board, hR.alight, hR.clasz,
      hR.flags, ⟨ht, e1⟩, ⟨ht', f2⟩, ?_, ?_⟩⟩
    · rw [hR.dep.2]; omega
    · rw [hR.arr.2]; omega
  · rintro ⟨jb, hj, ts, off, hr, g, hg, st, i, j, si, sj, t, p, t', p', e, e', hR⟩
    obtain ⟨hne, hsub⟩ := runs_sub hF hj hr
    have h2 : ∀ t ∈ ts, 2 ≤ (F.events t).length ∧ (F.feed.trip t).stops.length = (F.events t).length := runs_two hF hj hr
    obtain ⟨us, hu, o2, o3, _⟩ := LocalToUtc.C15_one_run_per_service_day (envOf F jb.days) (runEvents F ts off)
      (by unfold runEvents; intro hc; exact hne (List.map_eq_nil_iff.mp hc)) hF.noon
    obtain ⟨u, hm, d, hd, g2, g3⟩ := o3 g ((day_iff hF hj hr g).mp hg)
    obtain ⟨g', _, k2, _, k4⟩ := o2 u hm d hd
    have g4 : u.firstDepOffset = (LocalToUtc.firstDep (runEvents F ts off) - F.noon g) / 1440 := by
      have e1 : F.noon g = u.tzOffset := g2
      have e2 : F.noon g' = u.tzOffset := k2
      rw [k4, e1, ← e2]; rfl
    obtain ⟨l1, l2⟩ := localTimes_get F off ts h2
    obtain ⟨_, a, _, a1, _, a3, _⟩ := l2 i t p hR.first.1
    obtain ⟨_, _, a', _, b2, _, b4⟩ := l2 (j - 1) t' p' hR.last.1
    rw [hR.first.2, Option.some.injEq] at a1
    rw [hR.last.2, Option.some.injEq] at b2
    subst a1; subst b2
    obtain ⟨z, z1, z2⟩ := run_times hF hj hr hu hm g2 g3 g4 _ _ a3
    obtain ⟨z', z1', z2'⟩ := run_times hF hj hr hu hm g2 g3 g4 _ _ b4
    have hlt := hR.lt
    rw [show 2 * (j - 1) + 1 = 2 * j - 1 by omega] at z1'
    refine ⟨toService ts u, (mem_services hF h _).mpr ⟨jb, hj, ts, off, hr, us, hu, u, hm, rfl⟩, d, (bit_iff _ _).mpr ⟨d, rfl, hd⟩,
      st, i, j, si, sj, z, z', ⟨hR.stops, hlt, hR.from_, hR.to_, hR.board, hR.alight, hR.clasz, hR.flags, ⟨z1, ?_⟩, ⟨z1', ?_⟩⟩⟩
    · rw [hR.dep]; omega
    · rw [hR.arr]; omega

/-- The timetable before the first import. -/
def emptyTt {B : Type} : Tt B := ⟨[], fun _ => ⟨[], []⟩, [], [], [], [], fun _ => [], [], [], fun _ => []⟩

section
variable [DecidableEq Bitfield]

/-- `w` is the timetable after the import of the jobs: their services, in any order. -/
def ImportedFeed (F : Source) (jobs : List Job) (w : Tt Bitfield) : Prop :=
  ∃ ss ss', services F jobs = some ss ∧ ss'.Perm ss ∧ Imported F.feed ss' emptyTt w

/-- C137: the import does not fail. -/
theorem C137_import (F : Source) (jobs : List Job) (hF : SourceOk F jobs) : ∃ w, ImportedFeed F jobs w := by
  obtain ⟨ss, hs⟩ := C137_no_throw F jobs hF
  have hg := good_of hF hs
  obtain ⟨gs, hgs⟩ := C132_no_throw F.feed ss hg
  exact ⟨writeAll F.feed gs emptyTt, ss, ss, hs, List.Perm.refl _, hg, ⟨rfl, fun _ _ => rfl, fun _ _ => rfl, fun _ _ h => absurd h List.not_mem_nil⟩,
    fun _ _ h => absurd h List.not_mem_nil, gs, gs, hgs, List.Perm.refl _, rfl⟩

theorem feedRide_perm {f : Feed} {ss ss' : List (UtcTrip Bitfield)} (hp : ss'.Perm ss) (E : Net) :
    FeedRide f ss' bit E = FeedRide f ss bit E := by
  funext x tdep y tarr
  apply propext
  constructor
  · rintro ⟨s, hs, h⟩; exact ⟨s, hp.mem_iff.mp hs, h⟩
  · rintro ⟨s, hs, h⟩; exact ⟨s, hp.mem_iff.mpr hs, h⟩

theorem rides_eq {F : Source} {jobs : List Job} (hF : SourceOk F jobs) {ss ss' : List (UtcTrip Bitfield)} (h : services F jobs = some ss)
    (hp : ss'.Perm ss) (E : Net) : FeedRide F.feed ss' bit E = GtfsRide F jobs E := by
  rw [feedRide_perm hp]
  funext x tdep y tarr
  exact propext (feed_gtfs hF h E x tdep y tarr)

/-- C137: what can be ridden in the imported timetable is exactly what can be ridden with the trips of the feed, at
their local times on the days of their service. -/
theorem C137_rides (F : Source) (jobs : List Job) (hF : SourceOk F jobs) (w : Tt Bitfield) (h : ImportedFeed F jobs w) (E : Net)
    (hE : E.required.length = numFlags) (x : Loc) (tdep : Int) (y : Loc) (tarr : Int) :
    NetRide (netOf w bit E) x tdep y tarr ↔ GtfsRide F jobs E x tdep y tarr := by
  obtain ⟨ss, ss', hs, hp, hi⟩ := h
  rw [← rides_eq hF hs hp E]
  exact C136_rides hi rfl rfl bit E hE x tdep y tarr

/-- The stops of the trips are known, and the end of an intermodal query is not one of them. -/
def TripStopsOk (F : Source) (jobs : List Job) (E : Net) : Prop :=
  ∀ j ∈ jobs, ∀ t ∈ j.trips, ∀ x ∈ (F.feed.trip t).stops, x.loc < E.nLoc ∧ (E.intermodal = true → x.loc ≠ E.endLoc)

theorem fold_locs (f : Feed) (p : Nat → Prop) (ts : List Nat) (h : ∀ t ∈ ts, ∀ x ∈ (f.trip t).stops, p x.loc) : ∀ (acc : List Stop),
    (∀ x ∈ acc, p x.loc) → ∀ x ∈ ts.foldl (fun acc t => appendTrip acc (f.trip t).stops) acc, p x.loc := by
  induction ts with
  | nil => intro acc ha; exact ha
  | cons t ts ih =>
    intro acc ha
    rw [List.foldl_cons]
    apply ih (fun u hu => h u (List.mem_cons_of_mem _ hu))
    have ht := h t List.mem_cons_self
    intro x hx
    unfold appendTrip at hx
    split at hx
    · rename_i l g r hl he
      rcases List.mem_append.mp hx with hx | hx
      · exact ha x (List.dropLast_subset _ hx)
      · rcases List.mem_cons.mp hx with rfl | hx
        · exact ha l (List.mem_of_getLast? hl)
        · exact ht x (by rw [he]; exact List.mem_cons_of_mem _ hx)
    · rcases List.mem_append.mp hx with hx | hx
      · exact ha x hx
      · exact ht x hx

theorem stopsOk_of {F : Source} {jobs : List Job} (hF : SourceOk F jobs) {ss ss' : List (UtcTrip Bitfield)} (h : services F jobs = some ss)
    (hp : ss'.Perm ss) {E : Net} (hst : TripStopsOk F jobs E) : StopsOk F.feed ss' E := by
  intro s hs st hg x hx
  obtain ⟨j, hj, ts, off, hr, us, hu, u, hm, rfl⟩ := (mem_services hF h s).mp (hp.mem_iff.mp hs)
  obtain ⟨_, hsub⟩ := runs_sub hF hj hr
  have hall : ∀ t ∈ ts, ∀ x ∈ (F.feed.trip t).stops, x.loc < E.nLoc ∧ (E.intermodal = true → x.loc ≠ E.endLoc) :=
    fun t ht => hst j hj t (hsub t ht).1
  unfold getStopSeq at hg
  rw [if_neg (fun hc => hc rfl)] at hg
  split at hg
  · rename_i t he
    split at hg
    · simp only [Option.some.injEq] at hg
      subst hg
      exact hall t (by rw [show ts = [t] from he]; exact List.mem_cons_self) x hx
    · cases hg
  · simp only [Option.some.injEq] at hg
    subst hg
    exact fold_locs F.feed (fun l => l < E.nLoc ∧ (E.intermodal = true → l ≠ E.endLoc)) _ hall [] (fun _ h => absurd h List.not_mem_nil) x hx

/-- C137: the search on the imported timetable is sound: what it reports is a journey with the trips of the feed. -/
theorem C137_sound (F : Source) (jobs : List Job) (hF : SourceOk F jobs) (w : Tt Bitfield) (h : ImportedFeed F jobs w) (E : Net)
    (hE : E.required.length = numFlags) (hEnv : NetOk E) (hst : TripStopsOk F jobs E) (d : Dir) (n : Nat) (qs : List Start)
    (hq : ∀ x ∈ allStarts qs, d.lo < x.2 ∧ x.2 ≤ d.hi) (l : Loc) (k : Nat) (A : Int) (hr : (l, k, A) ∈ reported d (netOf w bit E) n qs) :
    E.isDest l = true ∧ 1 ≤ k ∧ k ≤ n ∧
    ∃ x ∈ allStarts qs, ∃ j A', 1 ≤ j ∧ j ≤ k ∧ A' ≤ A ∧ JourneyBy d E (GtfsRide F jobs E) j x.1 x.2 A' := by
  obtain ⟨ss, ss', hs, hp, hi⟩ := h
  rw [← rides_eq hF hs hp E]
  exact C136_sound hi rfl rfl (fun s hs' => sorted_of hF hs s (hp.mem_iff.mp hs')) bit E hE hEnv (stopsOk_of hF hs hp hst) d n qs hq l k A hr

/-- C137: within the horizon of the start times the search on the imported timetable offers exactly what is possible
with the trips of the feed, if services with the same stops pass midnight (in UTC) at the same events. -/
theorem C137_exact_partial (F : Source) (jobs : List Job) (hF : SourceOk F jobs) (w : Tt Bitfield) (h : ImportedFeed F jobs w)
    (hm : ∀ ss, services F jobs = some ss → SameMidnights F.feed ss) (E : Net) (hE : E.required.length = numFlags) (hEnv : NetOk E)
    (hFi : NetFifo E) (hst : TripStopsOk F jobs E) (d : Dir) (n : Nat) (qs : List Start) (hq : RangeQuery d E qs)
    (hlb : ∀ q ∈ qs, LbOk d (netOf w bit E) q.time q.horizon) (j : Nat) (hj : j ≤ n) (A : Int) (hA : ∀ q ∈ qs, A ≤ q.horizon) :
    Offered d (netOf w bit E) n qs j A ↔ PossibleBy d E (GtfsRide F jobs E) qs j A := by
  obtain ⟨ss, ss', hs, hp, hi⟩ := h
  rw [← rides_eq hF hs hp E]
  exact C136_exact_partial hi rfl rfl (fun s hs' => sorted_of hF hs s (hp.mem_iff.mp hs'))
    (fun s h1 s' h2 => hm ss hs s (hp.mem_iff.mp h1) s' (hp.mem_iff.mp h2)) bit E hE hEnv hFi (stopsOk_of hF hs hp hst) d n qs hq hlb j hj A hA

end

/-! ### Example -/

namespace Ex

/-- Trip 0 from 10:00 to 10:20, hourly from 10:00 to 12:00; trip 1 from 23:50 to 00:30 of the next day; trip 2 has
only one stop time; one hour ahead of UTC. -/
def src : Source where
  feed := FeedNet.Ex.feed
  nTrips := 3
  events := fun t => if t = 0 then [⟨600, 600⟩, ⟨620, 620⟩] else if t = 1 then [⟨1430, 1430⟩, ⟨1470, 1470⟩] else [⟨5, 5⟩]
  freqs := fun t => if t = 0 then some [⟨600, 720, 60⟩] else none
  noon := fun _ => 60
  nDays := 7
  selFrom := 0
  selTo := 7

def jobs : List Job := [⟨[0], fun d => d == 3⟩, ⟨[1, 2], fun d => d == 4⟩]

theorem runs_src {j : Job} (hj : j ∈ jobs) {ts : List Nat} {off : Int} (hr : Runs src j ts off) : ts = [0] ∨ ts = [1] := by
  simp only [jobs, List.mem_cons, List.not_mem_nil, or_false] at hj
  rcases hr with ⟨h, rfl, _⟩ | ⟨_, t, ht, hu, rfl, _⟩
  · rcases hj with rfl | rfl
    · exact absurd ⟨by decide, by decide⟩ (h 0 (List.mem_singleton_self _))
    · exact Or.inr (by decide)
  · rcases hj with rfl | rfl
    · rw [List.mem_singleton.mp ht]; exact Or.inl rfl
    · simp only [List.mem_cons, List.not_mem_nil, or_false] at ht
      rcases ht with rfl | rfl
      · exact Or.inr rfl
      · exact absurd hu (by decide)

theorem src_ok : SourceOk src jobs where
  known := by decide
  ne := by decide
  len := by
    intro j hj t ht hu
    simp only [jobs, List.mem_cons, List.not_mem_nil, or_false] at hj
    rcases hj with rfl | rfl
    · rw [List.mem_singleton.mp ht]; rfl
    · simp only [List.mem_cons, List.not_mem_nil, or_false] at ht
      rcases ht with rfl | rfl
      · rfl
      · exact absurd hu (by decide)
  heads := fun _ _ _ _ => Or.inl rfl
  mono := by
    intro j hj ts off hr
    rcases runs_src hj hr with rfl | rfl
    · show ([600 - off, 620 - off] : List Int).Pairwise (· ≤ ·)
      simp
    · show ([1430 - off, 1470 - off] : List Int).Pairwise (· ≤ ·)
      simp
  freqs := by
    intro j hj t ht fs hfs
    by_cases h0 : t = 0
    · subst h0
      have : fs = [⟨600, 720, 60⟩] := by simpa [src] using hfs.symm
      subst this
      exact ⟨by simp, by intro f hf; rw [List.mem_singleton.mp hf]; decide⟩
    · simp [src, h0] at hfs
  noon := fun g _ => by show (60 : Int) ≠ -1; omega

/-- The second departure of trip 0, at 11:00 local time on day 3: 10:00 UTC. -/
theorem ride : GtfsRide src jobs FeedNet.Ex.env 0 (2 * 1440 + 600) 1 (2 * 1440 + 620) := by
  refine ⟨⟨[0], fun d => d == 3⟩, List.mem_cons_self, [0], -60, ?_, 3, ?_, ?_⟩
  · refine Or.inr ⟨⟨0, List.mem_singleton_self _, by decide, by decide⟩, 0, List.mem_singleton_self _, by decide, rfl, Or.inr ?_⟩
    exact ⟨[⟨600, 720, 60⟩], ⟨600, 600⟩, rfl, rfl, ⟨600, 720, 60⟩, List.mem_singleton_self _, 2, by decide, 1, by decide, by decide⟩
  · exact ⟨rfl, by decide, 660, 680, ⟨0, ⟨600, 600⟩, rfl, rfl, by decide⟩, ⟨0, ⟨620, 620⟩, rfl, rfl, by decide⟩, by decide, by decide, by decide, by decide⟩
  · refine ⟨[⟨0, true, true, true, true⟩, ⟨1, true, true, true, true⟩], 0, 1, ⟨0, true, true, true, true⟩, ⟨1, true, true, true, true⟩, 0, 0, 0, 0,
      ⟨600, 600⟩, ⟨620, 620⟩, rfl, by decide, rfl, rfl, ⟨rfl, rfl⟩, ⟨rfl, rfl⟩, rfl, ?_, ⟨rfl, rfl⟩, ⟨rfl, rfl⟩, by decide, by decide⟩
    intro k sec h1 h2 h3 g hg
    show (g == 1) = true
    match g, hg with
    | 1, _ => rfl
    | 0, h => cases h
    | 2, h => cases h
    | 3, h => cases h
    | n + 4, h => cases h

/-- There is an import, and this ride is in it. -/
example [DecidableEq Bitfield] : ∃ w, ImportedFeed src jobs w ∧
    NetRide (netOf w bit FeedNet.Ex.env) 0 (2 * 1440 + 600) 1 (2 * 1440 + 620) := by
  obtain ⟨w, hw⟩ := C137_import src jobs src_ok
  exact ⟨w, hw, (C137_rides src jobs src_ok w hw FeedNet.Ex.env rfl _ _ _ _).mpr ride⟩

end Ex

end Nigiri.FeedServices
