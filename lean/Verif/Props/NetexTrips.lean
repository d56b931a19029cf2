import Verif.Model.NetexTrips
import Verif.Props.SeatedExamples
/-!
# C108 – C110: trips of NeTEx service journeys
-/

namespace Nigiri.Netex

/-! ## C108: transports belong to the right trips -/

theorem storeId_new (ids : List Nat) (id : Nat) (h : id ∉ ids) : storeId ids id = (ids ++ [id], ids.length) := by
  unfold storeId
  have : ids.findIdx? (fun x => decide (x = id)) = none := by
    rw [List.findIdx?_eq_none_iff]
    intro x hx
    simp only [decide_eq_false_iff_not]
    rintro rfl
    exact h hx
  rw [this]

theorem registerAll_aux (l : List Sj) (st : Reg) (hl : st.ids.length = st.trips.length ∧ st.utc.length = st.trips.length)
    (hnew : ∀ sj ∈ l, sj.id ∉ st.ids) (hd : l.Pairwise fun a b => a.id ≠ b.id) :
    (l.foldl register st).trips = st.trips ++ l.map (·.trip) ∧
    (l.foldl register st).utc.length = st.utc.length + l.length ∧
    (∀ i : Nat, i < st.utc.length → (l.foldl register st).utc[i]? = st.utc[i]?) ∧
    ∀ (i : Nat) (sj : Sj), l[i]? = some sj → (l.foldl register st).utc[st.trips.length + i]? =
      some (utcTrips (st.trips.length + i) sj.stops (compress sj.dests) sj.entries) := by
  induction l generalizing st with
  | nil => exact ⟨by simp, by simp, by simp, by intro i sj h; simp at h⟩
  | cons a r ih =>
    have hp := List.pairwise_cons.1 hd
    have hs := storeId_new st.ids a.id (hnew a (List.mem_cons_self ..))
    have hids : (register st a).ids = st.ids ++ [a.id] := by simp [register, hs]
    have htr : (register st a).trips = st.trips ++ [a.trip] := rfl
    have hut : (register st a).utc = st.utc ++ [utcTrips st.ids.length a.stops (compress a.dests) a.entries] := by
      simp [register, hs]
    obtain ⟨h1, h2, h3, h4⟩ := ih (register st a) (by rw [hids, htr, hut]; simp [hl.1, hl.2]) (by
      intro sj hsj
      rw [hids, List.mem_append, List.mem_singleton]
      rintro (h | h)
      · exact hnew sj (List.mem_cons_of_mem _ hsj) h
      · exact hp.1 sj hsj h.symm) hp.2
    rw [List.foldl_cons]
    refine ⟨?_, ?_, ?_, ?_⟩
    · rw [h1, htr]; simp
    · rw [h2, hut]; simp; omega
    · intro i hi
      rw [h3 i (by rw [hut]; simp; omega), hut, List.getElem?_append_left hi]
    · intro i sj hi
      cases i with
      | zero =>
        simp only [List.getElem?_cons_zero, Option.some.injEq] at hi
        subst hi
        rw [h3 _ (by rw [hut]; simp; omega), hut, Nat.add_zero, ← hl.2, List.getElem?_append_right (Nat.le_refl _), hl.1, hl.2]
        simp
      | succ i =>
        have := h4 i sj (by simpa using hi)
        rw [htr] at this
        simp only [List.length_append, List.length_singleton] at this
        rw [show st.trips.length + (i + 1) = st.trips.length + 1 + i by omega]
        exact this

/-- What the registration of service journeys with different identifiers results in. -/
theorem registerAll_get (l : List Sj) (hd : l.Pairwise fun a b => a.id ≠ b.id) (i : Nat) (sj : Sj) (h : l[i]? = some sj) :
    (registerAll l).trips[i]? = some sj.trip ∧
    (registerAll l).utc[i]? = some (utcTrips i sj.stops (compress sj.dests) sj.entries) := by
  obtain ⟨h1, -, -, h4⟩ := registerAll_aux l {} ⟨rfl, rfl⟩ (by intro sj _; simp) hd
  constructor
  · show (l.foldl register {}).trips[i]? = _
    rw [h1]; simp [h]
  · have := h4 i sj h
    simpa [registerAll] using this

theorem utcTrips_head (idx : Nat) (stops : List Seated.Stop) (dirs : List Nat) (es : List (Key × Bitfield)) (h : es ≠ []) :
    ∃ t, (utcTrips idx stops dirs es).head? = some t ∧ t.stops = stops ∧ t.dirs = dirs := by
  cases es with
  | nil => exact absurd rfl h
  | cons e r => exact ⟨_, rfl, rfl, rfl⟩

theorem compress_get (dests : List Nat) (i : Nat) (h : i + 1 < dests.length) :
    directionOf (compress dests) i = dests[i]? := by
  unfold directionOf compress
  by_cases ha : dests.all (fun x => decide (x = dests.headD 0)) = true
  · rw [if_pos ha, if_pos (show [dests.headD 0].length = 1 from rfl)]
    have := List.all_eq_true.1 ha dests[i] (List.getElem_mem _)
    rw [List.getElem?_eq_getElem (show i < dests.length by omega)]
    simp only [decide_eq_true_eq] at this
    rw [this]; rfl
  · rw [if_neg ha]
    by_cases hl : dests.dropLast.length = 1
    · rw [if_pos hl]
      simp only [List.length_dropLast] at hl
      have : i = 0 := by omega
      subst this
      rw [List.getElem?_dropLast, if_pos (by omega)]
    · rw [if_neg hl, List.getElem?_dropLast, if_pos (by omega)]

theorem mapM_some {α β : Type} (f : α → Option β) (g : α → β) (l : List α) (h : ∀ x ∈ l, f x = some (g x)) :
    l.mapM f = some (l.map g) := by
  induction l with
  | nil => rfl
  | cons a r ih =>
    rw [List.mapM_cons, h a (List.mem_cons_self ..), ih fun x hx => h x (List.mem_cons_of_mem _ hx)]
    rfl

theorem sectionDirs_compress (dests : List Nat) (n : Nat) (h : dests.length = n + 1) :
    sectionDirs (compress dests) n = some dests.dropLast := by
  unfold sectionDirs
  rw [mapM_some _ (fun i => dests.getD i 0)]
  · congr 1
    apply List.ext_getElem
    · simp [h]
    · intro i h1 h2
      simp only [List.length_map, List.length_range] at h1
      simp [List.getElem?_eq_getElem (show i < dests.length by omega)]
  · intro i hi
    have hi := List.mem_range.1 hi
    have := compress_get dests i (by omega)
    unfold directionOf at this
    rw [this, List.getElem?_eq_getElem (by omega)]
    simp [List.getElem?_eq_getElem (show i < dests.length by omega)]

/-- The service journeys are as the reader of the file makes them: at least two stops, one destination per stop,
different identifiers. -/
structure SjsOk (l : List Sj) : Prop where
  ids : l.Pairwise fun a b => a.id ≠ b.id
  stops : ∀ sj ∈ l, 2 ≤ sj.stops.length ∧ sj.dests.length = sj.stops.length

def sjAt (l : List Sj) (p : Nat) : Sj := l.getD p ⟨0, 0, [], [], []⟩

theorem writeStep_multi (l : List Sj) (hok : SjsOk l) (w : Written) (p : Nat) (hp : p < l.length)
    (he : (sjAt l p).entries ≠ []) :
    writeStep (registerAll l) false w p = some ⟨w.ranges ++ [((sjAt l p).trip, w.prevEnd, w.prevEnd + (sjAt l p).stops.length)],
      w.dirs ++ (sjAt l p).dests.dropLast, w.prevEnd + ((sjAt l p).stops.length - 1)⟩ := by
  have hg : l[p]? = some (sjAt l p) := by simp [sjAt, List.getElem?_eq_getElem hp]
  obtain ⟨h1, h2⟩ := registerAll_get l hok.ids p _ hg
  have hs := hok.stops _ (List.mem_of_getElem? hg)
  obtain ⟨t, ht, hts, htd⟩ := utcTrips_head p (sjAt l p).stops (compress (sjAt l p).dests) _ he
  unfold writeStep
  rw [h1, h2]
  simp only [Option.bind_some, ht]
  rw [if_neg (by simp), hts, htd, sectionDirs_compress _ _ (by omega)]
  simp only [Option.map_some]
  rw [show w.prevEnd + (sjAt l p).stops.length - 1 = w.prevEnd + ((sjAt l p).stops.length - 1) by omega]

def startsOf (l : List Sj) (s : Nat) : List Nat → List (Nat × Nat × Nat)
  | [] => []
  | p :: r => ((sjAt l p).trip, s, s + (sjAt l p).stops.length) :: startsOf l (s + ((sjAt l p).stops.length - 1)) r

theorem writeLoop_multi (l : List Sj) (hok : SjsOk l) (ps : List Nat) (w : Written)
    (hp : ∀ p ∈ ps, p < l.length ∧ (sjAt l p).entries ≠ []) :
    ∃ w', writeLoop (registerAll l) false w ps = some w' ∧ w'.ranges = w.ranges ++ startsOf l w.prevEnd ps ∧
      w'.dirs = w.dirs ++ (ps.map fun p => (sjAt l p).dests.dropLast).flatten := by
  induction ps generalizing w with
  | nil => exact ⟨w, rfl, by simp [startsOf], by simp⟩
  | cons p r ih =>
    have h := hp p (List.mem_cons_self ..)
    obtain ⟨w', h1, h2, h3⟩ := ih ⟨w.ranges ++ [((sjAt l p).trip, w.prevEnd, w.prevEnd + (sjAt l p).stops.length)],
      w.dirs ++ (sjAt l p).dests.dropLast, w.prevEnd + ((sjAt l p).stops.length - 1)⟩ fun q hq => hp q (List.mem_cons_of_mem _ hq)
    refine ⟨w', ?_, ?_, ?_⟩
    · unfold writeLoop
      rw [writeStep_multi l hok w p h.1 h.2]
      exact h1
    · rw [h2]; simp [startsOf]
    · rw [h3]; simp

theorem startsOf_get (l : List Sj) (pre : List Nat) (p : Nat) (post : List Nat) (s : Nat) :
    (startsOf l s (pre ++ p :: post))[pre.length]? =
      some ((sjAt l p).trip, s + (pre.map fun q => (sjAt l q).stops.length - 1).sum,
        s + (pre.map fun q => (sjAt l q).stops.length - 1).sum + (sjAt l p).stops.length) := by
  induction pre generalizing s with
  | nil => simp [startsOf]
  | cons q r ih =>
    simp only [List.cons_append, startsOf, List.length_cons, List.getElem?_cons_succ, ih, List.map_cons, List.sum_cons]
    rw [show s + ((sjAt l q).stops.length - 1) + (r.map fun q => (sjAt l q).stops.length - 1).sum =
      s + ((sjAt l q).stops.length - 1 + (r.map fun q => (sjAt l q).stops.length - 1).sum) by omega]

theorem dirs_get (l : List Sj) (hok : SjsOk l) (pre : List Nat) (p : Nat) (post : List Nat)
    (hp : ∀ q ∈ pre, q < l.length) (i : Nat) (hi : i + 1 < (sjAt l p).dests.length) :
    ((pre ++ p :: post).map fun q => (sjAt l q).dests.dropLast).flatten[(pre.map fun q => (sjAt l q).stops.length - 1).sum + i]? =
      (sjAt l p).dests[i]? := by
  induction pre with
  | nil =>
    simp only [List.nil_append, List.map_cons, List.flatten_cons, List.map_nil, List.sum_nil, Nat.zero_add]
    rw [List.getElem?_append_left (by simp; omega), List.getElem?_dropLast, if_pos (by omega)]
  | cons q r ih =>
    simp only [List.cons_append, List.map_cons, List.flatten_cons, List.sum_cons]
    have hq := hp q (List.mem_cons_self ..)
    have hs := hok.stops (sjAt l q) (by
      unfold sjAt
      rw [List.getD_eq_getElem?_getD, List.getElem?_eq_getElem hq]
      exact List.getElem_mem _)
    rw [List.getElem?_append_right (by simp; omega)]
    rw [← ih fun x hx => hp x (List.mem_cons_of_mem _ hx)]
    congr 1
    simp only [List.length_dropLast]
    omega

/-- **C108** (partial: the identifiers of the service journeys are different; see `C108_same_id`).  For a
transport that runs through the service journeys `ps` (one, or several by stay-seated meetings), the writer
records, for each of them, its own trip with the stops from the end of the ones before, and each section of it
shows the destination of the stop at which it starts. -/
theorem C108_written_partial (l : List Sj) (hok : SjsOk l) (ps : List Nat) (hne : ps ≠ [])
    (hp : ∀ p ∈ ps, p < l.length ∧ (sjAt l p).entries ≠ []) :
    ∃ w, writeTrip (registerAll l) ps = some w ∧ w.ranges.length = ps.length ∧
      ∀ pre p post, ps = pre ++ p :: post →
        w.ranges[pre.length]? = some ((sjAt l p).trip, (pre.map fun q => (sjAt l q).stops.length - 1).sum,
          (pre.map fun q => (sjAt l q).stops.length - 1).sum + (sjAt l p).stops.length) ∧
        ∀ i, i + 1 < (sjAt l p).stops.length →
          directionOf w.dirs ((pre.map fun q => (sjAt l q).stops.length - 1).sum + i) = (sjAt l p).dests[i]? := by
  have hsl : ∀ (ps : List Nat) s, (startsOf l s ps).length = ps.length := by
    intro ps
    induction ps with
    | nil => intro s; rfl
    | cons a r ih => intro s; simp [startsOf, ih]
  unfold writeTrip
  by_cases h1 : ps.length = 1
  · obtain ⟨p, rfl⟩ := List.length_eq_one_iff.1 h1
    rw [decide_eq_true h1]
    have h := hp p (List.mem_cons_self ..)
    have hg : l[p]? = some (sjAt l p) := by simp [sjAt, List.getElem?_eq_getElem h.1]
    obtain ⟨h3, h2⟩ := registerAll_get l hok.ids p _ hg
    have hs := hok.stops _ (List.mem_of_getElem? hg)
    obtain ⟨t, ht, hts, htd⟩ := utcTrips_head p (sjAt l p).stops (compress (sjAt l p).dests) _ h.2
    refine ⟨⟨[((sjAt l p).trip, 0, (sjAt l p).stops.length)], compress (sjAt l p).dests, (sjAt l p).stops.length - 1⟩, ?_, rfl, ?_⟩
    · unfold writeLoop writeStep
      rw [h3, h2]
      simp only [Option.bind_some, ht, if_true, writeLoop, hts, htd]
      simp
    · intro pre q post e
      cases pre with
      | nil =>
        simp only [List.nil_append, List.cons.injEq] at e
        obtain ⟨rfl, -⟩ := e
        refine ⟨by simp, ?_⟩
        intro i hi
        simp only [List.map_nil, List.sum_nil, Nat.zero_add]
        exact compress_get _ _ (by omega)
      | cons a r => simp at e
  · rw [decide_eq_false h1]
    obtain ⟨w, hw, hr, hd⟩ := writeLoop_multi l hok ps {} hp
    refine ⟨w, hw, by rw [hr]; simp [hsl], ?_⟩
    rintro pre p post rfl
    constructor
    · rw [hr]
      have := startsOf_get l pre p post 0
      simpa using this
    · intro i hi
      have hpm := hp p (by simp)
      have hg : l[p]? = some (sjAt l p) := by simp [sjAt, List.getElem?_eq_getElem hpm.1]
      have hs := hok.stops _ (List.mem_of_getElem? hg)
      have hget := dirs_get l hok pre p post (fun q hq => (hp q (by simp [hq])).1) i (by omega)
      simp only [List.nil_append] at hd
      rw [← hd] at hget
      unfold directionOf
      split
      · rename_i hl
        rw [List.getElem?_eq_getElem (show i < (sjAt l p).dests.length by omega)] at hget
        have := (List.getElem?_eq_some_iff.1 hget).1
        rw [show (0 : Nat) = (pre.map fun q => (sjAt l q).stops.length - 1).sum + i by omega, hget]
        rw [List.getElem?_eq_getElem]
      · exact hget

/-- **C108 is false in full.**  Three service journeys, of which the second has the identifier of the first: transports
of the third one (trip 12) are recorded as runs of trip 11, with its number of stops.  (Builds with assertions
abort.) -/
theorem C108_same_id :
    let l : List Sj := [⟨1, 10, [5, 5], [⟨1, true, true⟩, ⟨2, true, true⟩], [(⟨[0, 1], 0, 0⟩, always)]⟩,
      ⟨1, 11, [6, 6], [⟨1, true, true⟩, ⟨2, true, true⟩], [(⟨[2, 3], 0, 0⟩, always)]⟩,
      ⟨2, 12, [7, 7, 7], [⟨1, true, true⟩, ⟨2, true, true⟩, ⟨3, true, true⟩], [(⟨[4, 5, 5, 6], 0, 0⟩, always)]⟩]
    ((registerAll l).utc[2]?.map fun ts => ts.map fun t => (t.key.times, t.trips)) = some [([4, 5, 5, 6], [1])] ∧
    (writeTrip (registerAll l) [1]).map (·.ranges) = some [(11, 0, 2)] := by
  decide

/-- Two service journeys, the first with different destinations and two entries, joined to one transport. -/
def demoSjs : List Sj :=
  [⟨1, 10, [5, 6, 6], [⟨1, true, true⟩, ⟨2, true, true⟩, ⟨3, true, true⟩],
    [(⟨[0, 1, 1, 2], 0, 0⟩, always), (⟨[60, 61, 61, 62], 0, 0⟩, always)]⟩,
   ⟨2, 11, [7, 7], [⟨3, true, true⟩, ⟨4, true, true⟩], [(⟨[2, 3], 0, 0⟩, always)]⟩]

theorem C108_demo : SjsOk demoSjs ∧ (∀ p ∈ [0, 1], p < demoSjs.length ∧ (sjAt demoSjs p).entries ≠ []) ∧
    (writeTrip (registerAll demoSjs) [0, 1]).map (fun w => (w.ranges, w.dirs)) =
      some ([(10, 0, 3), (11, 2, 4)], [5, 6, 7]) := by
  refine ⟨⟨by simp [demoSjs], ?_⟩, ?_, by decide⟩
  · intro sj h
    simp only [demoSjs, List.mem_cons, List.not_mem_nil, or_false] at h
    rcases h with rfl | rfl <;> decide
  · intro p h
    simp only [List.mem_cons, List.not_mem_nil, or_false] at h
    rcases h with rfl | rfl <;> exact ⟨by decide, by simp [sjAt, demoSjs]⟩

/-! ## C109: every run once -/

/-- Transport `t` contains a run of service journey `i` with the times `r.times` that starts on day `d`. -/
def RunsIn (t : Seated.Transport) (i : Nat) (r : Run) (d : Int) : Prop :=
  ∃ (pre post : List Int) (o : Int) (e : Nat), i ∈ t.trips ∧ t.times = pre ++ r.times.map (· + o * 1440) ++ post ∧
    t.days e = true ∧ (e : Int) + o = d

/-- **C109** (no meetings).  Without stay-seated meetings, the transports are exactly the runs of the service
journeys. -/
theorem C109_alone (f : Feed) (h : ∀ i, f.meets i = none) (c : Nat → Seated.Choice) (fuel : Nat) :
    f.transports c fuel = some ((List.range f.js.length).flatMap fun i =>
      (f.js.getD i []).map fun r => ⟨[i], r.times, r.stops, r.days⟩) := by
  have hout : ∀ i, f.out i = [] := by intro i; simp [Feed.out, h]
  have hin : ∀ i, f.in' i = [] := by intro i; simp [Feed.in', hout]
  have hvs : f.input.vs = [] := by simp [Feed.input, hout, hin]
  have hb : Seated.build f.input c fuel = some [] := by
    unfold Seated.build
    rw [hvs]
    show Seated.mainLoop f.input c fuel none _ = some []
    cases fuel <;> rfl
  unfold Feed.transports
  rw [hb]
  simp [Feed.alone, h]

theorem input_var (f : Feed) (i : Nat) (hi : i < f.js.length) (hm : f.out i ≠ [] ∨ f.in' i ≠ []) (r : Run)
    (hr : r ∈ f.js.getD i []) : ∃ k : Nat, f.input.vs[k]? = some ⟨i, i, r.times, r.stops, r.days⟩ := by
  have : (⟨i, i, r.times, r.stops, r.days⟩ : Seated.Variant) ∈ f.input.vs := by
    show _ ∈ List.flatMap _ _
    rw [List.mem_flatMap]
    refine ⟨i, List.mem_range.2 hi, ?_⟩
    rw [if_neg (by rintro ⟨h1, h2⟩; rcases hm with h | h <;> contradiction)]
    exact List.mem_map.2 ⟨r, hr, rfl⟩
  exact List.mem_iff_getElem?.1 this

/-- A run of a service journey with a meeting is part of a joined transport. -/
theorem joined_runs (f : Feed) (hok : f.input.Ok) (off : Nat → Int) (rank : Nat → Nat) (hcon : f.input.Consistent off rank)
    (c : Nat → Seated.Choice) (hc : Seated.Fair c) (fuel : Nat) (out : List Seated.Transport)
    (h : Seated.build f.input c fuel = some out) (i : Nat) (hi : i < f.js.length) (hm : f.out i ≠ [] ∨ f.in' i ≠ [])
    (r : Run) (hr : r ∈ f.js.getD i []) (d : Nat) (hd : r.days d = true) : ∃ t ∈ out, RunsIn t i r d := by
  obtain ⟨k, hk⟩ := input_var f i hi hm r hr
  obtain ⟨t, ht, chain, hdes, o, hmem, e, he, hday⟩ := Seated.C83_covered_partial f.input hok off rank hcon c hc fuel out h k d
    ⟨_, hk, d, rfl, hd⟩
  have hvar : f.input.var k = ⟨i, i, r.times, r.stops, r.days⟩ := Seated.var_eq hk
  obtain ⟨pre, post, rfl⟩ := List.append_of_mem hmem
  refine ⟨t, ht, ((pre.map fun x => (f.input.var x.1).times.map (· + x.2 * 1440)).flatten),
    ((post.map fun x => (f.input.var x.1).times.map (· + x.2 * 1440)).flatten), o, e, ?_, ?_, hday, by omega⟩
  · rw [hdes.trips]
    exact List.mem_map.2 ⟨(k, o), by simp, by rw [hvar]⟩
  · rw [hdes.times]
    simp [hvar]

/-- **C109** (partial: no run is lost, if the meetings are consistent, see C83; that there is only one is false, see
`C109_twice`).  Every run of every service journey is contained in a transport. -/
theorem C109_covered_partial (f : Feed) (hok : f.input.Ok) (off : Nat → Int) (rank : Nat → Nat)
    (hcon : f.input.Consistent off rank) (hmeets : ∀ i l, f.meets i = some l → l ≠ [])
    (c : Nat → Seated.Choice) (hc : Seated.Fair c) (fuel : Nat) (out : List Seated.Transport)
    (h : f.transports c fuel = some out) (i : Nat) (hi : i < f.js.length)
    (r : Run) (hr : r ∈ f.js.getD i []) (d : Nat) (hd : r.days d = true) : ∃ t ∈ out, RunsIn t i r d := by
  unfold Feed.transports at h
  cases hb : Seated.build f.input c fuel with
  | none => rw [hb] at h; cases h
  | some o =>
    rw [hb] at h
    simp only [Option.map_some, Option.some.injEq] at h
    subst h
    cases hm : f.meets i with
    | some l =>
      obtain ⟨t, ht, hrun⟩ := joined_runs f hok off rank hcon c hc fuel o hb i hi
        (Or.inl (by simp [Feed.out, hm, hmeets i l hm])) r hr d hd
      exact ⟨t, List.mem_append_right _ ht, hrun⟩
    | none =>
      refine ⟨⟨[i], r.times, r.stops, r.days⟩, List.mem_append_left _ ?_, [], [], 0, d, List.mem_singleton.2 rfl, by simp, hd, by simp⟩
      unfold Feed.alone
      rw [List.mem_flatMap]
      refine ⟨i, List.mem_range.2 hi, ?_⟩
      rw [hm]
      exact List.mem_map.2 ⟨r, hr, rfl⟩

/-- **C109 is false in full.**  A service journey that is the target of a meeting and has no meeting itself –
every last journey of a chain – is loaded twice: as part of the joined transport and alone, so each of its
runs is in two transports. -/
theorem C109_twice (f : Feed) (hok : f.input.Ok) (off : Nat → Int) (rank : Nat → Nat)
    (hcon : f.input.Consistent off rank)
    (c : Nat → Seated.Choice) (hc : Seated.Fair c) (fuel : Nat) (out : List Seated.Transport)
    (h : f.transports c fuel = some out) (i a : Nat) (hi : i < f.js.length) (ha : a < f.js.length) (hia : i ∈ f.out a)
    (hlast : f.meets i = none) (r : Run) (hr : r ∈ f.js.getD i []) (d : Nat) (hd : r.days d = true) :
    ∃ (m : Nat) (n : Nat) (t t' : Seated.Transport), m ≠ n ∧ out[m]? = some t ∧ out[n]? = some t' ∧
      RunsIn t i r d ∧ RunsIn t' i r d := by
  unfold Feed.transports at h
  cases hb : Seated.build f.input c fuel with
  | none => rw [hb] at h; cases h
  | some o =>
    rw [hb] at h
    simp only [Option.map_some, Option.some.injEq] at h
    subst h
    have hin : f.in' i ≠ [] := List.ne_nil_of_mem
      (List.mem_filter.2 ⟨List.mem_range.2 ha, decide_eq_true hia⟩ : a ∈ f.in' i)
    obtain ⟨t, ht, hrun⟩ := joined_runs f hok off rank hcon c hc fuel o hb i hi (Or.inr hin) r hr d hd
    have hal : (⟨[i], r.times, r.stops, r.days⟩ : Seated.Transport) ∈ f.alone := by
      unfold Feed.alone
      rw [List.mem_flatMap]
      refine ⟨i, List.mem_range.2 hi, ?_⟩
      rw [hlast]
      exact List.mem_map.2 ⟨r, hr, rfl⟩
    obtain ⟨n, hn, e1⟩ := List.mem_iff_getElem.1 hal
    obtain ⟨k, hk, e2⟩ := List.mem_iff_getElem.1 ht
    refine ⟨n, f.alone.length + k, ⟨[i], r.times, r.stops, r.days⟩, t, by omega, ?_, ?_, ⟨[], [], 0, d, List.mem_singleton.2 rfl, by simp, hd, by simp⟩, hrun⟩
    · rw [List.getElem?_append_left hn, List.getElem?_eq_getElem hn, e1]
    · rw [List.getElem?_append_right (by omega), show f.alone.length + k - f.alone.length = k by omega,
        List.getElem?_eq_getElem hk, e2]

/-- A train that continues as another one: both on day 1. -/
def demoFeed : Feed where
  js := [[⟨[480, 510], [⟨1, true, true⟩, ⟨2, true, true⟩], Seated.on [1]⟩], [⟨[520, 550], [⟨2, true, true⟩, ⟨3, true, true⟩], Seated.on [1]⟩]]
  meets := fun i => if i = 0 then some [1] else none

theorem demoFeed_vs : demoFeed.input.vs =
    [⟨0, 0, [480, 510], [⟨1, true, true⟩, ⟨2, true, true⟩], Seated.on [1]⟩, ⟨1, 1, [520, 550], [⟨2, true, true⟩, ⟨3, true, true⟩], Seated.on [1]⟩] := rfl

theorem demoFeed_out (a b : Nat) : b ∈ demoFeed.out a ↔ a = 0 ∧ b = 1 := by
  unfold Feed.out demoFeed
  by_cases h : a = 0 <;> simp [h]

theorem C109_demo_ok : demoFeed.input.Ok where
  mirror := by
    intro a b
    show b ∈ demoFeed.out a ↔ a ∈ demoFeed.in' b
    unfold Feed.in'
    rw [List.mem_filter, decide_eq_true_iff, List.mem_range]
    constructor
    · intro h
      have := (demoFeed_out a b).1 h
      exact ⟨by rw [this.1]; decide, h⟩
    · exact fun h => h.2
  bounded := by
    intro v hv d hd
    rw [demoFeed_vs] at hv
    simp only [List.mem_cons, List.not_mem_nil, or_false] at hv
    rcases hv with rfl | rfl <;> simp only [Seated.on_iff, List.mem_cons, List.not_mem_nil, or_false] at hd <;> unfold kMaxDays <;> omega
  nonempty := by
    intro v hv
    rw [demoFeed_vs] at hv
    simp only [List.mem_cons, List.not_mem_nil, or_false] at hv
    rcases hv with rfl | rfl <;> exact ⟨1, rfl⟩
  times := by
    intro v hv
    rw [demoFeed_vs] at hv
    simp only [List.mem_cons, List.not_mem_nil, or_false] at hv
    rcases hv with rfl | rfl <;> decide

theorem demoFeed_rule {i j : Nat} (h : demoFeed.input.Rule i j) : i = 0 ∧ j = 1 := by
  obtain ⟨v, w, hv, hw, hr⟩ := h
  rw [demoFeed_vs] at hv hw
  have hr : w.rule ∈ demoFeed.out v.rule := hr
  rw [demoFeed_out] at hr
  rcases Seated.get2 hv with ⟨rfl, rfl⟩ | ⟨rfl, rfl⟩ <;> rcases Seated.get2 hw with ⟨rfl, rfl⟩ | ⟨rfl, rfl⟩ <;> revert hr <;> decide

theorem C109_demo_consistent : demoFeed.input.Consistent (fun _ => 0) id where
  acyclic := by
    intro i j h
    obtain ⟨rfl, rfl⟩ := demoFeed_rule h; decide
  same_day := by
    rintro i j o ⟨h, h1, h2⟩
    obtain ⟨rfl, rfl⟩ := demoFeed_rule h
    have : demoFeed.input.wait 0 1 o = 520 + o * 1440 - 510 := rfl
    show (0 : Int) = 0 + o; omega
  stays := by
    intro i j h _ _ _
    refine ⟨h, ?_⟩
    obtain ⟨rfl, rfl⟩ := demoFeed_rule h
    decide
  once := by
    intro i j hi hj he hne
    rw [demoFeed_vs] at hi hj
    simp only [List.length_cons, List.length_nil] at hi hj
    have h0 : (demoFeed.input.var 0).rule = 0 := rfl
    have h1 : (demoFeed.input.var 1).rule = 1 := rfl
    have hi' : i = 0 ∨ i = 1 := by omega
    have hj' : j = 0 ∨ j = 1 := by omega
    rcases hi' with rfl | rfl <;> rcases hj' with rfl | rfl <;> first | exact absurd rfl hne | (rw [h0, h1] at he; cases he)

theorem C109_demo :
    ((demoFeed.transports Seated.plain 10).map fun out => out.map fun t => (t.trips, t.times, (List.range kMaxDays).filter t.days)) =
      some [([1], [520, 550], [1]), ([0, 1], [480, 510, 520, 550], [1])] := by
  decide +kernel

end Nigiri.Netex
