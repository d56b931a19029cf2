import Verif.Props.Resolve
/-!
# Property C69, loaded feeds: one run per service day

The lookup composed with the GTFS loader: the local-to-UTC expansion of a block, the registration of
its transports, the packed offsets and the lookup by service date.
-/

namespace Nigiri.Resolve
open LocalToUtc

/-- A timetable before anything is loaded. -/
def emptyTT : TT :=
  { transport := fun _ => ⟨⟨0, 0⟩, fun _ => 0, fun _ => false, [], 0⟩
    ranges := fun _ => [], ids := [], routeTrips := fun _ => none, direction := fun _ => false }

/-- The transport registered for a service. -/
def transportOf (s : Service) : Transport :=
  { off := Delta.ofOffset s.utc.firstDepOffset s.utc.tzOffset
    dep := fun k => s.utc.utcTimes.getD (2 * k) 0
    days := s.utc.days
    sections := blockSections s.trips
    numStops := blockStops s.trips }

theorem addServices_transport (ss : List Service) : ∀ (t : Nat) (tt : TT) (i : Nat),
    (addServices t ss tt).transport i =
      if t ≤ i then (match ss[i - t]? with | some s => transportOf s | none => tt.transport i) else tt.transport i := by
  induction ss with
  | nil => intro t tt i; simp [addServices]
  | cons s ss ih =>
    intro t tt i
    rw [addServices, ih]
    by_cases h1 : t + 1 ≤ i
    · rw [if_pos h1, if_pos (by omega)]
      have : i - t = (i - (t + 1)) + 1 := by omega
      rw [this, List.getElem?_cons_succ]
      cases ss[i - (t + 1)]? with
      | some s' => rfl
      | none =>
        simp only [addService]
        rw [if_neg (by omega)]
    · rw [if_neg h1]
      by_cases h2 : t ≤ i
      · have : i = t := by omega
        subst this
        rw [if_pos (Nat.le_refl _)]
        simp [addService, transportOf]
      · rw [if_neg h2]
        simp only [addService]
        rw [if_neg (by omega)]

theorem addServices_ranges (ss : List Service) : ∀ (t : Nat) (tt : TT) (trip : Nat) (x : Range),
    x ∈ (addServices t ss tt).ranges trip ↔
      x ∈ tt.ranges trip ∨ ∃ s, t ≤ x.t ∧ ss[x.t - t]? = some s ∧ (trip, x.fr, x.to) ∈ blockRanges 0 s.trips := by
  induction ss with
  | nil => intro t tt trip x; simp [addServices]
  | cons s ss ih =>
    intro t tt trip x
    rw [addServices, ih]
    have h1 : x ∈ (addService t s tt).ranges trip ↔
        x ∈ tt.ranges trip ∨ (x.t = t ∧ (trip, x.fr, x.to) ∈ blockRanges 0 s.trips) := by
      simp only [addService, List.mem_append, List.mem_map, List.mem_filter]
      constructor
      · rintro (h | ⟨⟨a, b, c⟩, ⟨h1, h2⟩, rfl⟩)
        · exact .inl h
        · have : a = trip := by simpa using h2
          subst this
          exact .inr ⟨rfl, h1⟩
      · rintro (h | ⟨h1, h2⟩)
        · exact .inl h
        · refine .inr ⟨_, ⟨h2, by simp⟩, ?_⟩
          obtain ⟨a, b, c⟩ := x
          dsimp only at h1 ⊢
          rw [h1]
    rw [h1]
    constructor
    · rintro ((h | ⟨h, h'⟩) | ⟨s', h, h', h''⟩)
      · exact .inl h
      · exact .inr ⟨s, by omega, by simp [h], h'⟩
      · refine .inr ⟨s', by omega, ?_, h''⟩
        have : x.t - t = (x.t - (t + 1)) + 1 := by omega
        rw [this, List.getElem?_cons_succ]; exact h'
    · rintro (h | ⟨s', h, h', h''⟩)
      · exact .inl (.inl h)
      · by_cases hx : x.t = t
        · rw [hx, Nat.sub_self, List.getElem?_cons_zero] at h'
          have := Option.some.inj h'
          subst this
          exact .inl (.inr ⟨hx, h''⟩)
        · have : x.t - t = (x.t - (t + 1)) + 1 := by omega
          rw [this, List.getElem?_cons_succ] at h'
          exact .inr ⟨s', by omega, h', h''⟩

/-- A block: trip index and expanded trip, in order. -/
abbrev Block := List (Nat × FTrip)

/-- The services the loader makes of a block. -/
def servicesOf (b : Block) (out : List UtcTrip) : List Service :=
  out.map fun u => ⟨b.map fun x => (x.1, x.2.events.length), u⟩

theorem blockRanges_mem : ∀ (l : List (Nat × Nat)) (p : Nat) (x : Nat × Nat × Nat),
    x ∈ blockRanges p l → x.1 ∈ l.map (·.1)
  | [], _, _, h => by simp [blockRanges] at h
  | (t, n) :: r, p, x, h => by
    simp only [blockRanges, List.mem_cons] at h
    rcases h with rfl | h
    · simp
    · have := blockRanges_mem r _ x h
      simp only [List.map_cons, List.mem_cons]
      exact .inr this

theorem pairTimes_length : ∀ l : List Ev, (pairTimes l).length = 2 * (l.length - 1)
  | [] => rfl
  | [_] => rfl
  | a :: b :: r => by
    have := pairTimes_length (b :: r)
    simp only [pairTimes, List.length_cons] at *
    omega

/-- The position of the trip in the block and its first departure. -/
theorem blockRanges_dep : ∀ (b : Block) (p : Nat) (trip : Nat) (f : FTrip), (b.map (·.1)).Nodup →
    (∀ x ∈ b, 2 ≤ x.2.events.length) → (trip, f) ∈ b →
    ∃ fr to, ((trip, p + fr, to) ∈ blockRanges p (b.map fun x => (x.1, x.2.events.length))) ∧
      (∀ fr' to', (trip, fr', to') ∈ blockRanges p (b.map fun x => (x.1, x.2.events.length)) → fr' = p + fr ∧ to' = to) ∧
      to = p + fr + f.events.length ∧
      (localTimes (b.map (·.2)))[2 * fr]? = f.events.head?.map fun e => e.dep - f.offset
  | [], _, _, _, _, _, h => by cases h
  | (t, g) :: b, p, trip, f, hnd, h2, h => by
    rw [List.map_cons, List.nodup_cons] at hnd
    simp only [List.map_cons, blockRanges]
    by_cases hh : (trip, f) = (t, g)
    · injection hh with h3 h4
      subst h3 h4
      refine ⟨0, p + f.events.length, by simp, ?_, by omega, ?_⟩
      · intro fr' to' h
        rcases List.mem_cons.1 h with h | h
        · injection h with _ h; injection h with h1 h2; exact ⟨by omega, by omega⟩
        · have := blockRanges_mem _ _ _ h
          simp only [List.map_map] at this
          exact absurd this hnd.1
      · have := h2 (trip, f) (by simp)
        dsimp only at this
        cases he : f.events with
        | nil => rw [he] at this; simp at this
        | cons a r =>
          cases r with
          | nil => rw [he] at this; simp at this
          | cons b' r => simp [localTimes, he, pairTimes]
    · have hb : (trip, f) ∈ b := by
        rcases List.mem_cons.1 h with h | h
        · exact absurd h hh
        · exact h
      have hg := h2 (t, g) (by simp)
      dsimp only at hg
      obtain ⟨fr, to, h3, h4, h5, h6⟩ := blockRanges_dep b (p + g.events.length - 1) trip f hnd.2
        (fun x hx => h2 x (List.mem_cons_of_mem _ hx)) hb
      refine ⟨g.events.length - 1 + fr, to, ?_, ?_, by omega, ?_⟩
      · apply List.mem_cons_of_mem
        have : p + (g.events.length - 1 + fr) = p + g.events.length - 1 + fr := by omega
        rw [this]; exact h3
      · intro fr' to' h
        rcases List.mem_cons.1 h with h | h
        · injection h with h7 h8
          subst h7
          exact absurd (List.mem_map.2 ⟨_, hb, rfl⟩) hnd.1
        · obtain ⟨h7, h8⟩ := h4 fr' to' h
          exact ⟨by omega, h8⟩
      · simp only [localTimes, List.flatMap_cons]
        rw [List.getElem?_append_right (by rw [List.length_map, pairTimes_length]; omega)]
        rw [List.length_map, pairTimes_length]
        have : 2 * (g.events.length - 1 + fr) - 2 * (g.events.length - 1) = 2 * fr := by omega
        rw [this]
        exact h6

/-- The run found on service day `g`, in terms of the feed: one run, departing when the feed says. -/
theorem loaded (e : Env) (b : Block) (out : List UtcTrip) (pre post : List Service)
    (trip : Nat) (f : FTrip) (ev : Ev)
    (hmem : (trip, f) ∈ b) (hev : f.events.head? = some ev) (hnd : (b.map (·.1)).Nodup)
    (h2 : ∀ x ∈ b, 2 ≤ x.2.events.length)
    (hother : ∀ s ∈ pre ++ post, trip ∉ s.trips.map (·.1))
    (hexp : expand e (b.map (·.2)) = some out)
    (hkey : ∀ g, g < e.nDays → e.noonOffset g ≠ -1)
    (hnoon : ∀ g, g < e.nDays → -720 ≤ e.noonOffset g ∧ e.noonOffset g ≤ 840)
    (hfd : 0 ≤ firstDep (b.map (·.2)) ∧ firstDep (b.map (·.2)) ≤ 40000)
    (off : Int) (hoff : ∀ x ∈ b, x.2.offset = off)
    (hmono : (localTimes (b.map (·.2))).Pairwise (· ≤ ·))
    (tt : TT) (htt : tt = addServices 0 (pre ++ servicesOf b out ++ post) emptyTT) :
    (∀ r, RunOf tt trip r → ∃ g : Nat, ServiceDay e (b.map (·.2)) g ∧ serviceDate tt r = g ∧
        (tt.transport r.t).off.toOffset.2 = e.noonOffset g ∧
        utcDep tt r = g * 1440 - e.noonOffset g + (ev.dep - f.offset)) ∧
    (∀ g, ServiceDay e (b.map (·.2)) g → ∃ r, RunOf tt trip r ∧ serviceDate tt r = g) ∧
    (∀ r r', RunOf tt trip r → RunOf tt trip r' → serviceDate tt r = serviceDate tt r' → r = r') := by
  have hne : b.map (·.2) ≠ [] := by
    intro h
    rw [List.map_eq_nil_iff] at h
    subst h; cases hmem
  obtain ⟨out', he', hA, hB, hC⟩ := C15_one_run_per_service_day e (b.map (·.2)) hne hkey
  rw [hexp] at he'
  have := Option.some.inj he'
  subst this
  obtain ⟨fr, to, hr1, hr2, -, hdep⟩ := blockRanges_dep b 0 trip f hnd h2 hmem
  rw [hev, Option.map_some] at hdep
  rw [Nat.zero_add] at hr1
  -- the runs of the trip
  have hlen : (servicesOf b out).length = out.length := by simp [servicesOf]
  have hrun : ∀ r, RunOf tt trip r ↔ ∃ u, pre.length ≤ r.t ∧ out[r.t - pre.length]? = some u ∧
      r.fr = fr ∧ r.to = to ∧ r.day < 512 ∧ u.days r.day = true ∧
      tt.transport r.t = transportOf ⟨b.map fun x => (x.1, x.2.events.length), u⟩ := by
    intro r
    unfold RunOf
    rw [htt, addServices_ranges]
    have hidx : ∀ s, (pre ++ servicesOf b out ++ post)[r.t]? = some s → trip ∈ s.trips.map (·.1) →
        ∃ u, pre.length ≤ r.t ∧ out[r.t - pre.length]? = some u ∧ s = ⟨b.map fun x => (x.1, x.2.events.length), u⟩ := by
      intro s hs htr
      by_cases c1 : r.t < pre.length
      · rw [List.append_assoc, List.getElem?_append_left c1] at hs
        exact absurd htr (hother s (List.mem_append_left _ (List.mem_of_getElem? hs)))
      · by_cases c2 : r.t - pre.length < (servicesOf b out).length
        · rw [List.append_assoc, List.getElem?_append_right (by omega), List.getElem?_append_left c2] at hs
          simp only [servicesOf, List.getElem?_map, Option.map_eq_some_iff] at hs
          obtain ⟨u, hu, rfl⟩ := hs
          exact ⟨u, by omega, hu, rfl⟩
        · rw [List.append_assoc, List.getElem?_append_right (by omega), List.getElem?_append_right (by omega)] at hs
          exact absurd htr (hother s (List.mem_append_right _ (List.mem_of_getElem? hs)))
    have hget : ∀ u, pre.length ≤ r.t → out[r.t - pre.length]? = some u →
        (pre ++ servicesOf b out ++ post)[r.t]? = some ⟨b.map fun x => (x.1, x.2.events.length), u⟩ := by
      intro u h1 h2
      have hlt : r.t - pre.length < out.length := (List.getElem?_eq_some_iff.1 h2).1
      rw [List.append_assoc, List.getElem?_append_right h1, List.getElem?_append_left (by omega)]
      simp only [servicesOf, List.getElem?_map, h2, Option.map_some]
    constructor
    · rintro ⟨h | ⟨s, -, hs, hbr⟩, hd, hact⟩
      · simp [emptyTT] at h
      · rw [Nat.sub_zero] at hs
        obtain ⟨u, hu1, hu2, rfl⟩ := hidx s hs (blockRanges_mem _ _ _ hbr)
        obtain ⟨h7, h8⟩ := hr2 _ _ hbr
        have htr : (addServices 0 (pre ++ servicesOf b out ++ post) emptyTT).transport r.t
            = transportOf ⟨b.map fun x => (x.1, x.2.events.length), u⟩ := by
          rw [addServices_transport, if_pos (Nat.zero_le _), Nat.sub_zero, hs]
        rw [htr] at hact
        exact ⟨u, hu1, hu2, by dsimp only at h7; omega, h8, hd, hact, htr⟩
    · rintro ⟨u, hu1, hu2, rfl, rfl, hd, hact, htr⟩
      refine ⟨.inr ⟨_, Nat.zero_le _, by rw [Nat.sub_zero]; exact hget u hu1 hu2, hr1⟩, hd, ?_⟩
      rw [htr]; exact hact
  -- the offsets survive packing
  have hpack : ∀ u ∈ out, ∀ d, u.days d = true →
      (Delta.ofOffset u.firstDepOffset u.tzOffset).toOffset = (u.firstDepOffset, u.tzOffset) := by
    intro u hu d hd
    obtain ⟨g, hg, htz, -, hF⟩ := hA u hu d hd
    obtain ⟨n1, n2⟩ := hnoon g hg.1
    exact C03_delta_offset_roundtrip _ _ (by omega) (by omega)
  have hrun2 : ∀ r, RunOf tt trip r → ∃ u, u ∈ out ∧ pre.length ≤ r.t ∧ out[r.t - pre.length]? = some u ∧
      r.fr = fr ∧ r.to = to ∧ u.days r.day = true ∧
      (tt.transport r.t).off.toOffset = (u.firstDepOffset, u.tzOffset) ∧
      (tt.transport r.t).dep r.fr = u.utcTimes.getD (2 * fr) 0 := by
    intro r hr
    obtain ⟨u, hu1, hu2, hfr, hto, -, hact, htr⟩ := (hrun r).1 hr
    have hu := List.mem_of_getElem? hu2
    refine ⟨u, hu, hu1, hu2, hfr, hto, hact, ?_, ?_⟩
    · rw [htr]; exact hpack u hu _ hact
    · rw [htr, hfr]; rfl
  refine ⟨?_, ?_, ?_⟩
  · intro r hr
    obtain ⟨u, hu, -, -, hfr, -, hact, hto, hd⟩ := hrun2 r hr
    obtain ⟨g, hg, htz, hday, hF⟩ := hA u hu _ hact
    refine ⟨g, hg, ?_, ?_, ?_⟩
    · unfold serviceDate; rw [hto]; dsimp only; omega
    · rw [hto]; exact htz.symm
    · have hins := C15_instants e (b.map (·.2)) out off hexp (by
          intro t ht
          obtain ⟨x, hx, rfl⟩ := List.mem_map.1 ht
          exact hoff x hx) (by
          intro t ht
          obtain ⟨x, hx, rfl⟩ := List.mem_map.1 ht
          exact h2 x hx) hmono u hu r.day g htz hday hF
      have := congrArg (fun l => l[2 * fr]?) hins
      simp only [List.getElem?_map, hdep, Option.map_some, Option.map_eq_some_iff] at this
      obtain ⟨y, hy, hyy⟩ := this
      unfold utcDep
      rw [hd, List.getD_eq_getElem?_getD, hy, Option.getD_some]
      exact hyy
  · intro g hg
    obtain ⟨u, hu, d, hd, htz, hdd⟩ := hB g hg
    obtain ⟨i, hi⟩ := List.mem_iff_getElem?.1 hu
    have hd512 : d < 512 := by
      obtain ⟨g', hg', htz', hdd', hF⟩ := hA u hu d hd
      have : g' = g := by omega
      subst this
      have := hg'.2.2.2.2
      omega
    have hr : RunOf tt trip ⟨pre.length + i, d, fr, to⟩ := by
      refine (hrun _).2 ⟨u, by dsimp only; omega, ?_, rfl, rfl, hd512, hd, ?_⟩
      · dsimp only; rw [Nat.add_sub_cancel_left]; exact hi
      · rw [htt, addServices_transport, if_pos (Nat.zero_le _), Nat.sub_zero]
        have hlt : i < out.length := (List.getElem?_eq_some_iff.1 hi).1
        dsimp only
        rw [List.append_assoc, List.getElem?_append_right (by omega), List.getElem?_append_left (by omega),
          Nat.add_sub_cancel_left]
        simp only [servicesOf, List.getElem?_map, hi, Option.map_some]
    refine ⟨_, hr, ?_⟩
    obtain ⟨u', hu', -, hi', -, -, -, hto, -⟩ := hrun2 _ hr
    dsimp only at hi'
    rw [Nat.add_sub_cancel_left, hi] at hi'
    have := Option.some.inj hi'
    subst this
    unfold serviceDate
    rw [hto]
    dsimp only
    omega
  · intro r r' hr hr' hsd
    obtain ⟨u, hu, hp, hi, hfr, hto, hact, hoff1, -⟩ := hrun2 r hr
    obtain ⟨u', hu', hp', hi', hfr', hto', hact', hoff1', -⟩ := hrun2 r' hr'
    obtain ⟨g, hg, htz, hday, hF⟩ := hA u hu _ hact
    obtain ⟨g', hg', htz', hday', hF'⟩ := hA u' hu' _ hact'
    unfold serviceDate at hsd
    rw [hoff1, hoff1'] at hsd
    dsimp only at hsd
    have hgg : g = g' := by omega
    subst hgg
    have hFF : u.firstDepOffset = u'.firstDepOffset := by omega
    have hZZ : u.tzOffset = u'.tzOffset := by omega
    have hij : r.t - pre.length = r'.t - pre.length := by
      have key : ∀ (i j : Nat) (u u' : UtcTrip), i < j → out[i]? = some u → out[j]? = some u' → u.firstDepOffset = u'.firstDepOffset →
          u.tzOffset ≠ u'.tzOffset := by
        intro i j u u' h hu hu' h1 h2
        obtain ⟨l1, e1⟩ := List.getElem?_eq_some_iff.1 hu
        obtain ⟨l2, e2⟩ := List.getElem?_eq_some_iff.1 hu'
        have := List.pairwise_iff_getElem.1 hC i j (by simpa using l1) (by simpa using l2) h
        simp only [List.getElem_map, e1, e2, h1, h2, ne_eq, not_true] at this
      rcases Nat.lt_trichotomy (r.t - pre.length) (r'.t - pre.length) with h | h | h
      · exact absurd hZZ (key _ _ _ _ h hi hi' hFF)
      · exact h
      · exact absurd hZZ.symm (key _ _ _ _ h hi' hi hFF.symm)
    obtain ⟨a1, a2, a3, a4⟩ := r
    obtain ⟨b1, b2, b3, b4⟩ := r'
    dsimp only at *
    have x1 : a1 = b1 := by omega
    have x2 : a2 = b2 := by omega
    subst x1 x2 hfr hfr' hto hto'
    rfl

/-- C69 (loaded feed, start date): for a trip of a loaded feed and a date, the lookup finds exactly one
run if the trip runs on that service date, leaving at the scheduled instant (local midnight of the date
plus the scheduled time of the trip's first departure, relative to that day's UTC offset), and nothing
otherwise. -/
theorem C69_service_day (e : Env) (b : Block) (out : List UtcTrip) (pre post : List Service)
    (trip : Nat) (f : FTrip) (ev : Ev)
    (hmem : (trip, f) ∈ b) (hev : f.events.head? = some ev) (hnd : (b.map (·.1)).Nodup)
    (h2 : ∀ x ∈ b, 2 ≤ x.2.events.length)
    (hother : ∀ s ∈ pre ++ post, trip ∉ s.trips.map (·.1))
    (hexp : expand e (b.map (·.2)) = some out)
    (hkey : ∀ g, g < e.nDays → e.noonOffset g ≠ -1)
    (hnoon : ∀ g, g < e.nDays → -720 ≤ e.noonOffset g ∧ e.noonOffset g ≤ 840)
    (hfd : 0 ≤ firstDep (b.map (·.2)) ∧ firstDep (b.map (·.2)) ≤ 40000)
    (off : Int) (hoff : ∀ x ∈ b, x.2.offset = off)
    (hmono : (localTimes (b.map (·.2))).Pairwise (· ≤ ·))
    (tt : TT) (htt : tt = addServices 0 (pre ++ servicesOf b out ++ post) emptyTT) (date : Nat) :
    (ServiceDay e (b.map (·.2)) date → ∃ r, (∀ r', r' ∈ resolveTrip tt date none trip ↔ r' = r) ∧
      utcDep tt r = (date : Int) * 1440 - e.noonOffset date + (ev.dep - f.offset)) ∧
    (¬ ServiceDay e (b.map (·.2)) date → resolveTrip tt date none trip = []) := by
  obtain ⟨hA, hB, hC⟩ := loaded e b out pre post trip f ev hmem hev hnd h2 hother hexp hkey hnoon hfd off hoff hmono tt htt
  constructor
  · intro hg
    obtain ⟨r, hr, hsd⟩ := hB date hg
    refine ⟨r, fun r' => ?_, ?_⟩
    · rw [C69_start_date]
      constructor
      · rintro ⟨h, h'⟩
        exact hC r' r h hr (by omega)
      · rintro rfl
        exact ⟨hr, hsd⟩
    · obtain ⟨g, -, hs, -, hu⟩ := hA r hr
      have : g = date := by omega
      subst this
      exact hu
  · intro hg
    rw [List.eq_nil_iff_forall_not_mem]
    intro r hr
    obtain ⟨h, h'⟩ := (C69_start_date tt trip date r).1 hr
    obtain ⟨g, hgs, hs, -⟩ := hA r h
    have : g = date := by omega
    subst this
    exact hg hgs

/-- C69 (loaded feed, start date and time): the lookup finds the run of service day `g` exactly for the
dates and times that denote its local departure `g` + scheduled time, and finds nothing for any other
date and time. -/
theorem C69_service_time (e : Env) (b : Block) (out : List UtcTrip) (pre post : List Service)
    (trip : Nat) (f : FTrip) (ev : Ev)
    (hmem : (trip, f) ∈ b) (hev : f.events.head? = some ev) (hnd : (b.map (·.1)).Nodup)
    (h2 : ∀ x ∈ b, 2 ≤ x.2.events.length)
    (hother : ∀ s ∈ pre ++ post, trip ∉ s.trips.map (·.1))
    (hexp : expand e (b.map (·.2)) = some out)
    (hkey : ∀ g, g < e.nDays → e.noonOffset g ≠ -1)
    (hnoon : ∀ g, g < e.nDays → -720 ≤ e.noonOffset g ∧ e.noonOffset g ≤ 840)
    (hfd : 0 ≤ firstDep (b.map (·.2)) ∧ firstDep (b.map (·.2)) ≤ 40000)
    (off : Int) (hoff : ∀ x ∈ b, x.2.offset = off)
    (hmono : (localTimes (b.map (·.2))).Pairwise (· ≤ ·))
    (tt : TT) (htt : tt = addServices 0 (pre ++ servicesOf b out ++ post) emptyTT)
    (hL0 : 0 ≤ ev.dep - f.offset)
    (date T : Int) (hT : 0 ≤ T) :
    (∀ g, ServiceDay e (b.map (·.2)) g → date * 1440 + T = g * 1440 + (ev.dep - f.offset) →
      ∃ r, (∀ r', r' ∈ resolveTrip tt date (some T) trip ↔ r' = r) ∧ serviceDate tt r = g ∧
        utcDep tt r = (g : Int) * 1440 - e.noonOffset g + (ev.dep - f.offset)) ∧
    ((∀ g, ServiceDay e (b.map (·.2)) g → date * 1440 + T ≠ g * 1440 + (ev.dep - f.offset)) →
      resolveTrip tt date (some T) trip = []) := by
  obtain ⟨hA, hB, hC⟩ := loaded e b out pre post trip f ev hmem hev hnd h2 hother hexp hkey hnoon hfd off hoff hmono tt htt
  have hL : ∀ x ∈ tt.ranges trip, (∃ d, d < 512 ∧ (tt.transport x.t).days d = true) → 0 ≤ startTime tt x := by
    rintro ⟨t, fr, to⟩ hx ⟨d, hd, hact⟩
    obtain ⟨g, -, hs, hz, hu⟩ := hA ⟨t, d, fr, to⟩ ⟨hx, hd, hact⟩
    unfold serviceDate at hs
    unfold utcDep at hu
    unfold startTime
    dsimp only at *
    omega
  constructor
  · intro g hg hdt
    obtain ⟨r, hr, hsd⟩ := hB g hg
    obtain ⟨g0, -, hs0, hz0, hu0⟩ := hA r hr
    have : g0 = g := by omega
    subst this
    refine ⟨r, fun r' => ?_, hsd, hu0⟩
    rw [C69_start_time tt trip date T hT hL]
    constructor
    · rintro ⟨h, h'⟩
      obtain ⟨g', -, hs', hz', hu'⟩ := hA r' h
      unfold localDep at h'
      rw [hz', hu'] at h'
      exact hC r' r h hr (by omega)
    · rintro rfl
      refine ⟨hr, ?_⟩
      unfold localDep
      rw [hz0, hu0]; omega
  · intro hno
    rw [List.eq_nil_iff_forall_not_mem]
    intro r hr
    obtain ⟨h, h'⟩ := (C69_start_time tt trip date T hT hL r).1 hr
    obtain ⟨g, hgs, hs, hz, hu⟩ := hA r h
    unfold localDep at h'
    rw [hz, hu] at h'
    exact hno g hgs (by omega)

/-! ### Non-vacuity and counterexamples -/

/-- Two trips of one block, 23:50–24:10 and 24:10–24:40, on service days 1 and 3, UTC offset 120 up to
day 2, then 60. -/
def demoBlock : Block :=
  [(7, { events := [⟨1430, 1430⟩, ⟨1450, 1450⟩], offset := 0 }),
   (8, { events := [⟨1450, 1450⟩, ⟨1465, 1465⟩, ⟨1480, 1480⟩], offset := 0 })]
def demoEnv : Env := { nDays := 6, traffic := fun g => g = 1 || g = 3,
                       noonOffset := fun g => if g < 2 then 120 else 60, selFrom := 0, selTo := 6 }
/-- An unrelated service registered before. -/
def demoOther : Service := ⟨[(5, 2)], ⟨0, 0, [10, 20], fun d => d = 1⟩⟩
def demoOut : List UtcTrip := (expand demoEnv (demoBlock.map (·.2))).getD []
def demoTT : TT :=
  { addServices 0 ([demoOther] ++ servicesOf demoBlock demoOut ++ []) emptyTT with
    ids := sortIds [([0, 66], 8), ([0, 65], 7), ([0, 65, 1], 5)] }

/-- The block satisfies the hypotheses of `C69_service_day` and `C69_service_time`. -/
example : (8, { events := [⟨1450, 1450⟩, ⟨1465, 1465⟩, ⟨1480, 1480⟩], offset := 0 }) ∈ demoBlock ∧
    (demoBlock.map (·.1)).Nodup ∧ (∀ x ∈ demoBlock, 2 ≤ x.2.events.length) ∧
    (∀ s ∈ [demoOther] ++ [], 8 ∉ s.trips.map (·.1)) ∧
    (expand demoEnv (demoBlock.map (·.2))).isSome ∧
    (∀ g, g < demoEnv.nDays → demoEnv.noonOffset g ≠ -1) ∧
    (∀ g, g < demoEnv.nDays → -720 ≤ demoEnv.noonOffset g ∧ demoEnv.noonOffset g ≤ 840) ∧
    (0 ≤ firstDep (demoBlock.map (·.2)) ∧ firstDep (demoBlock.map (·.2)) ≤ 40000) ∧
    (∀ x ∈ demoBlock, x.2.offset = 0) ∧ (localTimes (demoBlock.map (·.2))).Pairwise (· ≤ ·) := by
  decide +kernel

/-- Trip 8 on service day 3 (UTC offset 60): found by date, by date and "24:10", and by the following
date and "00:10"; not on day 2 and not at another time. -/
example : resolveTrip demoTT 3 none 8 = [⟨2, 3, 1, 4⟩] ∧ resolveTrip demoTT 3 (some 1450) 8 = [⟨2, 3, 1, 4⟩] ∧
    resolveTrip demoTT 4 (some 10) 8 = [⟨2, 3, 1, 4⟩] ∧ resolveTrip demoTT 2 none 8 = [] ∧
    resolveTrip demoTT 3 (some 1430) 8 = [] ∧ resolveTrip demoTT 1 none 8 = [⟨1, 1, 1, 4⟩] ∧
    tripsOf demoTT [0, 65] = [7] ∧
    resolve demoTT 0 { tripId := some [0, 66], date := some 1 } = some (some (⟨1, 1, 1, 4⟩, 8)) := by
  decide +kernel

/-- Counterexample (HRD): the HRD loader stores the raw `delta{0, 0}` as offset
(`src/loader/hrd/service/service_builder.cc:225`), which `to_offset` reads as "one day earlier, UTC-12".
A transport that runs on day 3 only is not found by date 3 (it is found by date 4). -/
theorem C69_hrd_false :
    let tt : TT := { emptyTT with
      transport := fun _ => { off := Delta.mk' 0 0, dep := fun k => 600 + 10 * k, days := fun d => d = 3,
                              sections := [0], numStops := 2 }
      ranges := fun _ => [⟨0, 0, 2⟩] }
    resolveTrip tt 3 none 0 = [] ∧ resolveTrip tt 4 none 0 = [⟨0, 3, 0, 2⟩] ∧
    resolveTrip tt 3 (some 600) 0 = [] := by
  decide +kernel

/-- Counterexample (`resolve` without a date): `nigiri::resolve` passes 1970-01-01 as today's date, so
without a start date it looks for a run on that day. No timetable that starts more than 30 days after
1970-01-01 has a run that is found. -/
theorem C69_api_needs_date (tt : TT) (epoch : Int) (he : epoch < -30) (id : TripId)
    (hoff : ∀ t, (tt.transport t).off.toOffset.1 ≤ 30) :
    resolveApi tt epoch id none none = none := by
  have hnil : ∀ trip, resolveTrip tt epoch none trip = [] := by
    intro trip
    rw [List.eq_nil_iff_forall_not_mem]
    intro r hr
    obtain ⟨-, h⟩ := (C69_start_date tt trip epoch r).1 hr
    unfold serviceDate at h
    have := hoff r.t
    omega
  unfold resolveApi resolve
  simp only [Option.getD_none, Option.join_some]
  obtain ⟨h1, -⟩ := lastFirst_spec tt epoch none (tripsOf tt id) _ rfl
  cases hl : lastFirst tt epoch none (tripsOf tt id) with
  | none => rfl
  | some x =>
    have := (h1 x.1 x.2 hl).2
    rw [hnil] at this
    cases this

example : resolveApi demoTT (-20000) [0, 66] none none = none ∧
    resolveApi demoTT (-20000) [0, 66] (some 1) none = some (⟨1, 1, 1, 4⟩, 8) := by decide +kernel

end Nigiri.Resolve
