import Verif.Model.Ticketing
import Verif.Props.GtfsTrips
import Verif.Props.Resolve

/-! # C131: agencies by id and the ticketing extension -/

namespace Nigiri.Ticketing

/-! ## Agencies by id -/

theorem keyAt_mem {a : Agencies} (h : Sorted a) {p : Nat} {x : Nat × Nat} (hp : a.providers[p]? = some x) :
    ∃ i, i < a.order.length ∧ a.order[i]? = some p ∧ keyAt a i = some x := by
  have hm : p ∈ a.order := h.1.mem_iff.mpr (List.mem_range.mpr (GtfsRoutes.getElem?_lt hp))
  obtain ⟨i, hi⟩ := List.mem_iff_getElem?.mp hm
  refine ⟨i, GtfsRoutes.getElem?_lt hi, hi, ?_⟩
  unfold keyAt
  rw [hi]
  exact hp

theorem keyAt_some {a : Agencies} (h : Sorted a) {i : Nat} (hi : i < a.order.length) : ∃ x, keyAt a i = some x := by
  have hm : a.order[i] ∈ List.range a.providers.length := h.1.mem_iff.mp (List.getElem_mem hi)
  rw [List.mem_range] at hm
  refine ⟨a.providers[a.order[i]], ?_⟩
  unfold keyAt
  rw [List.getElem?_eq_getElem hi]
  exact List.getElem?_eq_getElem hm

theorem keyLt_total {x y : Nat × Nat} (h1 : keyLt x y = false) (h2 : keyLt y x = false) : x = y := by
  obtain ⟨x1, x2⟩ := x
  obtain ⟨y1, y2⟩ := y
  unfold keyLt at h1 h2
  simp only [Bool.or_eq_false_iff, decide_eq_false_iff_not, Bool.and_eq_false_iff] at h1 h2
  have e1 : x1 = y1 := by omega
  have e2 : x2 = y2 := by omega
  rw [e1, e2]

theorem keyLt_trans {x y z : Nat × Nat} (h1 : keyLt y x = false) (h2 : keyLt y z = true) : keyLt x z = true := by
  obtain ⟨x1, x2⟩ := x
  obtain ⟨y1, y2⟩ := y
  obtain ⟨z1, z2⟩ := z
  unfold keyLt at h1 h2 ⊢
  simp only [Bool.or_eq_false_iff, decide_eq_false_iff_not, Bool.and_eq_false_iff, Bool.or_eq_true, Bool.and_eq_true,
    decide_eq_true_eq] at h1 h2 ⊢
  omega

theorem keyLt_irrefl (x : Nat × Nat) : keyLt x x = false := by
  unfold keyLt; simp

/-- **C131 (agencies)**: in a finished timetable an agency id of a feed is found iff the feed has an agency with the id,
and the provider found has this id and belongs to the feed. -/
theorem C131_lookup (a : Agencies) (hs : StringStore.Inv a.strings) (h : Sorted a) (id : String) (src : Nat) :
    (∀ p, getProvider a id src = some p → ∃ k, a.providers[p]? = some (src, k) ∧ a.strings.get k = some id) ∧
    (getProvider a id src = none → ∀ (p k : Nat), a.providers[p]? = some (src, k) → a.strings.get k ≠ some id) := by
  unfold getProvider
  cases hf : a.strings.find id with
  | none =>
    refine ⟨(fun p hp => by cases hp), fun _ p k _ hk => ?_⟩
    have := (StringStore.find_iff hs id k).mpr hk
    rw [hf] at this
    cases this
  | some k =>
    have hk := (StringStore.find_iff hs id k).mp hf
    dsimp only
    have hmono : ∀ i j, 0 ≤ i → i ≤ j → j < 0 + a.order.length →
        (match keyAt a j with | some x => keyLt x (src, k) | none => false) = true →
        (match keyAt a i with | some x => keyLt x (src, k) | none => false) = true := by
      intro i j _ hij hj hp
      obtain ⟨x, hx⟩ := keyAt_some h (show i < a.order.length by omega)
      obtain ⟨y, hy⟩ := keyAt_some h (show j < a.order.length by omega)
      rw [hy] at hp
      rw [hx]
      exact keyLt_trans (h.2 i j x y hij hx hy) hp
    obtain ⟨-, l2, l3, l4⟩ := Resolve.lowerBound_spec _ 0 a.order.length hmono
    revert l2 l3 l4
    generalize Resolve.lowerBound _ 0 a.order.length = b
    intro l2 l3 l4
    constructor
    · intro p hp
      split at hp
      · cases hp
      · split at hp
        · next h1 => cases hp; exact ⟨k, h1, hk⟩
        · cases hp
    · intro hn p k' hp hk'
      have e : k' = k := hs.inj k' k id hk' hk
      subst e
      obtain ⟨i, hi1, hi2, hi3⟩ := keyAt_mem h hp
      have hbi : b ≤ i := by
        by_cases hbi : b ≤ i
        · exact hbi
        · have := l3 i (by omega) (by omega)
          rw [hi3] at this
          rw [show (match some (src, k') with | some x => keyLt x (src, k') | none => false) = keyLt (src, k') (src, k')
            from rfl, keyLt_irrefl] at this
          cases this
      have hb : b < a.order.length := by omega
      obtain ⟨x, hx⟩ := keyAt_some h hb
      have h4 := l4 b (Nat.le_refl _) (by omega)
      rw [hx] at h4
      have hxe : x = (src, k') := keyLt_total h4 (h.2 b i x _ hbi hx hi3)
      subst hxe
      unfold keyAt at hx
      cases ho : a.order[b]? with
      | none => rw [ho] at hx; cases hx
      | some q =>
        rw [ho] at hx hn
        dsimp only at hn
        rw [if_pos (show a.providers[q]? = some (src, k') from hx)] at hn
        cases hn

/-! ## Identifiers of stops -/

/-- **C131 (identifiers)**: each stop has, besides earlier ones, the identifiers of the rows which name it, with the
provider of the row's agency; rows with unknown stops change nothing. (The order within a stop, by provider, is made by
a sort.) -/
theorem C131_identifiers (stops provider : String → Option Nat) (acc : List (List (Option Nat × String)))
    (rows : List IdRow) (l : Nat) :
    (readIdentifiers stops provider acc rows)[l]? = (acc[l]?).map fun b =>
      b ++ (rows.filter (fun r => decide (stops r.stop = some l))).map fun r => (provider r.agency, r.ticketId) := by
  induction rows using Vdv.snoc_ind with
  | h0 => show acc[l]? = _; simp
  | h rows r ih =>
    have hstep : readIdentifiers stops provider acc (rows ++ [r]) =
        idStep stops provider (readIdentifiers stops provider acc rows) r := by
      unfold readIdentifiers; rw [List.foldl_append]; rfl
    rw [hstep, List.filter_append, List.map_append]
    unfold idStep
    cases hs : stops r.stop with
    | none => simpa [hs] using ih
    | some j =>
      dsimp only
      rw [List.getElem?_modify, ih]
      by_cases hj : j = l
      · subst hj
        cases acc[j]? with
        | none => simp
        | some b => simp [hs]
      · have : ¬ some j = some l := fun h => hj (Option.some.inj h)
        cases acc[l]? with
        | none => simp
        | some b => simp [hs, hj]

/-! ## Links -/

/-- **C131 (links)**: all links are stored in order, and an id refers to its first row. -/
theorem C131_links (old : List (String × String × String)) (rows : List LinkRow) :
    (readLinks old rows).1 = old ++ rows.map (fun r => (r.web, r.android, r.ios)) ∧
    ∀ id, (readLinks old rows).2.lookup id =
      ((GtfsTrips.positions (fun r : LinkRow => decide (r.id = id)) rows).head?).map (old.length + ·) := by
  induction rows using Vdv.snoc_ind with
  | h0 => exact ⟨by simp [readLinks], fun id => rfl⟩
  | h rows r ih =>
    obtain ⟨i1, i2⟩ := ih
    have hstep : readLinks old (rows ++ [r]) =
        ((readLinks old rows).1 ++ [(r.web, r.android, r.ios)],
          GtfsRoutes.emplace (readLinks old rows).2 r.id (readLinks old rows).1.length) := by
      unfold readLinks; rw [List.foldl_append]; rfl
    rw [hstep]
    refine ⟨by simp [i1], fun id => ?_⟩
    rw [GtfsTrips.positions_snoc, GtfsTrips.lookup_emplace, i2, i1]
    by_cases hk : r.id = id
    · subst hk
      rw [if_pos rfl]
      cases GtfsTrips.positions (fun y : LinkRow => decide (y.id = r.id)) rows <;> simp
    · rw [if_neg (Ne.symm hk)]
      cases GtfsTrips.positions (fun y : LinkRow => decide (y.id = id)) rows <;> simp [hk]

/-- **C131 (agencies and routes with links)**: if every link that is named exists and every target is valid, each
agency or route gets the link it names and all others keep theirs, in whatever order the hash map is iterated. -/
theorem C131_set_links_partial (links : List (String × Nat)) (es : List (Option Nat × String)) :
    ∀ target : List (Option Nat), (es.map (fun e => e.1)).Nodup →
    (∀ e ∈ es, ∃ (k l : Nat), e.1 = some k ∧ k < target.length ∧ links.lookup e.2 = some l) →
    ∃ r, setLinks links target es = some r ∧ r.length = target.length ∧
      (∀ (k : Nat) (id : String), (some k, id) ∈ es → r[k]? = some (links.lookup id)) ∧
      (∀ k : Nat, (∀ e ∈ es, e.1 ≠ some k) → r[k]? = target[k]?) := by
  induction es with
  | nil =>
    intro target _ _
    exact ⟨target, rfl, rfl, fun _ _ h => absurd h List.not_mem_nil, fun _ _ => rfl⟩
  | cons e es ih =>
    intro target hn hk
    obtain ⟨e1, id⟩ := e
    rw [List.map_cons, List.nodup_cons] at hn
    obtain ⟨k, l, h1, h2, h3⟩ := hk (e1, id) List.mem_cons_self
    dsimp only at h1 h3 hn
    subst h1
    obtain ⟨r, r1, r2, r3, r4⟩ := ih (target.set k (some l)) hn.2 (fun e he => by
      obtain ⟨k', l', a, b, c⟩ := hk e (List.mem_cons_of_mem _ he)
      exact ⟨k', l', a, by rw [List.length_set]; exact b, c⟩)
    refine ⟨r, ?_, by rw [r2, List.length_set], ?_, ?_⟩
    · unfold setLinks
      rw [h3]
      dsimp only
      rw [if_pos h2]
      exact r1
    · intro k' id' hm
      rcases List.mem_cons.mp hm with he | he
      · cases he
        rw [r4 k (fun e he h => hn.1 (by rw [← h]; exact List.mem_map_of_mem he)), h3]
        simp [h2]
      · exact r3 k' id' he
    · intro k' hne
      rw [r4 k' (fun e he => hne e (List.mem_cons_of_mem _ he))]
      have : k ≠ k' := fun h => hne _ List.mem_cons_self (by rw [h])
      rw [List.getElem?_set_ne this]

/-- **Finding**: a link that is not in `ticketing_deep_links.txt` (or a link of an agency the script rejected) aborts the
import. -/
theorem C131_unknown_link (links : List (String × Nat)) (es : List (Option Nat × String)) :
    ∀ target : List (Option Nat), (∃ e ∈ es, e.1 = none ∨ links.lookup e.2 = none) →
    setLinks links target es = none := by
  induction es with
  | nil => rintro _ ⟨_, h, _⟩; exact absurd h List.not_mem_nil
  | cons e es ih =>
    intro target hex
    obtain ⟨e1, id⟩ := e
    unfold setLinks
    cases e1 with
    | none => rfl
    | some k =>
      cases hl : links.lookup id with
      | none => rfl
      | some l =>
        dsimp only
        split
        · apply ih
          obtain ⟨x, hx, h⟩ := hex
          rcases List.mem_cons.mp hx with rfl | hx
          · rcases h with h | h
            · cases h
            · rw [hl] at h; cases h
          · exact ⟨x, hx, h⟩
        · rfl

/-! ## Trips -/

/-- All bits that are to be set exist. -/
def Fits (s : TripBits) (ts : List TripIn) : Prop :=
  ∀ t ∈ ts, (t.unavailable = true → t.idx < s.trips.length) ∧ ∀ l ∈ t.stops, l < s.locations.length

theorem setBits_spec (ls : List Nat) : ∀ bits : List Bool, (∀ l ∈ ls, l < bits.length) →
    ∃ r, setBits bits ls = some r ∧ r.length = bits.length ∧
      ∀ i : Nat, r[i]? = some true ↔ bits[i]? = some true ∨ i ∈ ls := by
  induction ls with
  | nil => exact fun bits _ => ⟨bits, rfl, rfl, fun i => by simp⟩
  | cons l ls ih =>
    intro bits h
    have hl := h l List.mem_cons_self
    obtain ⟨r, r1, r2, r3⟩ := ih (bits.set l true) (fun x hx => by
      rw [List.length_set]; exact h x (List.mem_cons_of_mem _ hx))
    refine ⟨r, ?_, by rw [r2, List.length_set], fun i => ?_⟩
    · unfold setBits setBit
      rw [if_pos hl]
      exact r1
    · rw [r3, List.getElem?_set, List.mem_cons]
      by_cases hi : l = i
      · subst hi; simp [hl]
      · have : ¬ i = l := fun e => hi e.symm
        simp [hi, this]

/-- **C131 (trips)**: if the bit vectors have bits for all trips and stops concerned, tickets are unavailable for exactly
the trips and stops marked so (or marked before), and a trip gets the ticketing ids of its rows. -/
theorem C131_trips_partial (ts : List TripIn) : ∀ s : TripBits, Fits s ts →
    ∃ r, loadTrips s ts = some r ∧
      (∀ i : Nat, r.trips[i]? = some true ↔ s.trips[i]? = some true ∨ ∃ t ∈ ts, t.idx = i ∧ t.unavailable = true) ∧
      (∀ i : Nat, r.locations[i]? = some true ↔ s.locations[i]? = some true ∨ ∃ t ∈ ts, i ∈ t.stops) ∧
      (∀ i : Nat, r.ids[i]? = (s.ids[i]?).map fun b =>
        b ++ (ts.filter fun t => decide (t.idx = i ∧ t.ticketId ≠ "")).map fun t => t.ticketId) := by
  induction ts with
  | nil => exact fun s _ => ⟨s, rfl, fun i => by simp, fun i => by simp, fun i => by simp⟩
  | cons t ts ih =>
    intro s hf
    obtain ⟨f1, f2⟩ := hf t List.mem_cons_self
    obtain ⟨b, b1, b2, b3⟩ := setBits_spec t.stops s.locations f2
    have hm : ∃ a, markTrip s.trips t = some a ∧ a.length = s.trips.length ∧
        ∀ i : Nat, a[i]? = some true ↔ s.trips[i]? = some true ∨ (t.idx = i ∧ t.unavailable = true) := by
      unfold markTrip
      by_cases hu : t.unavailable = true
      · rw [if_pos hu]
        unfold setBit
        rw [if_pos (f1 hu)]
        refine ⟨_, rfl, List.length_set .., fun i => ?_⟩
        rw [List.getElem?_set]
        by_cases hi : t.idx = i
        · subst hi; simp [hu, f1 hu]
        · simp [hi]
      · rw [if_neg hu]
        exact ⟨_, rfl, rfl, fun i => by simp [hu]⟩
    obtain ⟨a, a1, a2, a3⟩ := hm
    obtain ⟨r, r1, r2, r3, r4⟩ := ih ⟨a, b, nameTrip s.ids t⟩ (fun x hx => by
      obtain ⟨g1, g2⟩ := hf x (List.mem_cons_of_mem _ hx)
      exact ⟨fun h => by dsimp only; rw [a2]; exact g1 h, fun l hl => by dsimp only; rw [b2]; exact g2 l hl⟩)
    refine ⟨r, ?_, fun i => ?_, fun i => ?_, fun i => ?_⟩
    · unfold loadTrips
      rw [a1, b1]
      exact r1
    · rw [r2]
      dsimp only
      rw [a3, or_assoc]
      simp [List.mem_cons]
    · rw [r3]
      dsimp only
      rw [b3, or_assoc]
      simp [List.mem_cons]
    · rw [r4]
      dsimp only
      unfold nameTrip
      by_cases hn : t.ticketId = ""
      · rw [if_pos hn]
        rw [List.filter_cons_of_neg (by simp [hn])]
      · rw [if_neg hn, List.getElem?_modify]
        by_cases hi : t.idx = i
        · subst hi
          rw [List.filter_cons_of_pos (by simp [hn])]
          cases s.ids[t.idx]? with
          | none => rfl
          | some l => simp
        · rw [List.filter_cons_of_neg (by simp [hi])]
          cases s.ids[i]? with
          | none => rfl
          | some l => simp [hi]

/-- **Finding**: the loader never gives these two vectors a size: every feed which marks a trip or a stop writes beyond
their end. -/
theorem C131_unsized_counterexample (ids : List (List String)) (t : TripIn) (ts : List TripIn)
    (h : t.unavailable = true ∨ t.stops ≠ []) : loadTrips ⟨[], [], ids⟩ (t :: ts) = none := by
  have h2 : t.stops ≠ [] → setBits [] t.stops = none := by
    intro hs
    cases hst : t.stops with
    | nil => exact absurd hst hs
    | cons l ls => rfl
  have h1 : t.unavailable = true → markTrip [] t = none := by
    intro hu; unfold markTrip; rw [if_pos hu]; rfl
  unfold loadTrips
  dsimp only
  rcases h with h | h
  · rw [h1 h]
  · rw [h2 h]
    cases markTrip [] t <;> rfl

/-! ### Examples -/

/-- Two feeds; the second has the agencies "b" and "a", of which "a" is also an agency of the first. -/
def demoStrings : StringStore String := ((({} : StringStore String).store "a").1.store "b").1

/-- After `finalize`. -/
def demoAgencies : Agencies := ⟨demoStrings, [(0, 0), (1, 1), (1, 0)], [0, 2, 1]⟩

theorem C131_lookup_example : getProvider demoAgencies "a" 1 = some 2 ∧ getProvider demoAgencies "b" 1 = some 1 ∧
    getProvider demoAgencies "b" 0 = none := by
  decide +kernel

example : Sorted demoAgencies := by
  refine ⟨by decide, fun i j x y hij hx hy => ?_⟩
  have hi := GtfsRoutes.getElem?_lt (l := demoAgencies.order) (i := i) (x := (demoAgencies.order[i]?).getD 0) (by
    unfold keyAt at hx
    cases h : demoAgencies.order[i]? with
    | none => rw [h] at hx; cases hx
    | some _ => rfl)
  have hj := GtfsRoutes.getElem?_lt (l := demoAgencies.order) (i := j) (x := (demoAgencies.order[j]?).getD 0) (by
    unfold keyAt at hy
    cases h : demoAgencies.order[j]? with
    | none => rw [h] at hy; cases hy
    | some _ => rfl)
  have hi' : i < 3 := hi
  have hj' : j < 3 := hj
  have key : ∀ i, i < 3 → ∀ j, j < 3 → i ≤ j →
      (match keyAt demoAgencies i, keyAt demoAgencies j with | some x, some y => !keyLt y x | _, _ => true) = true := by
    decide
  have := key i hi' j hj' hij
  rw [hx, hy] at this
  simpa using this

/-- **Finding**: `load_ticketing` looks agencies up while the feed is loaded, before `finalize` sorts them: the agency "a"
of the second feed is not found, since its id is older than that of "b". The identifiers of its stops belong to no
agency. -/
theorem C131_unsorted_counterexample :
    getProvider ⟨demoStrings, [(0, 0), (1, 1), (1, 0)], [0, 1, 2]⟩ "a" 1 = none := by
  decide +kernel

example : loadTrips ⟨[false, false], [false, false, false], [[], []]⟩ [⟨0, true, [], "x"⟩, ⟨1, false, [2, 0], ""⟩] =
    some ⟨[true, false], [true, false, true], [["x"], []]⟩ := by
  decide

end Nigiri.Ticketing
