import Verif.Model.FeedNet
import Verif.Spec.FeedNet
import Verif.Props.Raptor
/-!
# Property C136: from the feed to the journeys
-/

namespace Nigiri.FeedNet

open Raptor hiding Stop Route FlagData
open WriteTrips

/-- Transport `t` of route `R` is service `s`. -/
structure Rep {B : Type} (f : Feed) (active : B → Int → Bool) (R : RouteData) (t : Nat) (s : UtcTrip B) : Prop where
  seq : ∃ st, getStopSeq f s = some st ∧ R.stops = st.map stopData
  tr : t < R.nTr
  days : ∀ day, R.days t day = active s.days day
  clasz : R.clasz = classOf f s
  dep : ∀ i, i + 1 < R.stops.length → s.times[2 * i]? = some (R.dep t i)
  arr : ∀ i, i + 1 < R.stops.length → s.times[2 * i + 1]? = some (R.arr t (i + 1))
  sec : R.stops.length = (sections f s.trips).length + 1
  two : 2 ≤ R.stops.length
  flags : ∀ g, g < numFlags → ∃ sec, R.secFlags[g]? = some sec ∧ sec.length + 1 = R.stops.length ∧
    ∀ (i : Nat) (x : Nat × Nat), (sections f s.trips)[i]? = some x → sec[i]? = some ((f.trip x.1).flag g)

theorem sections_pos {B : Type} {f : Feed} {s : UtcTrip B} (hs : Good f s) : 0 < (sections f s.trips).length := by
  obtain ⟨t, ts, e⟩ := List.exists_cons_of_ne_nil hs.ne
  rw [e, sections_cons, List.length_append, sections_length_single]
  have := hs.two t (by rw [e]; exact List.mem_cons_self)
  omega

theorem rep_of {B : Type} {f : Feed} {active : B → Int → Bool} {w : Tt B} {s : UtcTrip B} (hs : Good f s) {t r : Nat} {tr : Transport}
    {rt : Route} {last : Nat} (htr : w.transports[t]? = some tr) (hr : tr.route = r) (hrt : w.routes[r]? = some rt)
    (hl : rt.last = some last) (h1 : rt.first ≤ t) (h2 : t < last) (h : Shows w t f s) :
    Rep f active (routeOf w active r rt) (t - rt.first) s := by
  obtain ⟨tr', rt', c1, c2, c3, c4, c5, c6, c7, c8⟩ := h
  rw [htr, Option.some.injEq] at c1
  subst c1
  rw [hr, hrt, Option.some.injEq] at c2
  subst c2
  rw [hr] at c7 c8
  have e : rt.first + (t - rt.first) = t := by omega
  have hsl := stops_length f s hs rt.seq c4
  have hlen : (routeOf w active r rt).stops.length = rt.seq.length := List.length_map _
  have hpos := sections_pos hs
  refine ⟨⟨rt.seq, c4, rfl⟩, ?_, ?_, c3, ?_, ?_, by rw [hlen, hsl], by rw [hlen, hsl]; omega, ?_⟩
  · show t - rt.first < rt.last.getD rt.first - rt.first
    rw [hl]; simp only [Option.getD_some]; omega
  · intro day
    show isActive w active (rt.first + (t - rt.first)) day = _
    unfold isActive
    rw [e, htr, Option.bind_some, c6]; rfl
  · intro i hi
    obtain ⟨dep, arr, d1, d2, d3, d4⟩ := c7 i (by rw [← hlen]; exact hi)
    show _ = some ((eventMam w r (rt.first + (t - rt.first)) i false).getD 0)
    rw [e, d3, d1]; rfl
  · intro i hi
    obtain ⟨dep, arr, d1, d2, d3, d4⟩ := c7 i (by rw [← hlen]; exact hi)
    show _ = some ((eventMam w r (rt.first + (t - rt.first)) (i + 1) true).getD 0)
    rw [e, d4, d2]; rfl
  · intro g hg
    refine ⟨(List.range (rt.seq.length - 1)).map fun i => (readFlag (w.flags g) r i).getD false, ?_, ?_, ?_⟩
    · simp only [routeOf, List.getElem?_map, List.getElem?_range hg, Option.map_some]
    · rw [hlen, List.length_map, List.length_range]; omega
    · intro i x hx
      have hi := (List.getElem?_eq_some_iff.mp hx).1
      rw [List.getElem?_map, List.getElem?_range (by omega)]
      simp only [Option.map_some]
      rw [(c8 i x hx).2.2.2 g hg]; rfl

section
variable {B : Type} [DecidableEq B] {f : Feed} {ss : List (UtcTrip B)} {w0 w : Tt B}

/-- Every transport of a route of an imported timetable is a service. -/
theorem service_of (h : Imported f ss w0 w) (h0 : w0.routes = []) (ht0 : w0.transports = []) (active : B → Int → Bool)
    {R : RouteData} {E : Net} (hR : R ∈ (netOf w active E).routes) {t : Nat} (ht : t < R.nTr) : ∃ s ∈ ss, Rep f active R t s := by
  obtain ⟨order, hp, hd⟩ := h.done
  obtain ⟨r, hr, e⟩ := List.mem_mapIdx.mp hR
  have hrt : w.routes[r]? = some w.routes[r] := List.getElem?_eq_getElem hr
  generalize w.routes[r] = rt at hrt e
  subst e
  obtain ⟨svc, a1, a2, a3⟩ := hd.order r rt (by rw [h0]; exact Nat.zero_le _) hrt
  have hlt : t < svc.length := by
    have : t < rt.last.getD rt.first - rt.first := ht
    rw [a2] at this; simp only [Option.getD_some] at this; omega
  obtain ⟨_, tr, b1, b2⟩ := a3 t _ (List.getElem?_eq_getElem hlt)
  have hlen := (List.getElem?_eq_some_iff.mp b1).1
  have hl := hd.len
  rw [ht0] at hl
  simp only [List.length_nil, Nat.zero_add] at hl
  have hsh := hd.shows (rt.first + t) _ (List.getElem?_eq_getElem (by omega))
  rw [ht0] at hsh
  simp only [List.length_nil, Nat.zero_add] at hsh
  have hmem : order[rt.first + t] ∈ ss := hp.mem_iff.mp (List.getElem_mem _)
  have := rep_of (active := active) (h.good _ hmem) b1 b2 hrt a2 (by omega) (by omega) hsh
  rw [show rt.first + t - rt.first = t by omega] at this
  exact ⟨_, hmem, this⟩

/-- Every service is a transport of a route of the imported timetable. -/
theorem transport_of (h : Imported f ss w0 w) (ht0 : w0.transports = []) (active : B → Int → Bool) (E : Net)
    {s : UtcTrip B} (hs : s ∈ ss) : ∃ R ∈ (netOf w active E).routes, ∃ t, Rep f active R t s := by
  obtain ⟨order, hp, hd⟩ := h.done
  obtain ⟨i, hi⟩ := List.mem_iff_getElem?.mp (hp.mem_iff.mpr hs)
  have hsh := hd.shows i s hi
  rw [ht0] at hsh
  simp only [List.length_nil, Nat.zero_add] at hsh
  obtain ⟨tr, rt0, c1, _⟩ := hsh
  obtain ⟨_, rt, last, d1, d2, d3, d4⟩ := hd.cover i tr (by rw [ht0]; exact Nat.zero_le _) c1
  refine ⟨_, List.mem_mapIdx.mpr ⟨tr.route, (List.getElem?_eq_some_iff.mp d1).1, rfl⟩, i - rt.first, ?_⟩
  rw [(List.getElem?_eq_some_iff.mp d1).2]
  exact rep_of (h.good s hs) c1 rfl d1 d2 d3 d4 (by
    have := hd.shows i s hi
    rw [ht0] at this
    simpa using this)

theorem mem_stops {R : RouteData} {st : List Stop} (h : R.stops = st.map stopData) {i : Nat} {x : StopData} (hx : R.stops[i]? = some x) :
    ∃ y, st[i]? = some y ∧ x = stopData y := by
  rw [h, List.getElem?_map] at hx
  obtain ⟨y, h1, h2⟩ := Option.map_eq_some_iff.mp hx
  exact ⟨y, h1, h2.symm⟩

theorem flagOn_iff {sec : List Bool} {n k : Nat} {v : Bool} (hl : sec.length + 1 = n) (hk : k + 1 < n) (h : sec[k]? = some v) :
    FlagOn sec k ↔ v = true := by
  unfold FlagOn
  have e : (if sec.length = 1 then 0 else k) = k := by split <;> omega
  rw [e, List.getD_eq_getElem?_getD, h]; rfl

/-- C136: what can be ridden in the imported timetable is exactly what can be ridden with the services of the
feed. -/
theorem C136_rides (h : Imported f ss w0 w) (h0 : w0.routes = []) (ht0 : w0.transports = []) (active : B → Int → Bool) (E : Net)
    (hE : E.required.length = numFlags) (x : Loc) (tdep : Int) (y : Loc) (tarr : Int) :
    NetRide (netOf w active E) x tdep y tarr ↔ FeedRide f ss active E x tdep y tarr := by
  constructor
  · rintro (⟨R, hR, t, day, ht, hday, hc, i, j, si, sj, h1, h2, h3, h4, h5, h6, h7, h8, h9, h10⟩ | ⟨r, hr, _⟩)
    · obtain ⟨s, hs, hrep⟩ := service_of h h0 ht0 active hR ht
      obtain ⟨st, hst, hmap⟩ := hrep.seq
      obtain ⟨a, ha, rfl⟩ := mem_stops hmap h2
      obtain ⟨b, hb, rfl⟩ := mem_stops hmap h3
      have hj := (List.getElem?_eq_some_iff.mp h3).1
      refine ⟨s, hs, day, by rw [← hrep.days]; exact hday, st, i, j, a, b, R.dep t i, R.arr t j, hst, h1, ha, hb, ⟨h4, h6⟩, ⟨h5, h7⟩,
        by rw [← hrep.clasz]; exact hc, ?_, ⟨hrep.dep i (by omega), h9⟩, ?_, h10⟩
      · intro k sec hk1 hk2 hsec g hg
        have hg' : g < numFlags := by rw [← hE]; exact (List.getElem?_eq_some_iff.mp hg).1
        obtain ⟨fl, f1, f2, f3⟩ := hrep.flags g hg'
        exact (flagOn_iff f2 (by omega) (f3 k sec hsec)).mp (h8 k hk1 hk2 g fl hg f1)
      · have := hrep.arr (j - 1) (by omega)
        rwa [show 2 * (j - 1) + 1 = 2 * j - 1 by omega, show j - 1 + 1 = j by omega] at this
    · exact absurd hr List.not_mem_nil
  · rintro ⟨s, hs, day, hday, st, i, j, si, sj, dep, arr, hr⟩
    obtain ⟨R, hR, t, hrep⟩ := transport_of h ht0 active E hs
    obtain ⟨st', hst, hmap⟩ := hrep.seq
    rw [hr.stops, Option.some.injEq] at hst
    subst hst
    have hj := (List.getElem?_eq_some_iff.mp hr.to_).1
    have hlt := hr.lt
    have hlen : R.stops.length = st.length := by rw [hmap, List.length_map]
    refine Or.inl ⟨R, hR, t, day, hrep.tr, by rw [hrep.days]; exact hday, by rw [hrep.clasz]; exact hr.clasz, i, j, stopData si, stopData sj, hlt, ?_, ?_,
      hr.board.1, hr.alight.1, hr.board.2, hr.alight.2, ?_, ?_, ?_⟩
    · rw [hmap, List.getElem?_map, hr.from_]; rfl
    · rw [hmap, List.getElem?_map, hr.to_]; rfl
    · intro k hk1 hk2 g fl hg hfl
      have hg' : g < numFlags := by rw [← hE]; exact (List.getElem?_eq_some_iff.mp hg).1
      obtain ⟨fl', f1, f2, f3⟩ := hrep.flags g hg'
      rw [hfl, Option.some.injEq] at f1
      subst f1
      have hsl := hrep.sec
      have hk : k < (sections f s.trips).length := by omega
      have hsec := List.getElem?_eq_getElem hk
      exact (flagOn_iff f2 (by omega) (f3 k _ hsec)).mpr (hr.flags k _ hk1 hk2 hsec g hg)
    · have := hrep.dep i (by omega)
      rw [hr.dep.1, Option.some.injEq] at this
      rw [hr.dep.2, this]; rfl
    · have := hrep.arr (j - 1) (by omega)
      rw [show 2 * (j - 1) + 1 = 2 * j - 1 by omega, show j - 1 + 1 = j by omega, hr.arr.1, Option.some.injEq] at this
      rw [hr.arr.2, this]; rfl

theorem rideDir_iff (h : Imported f ss w0 w) (h0 : w0.routes = []) (ht0 : w0.transports = []) (active : B → Int → Bool) (E : Net)
    (hE : E.required.length = numFlags) (d : Dir) (l : Loc) (t : Int) (m : Loc) (a : Int) :
    RideDir d (netOf w active E) l t m a ↔ RideBy d (FeedRide f ss active E) l t m a := by
  cases d <;> simp only [RideDir, RideBy, C136_rides h h0 ht0 active E hE]

/-- C136: the journeys in the imported timetable are those with the services of the feed. -/
theorem C136_journeys (h : Imported f ss w0 w) (h0 : w0.routes = []) (ht0 : w0.transports = []) (active : B → Int → Bool) (E : Net)
    (hE : E.required.length = numFlags) (d : Dir) (n : Nat) (l : Loc) (t A : Int) :
    Journey d (netOf w active E) n l t A ↔ JourneyBy d E (FeedRide f ss active E) n l t A := by
  constructor
  · intro hj
    induction hj with
    | last h1 h2 => exact .last ((rideDir_iff h h0 ht0 active E hE ..).mp h1) h2
    | more h1 h2 _ ih => exact .more ((rideDir_iff h h0 ht0 active E hE ..).mp h1) h2 ih
  · intro hj
    induction hj with
    | last h1 h2 => exact .last ((rideDir_iff h h0 ht0 active E hE ..).mpr h1) h2
    | more h1 h2 _ ih => exact .more ((rideDir_iff h h0 ht0 active E hE ..).mpr h1) h2 ih

/-- In an imported route the trips are in the order of their times of day. -/
theorem route_sorted (h : Imported f ss w0 w) (h0 : w0.routes = []) (active : B → Int → Bool) {E : Net} {R : RouteData}
    (hR : R ∈ (netOf w active E).routes) (t t' : Nat) (h1 : t < t') (h2 : t' < R.nTr) (i : Nat) (hi : i + 1 < R.stops.length) :
    R.dep t i % 1440 ≤ R.dep t' i % 1440 ∧ R.arr t (i + 1) % 1440 ≤ R.arr t' (i + 1) % 1440 := by
  obtain ⟨r, hr, e⟩ := List.mem_mapIdx.mp hR
  have hrt : w.routes[r]? = some w.routes[r] := List.getElem?_eq_getElem hr
  generalize w.routes[r] = rt at hrt e
  subst e
  obtain ⟨last, a1, a2, a3⟩ := C132_order f ss w0 w h r rt (by rw [h0]; exact Nat.zero_le _) hrt
  have h2' : t' < rt.last.getD rt.first - rt.first := h2
  rw [a1] at h2'; simp only [Option.getD_some] at h2'
  obtain ⟨⟨x, y, b1, b2, b3⟩, x', y', b4, b5, b6⟩ := a3 (rt.first + t) (rt.first + t') i (by omega) (by omega) (by omega) (by
    rw [show (routeOf w active r rt).stops.length = rt.seq.length from List.length_map _] at hi; exact hi)
  constructor
  · show (eventMam w r (rt.first + t) i false).getD 0 % 1440 ≤ (eventMam w r (rt.first + t') i false).getD 0 % 1440
    rw [b1, b2]; exact b3
  · show (eventMam w r (rt.first + t) (i + 1) true).getD 0 % 1440 ≤ (eventMam w r (rt.first + t') (i + 1) true).getD 0 % 1440
    rw [b4, b5]; exact b6

theorem board_sorted (h : Imported f ss w0 w) (h0 : w0.routes = []) (active : B → Int → Bool) {E : Net} {R : RouteData}
    (hR : R ∈ (netOf w active E).routes) (d : Dir) : ∀ t t', t < t' → t' < R.nTr → ∀ i, i + 1 < R.stops.length →
      R.evBoard d t i % 1440 ≤ R.evBoard d t' i % 1440 := by
  intro t t' h1 h2 i hi
  cases d with
  | fwd => exact (route_sorted h h0 active hR t t' h1 h2 i hi).1
  | bwd =>
    have := (route_sorted h h0 active hR t t' h1 h2 (R.stops.length - 1 - i - 1) (by omega)).2
    rwa [show R.stops.length - 1 - i - 1 + 1 = R.stops.length - 1 - i by omega] at this

/-- C136 (boarding): in every imported route the boarding lookup finds the earliest trip that can be caught
(backward: the latest), and fails only if there is none within five days that is not later than the limit. -/
theorem C136_boarding (h : Imported f ss w0 w) (h0 : w0.routes = []) (active : B → Int → Bool) (E : Net) (R : RouteData)
    (hR : R ∈ (netOf w active E).routes) (d : Dir) (base : Int) (i : Nat) (hi : i + 1 < R.stops.length) (p lim : Int) :
    match getEarliest d base R i p lim with
    | some (t, day) => t < R.nTr ∧ R.days t day = true ∧ p ≤ evTime d base day (R.evBoard d t i) ∧
        ∀ t' day', t' < R.nTr → R.days t' day' = true → p ≤ evTime d base day' (R.evBoard d t' i) →
          evTime d base day (R.evBoard d t i) ≤ evTime d base day' (R.evBoard d t' i)
    | none => ∀ t' day', t' < R.nTr → R.days t' day' = true → p ≤ evTime d base day' (R.evBoard d t' i) →
        p + 7200 < evTime d base day' (R.evBoard d t' i) ∨ lim < d.clamp (evTime d base day' (R.evBoard d t' i)) := by
  have hs := board_sorted h h0 active hR d
  cases hc : getEarliest d base R i p lim with
  | none => exact fun t' day' h1 h2 h3 => C18_complete d base R hs i hi p lim hc t' day' h1 h2 h3
  | some a =>
    obtain ⟨t, day⟩ := a
    obtain ⟨g1, g2, g3, _⟩ := C18_sound d base R i p lim t day hc
    exact ⟨g1, g2, g3, fun t' day' h1 h2 h3 => C18_earliest d base R hs i hi p lim t day hc t' day' h1 h2 h3⟩

/-- If the services with the same stops pass midnight at the same events, the imported routes do not overtake. -/
theorem aligned_of (h : Imported f ss w0 w) (h0 : w0.routes = []) (ht0 : w0.transports = []) (hm : SameMidnights f ss)
    (active : B → Int → Bool) {E : Net} {R : RouteData} (hR : R ∈ (netOf w active E).routes) : Aligned R := by
  have key : ∀ t t', t < R.nTr → t' < R.nTr → ∃ s ∈ ss, ∃ s' ∈ ss, Rep f active R t s ∧ Rep f active R t' s' ∧ getStopSeq f s = getStopSeq f s' := by
    intro t t' h1 h2
    obtain ⟨s, hs, r1⟩ := service_of h h0 ht0 active hR h1
    obtain ⟨s', hs', r2⟩ := service_of h h0 ht0 active hR h2
    obtain ⟨st, e1, e2⟩ := r1.seq
    obtain ⟨st', e3, e4⟩ := r2.seq
    have : st = st' := by
      have e := e2.symm.trans e4
      have hinj : ∀ a b : Stop, stopData a = stopData b → a = b := by
        intro a b hab
        cases a; cases b
        simp only [stopData, StopData.mk.injEq] at hab
        obtain ⟨rfl, rfl, rfl, rfl, rfl⟩ := hab
        rfl
      apply List.ext_getElem? 
      intro i
      have := congrArg (fun l => l[i]?) e
      simp only [List.getElem?_map] at this
      cases hx : st[i]? with
      | none => rw [hx] at this; cases hy : st'[i]? with
        | none => rfl
        | some b => rw [hy] at this; cases this
      | some a => rw [hx] at this; cases hy : st'[i]? with
        | none => rw [hy] at this; cases this
        | some b =>
          rw [hy] at this
          simp only [Option.map_some, Option.some.injEq] at this
          rw [hinj _ _ this]
    exact ⟨s, hs, s', hs', r1, r2, by rw [e1, e3, this]⟩
  refine ⟨fun t t' h1 h2 i hi => (route_sorted h h0 active hR t t' h1 h2 i hi).1, ?_, ?_, ?_⟩
  · intro t t' h1 h2 i hi hi'
    have := (route_sorted h h0 active hR t t' h1 h2 (i - 1) (by omega)).2
    rwa [show i - 1 + 1 = i by omega] at this
  · intro t t' h1 h2 i hi
    obtain ⟨s, hs, s', hs', r1, r2, e⟩ := key t t' h1 h2
    exact hm s hs s' hs' e _ _ _ (r1.dep i hi) (r2.dep i hi)
  · intro t t' h1 h2 i hi hi'
    obtain ⟨s, hs, s', hs', r1, r2, e⟩ := key t t' h1 h2
    have := hm s hs s' hs' e _ _ _ (r1.arr (i - 1) (by omega)) (r2.arr (i - 1) (by omega))
    rwa [show i - 1 + 1 = i by omega] at this

theorem times_le {l : List Nat} (h : l.Pairwise (· ≤ ·)) {i j x y : Nat} (hij : i ≤ j) (hx : l[i]? = some x) (hy : l[j]? = some y) : x ≤ y := by
  rcases Nat.lt_or_eq_of_le hij with hlt | rfl
  · obtain ⟨h1, rfl⟩ := List.getElem?_eq_some_iff.mp hx
    obtain ⟨h2, rfl⟩ := List.getElem?_eq_some_iff.mp hy
    exact (List.pairwise_iff_getElem.mp h) i j h1 h2 hlt
  · rw [hx, Option.some.injEq] at hy; omega

/-- No route is empty. -/
theorem route_ne (h : Imported f ss w0 w) (h0 : w0.routes = []) (active : B → Int → Bool) {E : Net} :
    ∀ R ∈ (netOf w active E).routes, 0 < R.nTr := by
  intro R hR
  obtain ⟨order, _, hd⟩ := h.done
  obtain ⟨r, hr, e⟩ := List.mem_mapIdx.mp hR
  subst e
  obtain ⟨last, e1, e2⟩ := hd.ne r _ (by rw [h0]; exact Nat.zero_le _) (List.getElem?_eq_getElem hr)
  show 0 < (w.routes[r]).last.getD _ - _
  rw [e1]; simp only [Option.getD_some]; omega

/-- The imported timetable is sane. -/
theorem netOk_of (h : Imported f ss w0 w) (h0 : w0.routes = []) (ht0 : w0.transports = []) (hts : TimesSorted ss) (active : B → Int → Bool)
    (E : Net) (hE : E.required.length = numFlags) (hEnv : NetOk E) (hst : StopsOk f ss E) :
    NetOk (netOf w active E) := by
  have hne := route_ne h h0 active (E := E)
  have hloc : ∀ R ∈ (netOf w active E).routes, ∀ s ∈ R.stops, s.loc < E.nLoc ∧ (E.intermodal = true → s.loc ≠ E.endLoc) := by
    intro R hR s hs
    obtain ⟨v, hv, r⟩ := service_of h h0 ht0 active hR (hne R hR)
    obtain ⟨st, e1, e2⟩ := r.seq
    rw [e2] at hs
    obtain ⟨x, hx, rfl⟩ := List.mem_map.mp hs
    exact hst v hv st e1 x hx
  refine ⟨?_, ?_, ?_, ?_, hEnv.transfer, hEnv.fps, hEnv.endDist, hEnv.endTd, ?_, ?_, hEnv.destLocs, hEnv.endDest, ?_, hEnv.endFps⟩
  · intro R hR t ht
    obtain ⟨v, hv, r⟩ := service_of h h0 ht0 active hR ht
    refine ⟨?_, ?_⟩
    · intro i hi
      have := times_le (hts v hv) (by omega) (r.dep i hi) (r.arr i hi)
      exact Int.ofNat_le.mpr this
    · intro i hi hi'
      have h1 := r.arr (i - 1) (by omega)
      rw [show 2 * (i - 1) + 1 = 2 * i - 1 by omega, show i - 1 + 1 = i by omega] at h1
      have := times_le (hts v hv) (by omega) h1 (r.dep i hi')
      exact Int.ofNat_le.mpr this
  · intro r hr; exact absurd hr List.not_mem_nil
  · intro R hR
    obtain ⟨v, hv, r⟩ := service_of h h0 ht0 active hR (hne R hR)
    have hl : R.secFlags.length = numFlags := by
      obtain ⟨q, _, e⟩ := List.mem_mapIdx.mp hR
      subst e
      simp [routeOf]
    refine ⟨by rw [hl]; exact hE.symm, ?_⟩
    intro sec hsec
    obtain ⟨g, hg, e⟩ := List.mem_iff_getElem.mp hsec
    obtain ⟨sec', f1, f2, _⟩ := r.flags g (by omega)
    rw [List.getElem?_eq_getElem hg, Option.some.injEq, e] at f1
    subst f1
    exact Or.inr (Or.inr f2)
  · intro r hr; exact absurd hr List.not_mem_nil
  · exact fun R hR s hs => (hloc R hR s hs).1
  · intro r hr; exact absurd hr List.not_mem_nil
  · exact fun hi => ⟨fun R hR s hs => (hloc R hR s hs).2 hi, fun r hr => absurd hr List.not_mem_nil⟩

/-- The search on the imported timetable is sound: what it reports is a journey with services of the feed. -/
theorem C136_sound (h : Imported f ss w0 w) (h0 : w0.routes = []) (ht0 : w0.transports = []) (hts : TimesSorted ss) (active : B → Int → Bool)
    (E : Net) (hE : E.required.length = numFlags) (hEnv : NetOk E) (hst : StopsOk f ss E) (d : Dir) (n : Nat) (qs : List Start)
    (hq : ∀ x ∈ allStarts qs, d.lo < x.2 ∧ x.2 ≤ d.hi) (l : Loc) (k : Nat) (A : Int) (hr : (l, k, A) ∈ reported d (netOf w active E) n qs) :
    E.isDest l = true ∧ 1 ≤ k ∧ k ≤ n ∧
    ∃ x ∈ allStarts qs, ∃ j A', 1 ≤ j ∧ j ≤ k ∧ A' ≤ A ∧ JourneyBy d E (FeedRide f ss active E) j x.1 x.2 A' := by
  obtain ⟨g1, g2, g3, x, hx, j, A', g4, g5, g6, g7⟩ := C19_reported d _ (netOk_of h h0 ht0 hts active E hE hEnv hst) n qs hq l k A hr
  exact ⟨g1, g2, g3, x, hx, j, A', g4, g5, g6, (C136_journeys h h0 ht0 active E hE d ..).mp g7⟩

/-- C136: within the horizon of the start times the search on the imported timetable offers exactly what is
possible with the services of the feed, if services with the same stops pass midnight at the same events. -/
theorem C136_exact_partial (h : Imported f ss w0 w) (h0 : w0.routes = []) (ht0 : w0.transports = []) (hts : TimesSorted ss)
    (hm : SameMidnights f ss) (active : B → Int → Bool) (E : Net) (hE : E.required.length = numFlags) (hEnv : NetOk E) (hF : NetFifo E)
    (hst : StopsOk f ss E) (d : Dir) (n : Nat) (qs : List Start) (hq : RangeQuery d E qs)
    (hlb : ∀ q ∈ qs, LbOk d (netOf w active E) q.time q.horizon) (j : Nat) (hj : j ≤ n) (A : Int) (hA : ∀ q ∈ qs, A ≤ q.horizon) :
    Offered d (netOf w active E) n qs j A ↔ PossibleBy d E (FeedRide f ss active E) qs j A := by
  rw [C20_exact d _ (netOk_of h h0 ht0 hts active E hE hEnv hst) ⟨fun R hR => aligned_of h h0 ht0 hm active hR, hF.fps, hF.endTd⟩ n qs
    ⟨hq.desc, hq.each⟩ hlb j hj A hA]
  constructor
  · rintro ⟨q, hqm, x, hx, j', A', h1, h2, h3⟩
    exact ⟨q, hqm, x, hx, j', A', h1, h2, (C136_journeys h h0 ht0 active E hE d ..).mp h3⟩
  · rintro ⟨q, hqm, x, hx, j', A', h1, h2, h3⟩
    exact ⟨q, hqm, x, hx, j', A', h1, h2, (C136_journeys h h0 ht0 active E hE d ..).mpr h3⟩

end

/-! ### Examples -/

namespace Ex

/-- Two trips with the same stops, from 0 to 1; both have flag 1. -/
def feed : Feed where
  trip := fun t => ⟨[⟨0, true, true, true, true⟩, ⟨1, true, true, true, true⟩], fun g => g == 1, none, 0, t, 5, []⟩
  claszOf := fun _ => 3
  provider := fun r => r

/-- Both run on the days in the set of bits 7. -/
def services (a b : List Nat) : List (UtcTrip Nat) := [⟨0, 0, [0], a, 7, []⟩, ⟨0, 0, [1], b, 7, []⟩]

def tt (a b : List Nat) : Tt Nat := writeAll feed ((addAll feed [] (services a b)).getD []) exTt

def active (b : Nat) (day : Int) : Bool := decide (0 ≤ day) && b.testBit day.toNat

/-- To station 1, with the flag. -/
def env : Net where
  nLoc := 2
  routes := []
  rts := []
  base := 1
  wheelchair := false
  claszMask := 255
  required := [false, true, false, false]
  transfer := fun _ => 2
  fps := fun _ _ => []
  intermodal := false
  endDist := fun _ => none
  endTd := fun _ _ => none
  endLoc := 9
  isDest := fun l => l == 1
  lb := fun _ => some 0

def qs (t : Int) : List Start := [⟨t, [(0, t)], t + 1440⟩]

theorem imported (a b : List Nat) (ha : a.length = 2) (hb : b.length = 2) : Imported feed (services a b) exTt (tt a b) where
  good := by
    intro s hs
    simp only [services, List.mem_cons, List.not_mem_nil, or_false] at hs
    rcases hs with rfl | rfl
    · exact ⟨by simp, fun t _ => by simp [feed], fun t _ => Or.inl rfl, ha, Or.inl rfl⟩
    · exact ⟨by simp, fun t _ => by simp [feed], fun t _ => Or.inl rfl, hb, Or.inl rfl⟩
  inv := ⟨rfl, fun _ _ => rfl, fun _ _ => rfl, fun _ _ h => absurd h List.not_mem_nil⟩
  locs := fun _ _ h => absurd h List.not_mem_nil
  run := by
    obtain ⟨gs, hgs⟩ := C132_no_throw feed (services a b) (by
      intro s hs
      simp only [services, List.mem_cons, List.not_mem_nil, or_false] at hs
      rcases hs with rfl | rfl
      · exact ⟨by simp, fun t _ => by simp [feed], fun t _ => Or.inl rfl, ha, Or.inl rfl⟩
      · exact ⟨by simp, fun t _ => by simp [feed], fun t _ => Or.inl rfl, hb, Or.inl rfl⟩)
    exact ⟨gs, gs, hgs, List.Perm.refl _, by unfold tt; rw [hgs]; rfl⟩

theorem env_ok : NetOk env where
  times := fun r hr => absurd hr List.not_mem_nil
  rtTimes := fun r hr => absurd hr List.not_mem_nil
  flags := fun r hr => absurd hr List.not_mem_nil
  rtFlags := fun r hr => absurd hr List.not_mem_nil
  transfer := fun _ => by show (0 : Int) ≤ 2; omega
  fps := fun _ _ _ _ h => absurd h List.not_mem_nil
  endDist := fun _ _ h => by cases h
  endTd := fun _ _ _ h => by cases h
  locs := fun r hr => absurd hr List.not_mem_nil
  rtLocs := fun r hr => absurd hr List.not_mem_nil
  destLocs := fun l hl => by
    have : l = 1 := by simpa [env] using hl
    subst this; show (1 : Nat) < 2; omega
  endDest := fun h => by cases h
  endStop := fun h => by cases h
  endFps := fun h => by cases h

theorem env_fifo : NetFifo env where
  aligned := fun r hr => absurd hr List.not_mem_nil
  fps := fun _ _ _ _ _ _ _ _ h => absurd h List.not_mem_nil
  endTd := fun _ _ _ _ _ _ _ h => by cases h

theorem stops_ok (a b : List Nat) : StopsOk feed (services a b) env := by
  intro s hs st hst x hx
  have e : st = [⟨0, true, true, true, true⟩, ⟨1, true, true, true, true⟩] := by
    simp only [services, List.mem_cons, List.not_mem_nil, or_false] at hs
    rcases hs with rfl | rfl <;> (simp [getStopSeq, feed] at hst; exact hst.symm)
  subst e
  simp only [List.mem_cons, List.not_mem_nil, or_false] at hx
  refine ⟨?_, fun h => by cases h⟩
  rcases hx with rfl | rfl
  · show (0 : Nat) < 2; omega
  · show (1 : Nat) < 2; omega

theorem sorted_ok {a b : List Nat} (ha : a.Pairwise (· ≤ ·)) (hb : b.Pairwise (· ≤ ·)) : TimesSorted (services a b) := by
  intro s hs
  simp only [services, List.mem_cons, List.not_mem_nil, or_false] at hs
  rcases hs with rfl | rfl
  · exact ha
  · exact hb

theorem midnights_ok : SameMidnights feed (services [600, 620] [660, 690]) := by
  intro s hs s' hs' _ i x y hx hy
  have key : ∀ s ∈ services [600, 620] [660, 690], ∀ (i x : Nat), s.times[i]? = some x → x / 1440 = 0 := by
    intro s hs i x hx
    have hm := List.mem_of_getElem? hx
    simp only [services, List.mem_cons, List.not_mem_nil, or_false] at hs
    rcases hs with rfl | rfl <;> (simp only [List.mem_cons, List.not_mem_nil, or_false] at hm; omega)
  rw [key s hs i x hx, key s' hs' i y hy]

theorem range_query : RangeQuery .fwd env (qs 650) where
  desc := List.pairwise_singleton _ _
  each := by
    intro q hq
    simp only [qs, List.mem_singleton] at hq
    subst hq
    refine ⟨by decide, by decide, by decide, ?_⟩
    intro x hx
    simp only [List.mem_singleton] at hx
    subst hx
    exact ⟨by decide, by decide, by decide⟩

example : reported .fwd (netOf (tt [600, 620] [660, 690]) active env) 8 (qs 650) = [(1, 1, 690)] := by decide +kernel

/-- The hypotheses of C136 are met, and the second trip is found. -/
example : PossibleBy .fwd env (FeedRide feed (services [600, 620] [660, 690]) active env) (qs 650) 2 690 := by
  refine (C136_exact_partial (imported _ _ rfl rfl) rfl rfl (sorted_ok (by decide) (by decide)) midnights_ok active env rfl env_ok env_fifo
    (stops_ok _ _) .fwd 8 (qs 650) range_query (fun q _ => lbOk_zero (netOk_of (imported _ _ rfl rfl) rfl rfl
      (sorted_ok (by decide) (by decide)) active env rfl env_ok (stops_ok _ _)) (fun _ => rfl) _ _) 2 (by decide) 690 (by decide)).mp ?_
  exact ⟨1, 1, 690, by decide +kernel, by decide, by decide⟩

end Ex

/-- The services in the feed may overtake: one leaves at 20:00 and arrives at 00:10, the other leaves at 21:00 and
arrives at 23:55.  Both are put in one route, and the search reports only the later arrival. -/
theorem C136_overtake_counterexample :
    Imported Ex.feed (Ex.services [1200, 1450] [1260, 1435]) exTt (Ex.tt [1200, 1450] [1260, 1435]) ∧
    TimesSorted (Ex.services [1200, 1450] [1260, 1435]) ∧ StopsOk Ex.feed (Ex.services [1200, 1450] [1260, 1435]) Ex.env ∧
    reported .fwd (netOf (Ex.tt [1200, 1450] [1260, 1435]) Ex.active Ex.env) 8 (Ex.qs 1190) = [(1, 1, 1450)] ∧
    PossibleBy .fwd Ex.env (FeedRide Ex.feed (Ex.services [1200, 1450] [1260, 1435]) Ex.active Ex.env) (Ex.qs 1190) 1 1435 := by
  refine ⟨Ex.imported _ _ rfl rfl, Ex.sorted_ok (by decide) (by decide), Ex.stops_ok _ _, by decide +kernel, ?_⟩
  refine ⟨_, List.mem_singleton_self _, (0, 1190), List.mem_singleton_self _, 1, 1435, by decide, by decide, ?_⟩
  refine .last (m := 1) (a := 1435) ⟨1260, by decide, ⟨0, 0, [1], [1260, 1435], 7, []⟩, by simp [Ex.services], 1, by decide,
    [⟨0, true, true, true, true⟩, ⟨1, true, true, true, true⟩], 0, 1, ⟨0, true, true, true, true⟩, ⟨1, true, true, true, true⟩, 1260, 1435,
    ⟨rfl, by decide, rfl, rfl, ⟨rfl, rfl⟩, ⟨rfl, rfl⟩, rfl, ?_, ⟨rfl, rfl⟩, ⟨rfl, rfl⟩⟩⟩ ?_
  · intro k sec h1 h2 h3 g hg
    show (g == 1) = true
    match g, hg with
    | 1, _ => rfl
    | 0, h => cases h
    | 2, h => cases h
    | 3, h => cases h
    | n + 4, h => cases h
  · unfold Arrive
    exact Or.inl ⟨rfl, rfl⟩

end Nigiri.FeedNet
