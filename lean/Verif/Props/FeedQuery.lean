import Verif.Spec.FeedQuery
import Verif.Props.FeedServices
import Verif.Props.EndToEnd
/-!
# Property C138: a query on an imported feed returns exactly the best trips
-/

namespace Nigiri.FeedQuery

open Raptor hiding Stop Route FlagData
open WriteTrips
open FeedNet
open FeedServices
open EndToEnd (Setup Extendable NotBefore During Beyond Span)
open Search (Valid Extensible SlowUnmarked)

section lower
variable {B : Type} [DecidableEq B] {f : Feed} {ss : List (UtcTrip B)} {w0 w : Tt B}

/-- C138 (lower bounds): the lower bounds that the search computes from the stations, the footpaths and the imported
routes are admissible. -/
theorem C138_lower_bounds (h : Imported f ss w0 w) (h0 : w0.routes = []) (ht0 : w0.transports = []) (hts : TimesSorted ss)
    (active : B → Int → Bool) (E : Net) (hE : E.required.length = numFlags) (hEnv : NetOk E) (hst : StopsOk f ss E) (d : Dir)
    (S : Lb.Tt) (hS : Lb.TtOk (lbTt S [])) (q : Lb.Qry) (hq : Lb.QryOk S q) (hA : Lb.Agrees d (lbTt S []) q { E with routes := [], rts := [] })
    (has : Nat → Bool)
    (hlb : ∀ dists, Lb.lowerBounds (lbTt S (netOf w active E).routes) d q false has = some dists → ∀ l, E.lb l = Lb.lbOf dists l)
    (hfp : ∀ l t l' w, (l', w) ∈ E.fps l t → l < S.nLoc) (hed : ∀ l w, E.endDist l = some w → l < S.nLoc)
    (het : ∀ l t w, E.endTd l t = some w → l < S.nLoc) (hnear : Lb.Near d (netOf w active E) S.root) :
    (∃ dists, Lb.lowerBounds (lbTt S (netOf w active E).routes) d q false has = some dists) ∧
    ∀ T0 W, W ≤ T0 + 7200 → LbOk d (netOf w active E) T0 W := by
  have hN := netOk_of h h0 ht0 hts active E hE hEnv hst
  have hne := route_ne h h0 active (E := E)
  have hnl : E.nLoc = S.nLoc := hA.nLoc
  have hT : Lb.TtOk (lbTt S (netOf w active E).routes) :=
    ⟨hS.child, hS.depth, hS.order, hS.locs, hS.equivLocs, hS.transposed, hS.fpLocs, fun R hR s hs => hnl ▸ hN.locs R hR s hs, hS.rtLocs, hne⟩
  have hQ : Lb.QryOk (lbTt S (netOf w active E).routes) q := ⟨hq.dest, hq.td, hq.maxTravel⟩
  have hA' : Lb.Agrees d (lbTt S (netOf w active E).routes) q (netOf w active E) := by
    refine ⟨hA.nLoc, rfl, rfl, ?_, hA.dest, hA.endDist, hA.endTd⟩
    intro l t l' v hv
    have := hA.fps l t l' v hv
    cases d <;> exact this
  obtain ⟨dists, e, _⟩ := Lb.C22_optimistic d _ hT q hQ false has
  exact ⟨⟨dists, e⟩, EndToEnd.C46_lower_bounds d _ hT q hQ false has (netOf w active E) hA' hN (fun hc => absurd rfl hc) hlb hfp hed het hnear⟩

end lower

section
variable [DecidableEq Bitfield] {d : Dir} {F : Source} {jobs : List Job} {w : Tt Bitfield} {E : Net} {n : Nat} {entries : List (Loc × Int)}
  {maxOff : Int} {V : Search.Env Raptor.State}

/-- A trip of the traveller in the imported timetable is one with the trips of the feed. -/
theorem trip_gtfs (hF : SourceOk F jobs) (h : ImportedFeed F jobs w) (hE : E.required.length = numFlags) (T : Int) (j : Nat) (A : Int) :
    EndToEnd.Trip d (netOf w bit E) entries T j A ↔ GtfsTrip d F jobs E entries T j A := by
  obtain ⟨ss, ss', hs, hp, hi⟩ := h
  unfold EndToEnd.Trip GtfsTrip
  rw [← rides_eq hF hs hp E]
  constructor
  · rintro ⟨l, x, h1, h2⟩
    exact ⟨l, x, h1, (C136_journeys hi rfl rfl bit E hE d ..).mp h2⟩
  · rintro ⟨l, x, h1, h2⟩
    exact ⟨l, x, h1, (C136_journeys hi rfl rfl bit E hE d ..).mpr h2⟩

theorem setup_of (h : ImportedFeed F jobs w) (hst : TripStopsOk F jobs E) (hs : FeedSetup d F jobs E (netOf w bit E) n entries maxOff V) :
    Setup d (netOf w bit E) n entries maxOff V := by
  refine ⟨?_, ?_, hs.lb, hs.algo, hs.starts, hs.offsets, hs.offNonneg, hs.travel, ?_, hs.fits⟩
  · obtain ⟨ss, ss', e, hp, hi⟩ := h
    exact netOk_of hi rfl rfl (fun s hs' => sorted_of hs.source e s (hp.mem_iff.mp hs')) bit E hs.required hs.env (stopsOk_of hs.source e hp hst)
  · obtain ⟨ss, ss', e, hp, hi⟩ := h
    have hm : SameMidnights F.feed ss' := fun s h1 s' h2 => hs.midnights ss e s (hp.mem_iff.mp h1) s' (hp.mem_iff.mp h2)
    exact ⟨fun R hR => aligned_of hi rfl rfl hm bit hR, hs.fifo.fps, hs.fifo.endTd⟩
  · intro hd T j A ht
    exact hs.takes hd T j A ((trip_gtfs hs.source h hs.required T j A).mp ht)

variable (h : ImportedFeed F jobs w) (hst : TripStopsOk F jobs E) (hs : FeedSetup d F jobs E (netOf w bit E) n entries maxOff V)
  (hv : Valid V.tt V.q) (hslow : SlowUnmarked V) (hx : Extensible V.q → Extendable d entries V) (ho : V.overlap = false)
include h hst hs hv hslow hx ho

/-- C138 (sound): every returned journey is a trip with the trips of the feed. -/
theorem C138_sound (m : Nat) (r : Search.Result) (hr : Search.execute d V (Raptor.init (Raptor.mkProblem d (netOf w bit E))) m = some r) (y : Search.Jny)
    (hy : y ∈ r.journeys) (hmt : (∃ t, V.q.start = .point t) → y.crit.travelTime ≤ V.q.maxTravel) :
    GtfsTrip d F jobs E entries y.crit.start (y.crit.transfers + 1) y.crit.dest ∧ y.crit.transfers + 1 ≤ n ∧ E.isDest y.dest = true := by
  obtain ⟨g1, g2, g3⟩ := EndToEnd.C46_sound (setup_of h hst hs) hv hslow hx ho m r hr y hy hmt
  exact ⟨(trip_gtfs hs.source h hs.required _ _ _).mp g1, g2, g3⟩

/-- C138 (optimal): no trip with the trips of the feed is better than a returned journey. -/
theorem C138_optimal (hq : ∃ iv, V.q.start = .interval iv) (m : Nat) (r : Search.Result)
    (hr : Search.execute d V (Raptor.init (Raptor.mkProblem d (netOf w bit E))) m = some r) (y : Search.Jny) (hy : y ∈ r.journeys)
    (T : Int) (j : Nat) (A : Int) (ht : GtfsTrip d F jobs E entries T j A) (h1 : NotBefore d T y.crit.start) (h2 : j ≤ y.crit.transfers + 1)
    (h3 : NotBefore d y.crit.dest A) : T = y.crit.start ∧ j = y.crit.transfers + 1 ∧ A = y.crit.dest :=
  EndToEnd.C46_optimal (setup_of h hst hs) hv hslow hx ho hq m r hr y hy T j A ((trip_gtfs hs.source h hs.required _ _ _).mpr ht) h1 h2 h3

/-- C138 (complete): for every trip with the trips of the feed that leaves in the returned interval, has at most `n`
rides, is faster than the direct connection and not longer than the maximum travel time, a journey is returned that
leaves no earlier, arrives no later and has no more transfers, unless such a trip leaves after the returned interval. -/
theorem C138_complete_partial (hq : ∃ iv, V.q.start = .interval iv) (m : Nat) (r : Search.Result)
    (hr : Search.execute d V (Raptor.init (Raptor.mkProblem d (netOf w bit E))) m = some r)
    (T : Int) (j : Nat) (A : Int) (ht : GtfsTrip d F jobs E entries T j A) (hT : During r.iv T) (hj : j ≤ n) (h1 : Span d T A < V.direct)
    (h2 : Span d T A ≤ V.q.maxTravel) :
    (∃ y ∈ r.journeys, NotBefore d y.crit.start T ∧ NotBefore d A y.crit.dest ∧ y.crit.transfers + 1 ≤ j) ∨
    (∃ T' j' A', GtfsTrip d F jobs E entries T' j' A' ∧ Beyond d r.iv T' ∧ NotBefore d A A' ∧ j' ≤ j) := by
  rcases EndToEnd.C46_complete (setup_of h hst hs) hv hslow hx ho hq m r hr T j A ((trip_gtfs hs.source h hs.required _ _ _).mpr ht) hT hj h1 h2 with
    g | ⟨T', j', A', g1, g2⟩
  · exact Or.inl g
  · exact Or.inr ⟨T', j', A', (trip_gtfs hs.source h hs.required _ _ _).mp g1, g2⟩

/-- C138 (fixed start time, complete). -/
theorem C138_point_complete_partial (T : Int) (hq : V.q.start = .point T) (m : Nat) (r : Search.Result)
    (hr : Search.execute d V (Raptor.init (Raptor.mkProblem d (netOf w bit E))) m = some r)
    (j : Nat) (A : Int) (ht : GtfsTrip d F jobs E entries T j A) (hj : j ≤ n) (h1 : Span d T A < V.direct) (h2 : Span d T A ≤ V.q.maxTravel) :
    ∃ y ∈ r.journeys, y.crit.start = T ∧ NotBefore d A y.crit.dest ∧ y.crit.transfers + 1 ≤ j :=
  EndToEnd.C46_point_complete (setup_of h hst hs) hv hslow hx ho T hq m r hr j A ((trip_gtfs hs.source h hs.required _ _ _).mpr ht) hj h1 h2

/-- C138 (fixed start time, optimal). -/
theorem C138_point_optimal (T : Int) (hq : V.q.start = .point T) (m : Nat) (r : Search.Result)
    (hr : Search.execute d V (Raptor.init (Raptor.mkProblem d (netOf w bit E))) m = some r) (y : Search.Jny) (hy : y ∈ r.journeys)
    (j : Nat) (A : Int) (ht : GtfsTrip d F jobs E entries T j A) (h1 : Span d T A ≤ V.q.maxTravel) (h2 : j ≤ y.crit.transfers + 1)
    (h3 : NotBefore d y.crit.dest A) : j = y.crit.transfers + 1 ∧ A = y.crit.dest :=
  EndToEnd.C46_point_optimal (setup_of h hst hs) hv hslow hx ho T hq m r hr y hy j A ((trip_gtfs hs.source h hs.required _ _ _).mpr ht) h1 h2 h3

end

/-! ### Example -/

namespace Ex
open FeedServices.Ex

theorem same_midnights : ∀ ss, services src jobs = some ss → SameMidnights src.feed ss := by
  have hall : ∀ ss, services src jobs = some ss → ∀ s ∈ ss, ∀ x ∈ s.times, x / 1440 = 0 := by
    intro ss h s hs
    have h1 : (services src jobs).map (fun l => l.map fun s => s.times) = some [[540, 560], [600, 620], [1370, 1410]] := by decide +kernel
    rw [h, Option.map_some, Option.some.injEq] at h1
    have hm : s.times ∈ ss.map fun s => s.times := List.mem_map.mpr ⟨s, hs, rfl⟩
    rw [h1] at hm
    simp only [List.mem_cons, List.not_mem_nil, or_false] at hm
    intro x hx
    rcases hm with e | e | e <;> (rw [e] at hx; simp only [List.mem_cons, List.not_mem_nil, or_false] at hx; omega)
  intro ss h s hs s' hs' _ i x y hx hy
  rw [hall ss h s hs x (List.mem_of_getElem? hx), hall ss h s' hs' y (List.mem_of_getElem? hy)]

/-- Leave between 8:50 and 10:10 UTC on day 3. -/
def query : Search.Query := ⟨.interval ⟨4850, 4930⟩, 3, false, true, none, false, 600⟩

def env (N : Net) : Search.Env Raptor.State where
  tt := ⟨⟨0, 8640⟩, 0⟩
  q := query
  direct := 500
  starts := fun st b l => StartTimes.getStarts .fwd N st [(0, 5)] [] 60 b l
  overlap := false
  algo := EndToEnd.raptorAlgo .fwd N 4 fun _ _ => true
  timeout := fun _ => false
  slow := fun _ => []

theorem trip_stops : TripStopsOk src jobs FeedNet.Ex.env := by
  intro j _ t _ x hx
  have hx' : x ∈ [(⟨0, true, true, true, true⟩ : Stop), ⟨1, true, true, true, true⟩] := hx
  simp only [List.mem_cons, List.not_mem_nil, or_false] at hx'
  refine ⟨?_, fun h => by cases h⟩
  rcases hx' with rfl | rfl
  · show (0 : Nat) < 2; omega
  · show (1 : Nat) < 2; omega

/-- Walk five minutes at 9:55 UTC, ride at 10:00, arrive at 10:20. -/
theorem trip : GtfsTrip .fwd src jobs FeedNet.Ex.env [(0, 5)] 4915 1 4940 := by
  refine ⟨0, 5, List.mem_singleton_self _, .last (m := 1) (a := 2 * 1440 + 620) ⟨2 * 1440 + 600, by decide, ride⟩ ?_⟩
  unfold Arrive
  rw [if_neg (by decide)]
  exact Or.inl ⟨rfl, by decide⟩

/-- The hypotheses of C138 are met. -/
example [DecidableEq Bitfield] : ∃ w, ImportedFeed src jobs w ∧
    FeedSetup .fwd src jobs FeedNet.Ex.env (netOf w bit FeedNet.Ex.env) 4 [(0, 5)] 60 (env (netOf w bit FeedNet.Ex.env)) ∧
    Valid (env (netOf w bit FeedNet.Ex.env)).tt query ∧ Extendable .fwd [(0, 5)] (env (netOf w bit FeedNet.Ex.env)) := by
  obtain ⟨w, hw⟩ := C137_import src jobs src_ok
  refine ⟨w, hw, ?_, ⟨by show (4850 : Int) ≤ 4930; omega, by show (0 : Int) ≤ 8640; omega, by intro m h; cases h⟩,
    ⟨by show (0 : Int) ≤ 4850 ∧ (4930 : Int) ≤ 8640; omega, (by intro m h; cases h), by show (4930 : Int) - 4850 ≤ 14 * 1440; omega, Or.inr rfl⟩⟩
  have hN : NetOk (netOf w bit FeedNet.Ex.env) := by
    obtain ⟨ss, ss', e, hp, hi⟩ := hw
    exact netOk_of hi rfl rfl (fun s hs' => sorted_of src_ok e s (hp.mem_iff.mp hs')) bit FeedNet.Ex.env rfl FeedNet.Ex.env_ok
      (stopsOk_of src_ok e hp trip_stops)
  refine ⟨src_ok, same_midnights, rfl, FeedNet.Ex.env_ok, FeedNet.Ex.env_fifo, fun T0 W _ => lbOk_zero hN (fun _ => rfl) T0 W, ⟨_, rfl, fun _ _ => rfl⟩,
    fun _ _ _ => rfl, ?_, by decide, ?_, (by intro h; cases h), ?_⟩
  · intro e he
    rw [List.mem_singleton.mp he]
    decide
  · show (0 : Int) ≤ 600 ∧ (600 : Int) ≤ 7200 ∧ (0 : Int) ≤ 500
    omega
  · intro T h1 h2
    have e1 : (4850 : Int) - 3601 ≤ T := h1
    have e2 : T ≤ (4930 : Int) + 3600 := h2
    show (-32768 : Int) < T - 1 * 1440 ∧ T - 1 * 1440 + 7201 + 60 < (32767 : Int)
    omega

/-! The hypotheses of the theorem about the lower bounds, for the two services of `FeedNet.Ex`. -/

def tt2 : Tt Nat := FeedNet.Ex.tt [600, 620] [660, 690]

def stations : Lb.Tt := ⟨2, fun _ => none, fun _ => [], fun _ => [], fun _ => false, fun _ => [], fun _ => [], [], []⟩

def lbQry : Lb.Qry := ⟨.exact, [(1, 0)], [], 1440⟩

@[irreducible] def bounds : List Nat := (Lb.lowerBounds (lbTt stations (netOf tt2 FeedNet.Ex.active FeedNet.Ex.env).routes) .fwd lbQry false (fun _ => false)).getD []

example : bounds = [20, 0] := by decide +kernel

def lbEnv : Net := { FeedNet.Ex.env with lb := Lb.lbOf bounds }

theorem lbEnv_ok : NetOk lbEnv :=
  ⟨FeedNet.Ex.env_ok.times, FeedNet.Ex.env_ok.rtTimes, FeedNet.Ex.env_ok.flags, FeedNet.Ex.env_ok.rtFlags, FeedNet.Ex.env_ok.transfer,
    FeedNet.Ex.env_ok.fps, FeedNet.Ex.env_ok.endDist, FeedNet.Ex.env_ok.endTd, FeedNet.Ex.env_ok.locs, FeedNet.Ex.env_ok.rtLocs,
    FeedNet.Ex.env_ok.destLocs, FeedNet.Ex.env_ok.endDest, FeedNet.Ex.env_ok.endStop, FeedNet.Ex.env_ok.endFps⟩

theorem root_eq (l : Nat) : stations.root l = l := Lb.root_none rfl

theorem opt1 : Lb.Opt .fwd (netOf tt2 FeedNet.Ex.active lbEnv) stations.root 1 0 :=
  .arrive (a := 0) (A := 0) (by unfold Arrive; rw [if_neg (by decide)]; exact Or.inl ⟨by decide, rfl⟩)

theorem opt0 : Lb.Opt .fwd (netOf tt2 FeedNet.Ex.active lbEnv) stations.root 0 20 := by
  have h : (netOf tt2 FeedNet.Ex.active lbEnv).routes.map (fun R => (R.stops, R.nTr, R.dep 0 0, R.arr 0 1)) =
      [([⟨0, true, true, true, true⟩, ⟨1, true, true, true, true⟩], 2, 600, 620)] := by decide +kernel
  obtain ⟨R, hR⟩ : ∃ R, (netOf tt2 FeedNet.Ex.active lbEnv).routes = [R] := by
    have := congrArg List.length h
    rw [List.length_map] at this
    exact List.length_eq_one_iff.mp this
  rw [hR, List.map_singleton, List.singleton_inj] at h
  simp only [Prod.mk.injEq] at h
  obtain ⟨h1, h2, h3, h4⟩ := h
  have := Lb.Opt.hop (d := .fwd) (N := netOf tt2 FeedNet.Ex.active lbEnv) (root := stations.root) (l := 0) (m := 1) (w := 20) (c := 0)
    ⟨R.stops, fun i => R.dep 0 i, fun i => R.arr 0 i, 0, ⟨0, true, true, true, true⟩, ⟨1, true, true, true, true⟩, by rw [h1]; rfl, by rw [h1]; rfl,
      by show (20 : Int) = (R.arr 0 1 : Int) - (R.dep 0 0 : Int); rw [h3, h4]; decide, ⟨rfl, rfl⟩,
      Or.inl ⟨R, (by rw [hR]; exact List.mem_singleton_self _), 0, by rw [h2]; decide, rfl, fun _ => rfl, fun _ => rfl⟩⟩ opt1
  exact this

theorem imported2 : Imported FeedNet.Ex.feed (FeedNet.Ex.services [600, 620] [660, 690]) exTt tt2 := FeedNet.Ex.imported [600, 620] [660, 690] rfl rfl
theorem sorted2 : TimesSorted (FeedNet.Ex.services [600, 620] [660, 690]) := FeedNet.Ex.sorted_ok (by decide) (by decide)
theorem stops2 : StopsOk FeedNet.Ex.feed (FeedNet.Ex.services [600, 620] [660, 690]) lbEnv :=
  fun s hs st hg x hx => FeedNet.Ex.stops_ok [600, 620] [660, 690] s hs st hg x hx

theorem near : Lb.Near .fwd (netOf tt2 FeedNet.Ex.active lbEnv) stations.root := by
  have hlt : ∀ l c, Lb.Opt .fwd (netOf tt2 FeedNet.Ex.active lbEnv) stations.root l c → (l : Nat) < 2 := by
    intro l c h
    induction h with
    | arrive h =>
      unfold Arrive at h
      rw [if_neg (by decide)] at h
      rcases h with ⟨h, -⟩ | ⟨l', w, -, h, -⟩
      · exact lbEnv_ok.destLocs _ h
      · exact absurd h List.not_mem_nil
    | hop h _ _ =>
      obtain ⟨stops, dep, arr, s, x, y, hx, hy, -, ⟨rfl, -⟩, h⟩ := h
      rcases h with ⟨r, hr, t, -, rfl, -⟩ | ⟨r, hr, rfl, -⟩
      · exact (netOk_of imported2 rfl rfl sorted2 FeedNet.Ex.active lbEnv rfl lbEnv_ok stops2).locs r hr x (List.mem_of_getElem? hx)
      · exact absurd hr List.not_mem_nil
    | walk h _ _ => exact absurd h List.not_mem_nil
    | station h _ ih =>
      rw [root_eq, root_eq] at h
      rw [h]; exact ih
  intro l c h
  have hl := hlt l c h
  match l, hl with
  | 0, _ => exact ⟨_, opt0, by decide⟩
  | 1, _ => exact ⟨_, opt1, by decide⟩

example (T0 W : Int) (h : W ≤ T0 + 7200) : LbOk .fwd (netOf tt2 FeedNet.Ex.active lbEnv) T0 W := by
  refine (C138_lower_bounds imported2 rfl rfl sorted2
    FeedNet.Ex.active lbEnv rfl lbEnv_ok stops2 .fwd stations ?_ lbQry ⟨by decide, by decide, by decide⟩ ?_ (fun _ => false) ?_
    (fun _ _ _ _ h => absurd h List.not_mem_nil) (fun _ _ h => by cases h) (fun _ _ _ h => by cases h) near).2 T0 W h
  · exact ⟨fun c p => ⟨fun h => absurd h List.not_mem_nil, fun h => (by cases h)⟩, fun _ _ _ h => (by cases h), fun _ _ _ h => (by cases h), fun _ _ h => (by cases h),
      fun _ _ h => absurd h List.not_mem_nil, fun _ _ _ => ⟨fun h => absurd h List.not_mem_nil, fun h => absurd h List.not_mem_nil⟩,
      fun _ _ _ h => absurd h List.not_mem_nil, fun _ h => absurd h List.not_mem_nil, fun _ h => absurd h List.not_mem_nil, fun _ h => absurd h List.not_mem_nil⟩
  · refine ⟨rfl, rfl, rfl, fun _ _ _ _ h => absurd h List.not_mem_nil, ?_, fun h => (by cases h), fun h => (by cases h)⟩
    intro _ l hl
    have hl : l = 1 := by simpa [lbEnv, FeedNet.Ex.env] using hl
    subst hl
    exact ⟨(1, 0), List.mem_singleton_self _, List.mem_singleton_self _, rfl⟩
  · intro dists hd l
    have : Lb.lowerBounds (lbTt stations (netOf tt2 FeedNet.Ex.active lbEnv).routes) .fwd lbQry false (fun _ => false) = some bounds := by decide +kernel
    have e : some dists = some bounds := hd.symm.trans this
    rw [Option.some.injEq] at e
    subst e
    rfl

end Ex

end Nigiri.FeedQuery
