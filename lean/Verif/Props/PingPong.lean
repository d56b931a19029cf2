import Verif.Proofs.PongNet
import Verif.Props.Raptor
/-!
# Properties C58, C59, C60: the ping-pong search

The specification (trips, best trips, sane queries) is in `Verif.Spec.PingPong`; it does not refer to the search.
-/

namespace Nigiri.Raptor.Pong
open Nigiri.Lb Nigiri.StartTimes

instance instDecEqExcept {ε α : Type} [DecidableEq ε] [DecidableEq α] : DecidableEq (Except ε α)
  | .ok a, .ok b => if h : a = b then .isTrue (by rw [h]) else .isFalse fun e => h (Except.ok.inj e)
  | .error a, .error b => if h : a = b then .isTrue (by rw [h]) else .isFalse fun e => h (Except.error.inj e)
  | .ok _, .error _ => .isFalse fun e => by cases e
  | .error _, .ok _ => .isFalse fun e => by cases e

/-! ## A query for which the hypotheses hold -/

namespace Demo

def tt : Tt := ⟨10, fun _ => none, fun _ => [], fun _ => [], fun _ => false, fun _ => [], fun _ => [], [], []⟩

/-- From station 0 to station 3 of the timetable in `Verif.Props.RaptorDemo`, departure from 9:50 to 11:40. -/
def rqx (ext : Bool) : Request where
  dir := .fwd
  T := tt
  base := Raptor.Demo.net
  fps := fun d l => match d with
    | .fwd => if l = 2 then [(3, 40)] else []
    | .bwd => if l = 3 then [(2, 40)] else []
  endLoc := 9
  origin := ⟨.exact, [(0, 0)]⟩
  target := ⟨.exact, [(3, 0)]⟩
  useStartFps := true
  lb := fun _ => some 0
  maxTransfers := 5
  maxTravel := 300
  fastest := 1000
  minConn := 0
  extend := ext
  s0 := 590
  endT := 700
  extFrom := 0
  extTo := 4000
  recon := fun _ _ => true
  timeout := fun _ => false

/-- Without extension of the interval. -/
abbrev rq : Request := rqx false

theorem rq_run : rq.run = .ok ⟨[⟨602, 650, 1, .ok⟩, ⟨602, 660, 0, .ok⟩, ⟨662, 720, 0, .ok⟩], 590, 2043⟩ := by decide +kernel

theorem rqx_run : (rqx true).run = .ok ⟨[⟨602, 650, 1, .ok⟩, ⟨602, 660, 0, .ok⟩, ⟨662, 720, 0, .ok⟩, ⟨2042, 2100, 0, .ok⟩], 590, 2043⟩ := by decide +kernel

variable {ext : Bool}

theorem isDest_iff (l : Loc) : (rqx ext).net.isDest l = true ↔ l = 3 := by
  refine (C27_destinations tt .exact (by decide) 9 [(3, 0)] l).trans ?_
  simp [forEachMeta]

theorem isDest_iff' (l : Loc) : (rqx ext).net'.isDest l = true ↔ l = 0 := by
  refine (C27_destinations tt .exact (by decide) 9 [(0, 0)] l).trans ?_
  simp [forEachMeta]

/-- Rides end at the latest on the second day at 11:40. -/
theorem ride_times {x : Loc} {dep : Int} {y : Loc} {arr : Int} (h : NetRide Raptor.Demo.net x dep y arr) :
    dep < arr ∧ (y = 2 → arr ≤ 2120) := by
  rcases h with ⟨r, hr, t, day, h1, h2, -, i, j, si, sj, h3, h4, h5, -, h6, -, -, -, h7, h8⟩ | ⟨r, hr, -, i, j, si, sj, h3, h4, h5, -, h6, -, -, -, h7, h8⟩
  · have hj := (List.getElem?_eq_some_iff.mp h5).1
    simp only [Raptor.Demo.net, List.mem_cons, List.not_mem_nil, or_false] at hr
    have hday : ∀ t, Raptor.Demo.days t day = true → day = 5 ∨ day = 6 := by intro t h; simpa [Raptor.Demo.days] using h
    rcases hr with rfl | rfl | rfl | rfl
    · simp only [Raptor.Demo.lineA, List.length_cons, List.length_nil] at *
      have := hday _ h2
      simp only [Raptor.Demo.net] at h7 h8
      refine ⟨by omega, fun _ => by omega⟩
    · simp only [Raptor.Demo.lineB, List.length_cons, List.length_nil] at *
      simp only [Raptor.Demo.net] at h7 h8
      have : j = 1 := by omega
      subst this
      simp only [List.getElem?_cons_succ, List.getElem?_cons_zero, Option.some.injEq] at h5
      refine ⟨by omega, fun hy => ?_⟩
      rw [hy, ← h5] at h6; cases h6
    · simp only [Raptor.Demo.lineC, List.length_cons, List.length_nil] at *
      simp only [Raptor.Demo.net] at h7 h8
      have : j = 1 := by omega
      subst this
      simp only [List.getElem?_cons_succ, List.getElem?_cons_zero, Option.some.injEq] at h5
      refine ⟨by omega, fun hy => ?_⟩
      rw [hy, ← h5] at h6; cases h6
    · simp only [Raptor.Demo.lineD, List.length_cons, List.length_nil] at *
      simp only [Raptor.Demo.net] at h7 h8
      have : j = 1 := by omega
      subst this
      simp only [List.getElem?_cons_succ, List.getElem?_cons_zero, Option.some.injEq] at h5
      refine ⟨by omega, fun hy => ?_⟩
      rw [hy, ← h5] at h6; cases h6
  · have hj := (List.getElem?_eq_some_iff.mp h5).1
    simp only [Raptor.Demo.net, List.mem_cons, List.not_mem_nil, or_false] at hr
    subst hr
    simp only [Raptor.Demo.rt, List.length_cons, List.length_nil] at *
    have : j = 1 := by omega
    subst this
    simp only [List.getElem?_cons_succ, List.getElem?_cons_zero, Option.some.injEq] at h5
    refine ⟨by omega, fun hy => ?_⟩
    rw [hy, ← h5] at h6; cases h6

theorem near_origin {l : Loc} {w : Int} (h : (rqx ext).origin.Near (rqx ext).T ((rqx ext).fps (rqx ext).dir) l w) : l = 0 ∧ w = 0 := by
  simp [Place.Near, rqx, forEachMeta] at h
  exact h

theorem near_target {l : Loc} {w : Int} (h : (rqx ext).target.Near (rqx ext).T ((rqx ext).fps (flip (rqx ext).dir)) l w) : (l = 3 ∧ w = 0) ∨ (l = 2 ∧ w = 40) := by
  simpa [Place.Near, rqx, forEachMeta, StartTimes.flip] using h

theorem base_ok {N : Net} (h1 : N.routes = Raptor.Demo.net.routes) (h2 : N.rts = Raptor.Demo.net.rts) (h3 : N.required = Raptor.Demo.net.required)
    (h4 : N.transfer = Raptor.Demo.net.transfer) (h5 : N.nLoc = Raptor.Demo.net.nLoc) (h6 : ∀ l t l' w, (l', w) ∈ N.fps l t → 0 ≤ w)
    (h7 : ∀ l, N.isDest l = true → l < 4) (h8 : N.intermodal = false) (h9 : ∀ l w, N.endDist l = some w → 0 ≤ w) (h10 : ∀ l t, N.endTd l t = none) : NetOk N where
  times := by rw [h1]; exact Raptor.Demo.net_ok.times
  rtTimes := by rw [h2]; exact Raptor.Demo.net_ok.rtTimes
  flags := by rw [h1, h3]; exact Raptor.Demo.net_ok.flags
  rtFlags := by rw [h2, h3]; exact Raptor.Demo.net_ok.rtFlags
  transfer := by rw [h4]; exact Raptor.Demo.net_ok.transfer
  fps := h6
  endDist := h9
  endTd := by intro l t w h; rw [h10] at h; cases h
  locs := by rw [h1, h5]; exact Raptor.Demo.net_ok.locs
  rtLocs := by rw [h2, h5]; exact Raptor.Demo.net_ok.rtLocs
  destLocs := by rw [h5]; exact h7
  endDest := by intro h; rw [h8] at h; cases h
  endStop := by intro h; rw [h8] at h; cases h
  endFps := by intro h; rw [h8] at h; cases h

theorem rq_net : NetOk (rqx ext).net := by
  refine base_ok rfl rfl rfl rfl rfl ?_ ?_ rfl ?_ (fun _ _ => rfl)
  · intro l t l' w h
    have h : (l', w) ∈ (if l = 2 then [(3, (40 : Int))] else []) := h
    split at h <;> simp at h; omega
  · intro l h; rw [isDest_iff] at h; subst h; decide
  · intro l w h; have h : Option.map Int.ofNat none = some w := h; cases h

theorem rq_net' : NetOk (rqx ext).net' := by
  refine base_ok rfl rfl rfl rfl rfl ?_ ?_ rfl ?_ (fun _ _ => rfl)
  · intro l t l' w h
    have h : (l', w) ∈ (if l = 3 then [(2, (40 : Int))] else []) := h
    split at h <;> simp at h; omega
  · intro l h; rw [isDest_iff'] at h; subst h; decide
  · intro l w h; have h : Option.map Int.ofNat none = some w := h; cases h

theorem rqx_ok : (rqx ext).Ok where
  net := rq_net
  net' := rq_net'
  aligned := Raptor.Demo.net_fifo.aligned
  mirror := by
    intro l m w
    show (m, w) ∈ (if l = 2 then [(3, (40 : Int))] else []) ↔ (l, w) ∈ (if m = 3 then [(2, (40 : Int))] else [])
    by_cases h1 : l = 2 <;> by_cases h2 : m = 3 <;> simp [h1, h2]
  origin := by intro _ o ho; simp [rqx] at ho; subst ho; rfl
  target := by intro _ o ho; simp [rqx] at ho; subst ho; rfl
  footpaths := by simp [rqx]
  apart := by
    intro l w h
    obtain ⟨rfl, -⟩ := near_origin h
    exact ⟨by cases ext <;> decide +kernel, by cases ext <;> decide⟩
  apart' := by
    intro l w h
    rcases near_target h with ⟨rfl, -⟩ | ⟨rfl, -⟩ <;> exact ⟨by cases ext <;> decide +kernel, by cases ext <;> decide⟩
  takes := fun x dep y arr h => (ride_times h).1
  travel := by cases ext <;> decide

theorem rqx_at (t : Int) (h1 : 590 ≤ t) (h2 : t < 4000) : (rqx ext).OkAt t where
  lo := by simp only [rqx, Dir.lo]; omega
  hi := by simp only [rqx, Dir.hi, Request.ahead]; omega
  near := by intro l w h; obtain ⟨-, rfl⟩ := near_origin h; simp only [rqx, Dir.hi]; omega
  near' := by intro l w h; rcases near_target h with ⟨-, rfl⟩ | ⟨-, rfl⟩ <;> simp only [rqx, Dir.lo] <;> omega
  lb := lbOk_zero rq_net (fun _ => rfl) _ _
  walk := by
    intro l0 w0 k l r m a d x _ _ _ hr ha _ hx hlt
    exfalso
    have hx : (d, x) ∈ (if m = 2 then [(3, (40 : Int))] else []) := hx
    obtain ⟨dep, -, hn⟩ := hr
    split at hx
    · rename_i hm
      have := (ride_times hn).2 hm
      simp only [List.mem_singleton, Prod.mk.injEq] at hx
      simp only [rqx, Request.ahead] at hlt
      omega
    · cases hx

theorem rq_ok : rq.Ok := rqx_ok
theorem rq_at (t : Int) (h1 : 590 ≤ t) (h2 : t < 2043) : rq.OkAt t := rqx_at t h1 (by omega)

end Demo

/-! ## C58: the results are best -/

theorem run_cases {q : Request} {o : Output} (h : q.run = .ok o) : ∃ res, q.cfg.loop q.s0 [] = .ok (o.to', res) ∧ o.from' = q.s0 ∧
    o.journeys = (res.filter (q.cfg.keep o.to')).map fun j => { j with start := j.dest, dest := j.start } := by
  unfold Request.run Cfg.run at h
  generalize hl : q.cfg.loop q.cfg.s0 [] = x at h
  cases x with
  | error e => cases h
  | ok p =>
    obtain ⟨s, res⟩ := p
    have h := Except.ok.inj h
    subst h
    exact ⟨res, hl, rfl, rfl⟩

theorem res_nil (C : Cfg) : C.Res [] := ⟨List.Pairwise.nil, by simp, by simp⟩

theorem run_facts {q : Request} (hq : q.Ok) {o : Output} (h : q.run = .ok o) (hat : ∀ t, q.s0 ≤ t → t < o.to' → q.OkAt t) :
    ∃ res, q.cfg.Res res ∧ o.from' = q.s0 ∧
    o.journeys = (res.filter (q.cfg.keep o.to')).map (fun j => { j with start := j.dest, dest := j.start }) ∧
    ∀ k dep A, k ≤ q.cfg.N → Feas q.cfg.P q.cfg.acc k dep A → q.s0 ≤ dep → dep < o.to' →
        (∃ z ∈ res, z.transfers + 1 ≤ k ∧ z.start ≤ A ∧ dep ≤ z.dest) ∨ q.cfg.Skipped q.s0 dep A := by
  obtain ⟨res, hl, h2, h3⟩ := run_cases h
  have := hq.base.loop (lim := o.to') (s := q.s0) (fun t h1 h2 => hq.at h1 (hat t h1 h2)) (res_nil q.cfg)
  rw [hl] at this
  obtain ⟨-, this⟩ := this
  obtain ⟨g1, -, g2⟩ := this (Int.le_refl _)
  exact ⟨res, g1, h2, h3, g2⟩

/-- C58: every result of a query is a best trip: it is a trip of the traveller, and no other trip is as good with
respect to the number of rides, departure and arrival and better in one of them — even among the trips with more
rides than allowed, with longer travel time or outside of the interval.  It departs in the interval that is reported
as searched, and, unless that may be extended, in the interval of the query; it is faster than the direct connection
and within the maximal travel time. -/
theorem C58_best (q : Request) (hq : q.Ok) (o : Output) (h : q.run = .ok o) (hat : ∀ t, q.s0 ≤ t → t < o.to' → q.OkAt t) :
    o.from' = q.s0 ∧ ∀ j ∈ o.journeys, Best q (j.transfers + 1) j.start j.dest ∧ j.transfers + 1 ≤ q.rides ∧
      o.from' ≤ j.start ∧ j.start < o.to' ∧ (q.extend = false → j.start < q.endT) ∧
      j.start < j.dest ∧ j.dest - j.start < q.fastest ∧ j.dest - j.start ≤ q.maxTravel := by
  obtain ⟨res, hr, h2, h3, -⟩ := run_facts hq h hat
  refine ⟨h2, ?_⟩
  intro j hj
  rw [h3, List.mem_map] at hj
  obtain ⟨z, hz, rfl⟩ := hj
  obtain ⟨hz, hk⟩ := List.mem_filter.mp hz
  obtain ⟨ho, hn, hf⟩ := hr.opt z hz
  have hlt := hq.base.order hr z hz
  unfold Cfg.keep validated Cfg.fast PJ.travel at hk
  simp only [Bool.and_eq_true, decide_eq_true_eq, Bool.not_eq_true', Bool.and_eq_false_iff, Bool.not_eq_false', decide_eq_false_iff_not] at hk
  obtain ⟨⟨⟨k1, k2⟩, k3⟩, k4, k5⟩ := hk
  have k4 : ((z.dest - z.start).natAbs : Int) < q.fastest := k4
  have k5 : ((z.dest - z.start).natAbs : Int) ≤ q.maxTravel := k5
  have k3 : q.extend = true ∨ ¬ q.endT ≤ z.dest := k3
  have hf : q.s0 ≤ z.dest := hf
  refine ⟨hq.optimal ho, hn, by rw [h2]; exact hf, k2, ?_, hlt, ?_, ?_⟩
  · intro he
    rcases k3 with k3 | k3
    · rw [he] at k3; cases k3
    · show z.dest < q.endT
      omega
  · show z.start - z.dest < q.fastest
    omega
  · show z.start - z.dest ≤ q.maxTravel
    omega

/-- C58: no result is as good as another one. -/
theorem C58_distinct (q : Request) (hq : q.Ok) (o : Output) (h : q.run = .ok o) (hat : ∀ t, q.s0 ≤ t → t < o.to' → q.OkAt t) :
    o.journeys.Pairwise fun a b => ¬ (a.transfers ≤ b.transfers ∧ b.start ≤ a.start ∧ a.dest ≤ b.dest) ∧
      ¬ (b.transfers ≤ a.transfers ∧ a.start ≤ b.start ∧ b.dest ≤ a.dest) := by
  obtain ⟨res, hr, -, h3, -⟩ := run_facts hq h hat
  rw [h3, List.pairwise_map]
  refine List.Pairwise.filter _ (List.Pairwise.imp ?_ hr.anti)
  intro a b hab
  simp only [← Bool.not_eq_true, pongLe_iff] at hab
  simp only
  omega

example : Best Demo.rq 2 602 650 ∧ Best Demo.rq 1 662 720 := by
  have h := C58_best Demo.rq Demo.rq_ok _ Demo.rq_run Demo.rq_at
  exact ⟨(h.2 ⟨602, 650, 1, .ok⟩ (by simp)).1, (h.2 ⟨662, 720, 0, .ok⟩ (by simp)).1⟩

/-! ## C59: nothing is missing -/

/-- A gap in the service: from some time `t0` of the interval on, all that arrives within the time the search looks
ahead is no better than trips that depart at `dep` or later, and the trip itself does not arrive in that time. -/
def Gap (q : Request) (dep arr : Int) : Prop :=
  ∃ t0, q.s0 ≤ t0 ∧ t0 ≤ dep ∧ t0 + q.ahead < arr ∧
    ∀ k1 d1 A1, k1 ≤ q.rides → Trip q k1 d1 A1 → t0 ≤ d1 → A1 ≤ t0 + q.ahead → ∃ k2 d2 A2, Trip q k2 d2 A2 ∧ k2 ≤ k1 ∧ dep ≤ d2 ∧ A2 ≤ A1

theorem skipped_gap {q : Request} (hq : q.Ok) {dep A A' : Int} (h : q.cfg.Skipped q.s0 dep A') (hA : A' ≤ A) : Gap q dep A := by
  obtain ⟨t0, h1, h2, h3, h4⟩ := h
  have h3 : t0 + q.ahead < A' := h3
  refine ⟨t0, h1, h2, by omega, ?_⟩
  intro k1 d1 A1 hk ht hd hA1
  obtain ⟨k', A'', g1, g2, g3⟩ := hq.trip_feas ht
  obtain ⟨k2, d2, A2, e1, e2, e3, e4⟩ := h4 k' d1 A'' (Nat.le_trans g1 hk) g3 hd (Int.le_trans g2 hA1)
  obtain ⟨k3, A3, f1, f2, f3⟩ := hq.feas_trip e1
  exact ⟨k3, d2, A3, f3, by omega, e3, by omega⟩

/-- C59 (partial): if the reconstruction of journeys succeeds, every trip of at most the allowed number of rides and
travel time that departs in the searched interval is matched by a result that is as good, or by a trip that departs
after the interval, or it departs after a gap in the service. -/
theorem C59_complete_partial (q : Request) (hq : q.Ok) (hrec : ∀ s j, q.recon s j = true) (o : Output) (h : q.run = .ok o)
    (hat : ∀ t, q.s0 ≤ t → t < o.to' → q.OkAt t) (k : Nat) (dep arr : Int) (hk : k ≤ q.rides) (ht : Trip q k dep arr)
    (hd : o.from' ≤ dep) (hd' : dep < o.to') (hf : arr - dep < q.fastest) (hm : arr - dep ≤ q.maxTravel) :
    (∃ j ∈ o.journeys, j.transfers + 1 ≤ k ∧ dep ≤ j.start ∧ j.dest ≤ arr) ∨
    (∃ k' dep' arr', Trip q k' dep' arr' ∧ k' ≤ k ∧ dep ≤ dep' ∧ arr' ≤ arr ∧ (o.to' ≤ dep' ∨ (q.extend = false ∧ q.endT ≤ dep'))) ∨
    Gap q dep arr := by
  obtain ⟨res, hr, h2, h3, h4⟩ := run_facts hq h hat
  obtain ⟨k', A', g1, g2, g3⟩ := hq.trip_feas ht
  rcases h4 k' dep A' (Nat.le_trans g1 hk) g3 (by omega) hd' with ⟨z, hz, e1, e2, e3⟩ | hs
  · obtain ⟨ho, hn, -⟩ := hr.opt z hz
    have hlt := hq.base.order hr z hz
    by_cases hout : o.to' ≤ z.dest ∨ (q.extend = false ∧ q.endT ≤ z.dest)
    · right; left
      exact ⟨_, _, _, (hq.optimal ho).1, by omega, e3, by omega, hout⟩
    · left
      refine ⟨{ z with start := z.dest, dest := z.start }, ?_, by simp only; omega, e3, by simp only; omega⟩
      rw [h3, List.mem_map]
      refine ⟨z, List.mem_filter.mpr ⟨hz, ?_⟩, rfl⟩
      have hst := hr.status hrec z hz
      have i1 : ((z.dest - z.start).natAbs : Int) < q.cfg.fastest := by
        show _ < q.fastest
        omega
      have i2 : ((z.dest - z.start).natAbs : Int) ≤ q.cfg.maxTravel := by
        show _ ≤ q.maxTravel
        omega
      have i3 : z.dest < o.to' := by omega
      have i4 : q.cfg.extend = true ∨ ¬ q.cfg.endT ≤ z.dest := by
        by_cases he : q.extend = true
        · exact Or.inl he
        · right
          show ¬ q.endT ≤ z.dest
          intro hc
          exact hout (Or.inr ⟨by simpa using he, hc⟩)
      unfold Cfg.keep validated Cfg.fast PJ.travel
      simp only [Bool.and_eq_true, decide_eq_true_eq, Bool.not_eq_true', Bool.and_eq_false_iff, Bool.not_eq_false', decide_eq_false_iff_not]
      exact ⟨⟨⟨hst, i3⟩, i4⟩, i1, i2⟩
  · exact Or.inr (Or.inr (skipped_gap hq hs g2))

/-- C59: there is no gap if from every time of the interval on there is a best trip that departs within a day and
arrives in the time the search looks ahead.  (With a maximal travel time of up to four days.) -/
theorem C59_dense (q : Request) (hm : q.maxTravel ≤ 5760) (hi : Int)
    (hdense : ∀ t0, q.s0 ≤ t0 → t0 < hi → ∃ k dep arr, k ≤ q.rides ∧ Best q k dep arr ∧ t0 ≤ dep ∧ dep ≤ t0 + 1440 ∧ arr ≤ t0 + q.ahead)
    (dep arr : Int) (hd : dep < hi) (htr : arr - dep ≤ q.maxTravel) : ¬ Gap q dep arr := by
  rintro ⟨t0, h1, h2, h3, h4⟩
  obtain ⟨k, d, A, g1, g2, g3, g4, g5⟩ := hdense t0 h1 (by omega)
  obtain ⟨k2, d2, A2, e1, e2, e3, e4⟩ := h4 k d A g1 g2.1 g3 g5
  have hah : q.ahead = q.maxTravel + 1440 := by unfold Request.ahead; omega
  have := g2.2 k2 d2 A2 e1 e2 (by omega) e4
  omega

/-- C59: with daily service in the sense of `C59_dense` and the interval of the query as the searched interval,
exactly the best trips are found: every trip departing in the interval is matched by a result, or by a trip that
departs after the interval. -/
theorem C59_daily (q : Request) (hq : q.Ok) (hrec : ∀ s j, q.recon s j = true) (o : Output) (h : q.run = .ok o)
    (hat : ∀ t, q.s0 ≤ t → t < o.to' → q.OkAt t) (hm : q.maxTravel ≤ 5760)
    (hdense : ∀ t0, q.s0 ≤ t0 → t0 < o.to' → ∃ k dep arr, k ≤ q.rides ∧ Best q k dep arr ∧ t0 ≤ dep ∧ dep ≤ t0 + 1440 ∧ arr ≤ t0 + q.ahead)
    (k : Nat) (dep arr : Int) (hk : k ≤ q.rides) (ht : Trip q k dep arr) (hd : o.from' ≤ dep) (hd' : dep < o.to')
    (hf : arr - dep < q.fastest) (hmt : arr - dep ≤ q.maxTravel) :
    (∃ j ∈ o.journeys, j.transfers + 1 ≤ k ∧ dep ≤ j.start ∧ j.dest ≤ arr) ∨
    (∃ k' dep' arr', Trip q k' dep' arr' ∧ k' ≤ k ∧ dep ≤ dep' ∧ arr' ≤ arr ∧ (o.to' ≤ dep' ∨ (q.extend = false ∧ q.endT ≤ dep'))) := by
  rcases C59_complete_partial q hq hrec o h hat k dep arr hk ht hd hd' hf hmt with g | g | g
  · exact Or.inl g
  · exact Or.inr g
  · exact absurd g (C59_dense q hm o.to' hdense dep arr hd' hmt)

/-- Every trip with one ride that departs from 10:00 to 11:40 and takes less than five hours is matched by a result. -/
example (dep arr : Int) (ht : Trip (Demo.rqx true) 1 dep arr) (h1 : 600 ≤ dep) (h2 : dep ≤ 700) (h3 : arr - dep < 300) :
    (∃ j ∈ [(⟨602, 650, 1, .ok⟩ : PJ), ⟨602, 660, 0, .ok⟩, ⟨662, 720, 0, .ok⟩, ⟨2042, 2100, 0, .ok⟩], j.transfers + 1 ≤ 1 ∧ dep ≤ j.start ∧ j.dest ≤ arr) ∨
    (∃ k' dep' arr', Trip (Demo.rqx true) k' dep' arr' ∧ k' ≤ 1 ∧ dep ≤ dep' ∧ arr' ≤ arr ∧ ((2043 : Int) ≤ dep' ∨ (true = false ∧ 700 ≤ dep'))) := by
  have hat : ∀ t, (590 : Int) ≤ t → t < 2043 → (Demo.rqx true).OkAt t := fun t h1 h2 => Demo.rqx_at t h1 (by omega)
  have hb := (C58_best (Demo.rqx true) Demo.rqx_ok _ Demo.rqx_run hat).2
  refine C59_daily (Demo.rqx true) Demo.rqx_ok (fun _ _ => rfl) _ Demo.rqx_run hat (by decide) ?_ 1 dep arr (by decide) ht
    (show (590 : Int) ≤ dep by omega) (show dep < 2043 by omega) (show arr - dep < 1000 by omega) (show arr - dep ≤ 300 by omega)
  intro t0 g1 g2
  have g1 : 590 ≤ t0 := g1
  have g2 : t0 < 2043 := g2
  have hah : (Demo.rqx true).ahead = 1740 := by decide
  rw [hah]
  by_cases c1 : t0 ≤ 602
  · exact ⟨2, 602, 650, by decide, (hb ⟨602, 650, 1, .ok⟩ (by simp)).1, c1, by omega, by omega⟩
  · by_cases c2 : t0 ≤ 662
    · exact ⟨1, 662, 720, by decide, (hb ⟨662, 720, 0, .ok⟩ (by simp)).1, c2, by omega, by omega⟩
    · exact ⟨1, 2042, 2100, by decide, (hb ⟨2042, 2100, 0, .ok⟩ (by simp)).1, by omega, by omega, by omega⟩

/-- The premises of C59 hold for the trip with one ride at 10:02 (arrival 11:00). -/
example : (∃ j ∈ [(⟨602, 650, 1, .ok⟩ : PJ), ⟨602, 660, 0, .ok⟩, ⟨662, 720, 0, .ok⟩], j.transfers + 1 ≤ 1 ∧ 602 ≤ j.start ∧ j.dest ≤ 660) ∨
    (∃ k' dep' arr', Trip Demo.rq k' dep' arr' ∧ k' ≤ 1 ∧ 602 ≤ dep' ∧ arr' ≤ 660 ∧ ((2043 : Int) ≤ dep' ∨ (false = false ∧ 700 ≤ dep'))) ∨
    Gap Demo.rq 602 660 :=
  C59_complete_partial Demo.rq Demo.rq_ok (fun _ _ => rfl) _ Demo.rq_run Demo.rq_at 1 602 660 (by decide)
    ((C58_best Demo.rq Demo.rq_ok _ Demo.rq_run Demo.rq_at).2 ⟨602, 660, 0, .ok⟩ (by simp)).1.1
    (by decide) (by decide) (by decide) (by decide)

/-! ## C60: no exception -/

/-- C60 (partial): if an exception is thrown, then one of the start times up to the one at which it happened does not
meet the conditions; in particular a query for which all start times in the timetable's period meet them does not
throw. -/
theorem C60_no_exception_partial (q : Request) (hq : q.Ok) (e : Int) (err : Error) (h : q.run = .error (e, err)) :
    ∃ t, q.s0 ≤ t ∧ t ≤ e ∧ ¬ q.OkAt t := by
  apply Classical.byContradiction
  intro hc
  have := hq.base.loop (lim := e + 1) (s := q.s0) (res := [])
    (fun t h1 h2 => hq.at h1 (Classical.byContradiction fun hn => hc ⟨t, h1, by omega, hn⟩)) (res_nil q.cfg)
  unfold Request.run Cfg.run at h
  have hs : q.cfg.s0 = q.s0 := rfl
  rw [hs] at h
  generalize q.cfg.loop q.s0 [] = x at h this
  cases x with
  | error p =>
    have h := Except.error.inj h
    subst h
    have this : e + 1 ≤ e := this
    omega
  | ok p => cases h

theorem loop_error_lt (C : Cfg) (s : Int) (res : List PJ) : ∀ e err, C.loop s res = .error (e, err) → e < C.extTo := by
  fun_induction Cfg.loop C s res with
  | case1 s res hgo x he => intro e err h; have h := Except.error.inj h; cases h; exact Cfg.go_lt hgo
  | case2 s res hgo he => intro e err h; cases h
  | case3 s res hgo next res' he hn ih => exact ih
  | case4 s res hgo next res' he hn => intro e err h; have h := Except.error.inj h; cases h; exact Cfg.go_lt hgo
  | case5 s res hgo => intro e err h; cases h

/-- C60: a query for which all start times from the first one to the end of the timetable's period meet the
conditions returns a result. -/
theorem C60_returns (q : Request) (hq : q.Ok) (hat : ∀ t, q.s0 ≤ t → t < q.extTo → q.OkAt t) : ∃ o, q.run = .ok o := by
  generalize hr : q.run = x
  cases x with
  | ok o => exact ⟨o, rfl⟩
  | error p =>
    obtain ⟨e, err⟩ := p
    obtain ⟨t, h1, h2, h3⟩ := C60_no_exception_partial q hq e err hr
    have hlt : e < q.extTo := by
      unfold Request.run Cfg.run at hr
      generalize hl : q.cfg.loop q.cfg.s0 [] = y at hr
      cases y with
      | error p => have hr := Except.error.inj hr; subst hr; exact loop_error_lt q.cfg _ _ e err hl
      | ok p => cases hr
    exact absurd (hat t h1 (by omega)) h3

example : ∃ o, (Demo.rqx true).run = .ok o := C60_returns _ Demo.rqx_ok Demo.rqx_at

/-! ## Counterexamples to the unrestricted claims -/

namespace Counter

def st (l : Nat) : StopData := ⟨l, true, true, true, true⟩

/-- A bus from `a` to `b` on one day. -/
def bus (day : Int) (a b dep arr : Nat) : RouteData :=
  ⟨[st a, st b], 1, fun _ s => if s = 0 then dep else arr, fun _ s => if s = 0 then dep else arr, fun _ d => d == day, 3, []⟩

def net (rs : List RouteData) : Net where
  nLoc := 10
  routes := rs
  rts := []
  base := 5
  wheelchair := false
  claszMask := 255
  required := []
  transfer := fun _ => 2
  fps := fun _ _ => []
  intermodal := false
  endDist := fun _ => none
  endTd := fun _ _ => none
  endLoc := 9
  isDest := fun _ => false
  lb := fun _ => some 0

/-- A footpath from `a` to `b`. -/
def path (a b : Loc) (w : Int) : Dir → Loc → List (Loc × Int)
  | .fwd, l => if l = a then [(b, w)] else []
  | .bwd, l => if l = b then [(a, w)] else []

def rq (rs : List RouteData) (fps : Dir → Loc → List (Loc × Int)) (useFps : Bool) (maxTravel : Int) : Request where
  dir := .fwd
  T := Demo.tt
  base := net rs
  fps := fps
  endLoc := 9
  origin := ⟨.exact, [(0, 0)]⟩
  target := ⟨.exact, [(3, 0)]⟩
  useStartFps := useFps
  lb := fun _ => some 0
  maxTransfers := 5
  maxTravel := maxTravel
  fastest := 1000
  minConn := 0
  extend := false
  s0 := 580
  endT := 3460
  extFrom := 0
  extTo := 4000
  recon := fun _ _ => true
  timeout := fun _ => false

/-- Station 1 is five minutes on foot from the origin; a bus goes there, too. -/
def walkStart (useFps : Bool) : Request := rq [bus 5 0 1 590 598, bus 5 1 3 605 630] (path 0 1 5) useFps 300

/-- The only trip with one ride arrives two minutes after the time the search looks at; a trip with two rides
crosses it on foot and arrives later. -/
def cross : Request := rq [bus 6 0 1 600 610, bus 6 1 2 620 638, bus 6 0 3 605 642] (path 2 3 5) true 60

/-- A fast trip with two rides, and a slow trip with one ride that departs earlier, both on the next day. -/
def gap : Request := rq [bus 6 0 1 610 611, bus 6 1 3 615 616, bus 6 0 3 605 650] (fun _ _ => []) true 60

end Counter

/-- C60 (counterexample): with the default `use_start_footpaths_ = false` the second search walks at the origin and
the first does not: a query from a station throws. -/
theorem C60_counterexample_footpaths : (Counter.walkStart false).run = .error (580, .noPong) ∧
    (Counter.walkStart true).run = .ok ⟨[⟨600, 630, 0, .ok⟩], 580, 601⟩ := by decide +kernel

/-- C60 (counterexample): a query whose first search ends on a walk across the end of the time it looks at throws. -/
theorem C60_counterexample_walk : Counter.cross.run = .error (580, .noPong) := by decide +kernel

/-- C59 (counterexample): the trip with one ride at 10:05 on the second day is missing, although it departs in the
searched interval, is allowed and nothing is as good. -/
theorem C59_counterexample : Counter.gap.run = .ok ⟨[⟨2050, 2056, 1, .ok⟩], 580, 2051⟩ ∧ Trip Counter.gap 1 2045 2090 := by
  refine ⟨by decide +kernel, 0, 0, ?_, ?_⟩
  · simp [Place.Near, Counter.gap, Counter.rq, forEachMeta]
  · refine .last (m := 3) (a := 2090) ⟨2045, by decide, Or.inl ⟨Counter.bus 6 0 3 605 650, by simp [Counter.gap, Counter.rq, Counter.net, Request.net, Request.netTo], 0, 6, by decide, by decide, by decide, 0, 1, Counter.st 0, Counter.st 3, by decide, rfl, rfl, rfl, rfl, ?_, ?_, ?_, by decide, by decide⟩⟩ ?_
    · show MayBoard false (Counter.st 0); simp [MayBoard, Counter.st]
    · show MayAlight false (Counter.st 3); simp [MayAlight, Counter.st]
    · intro s _ _ f sec hf
      cases f <;> cases hf
    · exact Or.inl ⟨by decide +kernel, rfl⟩

/-- C59 (counterexample): without extension the reported interval can reach beyond the interval of the query although
no journeys are kept there: here the query ends at 700 and 2043 is reported. -/
theorem C59_counterexample_interval : Demo.rq.endT = 700 ∧ Demo.rq.extend = false ∧ (∃ o, Demo.rq.run = .ok o ∧ o.to' = 2043) ∧
    (∃ o, (Demo.rqx true).run = .ok o ∧ ⟨662, 720, 0, .ok⟩ ∈ o.journeys ∧ ⟨2042, 2100, 0, .ok⟩ ∈ o.journeys) := by
  refine ⟨rfl, rfl, ⟨_, Demo.rq_run, rfl⟩, ?_⟩
  exact ⟨_, Demo.rqx_run, by decide, by decide⟩

end Nigiri.Raptor.Pong
