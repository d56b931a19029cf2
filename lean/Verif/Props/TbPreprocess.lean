import Verif.Proofs.TbPreprocess
/-!
# Property C37: precomputed transfers are feasible
-/

namespace Nigiri.TB
open Raptor (Loc StopData)

/-- Changing from trip `t` of route `r` that started on `day`, alighting at its stop `i`, to trip `t'` of route `r'` that
started on `day'`, boarding at its stop `j`: both trips run, alighting and boarding are allowed, and the change time of
the station or a footpath leads from one stop to the other in time.  Nobody waits for more than a day. -/
structure FeasibleChange (tt : TT) (prf : Nat) (r t day i r' t' day' j : Nat) : Prop where
  trip : t' < (tt.route r').nTr
  runs : ((tt.route r).bits t).testBit day = true
  runs' : ((tt.route r').bits t').testBit day' = true
  alight : 0 < i ∧ i < (tt.route r).stops.length ∧ ((tt.route r).stop i).outAllowed = true
  board : j + 1 < (tt.route r').stops.length ∧ ((tt.route r').stop j).inAllowed = true
  walk : ∃ w, ((((tt.route r').stop j).loc = ((tt.route r).stop i).loc ∧ w = tt.transfer ((tt.route r).stop i).loc) ∨
      (((tt.route r').stop j).loc, w) ∈ tt.fpsOut prf ((tt.route r).stop i).loc) ∧
    day * 1440 + (tt.route r).arr t i + w ≤ day' * 1440 + (tt.route r').dep t' j
  wait : day' * 1440 + (tt.route r').dep t' j ≤ day * 1440 + (tt.route r).arr t i + 1440

/-- The trips of a route are in order of the time of day at every departure; numbers fit into their fields. -/
structure TT.Ok (tt : TT) (prf : Nat) : Prop where
  sorted : ∀ r ∈ tt.routes, ∀ s, s + 1 < r.stops.length → ∀ u, u + 1 < r.nTr → r.dep u s % 1440 ≤ r.dep (u + 1) s % 1440
  stops : ∀ r ∈ tt.routes, r.stops.length ≤ 4096
  trips : ∀ r ∈ tt.routes, r.nTr ≤ 4096
  transfer : ∀ l, tt.transfer l ≤ 60000
  fps : ∀ l x, x ∈ tt.fpsOut prf l → x.2 ≤ 60000

theorem route_mem {tt : TT} {r j : Nat} (h : j < (tt.route r).stops.length) : r < tt.routes.length ∧ tt.route r ∈ tt.routes := by
  unfold TT.route at h ⊢
  by_cases hr : r < tt.routes.length
  · rw [List.getD_eq_getElem?_getD, List.getElem?_eq_getElem hr]
    exact ⟨hr, by simp⟩
  · rw [List.getD_eq_getElem?_getD, List.getElem?_eq_none (by omega)] at h
    simp at h

/-- C37 for the transfers of one trip, before they are numbered. -/
theorem preprocessRoute_feasible (tt : TT) (prf : Nat) (hok : tt.Ok prf) (r t seg : Nat) (y : Xfer)
    (hy : y ∈ preprocessRoute tt prf r t seg) (day : Nat) (hd : y.bf.testBit day = true) :
    ∃ day' : Nat, (day' : Int) = (day : Int) + y.dayOff ∧ FeasibleChange tt prf r t day (seg + 1) y.route y.tr day' y.stopTo := by
  unfold preprocessRoute at hy
  simp only at hy
  split at hy
  · simp at hy
  · obtain ⟨x, hx, bf, rfl, hb⟩ := preprocessTransport_restr _ _ _ _ _ _ _ hy
    have hsorted : ∀ nb ∈ neighborhood tt prf r, ∀ u, u + 1 < (tt.route nb.routeTo).nTr →
        (tt.route nb.routeTo).dep u nb.stopTo % 1440 ≤ (tt.route nb.routeTo).dep (u + 1) nb.stopTo % 1440 := by
      intro nb hnb u hu
      have hg := neighborhood_good tt prf r nb hnb
      exact hok.sorted _ (route_mem (Nat.lt_of_succ_lt hg.toLt)).2 _ hg.toLt u hu
    obtain ⟨nb, hnb, hseg, hg⟩ := lineBased_good tt (tt.route r) t _ hsorted seg x hx
    have hn := neighborhood_good tt prf r nb hnb
    have hpos := hn.pos
    have hsf : nb.stopFrom = seg + 1 := by omega
    simp only at hd ⊢
    obtain ⟨day', e, hact⟩ := hg.active day (hb day hd)
    refine ⟨day', e, ?_⟩
    have hlen : nb.len ≤ 60000 := by
      rcases hn.walk with ⟨_, h⟩ | h
      · rw [h]; exact hok.transfer _
      · exact hok.fps _ _ h
    have hreach := hg.reach
    have hwait := hg.wait
    rw [show (Route.arr (tt.route r) t nb.stopFrom % 1440 + nb.len) % 65536 =
      Route.arr (tt.route r) t nb.stopFrom % 1440 + nb.len by omega] at hreach
    rw [hsf] at hreach hwait
    constructor
    · rw [hg.route]; exact hg.tr
    · exact hg.sub day (hb day hd)
    · rw [hg.route]; exact hact
    · exact ⟨by omega, hsf ▸ hn.lt, hsf ▸ hn.out⟩
    · rw [hg.route, hg.stop]; exact ⟨hn.toLt, hn.inn⟩
    · rw [hg.route, hg.stop]
      have hw := hn.walk
      rw [hsf] at hw
      exact ⟨nb.len, hw, by omega⟩
    · rw [hg.route, hg.stop]
      omega

/-- C37: every transfer stored for a segment of a trip leads, on each of its days, to a trip that can be reached after
alighting at the end of the segment.  `x.dayOffset` is the number of days between the service days of the two trips, and
the target is segment `toSeg`, which is the segment `toSegOff` of the trip `trOff` of the route. -/
theorem C37_feasible (tt : TT) (prf : Nat) (hok : tt.Ok prf) (tbd : TbData) (h : preprocess tt prf = some tbd)
    (r t i : Nat) (hr : r < tt.routes.length) (ht : t < (tt.route r).nTr) (hi : i + 1 < (tt.route r).stops.length)
    (x : Transfer) (hx : x ∈ tbd.segTransfers.getD (tbd.firstSeg.getD (trFrom tt r + t) 0 + i) [])
    (day : Nat) (hd : x.days.testBit day = true) :
    (∃ day' : Nat, (day' : Int) = (day : Int) + x.dayOffset ∧
      FeasibleChange tt prf r t day (i + 1) x.route x.trOff day' x.toSegOff) ∧
    x.toSeg = tbd.firstSeg.getD (trFrom tt x.route + x.trOff) 0 + x.toSegOff ∧
    tbd.segTr.getD x.toSeg 0 = trFrom tt x.route + x.trOff := by
  obtain ⟨-, hfirst, hsegTr, htrans⟩ := preprocess_data h
  rw [hfirst r t hr ht] at hx
  obtain ⟨z, hz, hzx⟩ := htrans _ _ _ (trList_get tt r t hr ht) (show i < nSeg tt (r, t) by unfold nSeg; simp only; omega) x hx
  unfold toTransfer at hzx
  cases ho : setDayOffset z.dayOff with
  | none => rw [ho] at hzx; simp at hzx
  | some o =>
    rw [ho] at hzx
    simp only [Option.map_some, Option.some.injEq] at hzx
    have hoff : (o : Int) - 8 = z.dayOff := by
      unfold setDayOffset at ho
      by_cases hc : -8 ≤ z.dayOff ∧ z.dayOff < 8
      · rw [if_pos hc] at ho
        injection ho with ho
        omega
      · rw [if_neg hc] at ho; simp at ho
    subst hzx
    simp only at hd
    obtain ⟨day', e, hf⟩ := preprocessRoute_feasible tt prf hok r t i z hz day hd
    have hmem := route_mem (Nat.lt_of_succ_lt hf.board.1)
    have h1 := hok.trips _ hmem.2
    have h2 := hok.stops _ hmem.2
    have h3 := hf.trip
    have h4 := hf.board.1
    have e1 : z.tr % 65536 = z.tr := by omega
    have e2 : z.stopTo % 4096 = z.stopTo := by omega
    simp only [e1, e2]
    refine ⟨⟨day', by simp only [Transfer.dayOffset]; omega, hf⟩, ?_, ?_⟩
    · rw [hfirst _ _ hmem.1 h3]
    · exact hsegTr _ _ _ (trList_get tt _ _ hmem.1 h3) (by unfold nSeg; simp only; omega)

/-! ## Example and the limits of the claim -/

namespace Demo37

/-- A stop where boarding and alighting are allowed. -/
def st (l : Nat) : StopData := ⟨l, true, true, true, true⟩

/-- Line A: stations 0 - 1 - 2 at 23:30, 23:40, 24:10 on days 5 and 6.  Line B: 1 - 3 with trips at 00:05 (days 6, 7)
and 23:50 (day 6 only). -/
def tt : TT where
  routes := [⟨[st 0, st 1, st 2], 1, fun _ s => [0, 1420, 1450].getD s 0, fun _ s => [1410, 1420, 0].getD s 0, fun _ => 0b1100000⟩,
    ⟨[st 1, st 3], 2, fun t _ => [35, 1460].getD t 0, fun t _ => [5, 1430].getD t 0, fun t => [0b11000000, 0b1000000].getD t 0⟩]
  transfer := fun _ => 2
  fpsOut := fun _ _ => []
  fpsIn := fun _ _ => []
  locRoutes := fun l => [[0], [0, 1], [0], [1]].getD l []

/-- On day 5 the change is to the trip at 00:05 of the next service day, on day 6 to the one at 23:50. -/
example : (preprocess tt 0).map (·.segTransfers) =
    some [[⟨3, 0b1000000, 1, 1, 0, 8⟩, ⟨2, 0b100000, 1, 0, 0, 9⟩], [], [], []] := by decide +kernel

example : tt.Ok 0 where
  sorted := by
    intro r hr s hs u hu
    simp only [tt, List.mem_cons, List.not_mem_nil, or_false] at hr
    rcases hr with rfl | rfl
    · simp at hu
    · simp only at hu ⊢
      have : u = 0 := by omega
      subst this
      decide
  stops := by
    intro r hr
    simp only [tt, List.mem_cons, List.not_mem_nil, or_false] at hr
    rcases hr with rfl | rfl <;> decide
  trips := by
    intro r hr
    simp only [tt, List.mem_cons, List.not_mem_nil, or_false] at hr
    rcases hr with rfl | rfl <;> decide
  transfer := by intro l; show 2 ≤ 60000; decide
  fps := by intro l x hx; simp [tt] at hx

/-- A line B whose trips overtake each other before station 1: the trip listed first leaves at 10:30, the second at
10:00. -/
def ttOvertake : TT := { tt with
  routes := [⟨[st 0, st 1], 1, fun _ _ => 620, fun _ _ => 600, fun _ => 0b100000⟩,
    ⟨[st 4, st 1, st 3], 2, fun t s => [[0, 629, 650], [0, 599, 620]].getD t [] |>.getD s 0,
      fun t s => [[540, 630, 0], [545, 600, 0]].getD t [] |>.getD s 0, fun t => [0b1000000, 0b100000].getD t 0⟩]
  locRoutes := fun l => [[0], [0, 1], [], [1], [1]].getD l [] }

/-- Without the order of the trips the claim fails: line A arrives at station 1 at 10:20 and the only transfer found is
to the trip that left at 10:00. -/
theorem C37_overtake_counterexample :
    (preprocess ttOvertake 0).map (fun d => d.segTransfers.getD 0 []) = some [⟨4, 0b100000, 1, 1, 1, 8⟩] ∧
    (ttOvertake.route 0).arr 0 1 = 620 ∧ (ttOvertake.route 1).dep 1 1 = 600 := by
  refine ⟨?_, rfl, rfl⟩
  decide +kernel

end Demo37

end Nigiri.TB
