import Verif.Proofs.ReconstructNet
import Verif.Proofs.ReconstructComplete
import Verif.Props.Raptor
/-!
# Properties C55, C56: journey reconstruction

The specification of an itinerary is in `Verif.Spec.Itinerary`.  `reconstruct d N Q R s K dest` are the legs found
for the journey (destination `dest`, `K` rides, start time `s`) from the labels `R`, or `none` if an exception is
thrown.
-/

namespace Nigiri.Raptor

/-! ## C55 -/

/-- C55 (full statement: as below, without the condition `OpenStops` of `RcSound`, which is needed for wheelchair
queries only, see `C55_wheelchair_false`): whatever the labels are, if legs are returned, a passenger can follow them: every leg is a permitted ride
with a running vehicle, a transfer, a footpath or an offset of the query with the right times; consecutive legs
fit; there are exactly `K` rides; the first leg does not start before the start time (at a start of the query), the
last one reaches the destination no later than its label (mirrored for backward searches). -/
theorem C55_itinerary_partial (d : Dir) (N : Net) (hN : NetOk N) (hst : StaticFps N) (Q : RcData) (hQ : RcSound N Q)
    (R : Nat → Loc → Int) (hR : ∀ k l, d.lo < R k l ∧ R k l ≤ d.hi) (s : Int) (K : Nat) (hK : 1 ≤ K) (dest : Loc)
    (hd : N.intermodal = true → dest = N.endLoc) (legs : List Leg) (h : reconstruct d N Q R s K dest = some legs) :
    Itinerary d N Q s K dest (R K dest) legs :=
  reconstruct_sound hN hst hQ hR hK hd h

/-- The labels of a search are in the range of C55. -/
theorem search_range {d : Dir} {N : Net} (hN : NetOk N) {n : Nat} {qs : List Start} (hq : ∀ x ∈ allStarts qs, d.lo < x.2 ∧ x.2 ≤ d.hi) (k : Nat) (l : Loc) :
    d.lo < (search d N n qs).round k l ∧ (search d N n qs).round k l ≤ d.hi := by
  have h := runAll_ok (sane_of_ok d hN) n qs hq k l
  refine ⟨?_, h.1⟩
  by_cases hc : (search d N n qs).round k l < d.hi
  · obtain ⟨j, _, hr⟩ := h.2 hc
    have := ready_ge (sane_of_ok d hN) (b := d.lo + 1) (fun x hx => by have := hq x hx; omega) hr
    show d.lo < (runAll (mkProblem d N) n qs).round k l
    omega
  · have : d.lo < d.hi := by cases d <;> decide
    omega

/-- C55 for the journeys reported by a search: the itinerary has the rides and the arrival of the reported
journey. -/
theorem C55_reported_partial (d : Dir) (N : Net) (hN : NetOk N) (hst : StaticFps N) (Q : RcData) (hQ : RcSound N Q) (n : Nat) (qs : List Start)
    (hq : ∀ x ∈ allStarts qs, d.lo < x.2 ∧ x.2 ≤ d.hi) (dest : Loc) (K : Nat) (A : Int) (hr : (dest, K, A) ∈ reported d N n qs)
    (s : Int) (legs : List Leg) (h : reconstruct d N Q (search d N n qs).round s K dest = some legs) : Itinerary d N Q s K dest A legs := by
  obtain ⟨_, h2, h3, _, h5, _⟩ := (mem_results _ _ _ _ _ _).mp hr
  rw [h5]
  exact C55_itinerary_partial d N hN hst Q hQ _ (fun k l => search_range hN hq k l) s K h3 dest (fun hi => (hN.endDest hi dest).mp h2) legs h

/-! ## C56 -/

/-- The query data of search and reconstruction belong together: the footpaths into a stop are the footpaths out of
the other one, no time-dependent offsets, the destination offsets are those of the search and shorter than 511
minutes; for wheelchair queries, the wheelchair permissions of the stops are the ordinary ones. -/
structure RcExact (N : Net) (Q : RcData) : Prop where
  stops : OpenStops N
  special : NoSpecialStops N
  fps : ∀ l m w t, (m, w) ∈ Q.fpsIn l ↔ (l, w) ∈ N.fps m t
  noTd : ∀ l t, N.endTd l t = none
  pos : ∀ o ∈ Q.dests, 0 ≤ o.2
  dests : ∀ m w, N.endDist m = some w → w < 511 ∧ HasOffset Q.dests m w
  least : ∀ m w, HasOffset Q.dests m w → ∃ w', w' ≤ w ∧ N.endDist m = some w'

/-- The start events of a start time come from the start locations of the query (`get_starts`): by an offset, at a
start location, or by a footpath from it. -/
def StartEvents (Q : RcData) (q : Start) : Prop :=
  ∀ x ∈ q.starts,
    if Q.startIntermodal = true then ∃ w, HasOffset Q.offs x.1 w ∧ q.time + w ≤ x.2
    else Q.isStart x.1 = true ∨ ∃ m w, (m, w) ∈ Q.fpsIn x.1 ∧ Q.isStart m = true ∧ (if Q.ontrip = true then q.time + w ≤ x.2 else q.time + w = x.2)

theorem RcExact.sound {N : Net} (hN : NetOk N) {Q : RcData} (h : RcExact N Q) : RcSound N Q where
  stops := h.stops
  fps := fun l m w hm => ⟨hN.fps m 0 l w ((h.fps l m w 0).mp hm), fun t => (h.fps l m w t).mp hm⟩
  dests := h.pos

theorem RcExact.match {N : Net} (hN : NetOk N) {Q : RcData} (h : RcExact N Q) (d : Dir) : RcMatch (mkProblem d N) (mkRc d N Q) where
  toRcOk := rcOk_of d (h.sound hN)
  fps := h.fps
  noTd := h.noTd
  dests := h.dests
  destsLe := h.least
  exits := exitAll_of d h.special Q

/-- C56 (full statement: as below, without the conditions on wheelchair permissions in `RcExact`, see
`C56_wheelchair_false`): every journey that is reported after the start times `done ++ [q]`, arrives within the horizon of `q` and is
dominated neither by a journey reported for an earlier processed start time nor by another one of the same start
time is reconstructed (no exception is thrown), and the result is an itinerary for it. -/
theorem C56_complete_partial (d : Dir) (N : Net) (hN : NetOk N) (hF : NetFifo N) (hst : StaticFps N) (Q : RcData) (hQ : RcExact N Q) (n : Nat)
    (done : List Start) (q : Start) (hq : RangeQuery d N (done ++ [q])) (hlb : ∀ q' ∈ done ++ [q], LbOk d N q'.time q'.horizon)
    (hs : StartEvents Q q) (dest : Loc) (K : Nat) (A : Int) (hr : (dest, K, A) ∈ reported d N n (done ++ [q])) (hA : A ≤ q.horizon)
    (hdone : ∀ l' k' A', (l', k', A') ∈ reported d N n done → ¬ (k' ≤ K ∧ A' ≤ A))
    (hcur : ∀ l' k' A', (l', k', A') ∈ reported d N n (done ++ [q]) → k' ≤ K → A' ≤ A → k' = K ∧ A' = A) :
    ∃ legs, reconstruct d N Q (search d N n (done ++ [q])).round q.time K dest = some legs ∧ Itinerary d N Q q.time K dest A legs := by
  obtain ⟨_, h2, h3, h4, h5, h6⟩ := (mem_results _ _ _ _ _ _).mp hr
  have hq' : RangeQuery d N done := ⟨(List.pairwise_append.mp hq.desc).1, fun q' hq' => hq.each q' (by simp [hq'])⟩
  have hw := (hq.each q (by simp)).2.2.1
  have hho : q.horizon ≤ q.worst := by unfold Start.horizon; omega
  have hAhi : A < d.hi := by omega
  have hnd : ¬ Dominated (DestOf N) (runAll (mkProblem d N) n done) (runAll (mkProblem d N) n (done ++ [q])) K A := by
    rintro (h | ⟨k, g1, l, g2, g3⟩ | ⟨k, g1, l, g2, g3⟩)
    · obtain ⟨l, k, A', e1, e2, e3⟩ := found_reported hN hq' h4 hAhi h
      exact hdone l k A' e1 ⟨e2, e3⟩
    · obtain ⟨l', k', A', e1, e2, e3⟩ := found_reported (K := k) (A := A) hN hq (by omega) hAhi ⟨k, Nat.le_refl _, l, g2, g3⟩
      have := hcur l' k' A' e1 (by omega) e3
      omega
    · obtain ⟨l', k', A', e1, e2, e3⟩ := found_reported (n := n) (K := k) (A := A - 1) hN hq (by omega) (by omega)
        ⟨k, Nat.le_refl _, l, g2, by show (runAll (mkProblem d N) n (done ++ [q])).round k l ≤ A - 1; omega⟩
      have := hcur l' k' A' e1 (by omega) (by omega)
      omega
  have hendc : N.intermodal = true → dest = N.endLoc := fun hi => (hN.endDest hi dest).mp h2
  have hrange := fun k l => search_range (n := n) hN (range_starts hq) k l
  have hsome := legsBack_isSome (tame_of_ok d hN hF) rfl (fun d => Iff.rfl) n done q (rangeOk_of hN hq hlb) (hQ.match hN d)
    (Q := mkRc d N Q) hs h4 (show A ≤ q.within 7200 from hA) hnd hrange dest ⟨h2, hendc⟩ K dest _ A 0 (by omega) (fun _ => rfl) (Int.le_refl _) (Int.le_refl _)
    (by rw [h5]; exact .here h2)
  have hL : (reconstruct d N Q (search d N n (done ++ [q])).round q.time K dest).isSome = true := by
    unfold reconstruct reconstructLegs
    rw [Option.isSome_map]
    cases K with
    | zero => omega
    | succ k => exact hsome
  obtain ⟨legs, hlegs⟩ := Option.isSome_iff_exists.mp hL
  exact ⟨legs, hlegs, C55_reported_partial d N hN hst Q (hQ.sound hN) n _ (range_starts hq) dest K A hr q.time legs hlegs⟩

/-! ## Examples -/

namespace Demo

/-- The query of the demonstration network: from 0 to 3. -/
def rc : RcData where
  fpsIn := fun l => if l = 3 then [(2, 40)] else []
  dests := []
  offs := []
  isStart := fun l => l == 0
  startIntermodal := false
  ontrip := false
  startLoc := 8

theorem static_fps : StaticFps net := fun _ _ _ => rfl

theorem rc_exact : RcExact net rc where
  stops := openStops_of rfl
  special := noSpecial_of rfl
  fps := by
    intro l m w t
    simp only [net, rc]
    by_cases h1 : l = 3 <;> by_cases h2 : m = 2 <;> simp [h1, h2]
  noTd := fun _ _ => rfl
  pos := by intro o h; cases h
  dests := by intro m w h; cases h
  least := by rintro m w ⟨ls, h, _⟩; cases h

theorem start_events : StartEvents rc ⟨600, [(0, 600)], 600 + 1440⟩ := by
  intro x hx
  rw [List.mem_singleton] at hx
  subst hx
  exact Or.inl rfl

/-- Line A from its stop 0 to its stop 2, a transfer of two minutes, the real-time transport. -/
example : reconstruct .fwd net rc (search .fwd net 8 qs).round 600 2 3 =
    some [⟨0, 2, 602, 620, .ride (.trip 0 0 5) 0 2⟩, ⟨2, 2, 620, 622, .foot 2⟩, ⟨2, 3, 640, 650, .ride (.rt 0) 0 1⟩] := by decide +kernel

/-- Line A and the walk. -/
example : reconstruct .fwd net rc (search .fwd net 8 qs).round 600 1 3 =
    some [⟨0, 2, 602, 620, .ride (.trip 0 0 5) 0 2⟩, ⟨2, 3, 620, 660, .foot 40⟩] := by decide +kernel

example : ∃ legs, reconstruct .fwd net rc (search .fwd net 8 qs).round 600 2 3 = some legs ∧ Itinerary .fwd net rc 600 2 3 650 legs := by
  refine C56_complete_partial .fwd net net_ok net_fifo static_fps rc rc_exact 8 [⟨650, [(0, 650)], 650 + 1440⟩] ⟨600, [(0, 600)], 600 + 1440⟩
    range_query (fun _ _ => lb_ok _ _) start_events 3 2 650 (by decide +kernel) (by decide) ?_ ?_
  · intro l' k' A' h
    rw [show reported .fwd net 8 [⟨650, [(0, 650)], 650 + 1440⟩] = [(3, 1, 720)] by decide +kernel] at h
    simp only [List.mem_singleton, Prod.mk.injEq] at h
    omega
  · intro l' k' A' h
    rw [show reported .fwd net 8 ([⟨650, [(0, 650)], 650 + 1440⟩] ++ [⟨600, [(0, 600)], 600 + 1440⟩]) = [(3, 1, 660), (3, 2, 650)] by decide +kernel] at h
    simp only [List.mem_cons, List.not_mem_nil, or_false, Prod.mk.injEq] at h
    omega

/-- A backward search between two addresses: five minutes from the origin (9) to stop 0, seven minutes from stop 3
to the target (8), to be reached at 700. -/
def back (w : Int) : Net := { net with
  nLoc := 10
  fps := fun l _ => if l = 3 then [(2, 40)] else []
  intermodal := true
  endDist := fun l => if l = 0 then some w else none
  endLoc := 9
  isDest := fun l => l == 9 }

def backRc (w : Int) : RcData where
  fpsIn := fun l => if l = 2 then [(3, 40)] else []
  dests := [([0], w)]
  offs := [([3], 7)]
  isStart := fun _ => false
  startIntermodal := true
  ontrip := false
  startLoc := 8

def backQ : Start := ⟨-700, [(3, -693)], -700 + 2000⟩

theorem back_ok (w : Int) (hw : 0 ≤ w) : NetOk (back w) where
  times := net_ok.times
  rtTimes := net_ok.rtTimes
  flags := net_ok.flags
  rtFlags := net_ok.rtFlags
  transfer := net_ok.transfer
  fps := by
    intro l t l' w h
    simp only [back] at h
    split at h <;> simp at h
    omega
  endDist := by
    intro l w' h
    simp only [back] at h
    split at h
    · cases h; exact hw
    · cases h
  endTd := by intro l t w h; cases h
  locs := fun r hr s hs => Nat.lt_trans (net_ok.locs r hr s hs) (show 4 < 10 by decide)
  rtLocs := fun r hr s hs => Nat.lt_trans (net_ok.rtLocs r hr s hs) (show 4 < 10 by decide)
  destLocs := by
    intro l h
    have hl : l = 9 := by simpa [back] using h
    subst hl; show (9 : Nat) < 10; decide
  endDest := by intro _ l; simp [back]
  endStop := by
    intro _
    exact ⟨fun r hr s hs => Nat.ne_of_lt (Nat.lt_trans (net_ok.locs r hr s hs) (show 4 < 9 by decide)),
      fun r hr s hs => Nat.ne_of_lt (Nat.lt_trans (net_ok.rtLocs r hr s hs) (show 4 < 9 by decide))⟩
  endFps := by
    intro _ l t w h
    simp only [back] at h
    split at h <;> simp at h

theorem back_fifo (w : Int) : NetFifo (back w) where
  aligned := net_fifo.aligned
  fps := fun l a a' l' w _ h _ hm => ⟨w, hm, by omega⟩
  endTd := by intro l a a' w _ _ _ h; cases h

theorem back_exact (w : Int) (h0 : 0 ≤ w) (hw : w < 511) : RcExact (back w) (backRc w) where
  stops := openStops_of rfl
  special := noSpecial_of rfl
  fps := by
    intro l m w' t
    simp only [back, backRc]
    by_cases h1 : l = 2 <;> by_cases h2 : m = 3 <;> simp [h1, h2]
  noTd := fun _ _ => rfl
  pos := by intro o h; simp only [backRc, List.mem_singleton] at h; subst h; exact h0
  dests := by
    intro m w' h
    simp only [back] at h
    split at h
    · rename_i hm
      cases h
      exact ⟨hw, [0], by simp [backRc], by simp [hm]⟩
    · cases h
  least := by
    rintro m w' ⟨ls, h, hm⟩
    simp only [backRc, List.mem_singleton, Prod.mk.injEq] at h
    obtain ⟨rfl, rfl⟩ := h
    rw [List.mem_singleton] at hm
    exact ⟨w', Int.le_refl _, by simp [back, hm]⟩

theorem back_range (w : Int) : RangeQuery .bwd (back w) ([] ++ [backQ]) where
  desc := by simp
  each := by
    intro q hq
    simp only [List.nil_append, List.mem_singleton] at hq
    subst hq
    simp only [backQ, Dir.lo, Dir.hi, List.mem_singleton, forall_eq, back]
    decide

/-- To stop 0, line A, the transfer (moved to the arrival of line A), the real-time transport, to the target. -/
example : reconstruct .bwd (back 5) (backRc 5) (search .bwd (back 5) 8 [backQ]).round (-700) 2 9 =
    some [⟨9, 0, 597, 602, .offset 5⟩, ⟨0, 2, 602, 620, .ride (.trip 0 0 5) 0 2⟩, ⟨2, 2, 620, 622, .foot 2⟩,
      ⟨2, 3, 640, 650, .ride (.rt 0) 0 1⟩, ⟨3, 8, 650, 657, .offset 7⟩] := by decide +kernel

example : ∃ legs, reconstruct .bwd (back 5) (backRc 5) (search .bwd (back 5) 8 ([] ++ [backQ])).round (-700) 2 9 = some legs ∧
    Itinerary .bwd (back 5) (backRc 5) (-700) 2 9 (-597) legs := by
  refine C56_complete_partial .bwd (back 5) (back_ok 5 (by decide)) (back_fifo 5) (fun _ _ _ => rfl) (backRc 5) (back_exact 5 (by decide) (by decide)) 8 [] backQ
    (back_range 5) (fun _ _ => lbOk_zero (back_ok 5 (by decide)) (fun _ => rfl) _ _) ?_ 9 2 (-597) (by decide +kernel) (by decide) ?_ ?_
  · intro x hx
    simp only [backQ, List.mem_singleton] at hx
    subst hx
    exact ⟨7, ⟨[3], by simp [backRc], by simp⟩, by decide⟩
  · intro l' k' A' h
    rw [show reported .bwd (back 5) 8 [] = [] by decide +kernel] at h
    cases h
  · intro l' k' A' h
    rw [show reported .bwd (back 5) 8 ([] ++ [backQ]) = [(9, 2, -597), (9, 3, -597)] by decide +kernel] at h
    simp only [List.mem_cons, List.not_mem_nil, or_false, Prod.mk.injEq] at h
    omega

end Demo

/-- C56: the bound on destination offsets is needed.  If the last mile takes 511 minutes or more, the journey is
reported by the search but its reconstruction fails. -/
theorem C56_long_offset : (9, 2, -91) ∈ reported .bwd (Demo.back 511) 8 [Demo.backQ] ∧
    reconstruct .bwd (Demo.back 511) (Demo.backRc 511) (search .bwd (Demo.back 511) 8 [Demo.backQ]).round (-700) 2 9 = none := by
  decide +kernel

namespace Demo

/-- A passenger in a wheelchair travels from 0 to 1 with one of two lines with the same times; `s`, `s'` are the
last stops of the lines. -/
def wheelNet (s s' : StopData) : Net where
  nLoc := 2
  routes := [⟨[⟨0, true, true, true, true⟩, s], 1, fun _ i => 600 + 20 * i, fun _ i => 600 + 20 * i, days, 3, [[true], [true], [true], [true]]⟩,
    ⟨[⟨0, true, true, true, true⟩, s'], 1, fun _ i => 600 + 20 * i, fun _ i => 600 + 20 * i, days, 3, [[true], [true], [true], [true]]⟩]
  rts := []
  base := 5
  wheelchair := true
  claszMask := 255
  required := [false, false, true, false]
  transfer := fun _ => 2
  fps := fun _ _ => []
  intermodal := false
  endDist := fun _ => none
  endTd := fun _ _ => none
  endLoc := 9
  isDest := fun l => l == 1
  lb := fun _ => some 0

def wheelRc : RcData := ⟨fun _ => [], [], [], fun l => l == 0, false, false, 8⟩

theorem wheel_ok (s s' : StopData) (h : s.loc = 1) (h' : s'.loc = 1) : NetOk (wheelNet s s') where
  times := by
    intro r hr t ht
    simp only [wheelNet, List.mem_cons, List.not_mem_nil, or_false] at hr
    rcases hr with rfl | rfl <;> refine ⟨?_, ?_⟩ <;> simp only <;> intros <;> omega
  rtTimes := by intro r hr; cases hr
  flags := by
    intro r hr
    simp only [wheelNet, List.mem_cons, List.not_mem_nil, or_false] at hr
    rcases hr with rfl | rfl <;> exact ⟨rfl, by intro sec h; simp at h; simp [h]⟩
  rtFlags := by intro r hr; cases hr
  transfer := by intro l; simp only [wheelNet]; omega
  fps := by intro l t l' w h; cases h
  endDist := by intro l w h; cases h
  endTd := by intro l t w h; cases h
  locs := by
    intro r hr x hx
    simp only [wheelNet, List.mem_cons, List.not_mem_nil, or_false] at hr
    rcases hr with rfl | rfl <;> simp only [List.mem_cons, List.not_mem_nil, or_false] at hx <;> rcases hx with rfl | rfl
    · exact (show (0 : Nat) < 2 by decide)
    · rw [h]; exact (show (1 : Nat) < 2 by decide)
    · exact (show (0 : Nat) < 2 by decide)
    · rw [h']; exact (show (1 : Nat) < 2 by decide)
  rtLocs := by intro r hr; cases hr
  destLocs := by
    intro l h
    have hl : l = 1 := by simpa [wheelNet] using h
    subst hl; exact (show (1 : Nat) < 2 by decide)
  endDest := by intro h; cases h
  endStop := by intro h; cases h
  endFps := by intro h; cases h

def wheelQ : List Start := [⟨590, [(0, 590)], 590 + 1440⟩]

end Demo

/-- C55: the condition on wheelchair permissions is needed.  Only the second line lets wheelchairs off at 1; the
search finds the journey with it, reconstruction returns the first line. -/
theorem C55_wheelchair_false : ∃ N Q, NetOk N ∧ StaticFps N ∧ N.wheelchair = true ∧
    (∀ l m w, (m, w) ∈ Q.fpsIn l → 0 ≤ w ∧ ∀ t, (l, w) ∈ N.fps m t) ∧ (∀ o ∈ Q.dests, 0 ≤ o.2) ∧
    ∃ qs legs, (1, 1, 620) ∈ reported .fwd N 8 qs ∧ reconstruct .fwd N Q (search .fwd N 8 qs).round 590 1 1 = some legs ∧
      ¬ Itinerary .fwd N Q 590 1 1 620 legs := by
  refine ⟨Demo.wheelNet ⟨1, true, true, true, false⟩ ⟨1, true, true, true, true⟩, Demo.wheelRc, Demo.wheel_ok _ _ rfl rfl, fun _ _ _ => rfl, rfl,
    (by intro l m w h; cases h), (by intro o h; cases h), Demo.wheelQ, [⟨0, 1, 600, 620, .ride (.trip 0 0 5) 0 1⟩], by decide +kernel, by decide +kernel, ?_⟩
  intro h
  obtain ⟨rd, h1, -, -, -, si, sj, -, -, h2, -, -, -, h3, -⟩ := h.ok _ List.mem_cons_self
  cases h1
  cases h2
  revert h3
  unfold MayAlight
  decide

/-- C56: the condition on wheelchair permissions is needed.  If only wheelchairs may leave the vehicles at 1 (the HRD
loader gives wheelchair permission at every stop, `expand_local_to_utc.h:44-45`), the search finds the journey but
reconstruction throws. -/
theorem C56_wheelchair_false : (1, 1, 620) ∈ reported .fwd (Demo.wheelNet ⟨1, true, false, true, true⟩ ⟨1, true, false, true, true⟩) 8 Demo.wheelQ ∧
    reconstruct .fwd (Demo.wheelNet ⟨1, true, false, true, true⟩ ⟨1, true, false, true, true⟩) Demo.wheelRc
      (search .fwd (Demo.wheelNet ⟨1, true, false, true, true⟩ ⟨1, true, false, true, true⟩) 8 Demo.wheelQ).round 590 1 1 = none := by
  decide +kernel

end Nigiri.Raptor
