import Verif.Proofs.DirectOrder
import Verif.Props.RaptorDemo
/-!
# Properties C63 - C65: direct connections

`Direct d q time out`: `out` is a possible sequence of the journeys that `get_direct_journeys` yields for query `q` from
`time` on (forward) or back from `time` (backward).  `DirectTrip`, `InTime`, `FirstPair`, `InRange`: `Verif.Spec.Direct`.
-/

namespace Nigiri.Direct
open Nigiri.Raptor Nigiri.Lb Nigiri.StartTimes

/-- C63: every journey consists of a walk to a stop of a vehicle that runs on this day and may be used, the ride and a
walk from another stop of this vehicle; the times of the legs are those of journey and vehicle; it does not depart
before (arrive after) the given time. -/
theorem C63_sound (d : Dir) (q : Query) (hq : q.Ok) (time : Int) (out : List (List Leg)) (h : Direct d q time out) (legs : List Leg) (hl : legs ∈ out) :
    ∃ v i j, DirectTrip q v i j legs (depOf legs) (arrOf legs) ∧ InTime d time (depOf legs) (arrOf legs) := by
  obtain ⟨g, hg, hm⟩ := (direct_mem h legs).mp hl
  obtain ⟨v, i, j, dp, ar, h1, h2⟩ := gens_sound hq hg hm
  obtain ⟨rfl, rfl⟩ := trip_times h1
  exact ⟨v, i, j, h1, h2⟩

/-- C63: the sequence exists, and any two sequences (the order of equal elements is not determined) have the same
journeys, each equally often. -/
theorem C63_determined (d : Dir) (q : Query) (time : Int) : (∃ out, Direct d q time out) ∧
    ∀ out out', Direct d q time out → Direct d q time out' → out.Perm out' :=
  ⟨drain_exists d _, fun _ _ h h' => (drain_perm h).symm.trans (drain_perm h')⟩

/-- C64: without time-dependent walks and overtaking vehicles, the journeys come in order of their arrival (forward) or
of their departure, latest first (backward). -/
theorem C64_sorted_partial (d : Dir) (q : Query) (hs : q.Static) (ha : ∀ r ∈ q.N.routes, Aligned r) (time : Int) (out : List (List Leg))
    (h : Direct d q time out) :
    out.Pairwise fun x y => match d with
      | .fwd => arrOf x ≤ arrOf y
      | .bwd => depOf y ≤ depOf x := by
  have := drain_sorted h (gens_sorted (fifo_static hs d) ha)
  cases d with
  | fwd => exact this
  | bwd =>
    refine this.imp ?_
    intro x y hxy
    have : - depOf x ≤ - depOf y := hxy
    show depOf y ≤ depOf x
    omega

/-- C64: the same with time-dependent walks on which being later does not pay off. -/
theorem C64_sorted_td_partial (d : Dir) (q : Query) (hw : WalksFifo d q) (ha : ∀ r ∈ q.N.routes, Aligned r) (time : Int) (out : List (List Leg))
    (h : Direct d q time out) : out.Pairwise fun x y => key d x ≤ key d y := drain_sorted h (gens_sorted hw ha)

/-- C65: a direct connection with a vehicle and the first pair of its stops near origin and destination is found, or one
with the same stops of the vehicle that departs later or arrives earlier.  Without time-dependent walks; walks of
less than 511 minutes. -/
theorem C65_complete_partial (d : Dir) (q : Query) (hq : q.Ok) (hs : q.Static) (ht : q.Tidy) (time : Int) (out : List (List Leg)) (h : Direct d q time out)
    (v : Vehicle) (i j : Nat) (r : Leg) (hr : RideLeg q.N v i j r) (hrange : InRange d q v r) (p p' : Loc) (w w' : Int) (hw : w < 511) (hw' : w' < 511)
    (h1 : SideWalk q .boarding p r.fr r.dep w) (h2 : SideWalk q .alighting p' r.to r.arr w') (hin : InTime d time (r.dep - w) (r.arr + w'))
    (hfp : FirstPair q (q.N.vStops v) i j) :
    ∃ legs ∈ out, DirectTrip q v i j legs (depOf legs) (arrOf legs) ∧ r.dep - w ≤ depOf legs ∧ arrOf legs ≤ r.arr + w' := by
  obtain ⟨g, hg, legs, hl, dp, ar, h3, h4, h5⟩ := complete hq hs ht hr hrange hw hw' h1 h2 hin hfp
  obtain ⟨rfl, rfl⟩ := trip_times h3
  exact ⟨legs, (direct_mem h legs).mpr ⟨g, hg, hl⟩, h3, h4, h5⟩

/-! ## Examples -/

namespace Demo
open Nigiri.Raptor.Demo

/-- From 0 to 2 by line A of the small timetable, or to 3 with a walk from 2; bicycles required. -/
def tt : Tt := ⟨4, fun _ => none, fun _ => [], fun l => [l], fun _ => false, fun _ => [], fun _ => [], [], []⟩

def q : Query where
  N := net
  T := tt
  fps := fun s l => match s with
    | .boarding => if l = 2 then [(3, 40)] else []
    | .alighting => if l = 3 then [(2, 40)] else []
  tdFps := fun _ _ => none
  start := ⟨.equivalent, [(0, 0)], [], true⟩
  dest := ⟨.equivalent, [(3, 0)], [], true⟩
  startLoc := 8
  endLoc := 9
  dayLo := 0
  dayHi := 7

theorem q_ok : q.Ok where
  flags := net_ok.flags
  rtFlags := net_ok.rtFlags
  tdOffs := by intro s e he; cases s <;> cases he
  tdFps := by intro s l gs h; cases h

theorem q_static : q.Static := ⟨fun s => by cases s <;> rfl, fun _ _ => rfl⟩

theorem q_tidy : q.Tidy where
  sorted := by intro s h; cases s <;> cases h
  offs := by intro s; cases s <;> decide
  fps := by
    intro s l fp h
    cases s <;> simp only [q] at h <;> split at h <;> simp at h <;> rw [h] <;> decide
  transfer := by intro l; show (0 : Int) ≤ 2; decide
  exact := by intro s h; cases s <;> cases h

/-- The journeys by trip `t` of line A on day `5 + n`. -/
def jn (t : Nat) (n : Nat) : List Leg :=
  [⟨0, 0, 602 + 60 * t + 1440 * n, 602 + 60 * t + 1440 * n, .foot 0⟩,
   ⟨0, 2, 602 + 60 * t + 1440 * n, 620 + 60 * t + 1440 * n, .ride (.trip 0 t (5 + n)) 0 2⟩,
   ⟨2, 3, 620 + 60 * t + 1440 * n, 660 + 60 * t + 1440 * n, .foot 40⟩]

theorem q_gens : gens .fwd q 500 = [[jn 0 0, jn 1 0, jn 0 1, jn 1 1]] := by decide +kernel
theorem q_gens_bwd : gens .bwd q 700 = [[jn 0 0]] := by decide +kernel

theorem drain_single (d : Dir) : ∀ l : List (List Leg), Drain d [l] l
  | [] => .done (by intro g hg; simpa using hg)
  | h :: tl => .step (i := 0) (h := h) (tl := tl) rfl (by
      intro g hg h' hh
      rw [List.mem_singleton] at hg; subst hg; cases hh; exact Int.le_refl _) (drain_single d tl)

/-- Forward from 8:20, and backward from 11:40. -/
theorem q_direct : Direct .fwd q 500 [jn 0 0, jn 1 0, jn 0 1, jn 1 1] := by
  unfold Direct; rw [q_gens]; exact drain_single _ _
theorem q_direct_bwd : Direct .bwd q 700 [jn 0 0] := by
  unfold Direct; rw [q_gens_bwd]; exact drain_single _ _

/-- The hypotheses of C63 - C65 hold for the example. -/
example : ∃ v i j, DirectTrip q v i j (jn 1 0) (depOf (jn 1 0)) (arrOf (jn 1 0)) ∧ InTime .fwd 500 (depOf (jn 1 0)) (arrOf (jn 1 0)) :=
  C63_sound .fwd q q_ok 500 _ q_direct _ (by simp)

example : [jn 0 0, jn 1 0, jn 0 1, jn 1 1].Pairwise fun x y => arrOf x ≤ arrOf y :=
  C64_sorted_partial .fwd q q_static net_fifo.aligned 500 _ q_direct

def ride : Leg := ⟨0, 2, 662, 680, .ride (.trip 0 1 5) 0 2⟩

theorem ride_ok : RideLeg q.N (.trip 0 1 5) 0 2 ride :=
  ⟨lineA, rfl, by decide, rfl, by decide, st 0, st 2, by decide, rfl, rfl, rfl, rfl, by unfold MayBoard; decide, by unfold MayAlight; decide, (by
    intro s _ hs f sec h1 h2
    match f with
    | 0 =>
      cases h2
      show ([true].getD 0 false) = true
      rfl
    | 1 => cases h1), by decide, by decide⟩

example : ∃ legs ∈ [jn 0 0, jn 1 0, jn 0 1, jn 1 1], DirectTrip q (.trip 0 1 5) 0 2 legs (depOf legs) (arrOf legs) ∧ 662 ≤ depOf legs ∧ arrOf legs ≤ 720 :=
  C65_complete_partial .fwd q q_ok q_static q_tidy 500 _ q_direct (.trip 0 1 5) 0 2 ride ride_ok ⟨by decide, by decide, by decide⟩ 0 3 0 40 (by decide) (by decide)
    ⟨0, by decide, 0, by decide +kernel, Or.inl ⟨rfl, by decide⟩⟩ ⟨0, by decide, 3, by decide +kernel, Or.inr ⟨rfl, 40, show ((2 : Nat), (40 : Int)) ∈ [(2, 40)] by decide, by decide⟩⟩
    (show (500 : Int) ≤ 662 - 0 by decide)
    ⟨by intro x s hx; omega, by
      intro x s h1 h2 h3 _ ⟨p, t, w, hw⟩
      have : x = 1 := by omega
      subst this
      cases h3
      obtain ⟨d, hd, l, hl, hh⟩ := hw
      have hp : (p, d) = ((3 : Nat), (0 : Int)) := List.mem_singleton.mp hd
      cases hp
      have hl3 : l = 3 := by
        have : l ∈ [3, 3] := by rw [show [3, 3] = forEachMeta q.T (q.side Side.alighting).mode 3 by decide +kernel]; exact hl
        simpa using this
      subst hl3
      rcases hh with ⟨h, -⟩ | ⟨-, f, hf, -⟩
      · exact absurd h (by decide)
      · have hf : ((1 : Nat), f) ∈ [((2 : Nat), (40 : Int))] := hf
        simp at hf⟩

/-! ## Why the theorems about order and completeness are partial -/

/-- The last mile takes 200 minutes at first and 10 minutes from 10:50 on. -/
def tdQ : Query :=
  { q with dest := ⟨.intermodal, [], [(2, [⟨0, 200⟩, ⟨650, 10⟩])], true⟩, dayHi := 5 }

def late : List Leg := [⟨0, 0, 602, 602, .foot 0⟩, ⟨0, 2, 602, 620, .ride (.trip 0 0 5) 0 2⟩, ⟨2, 9, 620, 820, .offset 200⟩]
def early : List Leg := [⟨0, 0, 662, 662, .foot 0⟩, ⟨0, 2, 662, 680, .ride (.trip 0 1 5) 0 2⟩, ⟨2, 9, 680, 690, .offset 10⟩]

/-- C64 does not hold with time-dependent walks: the journey that arrives at 13:40 comes before the one that arrives at
11:30. -/
theorem C64_td_walk : Direct .fwd tdQ 500 [late, early] ∧ arrOf early < arrOf late := by
  refine ⟨?_, by decide⟩
  unfold Direct
  rw [show gens .fwd tdQ 500 = [[late, early]] by decide +kernel]
  exact drain_single _ _

/-- A line that stops 30 minutes from the origin, then at the origin, then at the destination. -/
def lineG : RouteData := ⟨[st 2, st 0, st 3], 1, fun _ s => 600 + 5 * s, fun _ s => 600 + 5 * s, days, 3, [[true], []]⟩

def gq : Query where
  N := { net with routes := [lineG], rts := [] }
  T := tt
  fps := fun s l => match s with
    | .boarding => if l = 0 then [(2, 30)] else []
    | .alighting => []
  tdFps := fun _ _ => none
  start := ⟨.equivalent, [(0, 0)], [], true⟩
  dest := ⟨.equivalent, [(3, 0)], [], true⟩
  startLoc := 8
  endLoc := 9
  dayLo := 0
  dayHi := 5

def gRide : Leg := ⟨0, 3, 605, 610, .ride (.trip 0 0 5) 1 2⟩

/-- C65 does not hold for other pairs of stops: the ride from the origin at 10:05 is not found from 9:40 on, because only
the first stop near the origin is tried, for which one would have to leave at 9:30. -/
theorem C65_first_pair_only : gq.Ok ∧ gq.Static ∧ gq.Tidy ∧ RideLeg gq.N (.trip 0 0 5) 1 2 gRide ∧ InRange .fwd gq (.trip 0 0 5) gRide ∧
    SideWalk gq .boarding 0 gRide.fr gRide.dep 0 ∧ SideWalk gq .alighting 3 gRide.to gRide.arr 0 ∧ InTime .fwd 580 (gRide.dep - 0) (gRide.arr + 0) ∧
    Direct .fwd gq 580 [] := by
  refine ⟨⟨?_, ?_, ?_, ?_⟩, ⟨?_, ?_⟩, ⟨?_, ?_, ?_, ?_, ?_⟩, ?_, ?_, ?_, ?_, ?_, ?_⟩
  · intro r hr
    have : r = lineG := List.mem_singleton.mp hr
    subst this
    exact ⟨rfl, by decide⟩
  · intro r hr; cases hr
  · intro s e he; cases s <;> cases he
  · intro s l gs h; cases h
  · intro s; cases s <;> rfl
  · intro s l; rfl
  · intro s h; cases s <;> cases h
  · intro s; cases s <;> decide
  · intro s l fp h
    cases s with
    | boarding =>
      simp only [gq] at h
      split at h
      · simp at h; rw [h]; decide
      · cases h
    | alighting => cases h
  · intro l; show (0 : Int) ≤ 2; decide
  · intro s h; cases s <;> cases h
  · refine ⟨lineG, rfl, by decide, rfl, by decide, st 0, st 3, by decide, rfl, rfl, rfl, rfl, by unfold MayBoard; decide, by unfold MayAlight; decide, ?_, by decide, by decide⟩
    intro s _ hs f sec h1 h2
    match f with
    | 0 => cases h2; show ([true].getD 0 false) = true; rfl
    | 1 => cases h1
  · exact ⟨by decide, by decide, by decide⟩
  · exact ⟨0, by decide, 0, by decide +kernel, Or.inl ⟨rfl, by decide⟩⟩
  · exact ⟨0, by decide, 3, by decide +kernel, Or.inl ⟨rfl, by decide⟩⟩
  · show (580 : Int) ≤ 605 - 0; decide
  · unfold Direct
    rw [show gens .fwd gq 580 = [[]] by decide +kernel]
    exact drain_single _ _

end Demo
end Nigiri.Direct
