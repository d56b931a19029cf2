import Verif.Props.LegAlternatives
import Verif.Proofs.ReconstructNet
/-!
# Property C68: rides between two other rides are replaced by earlier ones

The last step of the `pong` search (forward, no via stops): `improve N first legs`, where `first a b t` is the first direct
connection from `a` to `b` not before `t`.
-/

namespace Nigiri.Direct
open Nigiri.Raptor Nigiri.Lb Nigiri.StartTimes

/-- `first` is the first element of a possible sequence of direct connections. -/
def IsFirst (q : Query) (first : Loc → Loc → Int → Option (List Leg)) : Prop :=
  ∀ a b t, ∃ out, Direct .fwd (pairQuery q a b) t out ∧ first a b t = out.head?

/-- The footpaths of the query for direct connections are those of the network; no negative durations. -/
structure SameFootpaths (q : Query) : Prop where
  out : ∀ l l' f, (l', f) ∈ q.fps .boarding l → 0 ≤ f ∧ ∀ t, (l', f) ∈ q.N.fps l t
  in' : ∀ l l' f, (l', f) ∈ q.fps .alighting l → 0 ≤ f ∧ ∀ t, (l, f) ∈ q.N.fps l' t
  transfer : ∀ l, 0 ≤ q.N.transfer l

theorem pairQuery_eq (q : Query) (a b : Loc) : ∃ x y, pairQuery q a b = altQuery q (some x) (some y) ∧ x.to = a ∧ y.fr = b :=
  ⟨⟨0, a, 0, 0, .foot 0⟩, ⟨b, 0, 0, 0, .foot 0⟩, rfl, rfl, rfl⟩

theorem pairQuery_ok {q : Query} (hq : q.Ok) (a b : Loc) : (pairQuery q a b).Ok := by
  obtain ⟨x, y, h, -, -⟩ := pairQuery_eq q a b
  rw [h]; exact altQuery_ok hq _ _

theorem pairQuery_static {q : Query} (hq : q.Static) (a b : Loc) : (pairQuery q a b).Static := by
  obtain ⟨x, y, h, -, -⟩ := pairQuery_eq q a b
  rw [h]; exact altQuery_static hq _ _

/-- A walk of a direct connection between two locations. -/
theorem exact_walk {q : Query} (hs : q.Static) {s : Side} {l : Loc} (hside : q.side s = exactSide l) {p loc : Loc} {t w : Int} (h : SideWalk q s p loc t w) :
    p = l ∧ ((l = loc ∧ w = q.N.transfer l) ∨ (loc, w) ∈ q.fps s l) := by
  have hp := exact_place hside h
  refine ⟨hp, ?_⟩
  unfold SideWalk at h
  rw [hside] at h
  rw [if_neg (by simp [exactSide])] at h
  obtain ⟨d, hd, l', hl', h⟩ := h
  have hd : (p, d) = (l, (0 : Int)) := List.mem_singleton.mp hd
  cases hd
  have hl' : l' = l := List.mem_singleton.mp hl'
  subst hl'
  rcases h with ⟨h1, h2⟩ | ⟨-, f, hf, h2⟩
  · left
    refine ⟨h1, ?_⟩
    rw [if_pos (by rfl)] at h2
    omega
  · right
    unfold FootWalk at hf
    rw [hs.fps] at hf
    have : w = f := by omega
    subst this
    exact hf

/-- A direct connection between two locations has three legs. -/
theorem pair_trip {q : Query} {l l' : Loc} {v : Vehicle} {i j : Nat} {legs : List Leg} {dp ar : Int} (h : DirectTrip (pairQuery q l l') v i j legs dp ar) :
    ∃ (r : Leg) (p p' : Loc) (w w' : Int), legs = [⟨p, r.fr, dp, r.dep, .foot w⟩, r, ⟨r.to, p', r.arr, ar, .foot w'⟩] ∧ r.uses = .ride v i j ∧ RideLeg q.N v i j r ∧
      SideWalk (pairQuery q l l') .boarding p r.fr r.dep w ∧ SideWalk (pairQuery q l l') .alighting p' r.to r.arr w' ∧ dp = r.dep - w ∧ ar = r.arr + w' := by
  obtain ⟨r, p, p', w, w', A, B, g1, g2, g3, g4, g5, g6, g7, hA, hB⟩ := h
  rcases hA with hA | ⟨-, hA, -⟩
  · rcases hB with hB | ⟨-, hB, -⟩
    · refine ⟨r, p, p', w, w', ?_, g1, g2, g3, g4, g5, g6⟩
      rw [g7, hA, hB]; rfl
    · cases hB
  · cases hA

/-- The three legs of an alternative. -/
theorem earliest_spec {q : Query} (hq : q.Ok) (hs : q.Static) (hf : SameFootpaths q) {first : Loc → Loc → Int → Option (List Leg)} (h1 : IsFirst q first) {l l' : Loc} {arr dep : Int}
    {a b c : Leg} (h : earliestAlternative (first l l' arr) arr dep = some (a, b, c)) (Q : RcData) :
    ∃ v i j, LegOk .fwd q.N Q a ∧ LegOk .fwd q.N Q b ∧ LegOk .fwd q.N Q c ∧ a.isRide = false ∧ b.uses = .ride v i j ∧ c.isRide = false ∧
      a.fr = l ∧ a.dep = arr ∧ Joined a b ∧ Joined b c ∧ c.to = l' ∧ c.arr ≤ dep := by
  obtain ⟨out, ho, hh⟩ := h1 l l' arr
  rw [hh] at h
  cases out with
  | nil => cases h
  | cons legs out =>
    obtain ⟨v, i, j, hdt, hin⟩ := C63_sound _ _ (pairQuery_ok hq l l') _ _ ho legs (by simp)
    have hin : arr ≤ depOf legs := hin
    obtain ⟨r, p, p', w, w', hlegs, g1, g2, g3, g4, g5, g6⟩ := pair_trip hdt
    have hst := pairQuery_static hs l l'
    obtain ⟨hp, hw⟩ := exact_walk hst (l := l) rfl g3
    obtain ⟨hp', hw'⟩ := exact_walk hst (l := l') rfl g4
    generalize depOf legs = dp at *
    generalize arrOf legs = ar at *
    subst hlegs
    unfold earliestAlternative at h
    simp only [List.head?_cons] at h
    split at h
    · cases h
    · next hc =>
      have h := Option.some.inj h
      simp only [Prod.mk.injEq] at h
      obtain ⟨rfl, rfl, rfl⟩ := h
      have hw0 : 0 ≤ w := by
        rcases hw with ⟨-, rfl⟩ | hw
        · exact hf.transfer l
        · exact (hf.out _ _ _ hw).1
      have hw0' : 0 ≤ w' := by
        rcases hw' with ⟨-, rfl⟩ | hw'
        · exact hf.transfer l'
        · exact (hf.in' _ _ _ hw').1
      have hr : r.isRide = true := isRide_of g1
      refine ⟨v, i, j, ?_, ?_, ?_, rfl, g1, rfl, hp, rfl, ⟨rfl, ?_, ?_⟩, ⟨rfl, Int.le_refl _, ?_⟩, hp', Int.not_lt.mp hc⟩
      · refine ⟨hw0, Or.inl (by show arr + (r.dep - dp) = arr + w; omega), ?_⟩
        rcases hw with ⟨e1, e2⟩ | hw
        · exact Or.inl ⟨by show p = r.fr; rw [hp]; exact e1, by show w = q.N.transfer p; rw [hp]; exact e2⟩
        · exact Or.inr (by show (r.fr, w) ∈ q.N.fps p _; rw [hp]; exact (hf.out _ _ _ hw).2 _)
      · unfold LegOk; rw [g1]; exact g2
      · refine ⟨hw0', Or.inl g6, ?_⟩
        rcases hw' with ⟨e1, e2⟩ | hw'
        · exact Or.inl ⟨by show r.to = p'; rw [hp']; exact e1.symm, by show w' = q.N.transfer r.to; rw [← e1]; exact e2⟩
        · exact Or.inr (by show (p', w') ∈ q.N.fps r.to _; rw [hp']; exact (hf.in' _ _ _ hw').2 _)
      · show arr + (r.dep - dp) ≤ r.dep; omega
      · rw [hr]; intro hh; cases hh
      · rw [hr]; intro hh; cases hh

theorem ride_times {N : Net} {v : Vehicle} {i j : Nat} {x : Leg} (h : RideLeg N v i j x) :
    x.fr = locOf (N.vStops v) i ∧ x.to = locOf (N.vStops v) j ∧ x.dep = N.vDep v i ∧ x.arr = N.vArr v j := by
  cases v with
  | trip r t day =>
    obtain ⟨rd, e1, -, -, -, si, sj, -, g2, g3, g4, g5, -, -, -, g9, g10⟩ := h
    simp only [Net.vStops, Net.vDep, Net.vArr, e1]
    exact ⟨by rw [locOf_eq g2, g4], by rw [locOf_eq g3, g5], g9, g10⟩
  | rt r =>
    obtain ⟨rd, e1, -, si, sj, -, g2, g3, g4, g5, -, -, -, g9, g10⟩ := h
    simp only [Net.vStops, Net.vDep, Net.vArr, e1]
    exact ⟨by rw [locOf_eq g2, g4], by rw [locOf_eq g3, g5], g9, g10⟩

theorem step_ok {q : Query} (hq : q.Ok) (hs : q.Static) (hf : SameFootpaths q) {first : Loc → Loc → Int → Option (List Leg)} (h1 : IsFirst q first) {Q : RcData}
    {x a b c z : Leg} {rest : List Leg} (h : LegChain (LegOk .fwd q.N Q) (x :: a :: b :: c :: z :: rest)) :
    LegChain (LegOk .fwd q.N Q) (x :: (improveStep q.N first x a b c z).1 :: (improveStep q.N first x a b c z).2.1 :: (improveStep q.N first x a b c z).2.2 :: z :: rest) ∧
    (improveStep q.N first x a b c z).1.isRide = a.isRide ∧ (improveStep q.N first x a b c z).2.1.isRide = b.isRide ∧ (improveStep q.N first x a b c z).2.2.isRide = c.isRide := by
  unfold improveStep
  split
  · next v i j v2 i2 j2 v' i' j' hx hb hz =>
    generalize he : earliestAlternative _ _ _ = e
    cases e with
    | none => exact ⟨h, rfl, rfl, rfl⟩
    | some e =>
      obtain ⟨a', b', c'⟩ := e
      obtain ⟨w, k, m, e1, e2, e3, e4, e5, e6, e7, e8, e9, e10, e11, e12⟩ := earliest_spec hq hs hf h1 he Q
      have hxo : RideLeg q.N v i j x := by have := h.ok x (by simp); unfold LegOk at this; rw [hx] at this; exact this
      have hzo : RideLeg q.N v' i' j' z := by have := h.ok z (by simp); unfold LegOk at this; rw [hz] at this; exact this
      obtain ⟨-, t2, -, t4⟩ := ride_times hxo
      obtain ⟨u1, -, u3, -⟩ := ride_times hzo
      obtain ⟨k1, k2, k3, k4, k5⟩ := h.adj
      have hax : a.isRide = false := by
        have := k1.2.2; rw [isRide_of hx] at this
        cases h : a.isRide with
        | false => rfl
        | true => rw [h] at this; exact absurd rfl this
      have hcz : c.isRide = false := by
        have := k4.2.2; rw [isRide_of hz] at this
        cases h : c.isRide with
        | false => rfl
        | true => rw [h] at this; exact absurd rfl this
      dsimp only [Option.getD_some]
      refine ⟨⟨?_, ⟨⟨by rw [e7]; exact t2, by rw [e8, t4]; exact Int.le_refl _, by rw [isRide_of hx]; show true ≠ a'.isRide; rw [e4]; decide⟩, e9, e10,
        ⟨by rw [u1]; exact e11, by rw [u3]; exact e12, by show c'.isRide ≠ _; rw [e6, isRide_of hz]; decide⟩, k5⟩⟩, ?_, ?_, ?_⟩
      · intro y hy
        simp only [List.mem_cons] at hy
        rcases hy with rfl | rfl | rfl | rfl | hy
        · exact h.ok y (by simp)
        · exact e1
        · exact e2
        · exact e3
        · exact h.ok y (by simp only [List.mem_cons]; exact Or.inr (Or.inr (Or.inr (Or.inr hy))))
      · show a'.isRide = _; rw [e4, hax]
      · show b'.isRide = _; rw [isRide_of e5, isRide_of hb]
      · show c'.isRide = _; rw [e6, hcz]
  · exact ⟨h, rfl, rfl, rfl⟩

theorem improve_ok {q : Query} (hq : q.Ok) (hs : q.Static) (hf : SameFootpaths q) {first : Loc → Loc → Int → Option (List Leg)} (h1 : IsFirst q first) {Q : RcData} (L : List Leg) :
    LegChain (LegOk .fwd q.N Q) L → LegChain (LegOk .fwd q.N Q) (improve q.N first L) ∧ (improve q.N first L).head? = L.head? ∧
      (improve q.N first L).getLast? = L.getLast? ∧ (improve q.N first L).map Leg.isRide = L.map Leg.isRide := by
  fun_induction improve q.N first L with
  | case1 x a b c z rest ih =>
    intro h
    obtain ⟨h2, k1, k2, k3⟩ := step_ok hq hs hf h1 h
    obtain ⟨g1, g2, g3, g4⟩ := ih ⟨fun y hy => h2.ok y (List.mem_cons_of_mem _ hy), h2.adj.2⟩
    refine ⟨⟨?_, ?_⟩, rfl, ?_, ?_⟩
    · intro y hy
      rcases List.mem_cons.mp hy with rfl | hy
      · exact h.ok y (by simp)
      · exact g1.ok y hy
    · rw [adj_cons]
      refine ⟨?_, g1.adj⟩
      intro y hy
      rw [g2] at hy
      cases hy
      exact h2.adj.1
    · generalize improve q.N first _ = L' at *
      cases L' with
      | nil => cases g2
      | cons y L' =>
        rw [List.getLast?_cons_cons, g3]
        simp only [List.getLast?_cons_cons]
    · rw [List.map_cons, g4]
      simp only [List.map_cons, k1, k2, k3]
  | case2 L h => intro h; exact ⟨h, rfl, rfl, rfl⟩

/-- C68: an itinerary stays an itinerary for the same query, with the same number of rides; its first and its last leg stay
the same, so it has the same departure and arrival.  Without time-dependent walks. -/
theorem C68_itinerary_partial (q : Query) (hq : q.Ok) (hs : q.Static) (hf : SameFootpaths q) (first : Loc → Loc → Int → Option (List Leg)) (h1 : IsFirst q first) (Q : RcData)
    (s : Int) (K : Nat) (dest : Loc) (A : Int) (legs : List Leg) (h : Itinerary .fwd q.N Q s K dest A legs) :
    Itinerary .fwd q.N Q s K dest A (improve q.N first legs) ∧ (improve q.N first legs).head? = legs.head? ∧ (improve q.N first legs).getLast? = legs.getLast? := by
  obtain ⟨g1, g2, g3, g4⟩ := improve_ok hq hs hf h1 (Q := Q) legs ⟨h.ok, adj_iff.mpr h.joined⟩
  refine ⟨⟨g1.ok, adj_iff.mp g1.adj, by rw [count_rides _ _ g4]; exact h.rides, ?_, ?_⟩, g2, g3⟩
  · obtain ⟨x, hx, hc⟩ := h.first
    exact ⟨x, by rw [g2]; exact hx, hc⟩
  · obtain ⟨x, hx, hc⟩ := h.last
    exact ⟨x, by rw [g3]; exact hx, hc⟩

/-- C68: if there is a direct connection between the rides with the first pair of stops of a vehicle, an alternative is
found and it arrives no later.  Without time-dependent walks and overtaking. -/
theorem C68_earliest_partial (q : Query) (hq : q.Ok) (hs : q.Static) (hal : ∀ r ∈ q.N.routes, Aligned r) (first : Loc → Loc → Int → Option (List Leg)) (h1 : IsFirst q first)
    (l l' : Loc) (arr dep : Int) (ht : (pairQuery q l l').Tidy) (v : Vehicle) (i j : Nat) (r : Leg) (hr : RideLeg q.N v i j r) (hrange : InRange .fwd q v r)
    (w w' : Int) (hw : w < 511) (hw' : w' < 511) (g1 : SideWalk (pairQuery q l l') .boarding l r.fr r.dep w) (g2 : SideWalk (pairQuery q l l') .alighting l' r.to r.arr w')
    (hdep : arr ≤ r.dep - w) (harr : r.arr + w' ≤ dep) (hfp : FirstPair (pairQuery q l l') (q.N.vStops v) i j) :
    ∃ a b c, earliestAlternative (first l l' arr) arr dep = some (a, b, c) ∧ c.arr ≤ r.arr + w' := by
  obtain ⟨out, ho, hh⟩ := h1 l l' arr
  have hst := pairQuery_static hs l l'
  have hc : ∃ legs ∈ out, DirectTrip (pairQuery q l l') v i j legs (depOf legs) (arrOf legs) ∧ r.dep - w ≤ depOf legs ∧ arrOf legs ≤ r.arr + w' :=
    C65_complete_partial .fwd (pairQuery q l l') (pairQuery_ok hq l l') hst ht arr out ho v i j r hr hrange l l' w w' hw hw' g1 g2 hdep hfp
  obtain ⟨legs, hl, -, -, hle⟩ := hc
  have hsort : out.Pairwise fun x y => arrOf x ≤ arrOf y := C64_sorted_partial .fwd (pairQuery q l l') hst hal arr out ho
  cases out with
  | nil => cases hl
  | cons f out =>
    have hf : arrOf f ≤ arrOf legs := by
      rcases List.mem_cons.mp hl with rfl | hl
      · exact Int.le_refl _
      · exact List.rel_of_pairwise_cons hsort hl
    obtain ⟨v', i', j', hdt, -⟩ := C63_sound _ _ (pairQuery_ok hq l l') _ _ ho f (by simp)
    obtain ⟨r', p, p', x, x', hlegs, -, -, -, -, -, -⟩ := pair_trip hdt
    rw [hh]
    generalize depOf f = dp at *
    generalize arrOf f = ar at *
    subst hlegs
    unfold earliestAlternative
    simp only [List.head?_cons]
    rw [if_neg (by omega)]
    exact ⟨_, _, _, rfl, by show ar ≤ _; omega⟩

/-- There is such a function. -/
theorem exists_first (q : Query) : ∃ first, IsFirst q first := by
  refine ⟨fun a b t => (Classical.choose (drain_exists .fwd (gens .fwd (pairQuery q a b) t))).head?, ?_⟩
  intro a b t
  exact ⟨_, Classical.choose_spec (drain_exists .fwd (gens .fwd (pairQuery q a b) t)), rfl⟩

theorem drain_head {d : Dir} {h : List Leg} {tl : List (List Leg)} {out : List (List Leg)} (hd : Drain d [h :: tl] out) : out.head? = some h := by
  cases hd with
  | done hg => exact absurd (hg (h :: tl) (List.mem_singleton.mpr rfl)) (List.cons_ne_nil _ _)
  | @step _ i h' tl' out hi _ _ =>
    match i with
    | 0 => cases hi; rfl
    | i + 1 => cases hi

/-! ## Examples -/

namespace Demo
open Nigiri.Raptor.Demo

/-- Lines to stop 0 and from stop 3; line A and a walk connect 0 and 3. -/
def lineX : RouteData := ⟨[st 5, st 0], 1, fun _ s => 540 + 10 * s, fun _ s => 540 + 10 * s, days, 3, [[], []]⟩
def lineZ : RouteData := ⟨[st 3, st 6], 1, fun _ s => 800 + 10 * s, fun _ s => 800 + 10 * s, days, 3, [[], []]⟩

def pq : Query := { q with N := { net with nLoc := 7, routes := [lineA, lineX, lineZ], rts := [], required := [false, false] } }

theorem pq_ok : pq.Ok where
  flags := by
    intro r hr
    simp only [pq, List.mem_cons, List.not_mem_nil, or_false] at hr
    rcases hr with rfl | rfl | rfl <;> exact ⟨rfl, by decide⟩
  rtFlags := by intro r hr; cases hr
  tdOffs := by intro s e he; cases s <;> cases he
  tdFps := by intro s l gs h; cases h

theorem pq_static : pq.Static := ⟨fun s => by cases s <;> rfl, fun _ _ => rfl⟩

theorem pq_footpaths : SameFootpaths pq where
  out := by
    intro l l' f h
    simp only [pq, q] at h
    split at h
    · next hl =>
      simp only [List.mem_singleton, Prod.mk.injEq] at h
      obtain ⟨rfl, rfl⟩ := h
      subst hl
      exact ⟨by decide, fun t => by simp [pq, q, net]⟩
    · cases h
  in' := by
    intro l l' f h
    simp only [pq, q] at h
    split at h
    · next hl =>
      simp only [List.mem_singleton, Prod.mk.injEq] at h
      obtain ⟨rfl, rfl⟩ := h
      subst hl
      exact ⟨by decide, fun t => by simp [pq, q, net]⟩
    · cases h
  transfer := by intro l; show (0 : Int) ≤ 2; decide

def prc : RcData := ⟨fun _ => [], [], [], fun l => l == 5, false, false, 8⟩

def xLeg : Leg := ⟨5, 0, 540, 550, .ride (.trip 1 0 5) 0 1⟩
def zLeg : Leg := ⟨3, 6, 800, 810, .ride (.trip 2 0 5) 0 1⟩
/-- A journey that waits for the second trip of line A. -/
def slow : List Leg := [xLeg, ⟨0, 0, 550, 552, .foot 2⟩, ⟨0, 2, 662, 680, .ride (.trip 0 1 5) 0 2⟩, ⟨2, 3, 680, 720, .foot 40⟩, zLeg]
def fast : List Leg := [xLeg, ⟨0, 0, 550, 552, .foot 2⟩, ⟨0, 2, 602, 620, .ride (.trip 0 0 5) 0 2⟩, ⟨2, 3, 620, 660, .foot 40⟩, zLeg]

theorem sec (n : Nat) (l : List (List Bool)) (s : Nat) : SectionPermitted (List.replicate n false) l s := by
  intro f sec h
  rw [List.getElem?_eq_some_iff] at h
  obtain ⟨_, h⟩ := h
  rw [List.getElem_replicate] at h
  cases h

theorem slow_ok : Itinerary .fwd pq.N prc 540 3 6 810 slow where
  ok := by
    intro x hx
    simp only [slow, List.mem_cons, List.not_mem_nil, or_false] at hx
    rcases hx with rfl | rfl | rfl | rfl | rfl
    · exact ⟨lineX, rfl, by decide, rfl, by decide, st 5, st 0, by decide, rfl, rfl, rfl, rfl, by unfold MayBoard; decide, by unfold MayAlight; decide, fun s _ _ => sec 2 _ s, by decide, by decide⟩
    · exact ⟨by decide, Or.inl rfl, Or.inl ⟨rfl, rfl⟩⟩
    · exact ⟨lineA, rfl, by decide, rfl, by decide, st 0, st 2, by decide, rfl, rfl, rfl, rfl, by unfold MayBoard; decide, by unfold MayAlight; decide, fun s _ _ => sec 2 _ s, by decide, by decide⟩
    · exact ⟨by decide, Or.inl rfl, Or.inr (by simp [pq, net])⟩
    · exact ⟨lineZ, rfl, by decide, rfl, by decide, st 3, st 6, by decide, rfl, rfl, rfl, rfl, by unfold MayBoard; decide, by unfold MayAlight; decide, fun s _ _ => sec 2 _ s, by decide, by decide⟩
  joined := adj_iff.mp ⟨⟨rfl, by decide, by decide⟩, ⟨rfl, by decide, by decide⟩, ⟨rfl, by decide, by decide⟩, ⟨rfl, by decide, by decide⟩, trivial⟩
  rides := by decide
  first := ⟨xLeg, rfl, by decide, rfl⟩
  last := ⟨zLeg, rfl, by decide, rfl⟩

/-- The second trip is replaced by the first one. -/
theorem slow_fast (first : Loc → Loc → Int → Option (List Leg)) (h : IsFirst pq first) : improve pq.N first slow = fast := by
  obtain ⟨out, ho, hf⟩ := h 0 3 550
  unfold Direct at ho
  rw [show gens .fwd (pairQuery pq 0 3) 550 = [alt 0 0 :: [alt 1 0, alt 0 1, alt 1 1]] by decide +kernel] at ho
  rw [drain_head ho] at hf
  have e : improveStep pq.N first xLeg ⟨0, 0, 550, 552, .foot 2⟩ ⟨0, 2, 662, 680, .ride (.trip 0 1 5) 0 2⟩ ⟨2, 3, 680, 720, .foot 40⟩ zLeg =
      (⟨0, 0, 550, 552, .foot 2⟩, ⟨0, 2, 602, 620, .ride (.trip 0 0 5) 0 2⟩, ⟨2, 3, 620, 660, .foot 40⟩) := by
    show (earliestAlternative (first 0 3 550) 550 800).getD _ = _
    rw [hf]
    decide
  unfold slow improve
  rw [e]
  unfold improve
  rfl

example (first : Loc → Loc → Int → Option (List Leg)) (h : IsFirst pq first) : Itinerary .fwd pq.N prc 540 3 6 810 fast := by
  have := (C68_itinerary_partial pq pq_ok pq_static pq_footpaths first h prc 540 3 6 810 slow slow_ok).1
  rwa [slow_fast first h] at this

/-- The walk from 0 to 1 is possible from 10:00 on only. -/
def walk : List TdEntry := [⟨600, 5⟩]
def lineT : RouteData := ⟨[st 1, st 3], 1, fun _ s => 610 + 20 * s, fun _ s => 610 + 20 * s, fun _ d => d == 5, 3, [[], []]⟩
def tq : Query := { pq with
  N := { pq.N with routes := [lineT] }
  tdFps := fun s l => match s with
    | .boarding => if l = 0 then some [(1, walk)] else none
    | .alighting => none }

/-- C68 does not hold with time-dependent walks: the walk at 10:05 is moved to 9:10, when the path is closed. -/
theorem C68_td_walk (first : Loc → Loc → Int → Option (List Leg)) (h : IsFirst tq first) :
    ∃ b c, earliestAlternative (first 0 3 550) 550 800 = some (⟨0, 1, 550, 555, .foot 5⟩, b, c) ∧ ¬ ∃ w, TdWalk .boarding walk 555 w := by
  obtain ⟨out, ho, hf⟩ := h 0 3 550
  unfold Direct at ho
  rw [show gens .fwd (pairQuery tq 0 3) 550 =
    [[[⟨0, 1, 605, 610, .foot 5⟩, ⟨1, 3, 610, 630, .ride (.trip 0 0 5) 0 1⟩, ⟨3, 3, 630, 632, .foot 2⟩]]] by decide +kernel] at ho
  rw [drain_head ho] at hf
  refine ⟨⟨1, 3, 610, 630, .ride (.trip 0 0 5) 0 1⟩, ⟨3, 3, 630, 632, .foot 2⟩, by rw [hf]; decide, ?_⟩
  rintro ⟨w, e, dep, ⟨pre, post, h1, h2, h3, h4⟩, h5, h6⟩
  have : e = ⟨600, 5⟩ := by
    have : e ∈ walk := by rw [h1]; simp
    exact List.mem_singleton.mp this
  subst this
  have h3 : (600 : Int) ≤ dep := h3
  have h5 : dep + 5 ≤ 555 := h5
  omega

end Demo
end Nigiri.Direct
