import Verif.Proofs.PongLoop
import Verif.Proofs.NetTame
import Verif.Spec.PingPong
import Verif.Props.StartTimes
/-!
# The ping-pong search in a timetable (proofs)
-/

namespace Nigiri.Raptor.Pong
open Nigiri.Lb Nigiri.StartTimes

theorem starts_spec {q : Request} {d : Dir} {p : Place} {u : Bool} (hu : u = true ↔ p.mode ≠ .intermodal)
    (h0 : p.mode ≠ .intermodal → ∀ o ∈ p.offs, o.2 = 0) :
    (∀ l w, (l, w) ∈ q.starts d p u → p.Near q.T (q.fps d) l w) ∧
    (∀ l w, p.Near q.T (q.fps d) l w → ∃ w', w' ≤ w ∧ (l, w') ∈ q.starts d p u) := by
  have hway : ∀ l w, Way q.T (q.fps d) ⟨p.mode, p.offs.map fun o => (o.1, (o.2 : Int)), [], [], 0, u⟩ l w ↔ p.Near q.T (q.fps d) l w := by
    intro l w
    unfold Way Place.Near
    simp only [List.mem_map, FirstStay]
    by_cases hi : p.mode = .intermodal
    · have hu : u = false := by
        cases u with
        | false => rfl
        | true => exact absurd hi (hu.mp rfl)
      rw [if_pos hi]
      constructor
      · rintro ⟨o, ⟨o', h1, rfl⟩, m, h2, ⟨rfl, h3⟩ | ⟨h, -⟩⟩
        · exact ⟨o', h1, h2, by simp at h3; omega⟩
        · rw [hu] at h; cases h
      · rintro ⟨o, h1, h2, h3⟩
        exact ⟨_, ⟨o, h1, rfl⟩, l, h2, Or.inl ⟨rfl, by simp; omega⟩⟩
    · have hu := hu.mpr hi
      rw [if_neg hi]
      constructor
      · rintro ⟨o, ⟨o', h1, rfl⟩, m, h2, ⟨rfl, h3⟩ | ⟨-, x, h3, h4⟩⟩
        · have := h0 hi o' h1
          exact ⟨o', h1, _, h2, Or.inl ⟨rfl, by simp at h3; omega⟩⟩
        · have := h0 hi o' h1
          refine ⟨o', h1, m, h2, Or.inr ?_⟩
          rw [show w = x by simp at h4; omega]
          exact h3
      · rintro ⟨o, h1, x, h2, ⟨rfl, h3⟩ | h3⟩
        · have := h0 hi o h1
          exact ⟨_, ⟨o, h1, rfl⟩, l, h2, Or.inl ⟨rfl, by simp; omega⟩⟩
        · have := h0 hi o h1
          exact ⟨_, ⟨o, h1, rfl⟩, x, h2, Or.inr ⟨hu, w, h3, by simp; omega⟩⟩
  have h := shortestStart_min q.T (q.fps d) ⟨p.mode, p.offs.map fun o => (o.1, (o.2 : Int)), [], [], 0, u⟩
  refine ⟨fun l w hm => (hway l w).mp (h.2.1 _ hm), ?_⟩
  intro l w hn
  obtain ⟨w', h1, h2⟩ := h.2.2 l w ((hway l w).mpr hn)
  exact ⟨w', h2, h1⟩

theorem flip_flip (d : Dir) : flip (flip d) = d := by cases d <;> rfl

theorem near_cases {p : Place} {T : Tt} {fps : Loc → List (Loc × Int)} {l : Loc} {w : Int} (h : p.Near T fps l w)
    (hf : ∀ x l w, (l, w) ∈ fps x → 0 ≤ w) : 0 ≤ w := by
  unfold Place.Near at h
  split at h
  · obtain ⟨o, -, -, h⟩ := h; omega
  · obtain ⟨o, -, x, -, ⟨-, h⟩ | h⟩ := h
    · omega
    · exact hf _ _ _ h

/-- From where and how fast a search can end. -/
theorem egr_near {q : Request} {d : Dir} {p : Place} {lb : Loc → Option Int} (hm : ∀ l m w, (m, w) ∈ q.fps d l ↔ (l, w) ∈ q.fps (flip d) m) :
    (∀ l w, Egr (mkProblem d (q.netTo d p lb)) l w → p.Near q.T (q.fps (flip d)) l w) ∧
    (∀ l w, p.Near q.T (q.fps (flip d)) l w → ∃ w', w' ≤ w ∧ Egr (mkProblem d (q.netTo d p lb)) l w') := by
  unfold Egr Place.Near
  by_cases hi : p.mode = .intermodal
  · have e1 : (mkProblem d (q.netTo d p lb)).intermodal = true := by simp [mkProblem, Request.netTo, hi]
    have e2 : ∀ l, (mkProblem d (q.netTo d p lb)).endDist l = ((collectDest q.T .intermodal q.endLoc p.offs).2 l).map Int.ofNat := by
      intro l; simp [mkProblem, Request.netTo, hi]
    simp only [if_pos e1, if_pos hi, e2]
    have hd := fun l y => (C27_dest_offsets q.T q.endLoc p.offs l y).1
    refine ⟨?_, ?_⟩
    · intro l w h
      obtain ⟨y, h1, h2⟩ := Option.map_eq_some_iff.mp h
      obtain ⟨⟨o, g1, g2, g3⟩, -⟩ := (hd l y).mp h1
      refine ⟨o, g1, by rw [hi]; exact g2, ?_⟩
      rw [← h2, ← g3]; rfl
    · rintro l w ⟨o, g1, g2, g3⟩
      rw [hi] at g2
      cases hc : (collectDest q.T .intermodal q.endLoc p.offs).2 l with
      | none =>
        exfalso
        -- the least matching offset
        have : ∀ n, ∀ o ∈ p.offs, l ∈ forEachMeta q.T .intermodal o.1 → o.2 ≤ n → False := by
          intro n
          induction n with
          | zero =>
            intro o ho hl hn
            have := (hd l o.2).mpr ⟨⟨o, ho, hl, rfl⟩, fun o' _ _ => by omega⟩
            rw [hc] at this; cases this
          | succ n ih =>
            intro o ho hl hn
            by_cases hex : ∃ o' ∈ p.offs, l ∈ forEachMeta q.T .intermodal o'.1 ∧ o'.2 ≤ n
            · obtain ⟨o', h1, h2, h3⟩ := hex
              exact ih o' h1 h2 h3
            · have := (hd l o.2).mpr ⟨⟨o, ho, hl, rfl⟩, fun o' h1 h2 => by
                apply Classical.byContradiction
                intro h3
                exact hex ⟨o', h1, h2, by omega⟩⟩
              rw [hc] at this; cases this
        exact this o.2 o g1 g2 (Nat.le_refl _)
      | some y =>
        have := ((hd l y).mp hc).2 o g1 g2
        exact ⟨y, by omega, rfl⟩
  · have e1 : ¬ (mkProblem d (q.netTo d p lb)).intermodal = true := by simp [mkProblem, Request.netTo, hi]
    simp only [if_neg e1, if_neg hi]
    have hd : ∀ l, (mkProblem d (q.netTo d p lb)).isDest l = true ↔ ∃ o ∈ p.offs, l ∈ forEachMeta q.T p.mode o.1 :=
      fun l => C27_destinations q.T p.mode hi q.endLoc p.offs l
    have hf : ∀ l t, (mkProblem d (q.netTo d p lb)).fps l t = q.fps d l := fun _ _ => rfl
    refine ⟨?_, ?_⟩
    · rintro l w (⟨h1, h2⟩ | ⟨x, h1, h2⟩)
      · obtain ⟨o, g1, g2⟩ := (hd l).mp h1
        exact ⟨o, g1, l, g2, Or.inl ⟨rfl, h2⟩⟩
      · obtain ⟨o, g1, g2⟩ := (hd x).mp h1
        rw [hf] at h2
        exact ⟨o, g1, x, g2, Or.inr ((hm l x w).mp h2)⟩
    · rintro l w ⟨o, g1, x, g2, ⟨rfl, h⟩ | h⟩
      · exact ⟨w, Int.le_refl _, Or.inl ⟨(hd l).mpr ⟨o, g1, g2⟩, h⟩⟩
      · exact ⟨w, Int.le_refl _, Or.inr ⟨x, (hd x).mpr ⟨o, g1, g2⟩, (hm l x w).mpr h⟩⟩

theorem rideDir_flip {N N' : Net} (h : ∀ x dep y arr, NetRide N x dep y arr ↔ NetRide N' x dep y arr) (d : Dir) {l : Loc} {t : Int} {m : Loc} {a : Int}
    (hr : RideDir d N l t m a) : ∃ b, t ≤ b ∧ RideDir (flip d) N' m (-a) l (-b) := by
  cases d with
  | fwd =>
    obtain ⟨dep, h1, h2⟩ := hr
    exact ⟨dep, h1, a, by omega, by rw [← h, show - -dep = dep by omega]; exact h2⟩
  | bwd =>
    obtain ⟨arr, h1, h2⟩ := hr
    exact ⟨-arr, by omega, -a, by omega, by rw [← h, show - -arr = arr by omega]; exact h2⟩

variable {q : Request}

theorem Request.Ok.tame (h : q.Ok) : Tame (mkProblem q.dir q.net) 7200 :=
  tame_of_ok q.dir h.net ⟨h.aligned, fun _ _ _ _ w _ ha _ hm => ⟨w, hm, by omega⟩, fun _ _ _ _ _ _ _ hn => by cases hn⟩

theorem Request.Ok.tame' (h : q.Ok) : Tame (mkProblem (flip q.dir) q.net') 7200 :=
  tame_of_ok (flip q.dir) h.net' ⟨h.aligned, fun _ _ _ _ w _ ha _ hm => ⟨w, hm, by omega⟩, fun _ _ _ _ _ _ _ hn => by cases hn⟩

theorem Request.Ok.mirror' (h : q.Ok) : ∀ l m w, (m, w) ∈ q.fps (flip q.dir) l ↔ (l, w) ∈ q.fps (flip (flip q.dir)) m := by
  intro l m w
  rw [flip_flip]
  exact (h.mirror m l w).symm

theorem Request.Ok.dual (h : q.Ok) : Dual (mkProblem q.dir q.net) (mkProblem (flip q.dir) q.net') where
  lo := by simp only [mkProblem]; cases q.dir <;> rfl
  hi := by simp only [mkProblem]; cases q.dir <;> rfl
  ride := by
    intro l t m a hr
    obtain ⟨b, h1, h2⟩ := rideDir_flip (N' := q.net') (fun _ _ _ _ => Iff.rfl) q.dir ((ride_iff h.net q.dir l t m a).mp hr)
    exact ⟨b, h1, (ride_iff h.net' _ _ _ _ _).mpr h2⟩
  ride' := by
    intro l t m a hr
    obtain ⟨b, h1, h2⟩ := rideDir_flip (N' := q.net) (fun _ _ _ _ => Iff.rfl) (flip q.dir) ((ride_iff h.net' _ l t m a).mp hr)
    rw [flip_flip] at h2
    exact ⟨b, h1, (ride_iff h.net _ _ _ _ _).mpr h2⟩
  transfer := fun _ => rfl
  fps := fun l m w _ _ => h.mirror l m w
  noTd := fun _ _ => rfl
  noTd' := fun _ _ => rfl

theorem Request.Ok.starts (h : q.Ok) : (∀ l w, (l, w) ∈ q.cfg.acc → q.origin.Near q.T (q.fps q.dir) l w) ∧
    (∀ l w, q.origin.Near q.T (q.fps q.dir) l w → ∃ w', w' ≤ w ∧ (l, w') ∈ q.cfg.acc) := starts_spec h.footpaths h.origin

theorem Request.Ok.starts' (h : q.Ok) : (∀ l w, (l, w) ∈ q.cfg.acc' → q.target.Near q.T (q.fps (flip q.dir)) l w) ∧
    (∀ l w, q.target.Near q.T (q.fps (flip q.dir)) l w → ∃ w', w' ≤ w ∧ (l, w') ∈ q.cfg.acc') := starts_spec (by simp) h.target

theorem Request.Ok.pair (h : q.Ok) : Pair q.cfg.P q.cfg.P' q.cfg.acc q.cfg.acc' 7200 where
  dual := h.dual
  tame := h.tame
  tame' := h.tame'
  hacc := by
    have he := egr_near (q := q) (d := flip q.dir) (p := q.origin) (lb := fun _ => some 0) h.mirror'
    rw [flip_flip] at he
    refine ⟨fun l w hw => h.starts.2 l w (he.1 l w hw), fun l w hw => he.2 l w (h.starts.1 l w hw)⟩
  hacc' := by
    have he := egr_near (q := q) (d := q.dir) (p := q.target) (lb := q.lb) h.mirror
    refine ⟨fun l w hw => h.starts'.2 l w (he.1 l w hw), fun l w hw => he.2 l w (h.starts'.1 l w hw)⟩
  pos := fun x hx => near_cases (h.starts.1 _ _ hx) (fun x l w hw => h.net.fps x 0 l w hw)
  pos' := fun x hx => near_cases (h.starts'.1 _ _ hx) (fun x l w hw => h.net'.fps x 0 l w hw)
  endDest := fun hi l hl => (h.net.endDest hi l).mp hl
  endDest' := fun hi l hl => (h.net'.endDest hi l).mp hl
  noDest := fun x hx => (h.apart _ _ (h.starts.1 _ _ hx)).1
  noDest' := fun x hx => (h.apart' _ _ (h.starts'.1 _ _ hx)).1
  accLoc := fun x hx _ => (h.apart _ _ (h.starts.1 _ _ hx)).2
  accLoc' := fun x hx _ => (h.apart' _ _ (h.starts'.1 _ _ hx)).2

theorem rideDir_lt {N : Net} (h : ∀ x dep y arr, NetRide N x dep y arr → dep < arr) {d : Dir} {l : Loc} {t : Int} {m : Loc} {a : Int}
    (hr : RideDir d N l t m a) : t < a := by
  cases d with
  | fwd => obtain ⟨dep, h1, h2⟩ := hr; have := h _ _ _ _ h2; omega
  | bwd => obtain ⟨arr, h1, h2⟩ := hr; have := h _ _ _ _ h2; omega

theorem Request.Ok.base (h : q.Ok) : q.cfg.Base where
  pair := h.pair
  bound := rfl
  lb := fun _ => rfl
  move := by
    intro k s A hf
    have hk := h.pair.feas_pos hf
    obtain ⟨x, hx, hc⟩ := hf
    have hx := h.pair.pos x hx
    cases hc with
    | here hd => omega
    | ride h1 h2 h3 =>
      have e1 := rideDir_lt (N := q.net) h.takes ((ride_iff h.net q.dir _ _ _ _).mp h1)
      have e2 := change_le h.tame.toSane h2
      have e3 := cont_le h.tame.toSane h3
      omega
  travel := h.travel

/-- Journeys of the search are trips of the traveller. -/
theorem Request.Ok.feas_trip (h : q.Ok) {k : Nat} {s A : Int} (hf : Feas q.cfg.P q.cfg.acc k s A) :
    ∃ k' A', k' ≤ k ∧ A' ≤ A ∧ Trip q k' s A' := by
  have hk := h.pair.feas_pos hf
  obtain ⟨x, hx, hc⟩ := hf
  rcases cont_journey h.net hc with ⟨e, -⟩ | ⟨k', A', e1, e2, e3, e4⟩
  · omega
  · exact ⟨k', A', e2, e3, x.1, x.2, h.starts.1 _ _ hx, e4⟩

theorem Request.Ok.trip_feas (h : q.Ok) {k : Nat} {s A : Int} (ht : Trip q k s A) :
    ∃ k' A', k' ≤ k ∧ A' ≤ A ∧ Feas q.cfg.P q.cfg.acc k' s A' := by
  obtain ⟨l, w, hn, hj⟩ := ht
  obtain ⟨k', A', e1, e2, e3, e4⟩ := journey_cont h.net hj
  obtain ⟨w', g1, g2⟩ := h.starts.2 l w hn
  obtain ⟨A'', f1, f2⟩ := cont_mono e4 (show s + w' ≤ s + w by omega)
  exact ⟨k', A'', e2, by omega, (l, w'), g2, f2⟩

theorem Request.Ok.optimal (h : q.Ok) {K : Nat} {dep A : Int} (ho : Optimal q.cfg.P q.cfg.acc K dep A) : Best q K dep A := by
  refine ⟨?_, ?_⟩
  · obtain ⟨k', A', h1, h2, h3⟩ := h.feas_trip ho.1
    obtain ⟨k2, A2, g1, g2, g3⟩ := h.trip_feas h3
    have := ho.2 k2 dep A2 g3 (by omega) (Int.le_refl _) (by omega)
    rw [show K = k' by omega, show A = A' by omega]
    exact h3
  · intro k' dep' A' ht h1 h2 h3
    obtain ⟨k2, A2, g1, g2, g3⟩ := h.trip_feas ht
    have := ho.2 k2 dep' A2 g3 (by omega) h2 (by omega)
    omega

theorem ready_one {P : Problem} {st : List (Loc × Int)} {k : Nat} {l : Loc} {t : Int} (h : Ready P st k l t) : ∃ x ∈ st, Ready P [x] k l t := by
  induction h with
  | start hx => exact ⟨_, hx, .start (by simp)⟩
  | ride _ h2 h3 ih => obtain ⟨x, hx, hr⟩ := ih; exact ⟨x, hx, .ride hr h2 h3⟩

theorem Request.Ok.at (h : q.Ok) {t : Int} (h0 : q.s0 ≤ t) (ht : q.OkAt t) : q.cfg.At t where
  from' := h0
  lo := ht.lo
  hi := ht.hi
  acc := fun x hx => ht.near _ _ (h.starts.1 _ _ hx)
  acc' := fun x hx => ht.near' _ _ (h.starts'.1 _ _ hx)
  adm := admissible_of_lbOk h.net ht.lb
  straddle := by
    intro k l r m a d x hk hr hride ha hd hx hlt
    obtain ⟨y, hy, hr⟩ := ready_one hr
    obtain ⟨w, g1, g2⟩ := mem_startsAt.mp hy
    have hreach := ready_reach h.net hr
    have hy' : y = (y.1, t + w) := by rw [← g2]
    rw [hy'] at hreach
    obtain ⟨k', A', e1, e2, e3⟩ := ht.walk y.1 w k l r m a d x (h.starts.1 _ _ g1) hk hreach ((ride_iff h.net q.dir _ _ _ _).mp hride) ha hd hx hlt
    obtain ⟨k2, A2, f1, f2, f3⟩ := h.trip_feas e3
    exact ⟨k2, A2, by omega, Int.le_trans f2 e2, f3⟩

end Nigiri.Raptor.Pong
