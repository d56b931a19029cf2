import Verif.Proofs.LegAlternatives
import Verif.Props.Direct
/-!
# Property C67: alternatives for a leg of a journey

`Alternatives q D scheduled legs k n res`: `res` is a possible result of `get_leg_alternatives` for leg `k` of the journey
`legs` and at most `n` alternatives.
-/

namespace Nigiri.Direct
open Nigiri.Raptor Nigiri.Lb Nigiri.StartTimes

/-- `x` is the last ride before leg `k`. -/
def PrevOf (legs : List Leg) (k : Nat) (x : Leg) : Prop :=
  ∃ pre mid post, legs = pre ++ x :: (mid ++ post) ∧ pre.length + 1 + mid.length = k ∧ x.isRide = true ∧ ∀ m ∈ mid, m.isRide = false

/-- `y` is the first ride after leg `k`. -/
def NextOf (legs : List Leg) (k : Nat) (y : Leg) : Prop :=
  ∃ pre l mid post, legs = pre ++ l :: (mid ++ y :: post) ∧ pre.length = k ∧ y.isRide = true ∧ ∀ m ∈ mid, m.isRide = false

theorem isTransit_eq : isTransit = Leg.isRide := by funext x; rfl

theorem prevRide_some {legs : List Leg} {k : Nat} {x : Leg} (h : PrevOf legs k x) : prevRide legs k = some x := by
  obtain ⟨pre, mid, post, rfl, hk, hx, hm⟩ := h
  unfold prevRide
  rw [List.find?_eq_some_iff_append]
  refine ⟨hx, mid.reverse, pre.reverse, ?_, ?_⟩
  · have : (pre ++ x :: (mid ++ post)).take k = pre ++ x :: mid := by
      rw [show pre ++ x :: (mid ++ post) = (pre ++ x :: mid) ++ post by simp]
      exact List.take_left' (by simp; omega)
    rw [this]; simp
  · intro m hmm
    rw [isTransit_eq, hm m (by simpa using hmm)]; rfl

theorem nextRide_some {legs : List Leg} {k : Nat} {y : Leg} (h : NextOf legs k y) : nextRide legs k = some y := by
  obtain ⟨pre, l, mid, post, rfl, hk, hx, hm⟩ := h
  unfold nextRide
  rw [List.find?_eq_some_iff_append]
  refine ⟨hx, mid, post, ?_, ?_⟩
  · rw [show pre ++ l :: (mid ++ y :: post) = (pre ++ [l]) ++ (mid ++ y :: post) by simp]
    exact List.drop_left' (by simp; omega)
  · intro m hmm
    rw [isTransit_eq, hm m hmm]; rfl

theorem altQuery_ok {q : Query} (hq : q.Ok) (p n : Option Leg) : (altQuery q p n).Ok where
  flags := hq.flags
  rtFlags := hq.rtFlags
  tdOffs := by
    intro s
    cases s with
    | boarding =>
      cases p with
      | none => exact hq.tdOffs .boarding
      | some x => intro e he; cases he
    | alighting =>
      cases n with
      | none => exact hq.tdOffs .alighting
      | some x => intro e he; cases he
  tdFps := hq.tdFps

theorem altQuery_static {q : Query} (hq : q.Static) (p n : Option Leg) : (altQuery q p n).Static where
  offs := by
    intro s
    cases s with
    | boarding => cases p with
      | none => exact hq.offs .boarding
      | some x => rfl
    | alighting => cases n with
      | none => exact hq.offs .alighting
      | some x => rfl
  fps := hq.fps

theorem takeWhile_imp {α : Type} {p : α → Bool} {x : α} : ∀ {L : List α}, x ∈ L.takeWhile p → p x = true
  | a :: L, h => by
    rw [List.takeWhile_cons] at h
    split at h
    · next ha =>
      rcases List.mem_cons.mp h with rfl | h
      · exact ha
      · exact takeWhile_imp h
    · cases h

theorem mem_altList {d : Dir} {bound : Option Int} {opt : List Leg → List Leg} {keep : List Leg → Bool} {n : Nat} {out : List (List Leg)} {alt : List Leg}
    (h : alt ∈ altList d bound opt keep n out) : ∃ l ∈ out, alt = opt l ∧ keep alt = true ∧ (d = .fwd → fitsArrival bound l = true) := by
  unfold altList at h
  cases d with
  | bwd =>
    have := List.mem_of_mem_take h
    rw [List.mem_filter, List.mem_map] at this
    obtain ⟨⟨l, h1, rfl⟩, h2⟩ := this
    exact ⟨l, h1, rfl, h2, by intro h; cases h⟩
  | fwd =>
    have := List.mem_of_mem_take h
    rw [List.mem_filter, List.mem_map] at this
    obtain ⟨⟨l, h1, rfl⟩, h2⟩ := this
    exact ⟨l, (List.takeWhile_sublist _).subset h1, rfl, h2, fun _ => takeWhile_imp h1⟩

theorem altList_length (d : Dir) (bound : Option Int) (opt : List Leg → List Leg) (keep : List Leg → Bool) (n : Nat) (out : List (List Leg)) :
    (altList d bound opt keep n out).length ≤ n := by
  unfold altList
  cases d <;> exact List.length_take_le _ _

/-- Where an alternative comes from. -/
theorem alternative_from {q : Query} {D : OptData} {sch : Nat → Option (Nat × Nat × Int)} {legs : List Leg} {k n : Nat} {res : List (List Leg)}
    (h : Alternatives q D sch legs k n res) {alt : List Leg} (ha : alt ∈ res) :
    ∃ x v i j out, legs[k]? = some x ∧ x.uses = .ride v i j ∧
      Direct (altPlan legs (prevRide legs k) (nextRide legs k)).1 (altQuery q (prevRide legs k) (nextRide legs k)) (altPlan legs (prevRide legs k) (nextRide legs k)).2.1 out ∧
      ∃ l ∈ out, alt = optimizeFootpaths q.N D l ∧ notOriginal q.N sch (v, i, j) alt = true ∧
        ((altPlan legs (prevRide legs k) (nextRide legs k)).1 = .fwd → fitsArrival (altPlan legs (prevRide legs k) (nextRide legs k)).2.2 l = true) := by
  unfold Alternatives at h
  split at h
  · subst h; cases ha
  · next x hx =>
    split at h
    · next v i j hv =>
      split at h
      · subst h; cases ha
      · obtain ⟨out, ho, rfl⟩ := h
        obtain ⟨l, h1, h2, h3, h4⟩ := mem_altList ha
        exact ⟨x, v, i, j, out, hx, hv, ho, l, h1, h2, h3, h4⟩
    · subst h; cases ha

/-- C67: not more alternatives than asked for. -/
theorem C67_count (q : Query) (D : OptData) (sch : Nat → Option (Nat × Nat × Int)) (legs : List Leg) (k n : Nat) (res : List (List Leg))
    (h : Alternatives q D sch legs k n res) : res.length ≤ n := by
  unfold Alternatives at h
  split at h
  · subst h; exact Nat.zero_le _
  · split at h
    · split at h
      · subst h; exact Nat.zero_le _
      · obtain ⟨out, -, rfl⟩ := h
        exact altList_length _ _ _ _ _ _
    · subst h; exact Nat.zero_le _

/-- C67: every alternative departs after the arrival of the ride before the leg and arrives before the departure of the
ride after it; the alternatives for the only ride do not depart before the journey. -/
theorem C67_fits (q : Query) (hq : q.Ok) (D : OptData) (sch : Nat → Option (Nat × Nat × Int)) (legs : List Leg) (k n : Nat) (res : List (List Leg))
    (h : Alternatives q D sch legs k n res) (alt : List Leg) (ha : alt ∈ res) :
    (∀ x, PrevOf legs k x → x.arr ≤ depOf alt) ∧ (∀ y, NextOf legs k y → arrOf alt ≤ y.dep) ∧
    (prevRide legs k = none → nextRide legs k = none → depOf legs ≤ depOf alt) := by
  obtain ⟨x, v, i, j, out, hx, hv, ho, l, hl, rfl, -, hfit⟩ := alternative_from h ha
  obtain ⟨v', i', j', -, hin⟩ := C63_sound _ _ (altQuery_ok hq _ _) _ _ ho l hl
  have hw := optimize_within q.N D l
  have hd := hw.dep
  have har := hw.arr
  generalize hp : prevRide legs k = P at *
  generalize hn : nextRide legs k = Nx at *
  refine ⟨?_, ?_, ?_⟩
  · intro x' hx'
    have := prevRide_some hx'
    rw [hp] at this
    subst this
    have : x'.arr ≤ depOf l := by
      cases Nx <;> exact hin
    omega
  · intro y hy
    have := nextRide_some hy
    rw [hn] at this
    subst this
    have : arrOf l ≤ y.dep := by
      cases P with
      | none => exact hin
      | some x' => exact of_decide_eq_true (hfit rfl)
    omega
  · intro h1 h2
    subst h1; subst h2
    have : depOf legs ≤ depOf l := hin
    omega

/-- C67: no alternative uses the same vehicle from the same stop to the same stop. -/
theorem C67_not_original (q : Query) (D : OptData) (sch : Nat → Option (Nat × Nat × Int)) (legs : List Leg) (k n : Nat) (res : List (List Leg))
    (h : Alternatives q D sch legs k n res) (alt : List Leg) (ha : alt ∈ res) (x y : Leg) (hx : legs[k]? = some x) (hy : y ∈ alt) (v : Vehicle) (i j : Nat)
    (hv : x.uses = .ride v i j) : y.uses ≠ .ride v i j := by
  obtain ⟨x', v', i', j', out, hx', hv', -, l, -, -, hno, -⟩ := alternative_from h ha
  rw [hx] at hx'
  cases hx'
  rw [hv] at hv'
  cases hv'
  intro hyu
  unfold notOriginal at hno
  rw [Bool.not_eq_true', List.any_eq_false] at hno
  apply hno y hy
  rw [hyu]
  simp [sameRun]

/-- C67: a connection is taken for the original only if it rides the same scheduled run between the same stops: another entry or
exit of the same vehicle, or another vehicle, stays an alternative. -/
theorem C67_only_original (N : Net) (sch : Nat → Option (Nat × Nat × Int)) (v : Vehicle) (i j : Nat) (alt : List Leg)
    (h : ∀ y ∈ alt, ∀ v' i' j', y.uses = .ride v' i' j' → i' ≠ i ∨ j' ≠ j ∨ tOf sch v' ≠ tOf sch v) :
    notOriginal N sch (v, i, j) alt = true := by
  unfold notOriginal
  rw [Bool.not_eq_true', List.any_eq_false]
  intro y hy
  split
  · rename_i v' i' j' hu
    have := h y hy v' i' j' hu
    simp only [sameRun, decide_eq_true_eq, Prod.mk.injEq]
    rintro ⟨h1, -, h2, h3⟩
    rcases this with h | h | h
    · exact h h2
    · exact h h3
    · exact h h1
  · simp

/-- C67: every alternative is a direct connection between the ends of the legs that it replaces: from where the ride before
arrives (or the origin of the query) to where the ride after departs (or the destination).  Without time-dependent walks,
and if the requirements of the query do not restrict the vehicles (see C57). -/
theorem C67_direct_partial (q : Query) (hq : q.Ok) (hs : q.Static) (D : OptData) (sch : Nat → Option (Nat × Nat × Int)) (legs : List Leg) (k n : Nat) (res : List (List Leg))
    (hD : AltOk (altQuery q (prevRide legs k) (nextRide legs k)) D) (hfree : ∀ v, Unrestricted q.N v)
    (h : Alternatives q D sch legs k n res) (alt : List Leg) (ha : alt ∈ res) :
    ∃ v i j, DirectTrip (altQuery q (prevRide legs k) (nextRide legs k)) v i j alt (depOf alt) (arrOf alt) := by
  obtain ⟨x, v, i, j, out, hx, hv, ho, l, hl, rfl, -, -⟩ := alternative_from h ha
  obtain ⟨v', i', j', hdt, -⟩ := C63_sound _ _ (altQuery_ok hq _ _) _ _ ho l hl
  obtain ⟨i2, j2, dp, ar, h2⟩ := optimize_trip (altQuery_static hs _ _) hD (hfree v') hdt
  obtain ⟨e1, e2⟩ := trip_times h2
  refine ⟨v', i2, j2, ?_⟩
  have h3 : DirectTrip (altQuery q (prevRide legs k) (nextRide legs k)) v' i2 j2 (optimizeFootpaths q.N D l) dp ar := h2
  have e1 : depOf (optimizeFootpaths q.N D l) = dp := e1
  have e2 : arrOf (optimizeFootpaths q.N D l) = ar := e2
  rw [e1, e2]
  exact h3

theorem exact_place {q : Query} {s : Side} {l : Loc} (hside : q.side s = exactSide l) {p loc : Loc} {t w : Int} (h : SideWalk q s p loc t w) : p = l := by
  unfold SideWalk at h
  rw [hside] at h
  rw [if_neg (by simp [exactSide])] at h
  obtain ⟨d, hd, -⟩ := h
  have : (p, d) = (l, (0 : Int)) := List.mem_singleton.mp hd
  cases this; rfl

/-- C67: an alternative for a ride between two other rides can replace it: it begins where and not before the ride before
ends, and ends where and not after the ride after begins. -/
theorem C67_replaces_partial (q : Query) (hq : q.Ok) (hs : q.Static) (D : OptData) (sch : Nat → Option (Nat × Nat × Int)) (legs : List Leg) (k n : Nat) (res : List (List Leg))
    (hD : AltOk (altQuery q (prevRide legs k) (nextRide legs k)) D) (hfree : ∀ v, Unrestricted q.N v)
    (h : Alternatives q D sch legs k n res) (alt : List Leg) (ha : alt ∈ res) (x y : Leg) (hx : PrevOf legs k x) (hy : NextOf legs k y) :
    ∃ a r b v i j w w', alt = [a, r, b] ∧ a.fr = x.to ∧ x.arr ≤ a.dep ∧ a.to = r.fr ∧ a.arr = r.dep ∧ a.uses = .foot w ∧ a.arr = a.dep + w ∧
      r.uses = .ride v i j ∧ RideLeg q.N v i j r ∧ b.fr = r.to ∧ b.dep = r.arr ∧ b.uses = .foot w' ∧ b.arr = b.dep + w' ∧ b.to = y.fr ∧ b.arr ≤ y.dep := by
  obtain ⟨v, i, j, hdt⟩ := C67_direct_partial q hq hs D sch legs k n res hD hfree h alt ha
  obtain ⟨f1, f2, -⟩ := C67_fits q hq D sch legs k n res h alt ha
  have f1 := f1 x hx
  have f2 := f2 y hy
  rw [prevRide_some hx, nextRide_some hy] at hdt
  obtain ⟨r, p, p', w, w', A, B, h1, h2, h3, h4, h5, h6, h7, hA, hB⟩ := hdt
  have hm1 : (altQuery q (some x) (some y)).start.mode ≠ .intermodal := by intro hh; cases hh
  have hm2 : (altQuery q (some x) (some y)).dest.mode ≠ .intermodal := by intro hh; cases hh
  have hp := exact_place (l := x.to) rfl h3
  have hp' := exact_place (l := y.fr) rfl h4
  rcases hA with rfl | ⟨-, hA, -⟩
  · rcases hB with rfl | ⟨-, hB, -⟩
    · refine ⟨_, r, _, v, i, j, w, w', h7, hp, f1, rfl, rfl, ?_, ?_, h1, h2, rfl, rfl, ?_, ?_, hp', f2⟩
      · rfl
      · show r.dep = depOf alt + w; omega
      · rfl
      · exact h6
    · exact absurd hB hm2
  · exact absurd hA hm1

theorem take_sorted {α : Type} (key : α → Int) : ∀ (L : List α) (n : Nat), (L.Pairwise fun x y => key x ≤ key y) → ∀ x ∈ L, x ∈ L.take n ∨
    ((L.take n).length = n ∧ ∀ y ∈ L.take n, key y ≤ key x)
  | [], n, _, x, hx => by cases hx
  | a :: L, 0, _, x, _ => Or.inr ⟨rfl, by intro y hy; cases hy⟩
  | a :: L, n + 1, hs, x, hx => by
    rw [List.take_succ_cons]
    rcases List.mem_cons.mp hx with rfl | hx
    · exact Or.inl (by simp)
    · have hxL := hx
      rcases take_sorted key L n hs.of_cons x hx with h | ⟨h1, h2⟩
      · exact Or.inl (by simp [h])
      · refine Or.inr ⟨by simp [h1], ?_⟩
        intro y hy
        rcases List.mem_cons.mp hy with rfl | hy
        · exact List.rel_of_pairwise_cons hs hxL
        · exact h2 y hy

theorem takeWhile_sorted {L : List (List Leg)} (hs : L.Pairwise fun x y => arrOf x ≤ arrOf y) (b : Option Int) :
    L.takeWhile (fitsArrival b) = L.filter (fitsArrival b) := by
  induction L with
  | nil => rfl
  | cons x L ih =>
    rw [List.takeWhile_cons, List.filter_cons]
    split
    · rw [ih hs.of_cons]
    · next hx =>
      symm
      rw [List.filter_eq_nil_iff]
      intro y hy hfy
      apply hx
      have := List.rel_of_pairwise_cons hs hy
      unfold fitsArrival at hfy ⊢
      cases b with
      | none => rfl
      | some b => rw [decide_eq_true_eq] at hfy ⊢; omega

/-- C67: the alternatives are the first ones: a direct connection of the same query that arrives in time and does not use the
original ride is among the alternatives, or there are `n` of them that arrive no later (backward: depart no earlier), all
before the optimisation of their walks.  Without time-dependent walks and overtaking. -/
theorem C67_first_partial (q : Query) (hs : q.Static) (hal : ∀ r ∈ q.N.routes, Aligned r) (D : OptData) (sch : Nat → Option (Nat × Nat × Int)) (legs : List Leg) (k n : Nat)
    (hn : n ≠ 0) (res : List (List Leg)) (h : Alternatives q D sch legs k n res) (x : Leg) (hx : legs[k]? = some x) (v : Vehicle) (i j : Nat) (hv : x.uses = .ride v i j) :
    ∃ out, Direct (altPlan legs (prevRide legs k) (nextRide legs k)).1 (altQuery q (prevRide legs k) (nextRide legs k)) (altPlan legs (prevRide legs k) (nextRide legs k)).2.1 out ∧
      ∀ l ∈ out, notOriginal q.N sch (v, i, j) (optimizeFootpaths q.N D l) = true → (∀ y, nextRide legs k = some y → arrOf l ≤ y.dep) →
        optimizeFootpaths q.N D l ∈ res ∨
        (res.length = n ∧ ∀ alt ∈ res, ∃ l' ∈ out, alt = optimizeFootpaths q.N D l' ∧
          key (altPlan legs (prevRide legs k) (nextRide legs k)).1 l' ≤ key (altPlan legs (prevRide legs k) (nextRide legs k)).1 l) := by
  unfold Alternatives at h
  rw [hx] at h
  simp only [hv, if_neg hn] at h
  obtain ⟨out, ho, rfl⟩ := h
  refine ⟨out, ho, ?_⟩
  have hsort := drain_sorted ho (gens_sorted (fifo_static (altQuery_static hs _ _) _) hal)
  intro l hl hno hfit
  generalize hPl : altPlan legs (prevRide legs k) (nextRide legs k) = pl at *
  obtain ⟨d, anchor, bound⟩ := pl
  dsimp only at *
  have hb : fitsArrival bound l = true ∨ d = .bwd := by
    unfold altPlan at hPl
    split at hPl
    · right; cases hPl; rfl
    · next a y _ hny =>
      left; cases hPl
      exact decide_eq_true (hfit y hny)
    · left; cases hPl; rfl
    · left; cases hPl; rfl
  -- the list before it is cut off
  have hcore : ∃ M : List (List Leg), altList d bound (optimizeFootpaths q.N D) (notOriginal q.N sch (v, i, j)) n out = (M.take n).map (optimizeFootpaths q.N D) ∧
      M.Pairwise (fun x y => key d x ≤ key d y) ∧ (∀ m ∈ M, m ∈ out) ∧ l ∈ M := by
    cases d with
    | bwd =>
      refine ⟨out.filter fun m => notOriginal q.N sch (v, i, j) (optimizeFootpaths q.N D m), ?_, hsort.filter _, fun m hm => (List.mem_filter.mp hm).1, List.mem_filter.mpr ⟨hl, hno⟩⟩
      unfold altList
      rw [List.filter_map, List.map_take]
      rfl
    | fwd =>
      refine ⟨(out.filter (fitsArrival bound)).filter fun m => notOriginal q.N sch (v, i, j) (optimizeFootpaths q.N D m), ?_, (hsort.filter _).filter _,
        fun m hm => (List.mem_filter.mp (List.mem_filter.mp hm).1).1, List.mem_filter.mpr ⟨List.mem_filter.mpr ⟨hl, ?_⟩, hno⟩⟩
      · unfold altList
        rw [takeWhile_sorted hsort]
        dsimp only
        rw [List.filter_map, List.map_take]
        rfl
      · rcases hb with hb | hb
        · exact hb
        · cases hb
  obtain ⟨M, hM, hMs, hMo, hlM⟩ := hcore
  rw [hM]
  rcases take_sorted (key d) M n hMs l hlM with h | ⟨h1, h2⟩
  · exact Or.inl (List.mem_map_of_mem h)
  · refine Or.inr ⟨by rw [List.length_map]; exact h1, ?_⟩
    intro alt halt
    obtain ⟨l', hl', rfl⟩ := List.mem_map.mp halt
    exact ⟨l', hMo l' (List.mem_of_mem_take hl'), rfl, h2 l' hl'⟩

/-! ## Examples -/

namespace Demo
open Nigiri.Raptor.Demo

/-- The data of the optimisation for the example. -/
def D : OptData where
  startOffs := [(0, 0)]
  destOffs := [(3, 0)]
  fpsOut := fun l => if l = 2 then [(3, 40)] else []
  fpsIn := fun l => if l = 3 then [(2, 40)] else []
  adj := id
  skipOut := fun _ => false
  skipIn := fun _ => false
  better := fun _ _ => false

/-- A ride to stop 0, line A and the walk to 3, and a ride from there. -/
def before : Leg := ⟨1, 0, 540, 550, .ride (.rt 0) 0 1⟩
def after : Leg := ⟨3, 1, 2120, 2130, .ride (.rt 0) 0 1⟩
def legs : List Leg := [before, ⟨0, 0, 550, 552, .foot 2⟩, ⟨0, 2, 602, 620, .ride (.trip 0 0 5) 0 2⟩, ⟨2, 3, 620, 660, .foot 40⟩, after]

def alt (t : Nat) (n : Nat) : List Leg :=
  [⟨0, 0, 600 + 60 * t + 1440 * n, 602 + 60 * t + 1440 * n, .foot 2⟩,
   ⟨0, 2, 602 + 60 * t + 1440 * n, 620 + 60 * t + 1440 * n, .ride (.trip 0 t (5 + n)) 0 2⟩,
   ⟨2, 3, 620 + 60 * t + 1440 * n, 660 + 60 * t + 1440 * n, .foot 40⟩]

/-- Line A only, no requirements. -/
def fq : Query := { q with N := { net with routes := [lineA], rts := [], required := [false, false] } }

theorem fq_direct : Direct .fwd (altQuery fq (some before) (some after)) 550 [alt 0 0, alt 1 0, alt 0 1, alt 1 1] := by
  unfold Direct
  rw [show gens .fwd (altQuery fq (some before) (some after)) 550 = [[alt 0 0, alt 1 0, alt 0 1, alt 1 1]] by decide +kernel]
  exact drain_single _ _

/-- Two alternatives: the second ride of the day and the first of the next day; the last one arrives too late. -/
theorem fq_alternatives : Alternatives fq D (fun _ => none) legs 2 5 [alt 1 0, alt 0 1] :=
  ⟨_, fq_direct, by decide +kernel⟩

theorem fq_prev : PrevOf legs 2 before := ⟨[], [⟨0, 0, 550, 552, .foot 2⟩], _, rfl, rfl, rfl, by decide⟩
theorem fq_next : NextOf legs 2 after := ⟨[before, ⟨0, 0, 550, 552, .foot 2⟩], _, [⟨2, 3, 620, 660, .foot 40⟩], [], rfl, rfl, rfl, by decide⟩

theorem fq_ok : fq.Ok where
  flags := by
    intro r hr
    have : r = lineA := List.mem_singleton.mp hr
    subst this
    exact ⟨rfl, by decide⟩
  rtFlags := by intro r hr; cases hr
  tdOffs := by intro s e he; cases s <;> cases he
  tdFps := by intro s l gs h; cases h

theorem fq_static : fq.Static := ⟨fun s => by cases s <;> rfl, fun _ _ => rfl⟩

theorem fq_free : ∀ v, Unrestricted fq.N v := by
  intro v
  refine ⟨?_, ?_⟩
  · intro s hs
    have : s = st 0 ∨ s = st 1 ∨ s = st 2 := by
      cases v with
      | trip r t d =>
        unfold Net.vStops at hs
        match r with
        | 0 => simpa [fq, lineA] using hs
        | r + 1 => simp [fq] at hs
      | rt r => unfold Net.vStops at hs; simp [fq] at hs
    rcases this with rfl | rfl | rfl <;> exact ⟨fun _ => by unfold MayBoard; decide, fun _ => by unfold MayAlight; decide⟩
  · intro x _ f sec h1
    match f with
    | 0 => cases h1
    | 1 => cases h1

theorem fq_alt : AltOk (altQuery fq (prevRide legs 2) (nextRide legs 2)) { D with startOffs := [(0, 0)], destOffs := [(3, 0)] } where
  startOffs := rfl
  destOffs := rfl
  fpsOut := fun _ _ h => h
  fpsIn := fun _ _ h => h
  plain := by
    intro s _
    cases s
    · refine ⟨rfl, ?_⟩
      intro o ho
      have : o = ((0 : Nat), (0 : Int)) := List.mem_singleton.mp ho
      subst this
      decide
    · refine ⟨rfl, ?_⟩
      intro o ho
      have : o = ((3 : Nat), (0 : Int)) := List.mem_singleton.mp ho
      subst this
      decide

/-- The hypotheses of the theorems hold for the example. -/
example : ∃ a r b v i j w w', alt 1 0 = [a, r, b] ∧ a.fr = before.to ∧ before.arr ≤ a.dep ∧ a.to = r.fr ∧ a.arr = r.dep ∧ a.uses = .foot w ∧ a.arr = a.dep + w ∧
    r.uses = .ride v i j ∧ RideLeg fq.N v i j r ∧ b.fr = r.to ∧ b.dep = r.arr ∧ b.uses = .foot w' ∧ b.arr = b.dep + w' ∧ b.to = after.fr ∧ b.arr ≤ after.dep :=
  C67_replaces_partial fq fq_ok fq_static D (fun _ => none) legs 2 5 _ fq_alt fq_free fq_alternatives (alt 1 0) (by simp) before after fq_prev fq_next

/-- Two additional services that are not in the static timetable, at 10:00 and at 10:50. -/
def add1 : RtData := ⟨[st 0, st 3], fun s => 600 + 40 * s, fun s => 600 + 40 * s, 3, [[], []]⟩
def add2 : RtData := ⟨[st 0, st 3], fun s => 650 + 10 * s, fun s => 650 + 10 * s, 3, [[], []]⟩
def aq : Query := { q with N := { net with routes := [], rts := [add1, add2], required := [false, false] }, fps := fun _ _ => [] }
def aj (v : Nat) (d a : Int) : List Leg := [⟨0, 0, d, d, .foot 0⟩, ⟨0, 3, d, a, .ride (.rt v) 0 1⟩, ⟨3, 3, a, a, .foot 0⟩]

/-- The converse of C67 is false: the second additional service is not offered as an alternative to the first one, because
the comparison of the rides does not compare real-time transports. -/
theorem C67_additional_service : Direct .fwd aq 600 [aj 0 600 640, aj 1 650 660] ∧ Alternatives aq { D with fpsOut := fun _ => [], fpsIn := fun _ => [] } (fun _ => none) (aj 0 600 640) 1 5 [] := by
  have h : Direct .fwd aq 600 [aj 0 600 640, aj 1 650 660] := by
    unfold Direct
    rw [show gens .fwd aq 600 = [[aj 0 600 640], [aj 1 650 660]] by decide +kernel]
    refine .step (i := 0) (h := aj 0 600 640) (tl := []) rfl ?_ (.step (i := 1) (h := aj 1 650 660) (tl := []) rfl ?_ (.done ?_)) <;> decide
  exact ⟨h, _, h, by decide +kernel⟩

end Demo
end Nigiri.Direct
