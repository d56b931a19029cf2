import Verif.Proofs.TbAfter
/-!
# Trip-based search: completeness
-/

namespace Nigiri.TB
open Raptor (Loc StopData Net)

/-- Everything that is known after the search. -/
structure Ctx (tt : TT) (tbd : TbData) (Q : Query) (starts : List (Loc × Nat)) (T0 W : Nat) (H : List Ent) (S : State) : Prop where
  ok : Ok tt tbd
  reg : Regular tt tbd.prf
  fit : QueryFit tt tbd.prf Q starts T0 W
  ex : Explored tt tbd Q starts H S
  mono : ∀ i j, i ≤ j → j < kMaxTransfers → S.tmin j ≤ S.tmin i
  marks : ∀ r o i w, r < tt.routes.length → o < (tt.route r).nTr → i + 1 < (tt.route r).stops.length →
    LastWalk tt tbd.prf Q ((tt.route r).stop (i + 1)).loc w →
    S.endReach (firstSeg tt (trFrom tt r + o) + i) = true ∧ ∃ w', w' ≤ w ∧ S.distToDest (firstSeg tt (trFrom tt r + o) + i) = some w'

section
variable {tt : TT} {tbd : TbData} {Q : Query} {starts : List (Loc × Nat)} {T0 W : Nat} {H : List Ent} {S : State}

theorem Ctx.entry (c : Ctx tt tbd Q starts T0 W H S) {x : Ent} (hx : x ∈ H) : ∃ hist, EntFit tt tbd Q starts hist x := by
  obtain ⟨p, hp⟩ := List.mem_iff_getElem?.1 hx
  exact ⟨_, c.ex.hist p x hp⟩

theorem Covered.later {Hb : List Board} {r o D k s s' : Nat} (h : Covered Hb r o D k s) (hs : s ≤ s') : Covered Hb r o D k s' := by
  obtain ⟨b, hb, h1, h2, h3, h4⟩ := h
  exact ⟨b, hb, h1, h2, h3, by omega⟩

theorem Covered.self {x : Ent} (hx : x ∈ H) {s : Nat} (hs : x.b.seg ≤ s) : Covered (boards H) x.b.route x.b.trip x.b.day x.b.k s :=
  ⟨x.b, List.mem_map_of_mem hx, rfl, Nat.le_refl _, Or.inr ⟨rfl, Nat.le_refl _⟩, hs⟩

/-- A trip boarded during the search leaves after `T0`. -/
theorem Ctx.boardedGe (c : Ctx tt tbd Q starts T0 W H S) {k r o day j : Nat} (h : Boarded tt tbd Q starts k r o day j) :
    T0 ≤ day * 1440 + (tt.route r).dep o j := by
  obtain ⟨t, hc, ht⟩ := h.ready
  have := hc.ge c.reg c.fit.early
  omega

/-- Days of trips that matter. -/
theorem Ctx.dayRange (c : Ctx tt tbd Q starts T0 W H S) {r o day j q : Nat} (hr : r < tt.routes.length) (ho : o < (tt.route r).nTr)
    (hj : j < (tt.route r).stops.length) (h1 : T0 ≤ day * 1440 + (tt.route r).dep o j) (h2 : day * 1440 + (tt.route r).arr o q ≤ W) :
    Q.base' < day ∧ day < Q.base' + 8 := by
  have h3 := (c.reg.short _ (List.mem_of_getElem? (route_getElem hr)) o ho j hj).1
  have h4 := c.fit.base
  have h5 := c.fit.lo
  have h6 := c.fit.hi
  have h7 := c.fit.day
  unfold Query.base'
  omega

/-- Continuations with `n` rides from covered segments have been found. -/
def Claim (tt : TT) (tbd : TbData) (Q : Query) (W : Nat) (H : List Ent) (S : State) (R n r o D k i A : Nat) : Prop :=
  A ≤ W → k + n < R → Covered (boards H) r o D k (i - 1) → 0 < i → i < (tt.route r).stops.length → o < (tt.route r).nTr →
  ((tt.route r).bits o).testBit (Q.base' + D) = true →
  After tt tbd.prf Q n ((tt.route r).stop i).loc ((Q.base' + D) * 1440 + (tt.route r).arr o i) A → S.tmin (k + n) ≤ (A : Int)

theorem claim_zero (c : Ctx tt tbd Q starts T0 W H S) {R : Nat} (hR : R ≤ kMaxTransfers) (r o D k i A : Nat) :
    Claim tt tbd Q W H S R 0 r o D k i A := by
  intro hA hk hc hi hl ho hrun haft
  have hr : r < tt.routes.length := (route_mem hl).1
  obtain ⟨x, hx, rfl, hxk, hnl, hseg, hm⟩ := covered_entry c.ex.hist (s := i - 1) (by omega) hc
  obtain ⟨hist, hfit⟩ := c.entry hx
  cases haft with
  | @fin _ _ _ w hw ha =>
    obtain ⟨hend, w', hw', hdist⟩ := c.marks x.b.route x.b.trip (i - 1) w hr hfit.bd.trip (by omega) (by rw [show i - 1 + 1 = i by omega]; exact hw)
    have hd := (c.ex.done x hx (by omega)).1 (i - 1) hseg hm hend
    have harr := c.reg.arr_le hr hfit.bd.trip ho hi hl (d := Q.base' + x.b.day) (d' := Q.base' + D) (by
      unfold NotLater at *; omega)
    have hmono := c.mono x.b.k (k + 0) (by omega) (by omega)
    unfold fseg bArr at hd
    rw [hdist, show i - 1 + 1 = i by omega] at hd
    simp only [Option.getD_some] at hd
    omega

theorem toTransfer_spec {z : Xfer} {y : Transfer} (h : toTransfer tt z = some y) (h1 : z.tr < 65536) (h2 : z.stopTo < 4096) :
    y.days = z.bf ∧ y.route = z.route ∧ y.trOff = z.tr ∧ y.toSegOff = z.stopTo ∧ y.dayOffset = z.dayOff := by
  unfold toTransfer at h
  cases ho : setDayOffset z.dayOff with
  | none => rw [ho] at h; simp at h
  | some o =>
    rw [ho] at h
    simp only [Option.map_some, Option.some.injEq] at h
    subst h
    refine ⟨rfl, rfl, Nat.mod_eq_of_lt h1, Nat.mod_eq_of_lt h2, ?_⟩
    unfold setDayOffset at ho
    by_cases hc : -8 ≤ z.dayOff ∧ z.dayOff < 8
    · rw [if_pos hc] at ho
      injection ho with ho
      simp only [Transfer.dayOffset]
      omega
    · rw [if_neg hc] at ho; simp at ho

/-- Continuing with a stored transfer. -/
theorem kept_step (c : Ctx tt tbd Q starts T0 W H S) {R : Nat} (hR : R ≤ kMaxTransfers) {n : Nat}
    (hn : ∀ r o D k i A, Claim tt tbd Q W H S R n r o D k i A) {r o D : Nat} (ho : o < (tt.route r).nTr)
    (hμ : ∀ o' D' k i A, o' < (tt.route r).nTr → D' * 4096 + o' < D * 4096 + o → Claim tt tbd Q W H S R (n + 1) r o' D' k i A)
    {k i A : Nat} (hA : A ≤ W) (hk : k + (n + 1) < R) (hc : Covered (boards H) r o D k (i - 1)) (hi : 0 < i)
    (hl : i < (tt.route r).stops.length) {y : Xfer} (hy : y ∈ preprocessRoute tt tbd.prf r o (i - 1)) (hd : y.bf.testBit (Q.base' + D) = true)
    {q t : Nat} (hq : y.stopTo < q) (hql : q < (tt.route y.route).stops.length)
    (ht : (t : Int) = ((Q.base' + D : Nat) : Int) * 1440 + (y.dayOff * 1440 + ((tt.route y.route).arr y.tr q : Nat)))
    (haft : After tt tbd.prf Q n ((tt.route y.route).stop q).loc t A) : S.tmin (k + (n + 1)) ≤ (A : Int) := by
  have hr : r < tt.routes.length := (route_mem hl).1
  have hr' : y.route < tt.routes.length := (route_mem hql).1
  obtain ⟨day', ed, hf⟩ := preprocessRoute_feasible tt tbd.prf c.ok.ttOk r o (i - 1) y hy (Q.base' + D) hd
  rw [show i - 1 + 1 = i by omega] at hf
  have het : t = day' * 1440 + (tt.route y.route).arr y.tr q := by
    have : ((Q.base' + D : Nat) : Int) * 1440 + y.dayOff * 1440 = (day' : Int) * 1440 := by rw [ed]; omega
    omega
  subst het
  have hqout := c.reg.alight _ (List.mem_of_getElem? (route_getElem hr')) q (by omega) hql
  have hleg : ∀ t0 : Int, t0 ≤ (day' : Int) * 1440 + ((tt.route y.route).dep y.tr y.stopTo : Nat) →
      Leg tt ((tt.route y.route).stop y.stopTo).loc t0 y.route y.tr day' y.stopTo q := fun t0 h0 =>
    ⟨hr', hf.trip, hf.runs', hq, hql, rfl, hf.board.2, hqout, h0⟩
  obtain ⟨w, hw, hwt⟩ := hf.walk
  -- the trip itself or an earlier one
  obtain ⟨x, hx, hxr, hxk, hnl, hseg, hm⟩ := covered_entry c.ex.hist (s := i - 1) (by omega) hc
  obtain ⟨hist, hfit⟩ := c.entry hx
  have hxt : x.b.trip < (tt.route r).nTr := hxr ▸ hfit.bd.trip
  have hxrun := hfit.bd.runs
  rw [hxr] at hxrun
  have hmem := c.ok.ttOk.trips _ (List.mem_of_getElem? (route_getElem hr))
  by_cases hsame : x.b.trip = o ∧ x.b.day = D
  · obtain ⟨e1, e2⟩ := hsame
    have hge := c.boardedGe hfit.bd
    have hge2 := (c.reg.trip hr ho).1 x.b.seg i (by omega) hl
    rw [hxr, e1, e2] at hge
    have hda := (hleg _ (Int.le_refl _)).dep_arr c.reg
    have haA := haft.le c.reg
    have hdays := c.dayRange (q := q) (day := day') hr' hf.trip (j := y.stopTo) (by have := hf.board.1; omega)
      (Nat.le_trans hge (Nat.le_trans (Nat.add_le_add_left hge2 _) (Nat.le_trans (Nat.le_add_right _ w) hwt))) (Nat.le_trans haA hA)
    obtain ⟨hdone, hdone'⟩ := c.ex.done x hx (by omega)
    rcases hdone' with hpr | htr
    · -- pruned by the lower bound
      unfold PrunedAt bArr at hpr
      rw [hxr, e1, e2] at hpr
      have hafter : After tt tbd.prf Q (n + 1) ((tt.route r).stop i).loc ((Q.base' + D) * 1440 + (tt.route r).arr o i) A :=
        .ride (w := w) (l := ((tt.route y.route).stop y.stopTo).loc) hw (hleg _ (by omega)) haft
      obtain ⟨A', hA', hon⟩ := hafter.onward
      have hlb := c.fit.lb r o (Q.base' + D) (x.b.seg + 1) i A' hr ho (by rw [← e2, ← e1]; exact hxrun) (by omega) (by omega) hl (by omega) (by
        rw [show ((Q.base' + D : Nat) : Int) * 1440 + ((tt.route r).arr o i : Nat) = (((Q.base' + D) * 1440 + (tt.route r).arr o i : Nat) : Int) by omega]
        exact hon)
      have hmono := c.mono (x.b.k + 1) (k + (n + 1)) (by omega) (by omega)
      omega
    · obtain ⟨yT, hyT, hto⟩ := preprocess_complete c.ok.data hr ho (i := i - 1) (by omega) hy
      have htrips := c.ok.ttOk.trips _ (List.mem_of_getElem? (route_getElem hr'))
      have hstops := c.ok.ttOk.stops _ (List.mem_of_getElem? (route_getElem hr'))
      have hft := hf.trip
      obtain ⟨f1, f2, f3, f4, f5⟩ := toTransfer_spec hto (by omega) (by omega)
      unfold TransDone fseg at htr
      rw [hxr, e1, e2] at htr
      have hcov := htr (i - 1) hseg hm yT hyT (by rw [f1]; exact hd) (by rw [f5]; omega) (by rw [f5]; omega)
      rw [f2, f3, f4, f5] at hcov
      have hD' : Q.base' + ((D : Int) + y.dayOff).toNat = day' := by omega
      have := hn y.route y.tr ((D : Int) + y.dayOff).toNat (x.b.k + 1) q A hA (by omega) (hcov.later (by omega)) (by omega) hql hf.trip
        (by rw [hD']; exact hf.runs') (by rw [hD']; exact haft)
      have hmono := c.mono (x.b.k + 1 + n) (k + (n + 1)) (by omega) (by omega)
      omega
  · -- an earlier trip
    have harr := c.reg.arr_le hr hxt ho hi hl (d := Q.base' + x.b.day) (d' := Q.base' + D) (by
      unfold NotLater at *; omega)
    have hself : Covered (boards H) r x.b.trip x.b.day x.b.k (i - 1) := hxr ▸ Covered.self hx hseg
    have := hμ x.b.trip x.b.day x.b.k i A hxt (by unfold NotLater at hnl; omega) hA (by omega) hself hi hl hxt hxrun
      (.ride (w := w) (l := ((tt.route y.route).stop y.stopTo).loc) hw (hleg _ (by omega)) haft)
    have hmono := c.mono (x.b.k + (n + 1)) (k + (n + 1)) (by omega) (by omega)
    omega

/-- The transfers before the reduction have small times. -/
theorem lineBased_fit (hok : Ok tt tbd) (hreg : Regular tt tbd.prf) {r o : Nat} (hr : r < tt.routes.length) (ho : o < (tt.route r).nTr) {seg : Nat} {x : Xfer}
    (hx : x ∈ lineBased tt (tt.route r) o (neighborhood tt tbd.prf r) seg) : XFit tt x ∧ x.tr < (tt.route x.route).nTr ∧
    x.stopTo + 1 < (tt.route x.route).stops.length ∧ seg + 1 < (tt.route r).stops.length ∧
    ∀ d, x.bf.testBit d = true → ((tt.route r).bits o).testBit d = true ∧
      ∃ d' : Nat, (d' : Int) = (d : Int) + x.dayOff ∧ ((tt.route x.route).bits x.tr).testBit d' = true := by
  have hsorted : ∀ nb ∈ neighborhood tt tbd.prf r, ∀ u, u + 1 < (tt.route nb.routeTo).nTr →
      (tt.route nb.routeTo).dep u nb.stopTo % 1440 ≤ (tt.route nb.routeTo).dep (u + 1) nb.stopTo % 1440 := by
    intro nb hnb u hu
    have hg := neighborhood_good tt tbd.prf r nb hnb
    exact hok.ttOk.sorted _ (route_mem (Nat.lt_of_succ_lt hg.toLt)).2 _ hg.toLt u hu
  obtain ⟨nb, hnb, hseg, hg⟩ := lineBased_good tt (tt.route r) o _ hsorted seg x hx
  have hn := neighborhood_good tt tbd.prf r nb hnb
  have hpos := hn.pos
  have hlt := hn.lt
  have hr' := hg.route
  have hst := hg.stop
  have hto := hn.toLt
  have htr := hg.tr
  have hsub := hg.sub
  have hact := hg.active
  have hreach := hg.reach
  have hwait := hg.wait
  rw [← hr'] at hto htr hact hreach hwait
  rw [← hst] at hto hreach hwait
  refine ⟨?_, htr, hto, by omega, fun d hd => ⟨hsub d hd, hact d hd⟩⟩
  intro q hq hql
  have hrr := (route_mem hql).1
  have a := (hreg.trip hrr htr).1 x.stopTo q hq hql
  have b := (hreg.short _ (List.mem_of_getElem? (route_getElem hrr)) x.tr htr q hql).2
  have b' := (hreg.short _ (List.mem_of_getElem? (route_getElem hr)) o ho nb.stopFrom hlt).2
  omega

/-- Continuing with a transfer found by the line-based step. -/
theorem line_step (c : Ctx tt tbd Q starts T0 W H S) {R : Nat} (hR : R ≤ kMaxTransfers) {n : Nat}
    (hn : ∀ r o D k i A, Claim tt tbd Q W H S R n r o D k i A) {r o D : Nat} (ho : o < (tt.route r).nTr)
    (hμ : ∀ o' D' k i A, o' < (tt.route r).nTr → D' * 4096 + o' < D * 4096 + o → Claim tt tbd Q W H S R (n + 1) r o' D' k i A)
    {k i A : Nat} (hA : A ≤ W) (hk : k + (n + 1) < R) (hc : Covered (boards H) r o D k (i - 1)) (hi : 0 < i)
    (hl : i < (tt.route r).stops.length) {x : Xfer} (hx : x ∈ lineBased tt (tt.route r) o (neighborhood tt tbd.prf r) (i - 1))
    (hd : x.bf.testBit (Q.base' + D) = true) {q t : Nat} (hq : x.stopTo < q) (hql : q < (tt.route x.route).stops.length)
    (ht : (t : Int) = ((Q.base' + D : Nat) : Int) * 1440 + (x.dayOff * 1440 + ((tt.route x.route).arr x.tr q : Nat)))
    (haft : After tt tbd.prf Q n ((tt.route x.route).stop q).loc t A) : S.tmin (k + (n + 1)) ≤ (A : Int) := by
  have hr : r < tt.routes.length := (route_mem hl).1
  have hrm := List.mem_of_getElem? (route_getElem hr)
  have hnb : neighborhood tt tbd.prf r ≠ [] := by
    intro e
    rw [e] at hx
    simp [lineBased] at hx
  have hpr : ∀ s, preprocessRoute tt tbd.prf r o s = preprocessTransport tt tbd.prf (tt.route r) o (neighborhood tt tbd.prf r) s := by
    intro s
    unfold preprocessRoute
    simp only [if_neg hnb]
  have hfitx := lineBased_fit c.ok c.reg hr ho hx
  have hdn : Q.base' + D < nBits := c.reg.days _ hrm o ho _ (hfitx.2.2.2.2 _ hd).1
  have hrun := (hfitx.2.2.2.2 _ hd).1
  have hat : ∀ s, ∀ y ∈ preprocessRoute tt tbd.prf r o s, ∀ q', y.stopTo < q' → q' < (tt.route y.route).stops.length →
      ((y.at tt q' : Nat) : Int) = y.dayOff * 1440 + ((tt.route y.route).arr y.tr q' : Nat) := by
    intro s y hy q' h1 h2
    rw [hpr] at hy
    obtain ⟨x0, hx0, bf, rfl, hb⟩ := preprocessTransport_restr _ _ _ _ _ _ _ hy
    have := (lineBased_fit c.ok c.reg hr ho hx0).1 q' h1 h2
    unfold Xfer.at
    simp only at this ⊢
    omega
  have hatx : ((x.at tt q : Nat) : Int) = x.dayOff * 1440 + ((tt.route x.route).arr x.tr q : Nat) := by
    have := hfitx.1 q hq hql
    unfold Xfer.at
    omega
  have hkept := reduction_spec (tt := tt) ⟨c.reg.transfer, c.reg.fps⟩ c.reg.profile (t := o)
    (fun i hi => by have := (c.reg.short _ hrm o ho i hi).2; omega) (neighborhood tt tbd.prf r)
    (fun s z hz => (lineBased_fit c.ok c.reg hr ho hz).1) (i := i) hi hl
    (c.reg.alight _ hrm i hi hl) hx hdn hd
  -- a stop reached by the trip itself or by a stored transfer
  have finish : ∀ (V : Loc → Nat → Loc → Nat → Prop) (l : Loc) (τ : Nat),
      (∀ m a, V m a l τ → After tt tbd.prf Q n m ((Q.base' + D) * 1440 + a) A) →
      ((∃ i', i ≤ i' ∧ i' < (tt.route r).stops.length ∧ ((tt.route r).stop i').outAllowed = true ∧ ((tt.route r).bits o).testBit (Q.base' + D) = true ∧
          V ((tt.route r).stop i').loc ((tt.route r).arr o i') l τ) ∨
       (∃ i', i ≤ i' ∧ i' < (tt.route r).stops.length ∧ ∃ y ∈ preprocessTransport tt tbd.prf (tt.route r) o (neighborhood tt tbd.prf r) (i' - 1),
          y.bf.testBit (Q.base' + D) = true ∧ ∃ q', y.stopTo < q' ∧ q' < (tt.route y.route).stops.length ∧
          V ((tt.route y.route).stop q').loc (y.at tt q') l τ)) → S.tmin (k + (n + 1)) ≤ (A : Int) := by
    intro V l τ hV h
    rcases h with ⟨i', h1, h2, h3, h4, h5⟩ | ⟨i', h1, h2, y, hy, h4, q', h5, h6, h7⟩
    · have := hn r o D k i' A hA (by omega) (hc.later (by omega)) (by omega) h2 ho hrun (hV _ _ h5)
      have hmono := c.mono (k + n) (k + (n + 1)) (by omega) (by omega)
      omega
    · rw [← hpr] at hy
      have e := hat _ y hy q' h5 h6
      refine kept_step c hR hn ho hμ hA hk (hc.later (by omega)) (by omega) h2 hy h4 h5 h6 (t := (Q.base' + D) * 1440 + y.at tt q') ?_ (hV _ _ h7)
      rw [← e]
      omega
  rcases hkept with ⟨y, hy, ⟨bf, rfl, hb⟩, hyd⟩ | ⟨hWA, hWC⟩
  · rw [← hpr] at hy
    exact kept_step c hR hn ho hμ hA hk hc hi hl hy hyd hq hql ht haft
  · have et : t = (Q.base' + D) * 1440 + x.at tt q := by omega
    subst et
    cases haft with
    | @fin _ _ _ w h1 h2 =>
      obtain ⟨τ, hτ, hW⟩ := hWA ((tt.route x.route).stop q).loc (x.at tt q) ⟨q, hq, hql, Or.inl ⟨rfl, rfl⟩⟩
      refine finish (ArrVia (tt.fpsOut 0)) _ τ ?_ hW
      rintro m a (⟨rfl, rfl⟩ | ⟨w1, h3, rfl⟩)
      · exact .fin h1 (by omega)
      · rw [← c.reg.profile] at h3
        obtain ⟨w'', h4, h5⟩ := c.fit.dest _ _ _ _ h3 h1
        exact .fin h5 (by omega)
    | @ride n _ _ _ l w r' o' day' j' q' h1 h2 h3 =>
      have hv : ChVia tt (tt.fpsOut 0) ((tt.route x.route).stop q).loc (x.at tt q) l (x.at tt q + w) := by
        rcases h1 with ⟨e, rfl⟩ | h1
        · exact Or.inl ⟨e, rfl⟩
        · rw [c.reg.profile] at h1
          exact Or.inr ⟨w, h1, rfl⟩
      obtain ⟨τ, hτ, hW⟩ := hWC l (x.at tt q + w) ⟨q, hq, hql, hv⟩
      refine finish (ChVia tt (tt.fpsOut 0)) _ τ ?_ hW
      rintro m a (⟨rfl, rfl⟩ | ⟨w1, h4, rfl⟩)
      · exact .ride (Or.inl ⟨rfl, rfl⟩) (h2.earlier (by omega)) h3
      · rw [← c.reg.profile] at h4
        exact .ride (Or.inr h4) (h2.earlier (by omega)) h3

theorem Regular.stopAligned {prf : Nat} (h : Regular tt prf) {r s : Nat} (hs : s + 1 < (tt.route r).stops.length) : StopAligned (tt.route r) s := by
  have hm := (route_mem (Nat.lt_of_succ_lt hs)).2
  have ha := h.aligned _ hm
  refine ⟨?_, ?_, fun u u' hu hu' => ha.depDay u u' hu hu' s hs⟩
  · intro u u' hle hu'
    by_cases e : u = u'
    · subst e; exact Nat.le_refl _
    · exact ha.dep u u' (by omega) hu' s hs
  · intro u u' hle hu'
    by_cases e : u = u'
    · subst e; exact Nat.le_refl _
    · exact Nat.le_of_lt (h.first _ hm u u' (by omega) hu')

set_option maxRecDepth 4000 in
/-- Arithmetic of the days between an arrival and a departure. -/
theorem dayU_spec {d arr day' dep w : Nat} (h1 : d * 1440 + arr + w ≤ day' * 1440 + dep) (h2 : day' * 1440 + dep ≤ d * 1440 + arr + 1440) :
    ∃ u, u ≤ 20 ∧ day' + dep / 1440 = d + arr / 1440 + u ∧ u * 1440 + dep % 1440 ≤ arr % 1440 + 1440 ∧ arr % 1440 + w ≤ u * 1440 + dep % 1440 := by
  have e1 := Nat.div_add_mod dep 1440
  have e2 := Nat.div_add_mod arr 1440
  have e3 := Nat.mod_lt dep (show 0 < 1440 by decide)
  have e4 := Nat.mod_lt arr (show 0 < 1440 by decide)
  generalize dep / 1440 = x at *
  generalize dep % 1440 = x' at *
  generalize arr / 1440 = y at *
  generalize arr % 1440 = y' at *
  subst e1 e2
  have h : d + y ≤ day' + x := by omega
  obtain ⟨u, hu⟩ := Nat.le.dest h
  exact ⟨u, by omega, hu.symm, by omega, by omega⟩

theorem dayU_pre {X Y w e f A W T0 : Nat} (ht : ((X + w : Nat) : Int) ≤ (e : Int) * 1440 + (f : Nat)) (hda : e * 1440 + f ≤ Y) (hle : Y ≤ A)
    (hA : A ≤ W) (hW : W ≤ T0 + 1440) (hT : T0 ≤ X) : X + w ≤ e * 1440 + f ∧ e * 1440 + f ≤ X + 1440 := by omega

theorem shift_day {d' d a : Nat} {off : Int} (h : (d' : Int) = (d : Int) + off) :
    ((d' * 1440 + a : Nat) : Int) = (d : Int) * 1440 + (off * 1440 + (a : Nat)) := by omega

/-- Continuing with a change that is no u-turn. -/
theorem change_step (c : Ctx tt tbd Q starts T0 W H S) {R : Nat} (hR : R ≤ kMaxTransfers) {n : Nat}
    (hn : ∀ r o D k i A, Claim tt tbd Q W H S R n r o D k i A) {r o D : Nat} (ho : o < (tt.route r).nTr)
    (hμ : ∀ o' D' k i A, o' < (tt.route r).nTr → D' * 4096 + o' < D * 4096 + o → Claim tt tbd Q W H S R (n + 1) r o' D' k i A)
    {k i A : Nat} (hA : A ≤ W) (hk : k + (n + 1) < R) (hc : Covered (boards H) r o D k (i - 1)) (hi : 0 < i)
    (hl : i < (tt.route r).stops.length) (hrun : ((tt.route r).bits o).testBit (Q.base' + D) = true)
    (hT0 : T0 ≤ (Q.base' + D) * 1440 + (tt.route r).arr o i) {l : Loc} {w r' o' day' j q : Nat}
    (hw : ChangeWalk tt tbd.prf ((tt.route r).stop i).loc l w)
    (hleg : Leg tt l (((Q.base' + D) * 1440 + (tt.route r).arr o i + w : Nat) : Int) r' o' day' j q)
    (haft : After tt tbd.prf Q n ((tt.route r').stop q).loc (day' * 1440 + (tt.route r').arr o' q) A)
    (hu : isUturn tt ((tt.route r).stop (i - 1)) ((tt.route r').stop (j + 1)) (decide (j + 1 = (tt.route r').stops.length - 1)) w = false) :
    S.tmin (k + (n + 1)) ≤ (A : Int) := by
  have hr : r < tt.routes.length := (route_mem hl).1
  have hrm := List.mem_of_getElem? (route_getElem hr)
  have hrm' := List.mem_of_getElem? (route_getElem hleg.route)
  have hjl : j + 1 < (tt.route r').stops.length := by have := hleg.lt; have := hleg.len; omega
  have hloc := hleg.loc
  subst hloc
  have hnb := neighborhood_complete (tt := tt) (prf := tbd.prf) hi hl (c.reg.alight _ hrm i hi hl) hjl hleg.board
    (c.reg.locRoutes r' j (by omega)) hw hu
  have hle := haft.le c.reg
  have hda := hleg.dep_arr c.reg
  have ht := hleg.time
  have hW := c.fit.day
  obtain ⟨hp1, hp2⟩ := dayU_pre ht hda hle hA hW hT0
  obtain ⟨dayU, u1, u2, u3, u4⟩ := dayU_spec hp1 hp2
  have hlen : w ≤ 60000 := by
    rcases hw with ⟨_, rfl⟩ | hw
    · have := c.reg.transfer ((tt.route r).stop i).loc; omega
    · have := c.reg.fps _ _ _ hw; simp only at this; omega
  have hshort := (c.reg.short _ hrm o ho i hl).2
  have hoff : ((Q.base' + D : Nat) : Int) + offOf (tt.route r') j ((tt.route r).arr o i) o' dayU = (day' : Int) := by
    unfold offOf; omega
  have hin : InReach tt (tt.route r) o ⟨i, r', j, w⟩ (Q.base' + D) o' dayU :=
    ⟨hi, c.reg.stopAligned hjl, by simp only; omega, hlen, c.reg.days _ hrm o ho _ hrun, hrun, hleg.trip, u1, u3, u4, day', hoff.symm, hleg.runs⟩
  obtain ⟨sh, st, hkey, seg, x, hx, hseg, hxr, hxd, hxs, hxo, hxst⟩ := lineBased_covers hnb hin
  simp only at hkey hseg hxr hxs hxst
  obtain ⟨hxfit, hxtr, hxstop, hseglt, hxday⟩ := lineBased_fit c.ok c.reg hr ho hx
  obtain ⟨hxrun, d', hd', hxruns'⟩ := hxday _ hxd
  have hql : q < (tt.route x.route).stops.length := hxr ▸ hleg.len
  have hq : x.stopTo < q := by have := hleg.lt; omega
  -- the trip found is not later
  have hnl : NotLater x.tr d' o' day' := by
    unfold KeyLe at hkey
    unfold NotLater
    rcases hkey with hkey | ⟨hkey, hst⟩
    · left; omega
    · right
      refine ⟨by omega, ?_⟩
      by_cases hlt : o' < x.tr
      · have := c.reg.first _ hrm' o' x.tr hlt (hxr ▸ hxtr)
        unfold Xfer.start at hxst
        omega
      · omega
  have harr := c.reg.arr_le hleg.route (hxr ▸ hxtr) hleg.trip (show 0 < q by omega) hleg.len hnl
  refine line_step c hR hn ho hμ hA hk (i := seg + 1) (hc.later (by omega)) (by omega) hseglt (x := x) (by simpa using hx) hxd hq hql
    (t := d' * 1440 + (tt.route x.route).arr x.tr q) (shift_day hd') ?_
  rw [hxr]
  exact haft.mono harr

/-- Continuing from the stop where the current trip was boarded, without a ride with that trip. -/
theorem from_start (c : Ctx tt tbd Q starts T0 W H S) {R : Nat}
    (hT : ∀ R', R' < R → ∀ A' : Int, JourneyFrom tt tbd.prf Q starts R' A' → A' ≤ (W : Int) → S.tmin (R' - 1) ≤ A')
    {k : Nat} {l : Loc} {t : Int} (hc : Chain (net tt tbd.prf Q) starts k l t) {n a A : Nat} (hk : k + n < R) (hA : A ≤ W) (ha : t ≤ (a : Int))
    (haft : After tt tbd.prf Q n l a A) : S.tmin (k + n - 1) ≤ (A : Int) := by
  cases hc with
  | @start _ t hx =>
    cases haft with
    | fin hw _ => exact absurd hw (c.fit.far _ hx _)
    | @ride n _ _ _ l' w r o day j q h1 h2 h3 =>
      obtain ⟨A', hA', hj⟩ := h3.next
      have hjf : JourneyFrom tt tbd.prf Q starts (n + 1) A' := by
        have hride : ∀ (t' : Nat), (t' : Int) ≤ (day : Int) * 1440 + ((tt.route r).dep o j : Nat) →
            Raptor.RideDir .fwd (net tt tbd.prf Q) l' (t' : Int) ((tt.route r).stop q).loc (((day * 1440 + (tt.route r).arr o q : Nat)) : Int) := by
          intro t' ht'
          have hl : Leg tt l' (t' : Int) r o day j q := ⟨h2.route, h2.trip, h2.runs, h2.lt, h2.len, h2.loc, h2.board, h2.alight, ht'⟩
          have := hl.ride tbd.prf Q
          simpa using this
        rcases h1 with ⟨rfl, rfl⟩ | h1
        · refine ⟨_, hx, hj _ _ (hride t ?_)⟩
          have := h2.time
          omega
        · obtain ⟨t', hx', ht'⟩ := c.fit.walk _ hx _ _ h1 r o day j q (h2.earlier (by simp only; omega))
          exact ⟨_, hx', hj _ _ (hride t' ht')⟩
      have := hT (n + 1) (by omega) A' hjf (by omega)
      simp only [Nat.zero_add] at this ⊢
      omega
  | @walk k l0 t0 m a0 _ _ h1 h2 h3 =>
    obtain ⟨r, o, day, j, q, hleg, rfl, rfl⟩ := ride_leg h2
    obtain ⟨w, hw, rfl⟩ := changeWalk_walk.1 h3
    have hb := After.back c.reg c.fit.dest hw (a := day * 1440 + (tt.route r).arr o q) (by omega) haft
    obtain ⟨A', hA', hj⟩ := hb.next
    obtain ⟨x, hx, hjx⟩ := h1.journey (hj l0 t0 (by simpa using h2))
    have := hT (k + (n + 1)) (by omega) A' ⟨x, hx, hjx⟩ (by omega)
    rw [show k + 1 + n - 1 = k + (n + 1) - 1 by omega]
    omega

/-- Boarding another trip where the current trip was boarded. -/
theorem from_start_ride (c : Ctx tt tbd Q starts T0 W H S) {R : Nat}
    (hT : ∀ R', R' < R → ∀ A' : Int, JourneyFrom tt tbd.prf Q starts R' A' → A' ≤ (W : Int) → S.tmin (R' - 1) ≤ A')
    {k : Nat} {l : Loc} {t : Int} (hc : Chain (net tt tbd.prf Q) starts k l t) {n r o day j q A : Nat} (hk : k + (n + 1) < R) (hA : A ≤ W)
    (hleg : Leg tt l t r o day j q) (haft : After tt tbd.prf Q n ((tt.route r).stop q).loc (day * 1440 + (tt.route r).arr o q) A) :
    S.tmin (k + n) ≤ (A : Int) := by
  obtain ⟨A', hA', hj⟩ := haft.next
  have hr := hleg.ride tbd.prf Q
  obtain ⟨x, hx, hjx⟩ := hc.journey (hj l t (by simpa using hr))
  have := hT (k + (n + 1)) hk A' ⟨x, hx, hjx⟩ (by omega)
  rw [show k + (n + 1) - 1 = k + n by omega] at this
  omega

set_option maxRecDepth 4000 in
theorem claim_succ (c : Ctx tt tbd Q starts T0 W H S) {R : Nat} (hR : R ≤ kMaxTransfers)
    (hT : ∀ R', R' < R → ∀ A' : Int, JourneyFrom tt tbd.prf Q starts R' A' → A' ≤ (W : Int) → S.tmin (R' - 1) ≤ A') {n : Nat}
    (hn : ∀ r o D k i A, Claim tt tbd Q W H S R n r o D k i A) (μ : Nat) :
    ∀ i r o D k A, D * 4096 + o = μ → Claim tt tbd Q W H S R (n + 1) r o D k i A := by
  induction μ using Nat.strongRecOn with
  | ind μ ihμ =>
    intro i
    induction i using Nat.strongRecOn with
    | ind i ihi =>
      intro r o D k A hμe hA hk hc hi hl ho hrun haft
      have hr : r < tt.routes.length := (route_mem hl).1
      have hμ : ∀ o' D' k i A, o' < (tt.route r).nTr → D' * 4096 + o' < D * 4096 + o → Claim tt tbd Q W H S R (n + 1) r o' D' k i A :=
        fun o' D' k i A _ hlt => ihμ (D' * 4096 + o') (by omega) i r o' D' k A rfl
      obtain ⟨x, hx, hxr, hxk, hnl, hseg, hm⟩ := covered_entry c.ex.hist (s := i - 1) (by omega) hc
      obtain ⟨hist, hfit⟩ := c.entry hx
      have hxt : x.b.trip < (tt.route r).nTr := hxr ▸ hfit.bd.trip
      have hxrun := hfit.bd.runs
      rw [hxr] at hxrun
      have hself : Covered (boards H) r x.b.trip x.b.day x.b.k x.b.seg := hxr ▸ Covered.self hx (Nat.le_refl _)
      have hntr := c.ok.ttOk.trips _ (List.mem_of_getElem? (route_getElem hr))
      by_cases hsame : x.b.trip = o ∧ x.b.day = D
      · obtain ⟨e1, e2⟩ := hsame
        rw [e1, e2] at hself
        have hbd := hfit.bd
        rw [hxr, e1, e2] at hbd
        have hge := c.boardedGe hbd
        obtain ⟨hda, haa, had, _⟩ := c.reg.trip hr ho
        have hsi := hda x.b.seg i (by omega) hl
        obtain ⟨tr, hch, htr⟩ := hbd.ready
        have m1 := c.mono (x.b.k + n) (k + (n + 1)) (by omega) (by omega)
        have m2 := c.mono (x.b.k + n - 1) (k + (n + 1)) (by omega) (by omega)
        cases haft with
        | @ride _ _ _ _ l w r' o' day' j q hw hleg haft =>
          cases hu : isUturn tt ((tt.route r).stop (i - 1)) ((tt.route r').stop (j + 1)) (decide (j + 1 = (tt.route r').stops.length - 1)) w with
          | false => exact change_step c hR hn ho hμ hA hk hc hi hl hrun (by omega) hw hleg haft hu
          | true =>
            have hlt := hleg.lt
            have hql := hleg.len
            have hloc : ((tt.route r).stop (i - 1)).loc = ((tt.route r').stop (j + 1)).loc := by
              simp only [isUturn, Bool.or_eq_true, Bool.and_eq_true, decide_eq_true_eq] at hu
              rcases hu with hu | hu
              · exact hu.1.2
              · exact hu.1.1.1
            have ht := hleg.time
            have hdar := hleg.dep_arr c.reg
            by_cases hq : q = j + 1
            · subst hq
              rw [← hloc] at haft
              by_cases hs : x.b.seg + 2 ≤ i
              · -- alight one stop earlier
                have h1 := haa (i - 1) i (by omega) (by omega) hl
                have := hn r o D x.b.k (i - 1) A hA (by omega) (hself.later (by omega)) (by omega) (by omega) ho hrun (haft.mono (by omega))
                omega
              · have es : x.b.seg = i - 1 := by omega
                rw [es] at hch htr hsi
                have := from_start c hT hch (by omega) hA (by omega) haft
                omega
            · have hnext : ((tt.route r').stop (j + 1)).inAllowed = true ∧ tt.transfer ((tt.route r).stop (i - 1)).loc ≤ w := by
                simp only [isUturn, Bool.or_eq_true, Bool.and_eq_true, decide_eq_true_eq] at hu
                rcases hu with hu | hu
                · have := hu.1.1; omega
                · exact ⟨hu.1.2, hu.2⟩
              have hdd := (c.reg.trip hleg.route hleg.trip).2.2.2 j (by omega)
              have hleg' : ∀ t0 : Int, t0 ≤ (day' : Int) * 1440 + ((tt.route r').dep o' j : Nat) →
                  Leg tt ((tt.route r).stop (i - 1)).loc t0 r' o' day' (j + 1) q := fun t0 h0 =>
                ⟨hleg.route, hleg.trip, hleg.runs, by omega, hql, hloc.symm, hnext.1, hleg.alight, by omega⟩
              by_cases hs : x.b.seg + 2 ≤ i
              · have h1 := haa (i - 1) i (by omega) (by omega) hl
                have h2 := hnext.2
                have := ihi (i - 1) (by omega) r o D x.b.k A hμe hA (by omega) (hself.later (by omega)) (by omega) (by omega) ho hrun
                  (.ride (Or.inl ⟨rfl, rfl⟩) (hleg' _ (by omega)) haft)
                have m3 := c.mono (x.b.k + (n + 1)) (k + (n + 1)) (by omega) (by omega)
                omega
              · have es : x.b.seg = i - 1 := by omega
                rw [es] at hch htr hsi
                have := from_start_ride c hT hch (by omega) hA (hleg' _ (by omega)) haft
                omega
      · have harr := c.reg.arr_le hr hxt ho hi hl (d := Q.base' + x.b.day) (d' := Q.base' + D) (by
          unfold NotLater at *; omega)
        have := ihμ (x.b.day * 4096 + x.b.trip) (by unfold NotLater at hnl; omega) i r x.b.trip x.b.day x.b.k A rfl hA (by omega)
          (hself.later hseg) hi hl hxt hxrun (haft.mono harr)
        have m3 := c.mono (x.b.k + (n + 1)) (k + (n + 1)) (by omega) (by omega)
        omega

/-- Continuations from covered segments have been found. -/
theorem claim_all (c : Ctx tt tbd Q starts T0 W H S) {R : Nat} (hR : R ≤ kMaxTransfers)
    (hT : ∀ R', R' < R → ∀ A' : Int, JourneyFrom tt tbd.prf Q starts R' A' → A' ≤ (W : Int) → S.tmin (R' - 1) ≤ A') :
    ∀ n r o D k i A, Claim tt tbd Q W H S R n r o D k i A := by
  intro n
  induction n with
  | zero => exact claim_zero c hR
  | succ n ih => exact fun r o D k i A => claim_succ c hR hT ih _ i r o D k A rfl

/-! ## The first boarding -/

theorem find_le (p : Nat → Bool) : ∀ (l : List Nat), l.Pairwise (· < ·) → ∀ {o'}, o' ∈ l → p o' = true → ∃ o, l.find? p = some o ∧ o ≤ o' ∧ p o = true
  | [], _, _, h, _ => by simp at h
  | a :: l, hp, o', h, hpo => by
    rw [List.find?_cons]
    cases hpa : p a with
    | true =>
      refine ⟨a, rfl, ?_, hpa⟩
      rcases List.mem_cons.1 h with rfl | h
      · exact Nat.le_refl _
      · exact Nat.le_of_lt (List.rel_of_pairwise_cons hp h)
    | false =>
      rcases List.mem_cons.1 h with rfl | h
      · rw [hpa] at hpo; simp at hpo
      · exact find_le p l (List.pairwise_cons.1 hp).2 h hpo

theorem mem_dropWhile (p : Nat → Bool) : ∀ (l : List Nat) {o}, o ∈ l → p o = false → o ∈ l.dropWhile p
  | [], _, h, _ => by simp at h
  | a :: l, o, h, hp => by
    rw [List.dropWhile_cons]
    cases hpa : p a with
    | true =>
      simp only [if_true]
      rcases List.mem_cons.1 h with rfl | h
      · rw [hpa] at hp; simp at hp
      · exact mem_dropWhile p l h hp
    | false => simpa using h

theorem earliestOn_complete {R : Route} {i day mam : Nat} {first : Bool} {o d : Nat} (ho : o < R.nTr) (hrun : (R.bits o).testBit d = true)
    (hd : d + R.dep o i / 1440 = day) (hmam : first = true → mam ≤ R.dep o i % 1440)
    (hsame : ∀ u, u < R.nTr → R.dep u i / 1440 = R.dep o i / 1440) : ∃ o', earliestOn R i day mam first = some (o', d) ∧ o' ≤ o := by
  unfold earliestOn
  simp only
  have hpw : (List.range R.nTr).Pairwise (· < ·) := List.pairwise_lt_range
  have hmem : o ∈ List.range R.nTr := List.mem_range.2 ho
  obtain ⟨o', h1, h2, h3⟩ := find_le (fun t => !(first && !decide (mam ≤ R.dep t i % 1440)) &&
    decide (R.dep t i / 1440 ≤ day) && (R.bits t).testBit (day - R.dep t i / 1440))
    (if first = true then (List.range R.nTr).dropWhile (fun t => decide (R.dep t i % 1440 < mam)) else List.range R.nTr) (by
      split
      · exact hpw.sublist (List.dropWhile_sublist _)
      · exact hpw) (o' := o) (by
      split
      · rename_i hf
        exact mem_dropWhile _ _ hmem (by have := hmam hf; simp; omega)
      · exact hmem) (by
      simp only [Bool.and_eq_true, decide_eq_true_eq]
      refine ⟨⟨?_, by omega⟩, by rw [show day - R.dep o i / 1440 = d by omega]; exact hrun⟩
      cases first with
      | false => rfl
      | true => simp [hmam rfl])
  refine ⟨o', ?_, h2⟩
  rw [h1]
  have := hsame o' (by omega)
  simp only [Option.map_some, Option.some.injEq, Prod.mk.injEq, true_and]
  omega

theorem earliest_complete {R : Route} {i t o d : Nat} (ho : o < R.nTr) (hrun : (R.bits o).testBit d = true)
    (h1 : t ≤ d * 1440 + R.dep o i) (h2 : d * 1440 + R.dep o i ≤ t + 1440) (hsame : ∀ u, u < R.nTr → R.dep u i / 1440 = R.dep o i / 1440) :
    ∃ o' d', earliest R i (t / 1440) (t % 1440) = some (o', d') ∧ NotLater o' d' o d := by
  unfold earliest
  by_cases hb : d + R.dep o i / 1440 = t / 1440
  · obtain ⟨o', h3, h4⟩ := earliestOn_complete (mam := t % 1440) (first := true) ho hrun hb (fun _ => by omega) hsame
    rw [h3]
    exact ⟨o', d, rfl, Or.inr ⟨rfl, h4⟩⟩
  · have hb' : d + R.dep o i / 1440 = t / 1440 + 1 := by omega
    cases h3 : earliestOn R i (t / 1440) (t % 1440) true with
    | some x =>
      obtain ⟨o', d'⟩ := x
      obtain ⟨g1, g2, g3, g4⟩ := earliestOn_spec h3
      have := hsame o' g1
      exact ⟨o', d', rfl, Or.inl (by omega)⟩
    | none =>
      obtain ⟨o', h3, h4⟩ := earliestOn_complete (mam := t % 1440) (first := false) ho hrun hb' (fun h => by simp at h) hsame
      simp only [h3]
      exact ⟨o', d, rfl, Or.inr ⟨rfl, h4⟩⟩

theorem startSegs_complete {l : Loc} {t r o j day : Nat} (hl : r ∈ tt.locRoutes l) (hj : j + 1 < (tt.route r).stops.length)
    (hin : ((tt.route r).stop j).inAllowed = true) (hloc : ((tt.route r).stop j).loc = l)
    (he : earliest (tt.route r) j (t / 1440) (t % 1440) = some (o, day)) (h1 : Q.base' ≤ day) (h2 : day < Q.base' + kTBMaxDayOffset) :
    (r, o, j, day - Q.base') ∈ startSegs tt Q l t := by
  unfold startSegs
  refine List.mem_flatMap.2 ⟨r, hl, List.mem_filterMap.2 ⟨j, List.mem_range.2 (by omega), ?_⟩⟩
  rw [if_neg (by rw [hin]; simp [hloc]), he]
  simp only
  rw [if_neg (by omega)]

set_option maxRecDepth 4000 in
/-- Every journey of interest has been found. -/
theorem all_found (c : Ctx tt tbd Q starts T0 W H S) (R : Nat) : R ≤ kMaxTransfers → ∀ A : Int, JourneyFrom tt tbd.prf Q starts R A → A ≤ (W : Int) →
    S.tmin (R - 1) ≤ A := by
  induction R using Nat.strongRecOn with
  | ind R ih =>
    rintro hR A ⟨x, hx, hj⟩ hA
    obtain ⟨r, o, day, j, q, n, A, hleg, rfl, rfl, haft⟩ := journey_after hj
    have hT := claim_all c hR (fun R' hR' A' h1 h2 => ih R' hR' (by omega) A' h1 h2)
    have hrm := List.mem_of_getElem? (route_getElem hleg.route)
    have hlt := hleg.lt
    have hlen := hleg.len
    have htime := hleg.time
    have hda := hleg.dep_arr c.reg
    have hle := haft.le c.reg
    have hday := c.fit.day
    have hearly := c.fit.early x hx
    obtain ⟨o', d', he, hnl⟩ := earliest_complete (R := tt.route r) (i := j) (t := x.2) hleg.trip hleg.runs (by omega) (by omega)
      (fun u hu => (c.reg.aligned _ hrm).depDay u o hu hleg.trip j (show j + 1 < (tt.route r).stops.length by omega))
    obtain ⟨ho', hrun', ht'⟩ := earliest_spec he
    have harr := c.reg.arr_le hleg.route ho' hleg.trip (show 0 < q by omega) hlen hnl
    obtain ⟨hd1, hd2⟩ := c.dayRange (day := d') (q := q) hleg.route ho' (j := j) (by omega) (Nat.le_trans hearly ht') (by omega)
    have hloc := hleg.loc
    have hroutes := c.reg.locRoutes r j (by omega)
    rw [hloc] at hroutes
    have hseg := startSegs_complete (Q := Q) hroutes (by omega) hleg.board hloc he (by omega) (by unfold kTBMaxDayOffset; omega)
    have hcov := c.ex.start x hx _ hseg
    simp only at hcov
    have hbase : Q.base' + (d' - Q.base') = d' := by omega
    have := hT n r o' (d' - Q.base') 0 q A (by omega) (by omega) (hcov.later (by omega)) (by omega) hlen ho' (by rw [hbase]; exact hrun')
      (by rw [hbase]; exact haft.mono harr)
    simpa using this

end

end Nigiri.TB
