import Verif.Model.GpuReconstruct
import Verif.Proofs.GpuTrace
import Verif.Proofs.ReconstructNet
import Verif.Props.GpuPacking
/-!
# Reconstruction on the GPU (proofs)
-/

namespace Nigiri.Gpu
open Nigiri.Raptor

/-- What reconstruction on the GPU assumes: the numbers of transports and stops fit into breadcrumbs, days are not negative, no
walk takes a day or longer. -/
structure RecFits (N : Net) : Prop where
  space : spaceFits (firstTransport N N.routes.length) N.rts.length = true
  stops : ∀ r ∈ N.routes, r.stops.length ≤ 2048
  rtStops : ∀ r ∈ N.rts, r.stops.length ≤ 2048
  days : ∀ r ∈ N.routes, ∀ t D, r.days t D = true → 0 ≤ D
  transfer : ∀ l, N.transfer l < 1440
  fps : ∀ l t l' w, (l', w) ∈ N.fps l t → w < 1440
  endDist : ∀ l w, N.endDist l = some w → w < 1440
  endTd : ∀ l t w, N.endTd l t = some w → w < 1440

/-! ## Decoding -/

theorem routeOf_first : ∀ (rs : List RouteData) (ri : Nat) (r : RouteData) (t : Nat), rs[ri]? = some r → t < r.nTr →
    routeOf rs (((rs.take ri).map (·.nTr)).sum + t) = some (ri, t)
  | [], ri, r, t, h, _ => by simp at h
  | x :: rs, 0, r, t, h, ht => by
    simp only [List.getElem?_cons_zero, Option.some.injEq] at h
    subst h
    simp [routeOf, ht]
  | x :: rs, ri + 1, r, t, h, ht => by
    rw [List.getElem?_cons_succ] at h
    have ih := routeOf_first rs ri r t h ht
    simp only [List.take_succ_cons, List.map_cons, List.sum_cons]
    unfold routeOf
    rw [if_neg (by omega), show x.nTr + ((rs.take ri).map (·.nTr)).sum + t - x.nTr = ((rs.take ri).map (·.nTr)).sum + t by omega, ih]
    rfl

theorem first_lt : ∀ (rs : List RouteData) (ri : Nat) (r : RouteData) (t : Nat), rs[ri]? = some r → t < r.nTr →
    ((rs.take ri).map (·.nTr)).sum + t < ((rs.take rs.length).map (·.nTr)).sum
  | [], ri, r, t, h, _ => by simp at h
  | x :: rs, 0, r, t, h, ht => by
    simp only [List.getElem?_cons_zero, Option.some.injEq] at h
    subst h
    simp; omega
  | x :: rs, ri + 1, r, t, h, ht => by
    rw [List.getElem?_cons_succ] at h
    have ih := first_lt rs ri r t h ht
    simp only [List.take_succ_cons, List.map_cons, List.sum_cons, List.length_cons]
    omega

theorem recoverDay_eq {d : Dir} {base : Int} {days : Int → Bool} {ev : Nat} {D T : Int} (hD : days D = true) (h0 : 0 ≤ D)
    (hlo : d.lo ≤ evTime d base D ev) (hT : evTime d base D ev ≤ T) (hT' : T < evTime d base D ev + 1440) (hhi : T < d.hi) :
    recoverDay d base days ev T = some D := by
  have hc : d.clamp (evTime d base D ev) = evTime d base D ev := by unfold Dir.clamp; omega
  have hok : (decide (0 ≤ D) && days D && decide (d.clamp (evTime d base D ev) ≤ T)) = true := by
    rw [hc, hD]; simp; omega
  unfold recoverDay
  rw [show List.range kRecMaxDayShift = 0 :: 1 :: [2, 3, 4, 5] from rfl, List.map_cons, List.map_cons, List.find?_cons]
  by_cases hoff : (base * 1440 + d.sgn * T) / 1440 - ((ev / 1440 : Nat) : Int) - d.sgn * ((0 : Nat) : Int) = D
  · rw [hoff, hok]
  · have h1 : (base * 1440 + d.sgn * T) / 1440 - ((ev / 1440 : Nat) : Int) - d.sgn * ((1 : Nat) : Int) = D := by
      unfold evTime at hT hT' hoff
      cases d <;> simp only [Dir.sgn] at * <;> omega
    generalize hx : (base * 1440 + d.sgn * T) / 1440 - ((ev / 1440 : Nat) : Int) - d.sgn * ((0 : Nat) : Int) = x at *
    have hno : (decide (0 ≤ x) && days x && decide (d.clamp (evTime d base x ev) ≤ T)) = false := by
      have : ¬ d.clamp (evTime d base x ev) ≤ T := by
        have e : evTime d base x ev = evTime d base D ev + 1440 := by
          unfold evTime
          cases d <;> simp only [Dir.sgn] at * <;> omega
        rw [e]
        unfold Dir.clamp
        omega
      rw [decide_eq_false this, Bool.and_false]
    rw [hno, List.find?_cons, h1, hok]

theorem stopIdx_lt {d : Dir} {n i : Nat} (h : i < n) : stopIdx d n i < n := by cases d <;> simp only [stopIdx] <;> omega
theorem stopIdx_stopIdx {d : Dir} {n i : Nat} (h : i < n) : stopIdx d n (stopIdx d n i) = i := by cases d <;> simp only [stopIdx] <;> omega

theorem leaveEv_eq (d : Dir) (r : RouteData) (t i : Nat) : leaveEv d r t (stopIdx d r.stops.length i) = r.evAlight d t i := by cases d <;> rfl
theorem enterEv_eq (d : Dir) (r : RouteData) (t i : Nat) : enterEv d r t (stopIdx d r.stops.length i) = r.evBoard d t i := by cases d <;> rfl
theorem rtLeave_eq (d : Dir) (N : Net) (r : RtData) (i : Nat) : rtLeave d r (stopIdx d r.stops.length i) = (mkRt d N r).alight i := by cases d <;> rfl
theorem rtEnter_eq (d : Dir) (N : Net) (r : RtData) (i : Nat) : rtEnter d r (stopIdx d r.stops.length i) = (mkRt d N r).board i := by cases d <;> rfl

/-- The breadcrumb of a ride is decoded to the ride. -/
theorem decode_ride {d : Dir} {N : Net} (hf : RecFits N) {v : Vehicle} {n i j : Nat} {x : OLeg} (h : ORide (mkProblem d N) v n i j x) {w : Word}
    (hw : w.bc = (codec d N).bc v i j) (hlo : d.lo ≤ x.ta) (hab : x.ta ≤ x.tb) (hT : x.tb ≤ w.t) (hT' : w.t < x.tb + 1440) (hhi : w.t < d.hi) :
    decodeRide d N w = some ⟨x.a, x.b, x.ta, x.tb, .ride v n i j⟩ ∧ bcIsStart w.bc = false := by
  have c1 : d.clamp x.ta = x.ta := by unfold Dir.clamp; omega
  have c2 : d.clamp x.tb = x.tb := by unfold Dir.clamp; omega
  obtain ⟨k1, k2, -, -⟩ := C87_kinds _ _ hf.space
  cases v with
  | trip r t day =>
    obtain ⟨rd, h1, h2, h3, rfl, h4, h5, h6⟩ := h
    obtain ⟨r0, e1, rfl⟩ := routes_get h1
    have hlen : (mkRoute d N r0).stops.length = r0.stops.length := searchStops_length _ _ _ _ _
    obtain ⟨sb, g1, g2, -⟩ := h4.board
    obtain ⟨sa, g3, g4, -⟩ := h4.alight
    obtain ⟨hil, sdi, hi1, rfl⟩ := (searchStops_get _ _ _ _ _ _ _).mp g1
    obtain ⟨hjl, sdj, hj1, rfl⟩ := (searchStops_get _ _ _ _ _ _ _).mp g3
    have hmem := List.mem_of_getElem? e1
    have hn := hf.stops r0 hmem
    have ht : t < r0.nTr := h3.1
    have hft : firstTransport N r + t < firstTransport N N.routes.length := first_lt _ _ _ _ e1 ht
    obtain ⟨f1, f2, f3⟩ := k1 _ hft
    have hbc : w.bc = makePayload (firstTransport N r + t) (stopIdx d r0.stops.length i) (stopIdx d r0.stops.length j) := by
      rw [hw]; show makePayload _ (stopIdx d ((N.routes[r]?.map (·.stops.length)).getD 0) i) (stopIdx d ((N.routes[r]?.map (·.stops.length)).getD 0) j) = _
      rw [e1]; rfl
    have hli := stopIdx_lt (d := d) hil
    have hlj := stopIdx_lt (d := d) hjl
    obtain ⟨p1, p2, p3, -, p5⟩ := C87_ride_partial (firstTransport N r + t) (stopIdx d r0.stops.length i) (stopIdx d r0.stops.length j) f1 (by omega) (by omega)
    rw [← hbc] at p1 p2 p3 p5
    have hta : x.ta = evTime d N.base day (r0.evBoard d t i) := h5
    have htb : x.tb = evTime d N.base day (r0.evAlight d t j) := h6
    refine ⟨?_, ?_⟩
    · unfold decodeRide
      simp only [p1, p2, p3, f2]
      rw [if_neg (by decide), show routeOf N.routes (firstTransport N r + t) = some (r, t) from routeOf_first _ _ _ _ e1 ht]
      simp only [e1, leaveEv_eq, enterEv_eq]
      rw [recoverDay_eq (D := day) h3.2 (hf.days r0 hmem t day h3.2) (by omega) (by omega) (by omega) hhi]
      simp only [hi1, hj1, ← hta, ← htb, c1, c2, stopIdx_stopIdx hil, stopIdx_stopIdx hjl]
      rw [hlen, ← g2, ← g4]
    · have : ¬ bcIsStart w.bc = true := by
        rw [p5]
        intro e
        exact f3 (by rw [e]; rfl)
      simpa using this
  | rt r =>
    obtain ⟨rd, h1, h2, rfl, h4, h5, h6⟩ := h
    obtain ⟨r0, e1, rfl⟩ := rts_get h1
    have hlen : (mkRt d N r0).stops.length = r0.stops.length := searchStops_length _ _ _ _ _
    obtain ⟨sb, g1, g2, -⟩ := h4.board
    obtain ⟨sa, g3, g4, -⟩ := h4.alight
    obtain ⟨hil, sdi, hi1, rfl⟩ := (searchStops_get _ _ _ _ _ _ _).mp g1
    obtain ⟨hjl, sdj, hj1, rfl⟩ := (searchStops_get _ _ _ _ _ _ _).mp g3
    have hn := hf.rtStops r0 (List.mem_of_getElem? e1)
    obtain ⟨f1, f2, f3, f4⟩ := k2 r (List.getElem?_eq_some_iff.mp e1).1
    have hbc : w.bc = makePayload (encodeRt r) (stopIdx d r0.stops.length i) (stopIdx d r0.stops.length j) := by
      rw [hw]; show makePayload _ (stopIdx d ((N.rts[r]?.map (·.stops.length)).getD 0) i) (stopIdx d ((N.rts[r]?.map (·.stops.length)).getD 0) j) = _
      rw [e1]; rfl
    have hli := stopIdx_lt (d := d) hil
    have hlj := stopIdx_lt (d := d) hjl
    obtain ⟨p1, p2, p3, -, p5⟩ := C87_ride_partial (encodeRt r) (stopIdx d r0.stops.length i) (stopIdx d r0.stops.length j) f1 (by omega) (by omega)
    rw [← hbc] at p1 p2 p3 p5
    refine ⟨?_, ?_⟩
    · unfold decodeRide
      simp only [p1, p2, p3, f2, if_true, f4, e1, hi1, hj1, rtLeave_eq d N, rtEnter_eq d N, ← h5, ← h6, c1, c2, stopIdx_stopIdx hil, stopIdx_stopIdx hjl]
      rw [hlen, ← g2, ← g4]
    · have : ¬ bcIsStart w.bc = true := by
        rw [p5]
        intro e
        exact f3 (by rw [e]; rfl)
      simpa using this

/-! ## The chain of labels -/

/-- Two legs in search order: rides alternate with walks; a walk begins when the ride before it ends. -/
def RJoined (x y : OLeg) : Prop := OJoined x y ∧ (x.isRide = false → y.tb = x.ta)

/-- The legs found from the label `t` of `k` rides at `l`, after `n` legs. -/
structure RecOk (d : Dir) (N : Net) (st : List (Loc × Int)) (k : Nat) (l : Loc) (t : Int) (n : Nat) (L : List OLeg) : Prop where
  ok : ∀ Q, ∀ x ∈ L, LegOk d N Q (x.plain d)
  foot : ∀ x ∈ L, ∀ w, x.uses = .foot w → x.tb = x.ta + w
  adj : Adj RJoined L
  rides : (L.filter OLeg.isRide).length = k
  head : ∀ x, L.head? = some x →
    if N.intermodal = true ∧ l = N.endLoc then x.isRide = true ∧ ∃ w, t = x.tb + w ∧ (N.endDist x.b = some w ∨ N.endTd x.b x.tb = some w)
    else x.b = l ∧ x.tb = t ∧ (n ≠ 0 → x.isRide = false)
  last : if L = [] then (l, t) ∈ st else ∃ t0, ∃ x, L.getLast? = some x ∧ (x.a, t0) ∈ st ∧ t0 ≤ x.ta

theorem ride_stop {d : Dir} {N : Net} {v : Vehicle} {n i j : Nat} {x : OLeg} (h : ORide (mkProblem d N) v n i j x) :
    ∃ sa sb, N.HasStop sa ∧ N.HasStop sb ∧ sa.loc = x.a ∧ sb.loc = x.b := by
  cases v with
  | trip r t day =>
    obtain ⟨rd, h1, h2, h3, rfl, h4, h5, h6⟩ := h
    obtain ⟨r0, e1, rfl⟩ := routes_get h1
    obtain ⟨sb, g1, g2, -⟩ := h4.board
    obtain ⟨sa, g3, g4, -⟩ := h4.alight
    obtain ⟨hil, sdi, hi1, rfl⟩ := (searchStops_get _ _ _ _ _ _ _).mp g1
    obtain ⟨hjl, sdj, hj1, rfl⟩ := (searchStops_get _ _ _ _ _ _ _).mp g3
    have hmem := List.mem_of_getElem? e1
    exact ⟨sdi, sdj, Or.inl ⟨r0, hmem, List.mem_of_getElem? hi1⟩, Or.inl ⟨r0, hmem, List.mem_of_getElem? hj1⟩, g2, g4⟩
  | rt r =>
    obtain ⟨rd, h1, h2, rfl, h4, h5, h6⟩ := h
    obtain ⟨r0, e1, rfl⟩ := rts_get h1
    obtain ⟨sb, g1, g2, -⟩ := h4.board
    obtain ⟨sa, g3, g4, -⟩ := h4.alight
    obtain ⟨hil, sdi, hi1, rfl⟩ := (searchStops_get _ _ _ _ _ _ _).mp g1
    obtain ⟨hjl, sdj, hj1, rfl⟩ := (searchStops_get _ _ _ _ _ _ _).mp g3
    have hmem := List.mem_of_getElem? e1
    exact ⟨sdi, sdj, Or.inr ⟨r0, hmem, List.mem_of_getElem? hi1⟩, Or.inr ⟨r0, hmem, List.mem_of_getElem? hj1⟩, g2, g4⟩

theorem stop_not_end {N : Net} (hN : NetOk N) {s : StopData} (h : N.HasStop s) (hi : N.intermodal = true) : s.loc ≠ N.endLoc := by
  obtain ⟨h1, h2⟩ := hN.endStop hi
  rcases h with ⟨r, g1, g2⟩ | ⟨r, g1, g2⟩
  · exact h1 r g1 s g2
  · exact h2 r g1 s g2

/-- Walking times are less than a day. -/
theorem change_lt {d : Dir} {N : Net} (hN : NetOk N) (hf : RecFits N) {u : Loc} {a : Int} {l : Loc} {t : Int} (h : Change (mkProblem d N) u a l t) :
    a ≤ t ∧ t < a + 1440 := by
  refine ⟨Raptor.change_le (sane_of_ok d hN) h, ?_⟩
  rcases h with ⟨rfl, rfl⟩ | ⟨w, h, rfl⟩ | ⟨-, rfl, w, h | h, rfl⟩
  · have : (if (mkProblem d N).intermodal = false ∧ (mkProblem d N).isDest l = true then 0 else (mkProblem d N).transfer l) < 1440 := by
      split
      · omega
      · exact hf.transfer l
    omega
  · have := hf.fps _ _ _ _ h; omega
  · have := hf.endDist _ _ h; omega
  · have := hf.endTd _ _ _ h; omega

/-- The walk after a ride, when it is not the last mile: it is a transfer or a footpath. -/
theorem walk_ok {d : Dir} {N : Net} (hN : NetOk N) {u : Loc} {a : Int} {l : Loc} {t : Int} (h : Change (mkProblem d N) u a l t)
    (hne : ¬ (N.intermodal = true ∧ l = N.endLoc)) (hskip : ¬ (N.isDest l = true ∧ u = l ∧ a = t)) (Q : RcData) :
    LegOk d N Q ((⟨u, l, a, t, .foot (t - a)⟩ : OLeg).plain d) := by
  have hle := Raptor.change_le (sane_of_ok d hN) h
  have key : (u = l ∧ t - a = N.transfer u) ∨ (l, t - a) ∈ N.fps u a := by
    rcases h with ⟨rfl, rfl⟩ | ⟨w, h, rfl⟩ | ⟨him, rfl, -⟩
    · by_cases hc : (mkProblem d N).intermodal = false ∧ (mkProblem d N).isDest l = true
      · exfalso
        apply hskip
        refine ⟨hc.2, rfl, ?_⟩
        rw [if_pos hc]; omega
      · left; refine ⟨rfl, ?_⟩
        rw [if_neg hc]
        have : (mkProblem d N).transfer l = N.transfer l := rfl
        omega
    · right
      rw [show a + w - a = w by omega]; exact h
    · exact absurd ⟨him, rfl⟩ hne
  have hu : ((⟨u, l, a, t, .foot (t - a)⟩ : OLeg).plain d).uses = .foot (t - a) := by cases d <;> rfl
  unfold LegOk
  rw [hu]
  refine ⟨by omega, Or.inl ?_, ?_⟩
  · cases d <;> simp only [OLeg.plain] <;> omega
  · rcases key with ⟨e1, e2⟩ | e
    · left
      cases d
      · exact ⟨e1, e2⟩
      · exact ⟨e1.symm, by rw [e2, e1]; rfl⟩
    · right
      cases d
      · exact e
      · simp only [OLeg.plain, Int.neg_neg]; exact e

theorem recBack_ok {d : Dir} {N : Net} (hN : NetOk N) (hf : RecFits N) {W A : Int} {m : Mem} {st : List (Loc × Int)} {K : Nat}
    (hL : LabOk (mkProblem d N) (codec d N) W m) (hZ : ZeroOk (mkProblem d N) (codec d N) st m)
    (hnb : ∀ k x, k ≤ K → x ≤ A → ¬ Beaten (mkProblem d N) W m k x) (hA : A < d.hi) (hlo : ∀ k l, d.lo < m.row k l) (hK : K ≤ 15) :
    ∀ k l n, k ≤ K → n ≤ 2 * (K - k) → (n ≠ 0 → k < K) → m.row k l ≤ A → ((n ≠ 0 ∨ k = 0) → N.intermodal = true → l ≠ N.endLoc) →
      ∃ L, recBack d N (fun k l => m.val (.round k l)) k l n = some L ∧ RecOk d N st k l (m.row k l) n L := by
  intro k
  induction k with
  | zero =>
    intro l n _ _ _ hrow _
    refine ⟨[], rfl, ⟨by simp, by simp, trivial, rfl, by simp, ?_⟩⟩
    rw [if_pos rfl]
    exact (hZ l (show m.row 0 l < d.hi by omega)).1
  | succ k ih =>
    intro l n hk hn hnk hrow hend
    -- the label is explained
    have hlt : (m.val (.round (k + 1) l)).t < (mkProblem d N).hi := by
      have : m.row (k + 1) l < d.hi := by omega
      exact this
    have g := (hL k l hlt).resolve_right (hnb _ _ hk hrow)
    obtain ⟨u, tw, ⟨v, n', i, j, x, r1, rfl, r3, r4, r5, r6⟩, htw, hch, hbc⟩ := g
    rw [← r3] at hch htw
    have hride := Raptor.ride_le (sane_of_ok d hN) (Raptor.oride_ride r1 (Int.le_refl _))
    obtain ⟨c1, c2⟩ := change_lt hN hf hch
    have hloa := hlo k x.a
    have erow : m.row (k + 1) l = (m.val (.round (k + 1) l)).t := rfl
    obtain ⟨dec, nst⟩ := decode_ride (w := m.val (.round (k + 1) l)) hf r1 (by rw [hbc, r6]) (by omega) hride c1 c2 hlt
    obtain ⟨sa, sb, hsa, hsb, esa, esb⟩ := ride_stop r1
    let ride : OLeg := ⟨x.a, x.b, x.ta, x.tb, .ride v n' i j⟩
    let walk := walkAfter N n l (m.val (.round (k + 1) l)).t ride
    have hwl : walk.length ≤ 1 := by
      show (walkAfter N n l _ ride).length ≤ 1
      unfold walkAfter; split <;> simp
    obtain ⟨rest, hrest, R⟩ := ih x.a (n + walk.length + 1) (by omega) (by omega) (fun _ => by omega) (by omega)
      (fun _ hi => by rw [← esa]; exact stop_not_end hN hsa hi)
    have hrec : recBack d N (fun k l => m.val (.round k l)) (k + 1) l n = some (walk ++ ride :: rest) := by
      unfold recBack
      simp only [nst]
      rw [if_neg (by decide), dec]
      simp only
      rw [if_neg (by unfold kMaxRecLegs; show ¬ 32 ≤ n + walk.length; omega)]
      show Option.map _ (recBack d N _ k x.a (n + walk.length + 1)) = _
      rw [hrest]; rfl
    refine ⟨_, hrec, ?_⟩
    have hrestEnd : ¬ (N.intermodal = true ∧ x.a = N.endLoc) := fun hc => stop_not_end hN hsa hc.1 (by rw [esa]; exact hc.2)
    -- the ride and what follows
    have hadj : Adj RJoined (ride :: rest) := by
      rw [adj_cons]
      refine ⟨?_, R.adj⟩
      intro y hy
      have hh := R.head y hy
      rw [if_neg hrestEnd] at hh
      obtain ⟨h1, h2, h3⟩ := hh
      have hnr := h3 (by omega)
      refine ⟨⟨h1, by rw [h2]; exact r4, ?_⟩, ?_⟩
      · rw [hnr]; show (true : Bool) ≠ false; decide
      · intro h; cases h
    have hokr : ∀ Q, LegOk d N Q (ride.plain d) := by
      intro Q
      obtain ⟨i', j', e1, e2⟩ := plain_ride hN (x := ride) rfl r1
      unfold LegOk; rw [e1]; exact e2
    have hlast : ∀ pre : List OLeg, ∃ t0, ∃ y, (pre ++ ride :: rest).getLast? = some y ∧ (y.a, t0) ∈ st ∧ t0 ≤ y.ta := by
      intro pre
      by_cases hr : rest = []
      · subst hr
        have := R.last
        rw [if_pos rfl] at this
        exact ⟨_, ride, by simp, this, r4⟩
      · have := R.last
        rw [if_neg hr] at this
        obtain ⟨t0, y, h1, h2, h3⟩ := this
        refine ⟨t0, y, ?_, h2, h3⟩
        rw [List.getLast?_append, List.getLast?_cons, h1]; rfl
    have hw : walk = walkAfter N n l (m.val (.round (k + 1) l)).t ride := rfl
    unfold walkAfter at hw
    split at hw
    · -- no walk
      rename_i hc
      rw [hw, List.nil_append]
      refine ⟨?_, ?_, hadj, ?_, ?_, ?_⟩
      · intro Q y hy
        rcases List.mem_cons.mp hy with rfl | hy
        · exact hokr Q
        · exact R.ok Q y hy
      · intro y hy w hu
        rcases List.mem_cons.mp hy with rfl | hy
        · cases hu
        · exact R.foot y hy w hu
      · rw [List.filter_cons, if_pos (show ride.isRide = true from rfl), List.length_cons, R.rides]
      · intro y hy
        cases hy
        split
        · rename_i he
          refine ⟨rfl, ?_⟩
          rcases hch with ⟨e1, -⟩ | ⟨w, e1, -⟩ | ⟨-, -, w, e1, e2⟩
          · exact absurd (by rw [esb, ← e1]; exact he.2) (stop_not_end hN hsb he.1)
          · exact absurd (by rw [← he.2]; exact e1) (hN.endFps he.1 _ _ w)
          · exact ⟨w, e2, e1⟩
        · rename_i he
          simp only [Bool.or_eq_true, Bool.and_eq_true, beq_iff_eq] at hc
          rcases hc with hc | ⟨⟨hc1, hc2⟩, hc3⟩
          · exact absurd hc he
          · exact ⟨hc2, hc3, fun h => absurd hc1 h⟩
      · rw [if_neg (by simp)]
        exact hlast []
    · rename_i hc
      simp only [Bool.or_eq_true, Bool.and_eq_true, beq_iff_eq, not_or] at hc
      have hwok : ∀ Q, LegOk d N Q ((⟨x.b, l, x.tb, (m.val (.round (k + 1) l)).t, .foot ((m.val (.round (k + 1) l)).t - x.tb)⟩ : OLeg).plain d) := by
        intro Q
        refine walk_ok hN hch hc.1 ?_ Q
        rintro ⟨e1, e2, e3⟩
        by_cases h0 : n = 0
        · exact hc.2 ⟨⟨h0, e2⟩, e3⟩
        · have := hnk h0
          exact hnb K A (Nat.le_refl _) (Int.le_refl _) (Or.inr ⟨l, k + 1, e1, Or.inr ⟨this, hrow⟩⟩)
      rw [hw]
      refine ⟨?_, ?_, ?_, ?_, ?_, ?_⟩
      · intro Q y hy
        rw [List.mem_append, List.mem_singleton] at hy
        rcases hy with rfl | hy
        · exact hwok Q
        · rcases List.mem_cons.mp hy with rfl | hy
          · exact hokr Q
          · exact R.ok Q y hy
      · intro y hy w hu
        rw [List.mem_append, List.mem_singleton] at hy
        rcases hy with rfl | hy
        · cases hu
          show (m.val (.round (k + 1) l)).t = ride.tb + ((m.val (.round (k + 1) l)).t - ride.tb)
          omega
        · rcases List.mem_cons.mp hy with rfl | hy
          · cases hu
          · exact R.foot y hy w hu
      · show Adj RJoined (_ :: (ride :: rest))
        rw [adj_cons]
        refine ⟨?_, hadj⟩
        intro y hy
        cases hy
        exact ⟨⟨rfl, Int.le_refl _, by show (false : Bool) ≠ true; decide⟩, fun _ => rfl⟩
      · rw [List.filter_append, List.filter_cons, List.filter_cons, if_neg (by show ¬ (false : Bool) = true; decide), if_pos (show ride.isRide = true from rfl)]
        simp only [List.filter_nil, List.nil_append, List.length_cons, R.rides]
      · intro y hy
        cases hy
        rw [if_neg hc.1]
        exact ⟨rfl, rfl, fun _ => rfl⟩
      · rw [if_neg (by simp)]
        exact hlast _

/-! ## Walks on the host -/

theorem anchorAll_shift : ∀ (xs : List Leg) (prev : Leg), (∀ x ∈ xs, ∀ w, x.uses = .foot w → x.arr = x.dep + w) → anchorAll prev xs = shiftWalks prev xs
  | [], _, _ => rfl
  | x :: xs, prev, h => by
    have e : anchor prev x = shiftWalk prev x := by
      cases hu : x.uses with
      | foot w =>
        have := h x (by simp) w hu
        simp only [anchor, shiftWalk, hu]
        rw [show prev.arr + w = x.arr - (x.dep - prev.arr) by omega]
      | ride v i j => simp only [anchor, shiftWalk, hu]
      | offset w => simp only [anchor, shiftWalk, hu]
    unfold anchorAll shiftWalks
    rw [e, anchorAll_shift xs _ (fun y hy => h y (by simp [hy]))]

theorem anchorAll_id : ∀ (xs : List Leg) (prev : Leg), (∀ x ∈ xs, ∀ w, x.uses = .foot w → x.arr = x.dep + w) →
    Adj (fun x y => y.isRide = false → y.dep = x.arr) (prev :: xs) → anchorAll prev xs = xs
  | [], _, _, _ => rfl
  | x :: xs, prev, h, ha => by
    have e : anchor prev x = x := by
      unfold anchor
      split
      · rename_i w hw
        have h1 := h x (by simp) w hw
        have h2 := ha.1 (by unfold Leg.isRide; rw [hw])
        rw [← h2, ← h1]
      · rfl
    unfold anchorAll
    rw [e, anchorAll_id xs x (fun y hy => h y (by simp [hy])) ha.2]

theorem plain_foot {d : Dir} {x : OLeg} (hx : ∀ w, x.uses = .foot w → x.tb = x.ta + w) : ∀ w, (x.plain d).uses = .foot w → (x.plain d).arr = (x.plain d).dep + w := by
  intro w hu
  have : x.uses = .foot w := by
    cases hx : x.uses with
    | foot w' => cases d <;> simp only [OLeg.plain, hx] at hu <;> cases hu <;> rfl
    | ride v n i j => cases d <;> simp only [OLeg.plain, hx] at hu <;> cases hu
    | offset w' => cases d <;> simp only [OLeg.plain, hx] at hu <;> cases hu
  have := hx w this
  cases d <;> simp only [OLeg.plain] <;> omega

theorem hostLegs_present {d : Dir} {N : Net} {st : List (Loc × Int)} {k : Nat} {l : Loc} {t : Int} {n : Nat} {L : List OLeg} (h : RecOk d N st k l t n L) :
    hostLegs d L = present d L := by
  have hfoot : ∀ y ∈ L.map (OLeg.plain d), ∀ w, y.uses = .foot w → y.arr = y.dep + w := by
    intro y hy
    obtain ⟨x, hx, rfl⟩ := List.mem_map.mp hy
    exact plain_foot (h.foot x hx)
  cases d with
  | bwd =>
    unfold hostLegs present
    cases hm : L.map (OLeg.plain .bwd) with
    | nil => rfl
    | cons x xs =>
      simp only
      rw [anchorAll_shift]
      intro y hy
      exact hfoot y (by rw [hm]; simp [hy])
  | fwd =>
    have hadj : Adj (fun x y : Leg => y.isRide = false → y.dep = x.arr) (L.map (OLeg.plain .fwd)).reverse := by
      rw [adj_reverse, adj_map]
      refine adj_mono ?_ h.adj
      rintro x y ⟨-, h2⟩ hr
      rw [plain_isRide] at hr
      exact (h2 hr).symm
    unfold hostLegs present
    simp only
    cases hm : (L.map (OLeg.plain .fwd)).reverse with
    | nil => rfl
    | cons x xs =>
      simp only
      rw [anchorAll_id]
      · intro y hy
        exact hfoot y (by rw [← List.mem_reverse, hm]; simp [hy])
      · rw [← hm]; exact hadj

end Nigiri.Gpu
