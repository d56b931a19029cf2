import Verif.Model.TbPreprocess
import Verif.Proofs.RaptorScan
/-!
# Trip-based preprocessing: what the transfers satisfy
-/

namespace Nigiri.TB
open Raptor (Loc StopData)

/-! ## Bits -/

/-- All days of `a` are days of `b`. -/
def Sub (a b : Bits) : Prop := ∀ d, a.testBit d = true → b.testBit d = true

theorem Sub.refl (a : Bits) : Sub a a := fun _ h => h
theorem Sub.trans {a b c : Bits} (h : Sub a b) (h' : Sub b c) : Sub a c := fun d x => h' d (h d x)
theorem Sub.zero (a : Bits) : Sub 0 a := by intro d h; simp at h
theorem Sub.andNot {a b : Bits} : Sub (andNot a b) a := by
  intro d h
  simp only [TB.andNot, Nat.testBit_and, Bool.and_eq_true] at h
  exact h.1
theorem Sub.and_left {a b : Bits} : Sub (a &&& b) a := by
  intro d h; simp only [Nat.testBit_and, Bool.and_eq_true] at h; exact h.1
theorem Sub.and_right {a b : Bits} : Sub (a &&& b) b := by
  intro d h; simp only [Nat.testBit_and, Bool.and_eq_true] at h; exact h.2
theorem Sub.or {a b c : Bits} (h : Sub a c) (h' : Sub b c) : Sub (a ||| b) c := by
  intro d hd; simp only [Nat.testBit_or, Bool.or_eq_true] at hd
  exact hd.elim (h d) (h' d)

/-- Shifting days: day `d` of the shifted field is day `d - total` of the original. -/
theorem shiftDays_testBit {b : Bits} {total : Int} {d : Nat} (h : (shiftDays b total).testBit d = true) :
    ∃ d' : Nat, (d' : Int) = (d : Int) - total ∧ b.testBit d' = true := by
  unfold shiftDays at h
  by_cases ht : total < 0
  · rw [if_pos ht] at h
    simp only [shr, Nat.testBit_shiftRight] at h
    exact ⟨_, by omega, h⟩
  · rw [if_neg ht] at h
    simp only [shl, Nat.testBit_mod_two_pow, Nat.testBit_shiftLeft, Bool.and_eq_true, decide_eq_true_eq] at h
    exact ⟨_, by omega, h.2.2⟩

/-! ## Reduction -/

theorem rrScan_sub (time : Nat) : ∀ (es : List Rr) (i : Nat) (bf : Bits) (same over : Option Nat) (pre : List Rr),
    Sub (rrScan time i bf same over pre es).bf bf
  | [], i, bf, same, over, pre => Sub.refl _
  | e :: es, i, bf, same, over, pre => by
    unfold rrScan
    by_cases h : bf = 0
    · rw [if_pos h]; exact Sub.refl _
    · rw [if_neg h]
      by_cases h2 : time < e.time
      · rw [if_pos h2]; exact rrScan_sub time es _ _ _ _ _
      · rw [if_neg h2]; exact (rrScan_sub time es _ _ _ _ _).trans Sub.andNot

theorem rrUpdate_sub (es : List Rr) (time : Nat) (bf : Bits) : Sub (rrUpdate es time bf).2 bf := by
  unfold rrUpdate
  have h := rrScan_sub time es 0 bf none none []
  simp only
  by_cases hc : ((rrScan time 0 bf none none [] es).ret || decide ((rrScan time 0 bf none none [] es).bf = 0)) = true
  · rw [if_pos hc]; exact Sub.zero _
  · rw [if_neg hc]
    split <;> exact h

theorem updArr_impr {S : RedSt} {l : Loc} {time : Nat} {bf b : Bits} (h : Sub S.impr b) (hb : Sub bf b) :
    Sub (S.updArr l time bf).impr b := h.or ((rrUpdate_sub _ _ _).trans hb)

theorem updCh_impr {S : RedSt} {l : Loc} {time : Nat} {bf b : Bits} (h : Sub S.impr b) (hb : Sub bf b) :
    Sub (S.updCh l time bf).impr b := h.or ((rrUpdate_sub _ _ _).trans hb)

theorem reachStop_impr (tt : TT) (fps : Loc → List (Loc × Nat)) (l : Loc) (time : Nat) (bf b : Bits) (S : RedSt)
    (h : Sub S.impr b) (hb : Sub bf b) : Sub (reachStop tt fps l time bf S).impr b := by
  unfold reachStop
  refine Raptor.foldl_inv (fun S : RedSt => Sub S.impr b) _ _ _ ?_ ?_
  · exact updCh_impr (updArr_impr h hb) hb
  · intro S fp _ hS
    exact updCh_impr (updArr_impr hS hb) hb

theorem reduceOne_impr (tt : TT) (x : Xfer) (S : RedSt) : Sub (reduceOne tt x S).impr x.bf := by
  unfold reduceOne
  refine Raptor.foldl_inv (fun S : RedSt => Sub S.impr x.bf) _ _ _ (Sub.zero _) ?_
  intro S s _ hS
  exact reachStop_impr _ _ _ _ _ _ _ hS (Sub.refl _)

/-- `y` is `x` on fewer days. -/
def Restr (y x : Xfer) : Prop := ∃ bf, y = { x with bf := bf } ∧ Sub bf x.bf

theorem Restr.refl (x : Xfer) : Restr x x := ⟨x.bf, rfl, Sub.refl _⟩
theorem Restr.trans {x y z : Xfer} (h : Restr x y) (h' : Restr y z) : Restr x z := by
  obtain ⟨b, rfl, hb⟩ := h
  obtain ⟨b', rfl, hb'⟩ := h'
  exact ⟨b, rfl, hb.trans hb'⟩

theorem reduceList_restr (tt : TT) : ∀ (xs : List Xfer) (S : RedSt) (y : Xfer), y ∈ (reduceList tt xs S).1 → ∃ x ∈ xs, Restr y x
  | [], S, y, h => by simp [reduceList] at h
  | x :: xs, S, y, h => by
    have hrec := reduceList_restr tt xs (reduceOne tt x S) y
    unfold reduceList at h
    by_cases hc : (reduceOne tt x S).impr = 0
    · simp only [hc, if_true] at h
      obtain ⟨z, hz, hr⟩ := hrec h
      exact ⟨z, List.mem_cons_of_mem _ hz, hr⟩
    · simp only [hc, if_false, List.mem_cons] at h
      rcases h with rfl | h
      · exact ⟨x, by simp, _, rfl, reduceOne_impr tt x S⟩
      · obtain ⟨z, hz, hr⟩ := hrec h
        exact ⟨z, List.mem_cons_of_mem _ hz, hr⟩

theorem preprocessTransport_restr (tt : TT) (prf : Nat) (rt : Route) (t : Nat) (nbs : List Nb) (seg : Nat) (y : Xfer)
    (h : y ∈ preprocessTransport tt prf rt t nbs seg) : ∃ x ∈ lineBased tt rt t nbs seg, Restr y x := by
  have key : ∀ (is : List Nat) (acc : (Nat → List Xfer) × RedSt),
      (∀ seg, ∀ y ∈ acc.1 seg, ∃ x ∈ lineBased tt rt t nbs seg, Restr y x) →
      ∀ seg, ∀ y ∈ (is.foldl (reduceStop tt prf rt t) acc).1 seg, ∃ x ∈ lineBased tt rt t nbs seg, Restr y x := by
    intro is acc h0
    refine Raptor.foldl_inv (fun acc : (Nat → List Xfer) × RedSt =>
      ∀ seg, ∀ y ∈ acc.1 seg, ∃ x ∈ lineBased tt rt t nbs seg, Restr y x) _ _ _ h0 ?_
    intro acc i _ hacc seg y hy
    unfold reduceStop at hy
    simp only at hy
    by_cases hout : (rt.stop i).outAllowed = false
    · rw [if_pos hout] at hy
      exact hacc seg y hy
    · rw [if_neg hout] at hy
      simp only [Raptor.upd] at hy
      by_cases hs : seg = i - 1
      · rw [if_pos hs] at hy
        obtain ⟨x, hx, hr⟩ := reduceList_restr _ _ _ _ hy
        obtain ⟨z, hz, hr'⟩ := hacc (i - 1) x hx
        exact ⟨z, by rw [hs]; exact hz, hr.trans hr'⟩
      · rw [if_neg hs] at hy
        exact hacc seg y hy
  exact key _ _ (fun seg y hy => ⟨y, hy, Restr.refl y⟩) seg y h

/-! ## Line-based pruning -/

theorem rlbUpdate_sub (shift : Int) (start : Nat) : ∀ (es : List Rlb) (bf : Bits), Sub (rlbUpdate shift start es bf).2 bf
  | [], bf => Sub.refl _
  | e :: es, bf => by
    unfold rlbUpdate
    by_cases h : bf = 0
    · rw [if_pos h]; exact Sub.refl _
    · rw [if_neg h]
      by_cases h1 : e.bf = 0
      · rw [if_pos h1]; exact rlbUpdate_sub shift start es bf
      · rw [if_neg h1]
        by_cases h2 : keyLt shift start e.shift e.start = true
        · rw [if_pos h2]; exact rlbUpdate_sub shift start es bf
        · rw [if_neg h2]; exact (rlbUpdate_sub shift start es _).trans Sub.andNot

theorem found_out (ru : Route) (rTo stopTo u : Nat) (common : Bits) (dayOff : Int) (S : LoopSt) (x : Xfer)
    (h : x ∈ (found ru rTo stopTo u common dayOff S).out) :
    x ∈ S.out ∨ ∃ bf, x = ⟨bf, rTo, u, stopTo, dayOff⟩ ∧ Sub bf common := by
  unfold found at h
  simp only at h
  split at h
  · exact Or.inl h
  · simp only [List.mem_append, List.mem_singleton] at h
    rcases h with h | h
    · exact Or.inl h
    · exact Or.inr ⟨_, h, rlbUpdate_sub _ _ _ _⟩

/-- What holds of a transfer found for an alighting at `arr` (minutes) on the days `days` with a walk that is over at
`fpArr` (minutes after the midnight before the arrival). -/
structure GoodDep (ru : Route) (rTo stopTo arr fpArr : Nat) (days : Bits) (x : Xfer) : Prop where
  route : x.route = rTo
  stop : x.stopTo = stopTo
  tr : x.tr < ru.nTr
  sub : Sub x.bf days
  active : ∀ d, x.bf.testBit d = true → ∃ d' : Nat, (d' : Int) = (d : Int) + x.dayOff ∧ (ru.bits x.tr).testBit d' = true
  reach : (arr / 1440 : Nat) * 1440 + (fpArr : Int) ≤ x.dayOff * 1440 + (ru.dep x.tr stopTo : Nat)
  wait : x.dayOff * 1440 + (ru.dep x.tr stopTo : Nat) ≤ (arr : Int) + 1440

/-- A transport found in the loop. -/
theorem newDep_good (ru : Route) (rTo stopTo arr fpArr : Nat) (days : Bits) (idx day : Nat) (rem bf : Bits)
    (hidx : idx < ru.nTr) (hf : fpArr ≤ day * 1440 + ru.dep idx stopTo % 1440) (hr : Sub rem days)
    (hw : ¬ day * 1440 + ru.dep idx stopTo % 1440 > arr % 1440 + 1440)
    (hb : Sub bf (rem &&& shiftDays (ru.bits idx)
      (((ru.dep idx stopTo / 1440 : Nat) : Int) - ((arr / 1440 : Nat) : Int) - (day : Int)))) :
    GoodDep ru rTo stopTo arr fpArr days
      ⟨bf, rTo, idx, stopTo, -(((ru.dep idx stopTo / 1440 : Nat) : Int) - ((arr / 1440 : Nat) : Int) - (day : Int))⟩ where
  route := rfl
  stop := rfl
  tr := hidx
  sub := hb.trans (Sub.and_left.trans hr)
  active := by
    intro d hd'
    obtain ⟨d', e, hd''⟩ := shiftDays_testBit (Sub.and_right d (hb d hd'))
    exact ⟨d', by simp only; omega, hd''⟩
  reach := by simp only; omega
  wait := by simp only; omega

theorem nextDay_le (f day m : Nat) (h : f / 1440 ≤ day) : f ≤ (day + 1) * 1440 + m := by omega

theorem depLoop_good (ru : Route) (rTo stopTo arr fpArr : Nat) (days : Bits)
    (hs : ∀ u, u + 1 < ru.nTr → ru.dep u stopTo % 1440 ≤ ru.dep (u + 1) stopTo % 1440)
    (idx day : Nat) (rem : Bits) (S : LoopSt)
    (hd : fpArr / 1440 ≤ day) (hf : fpArr ≤ day * 1440 + ru.dep idx stopTo % 1440) (hr : Sub rem days)
    (hS : ∀ x ∈ S.out, GoodDep ru rTo stopTo arr fpArr days x) :
    ∀ x ∈ (depLoop ru rTo stopTo arr idx day rem S).out, GoodDep ru rTo stopTo arr fpArr days x := by
  fun_induction depLoop ru rTo stopTo arr idx day rem S with
  | case1 => exact hS
  | case2 => exact hS
  | case3 => exact hS
  | case4 idx day rem S h0 h1 ev h2 total common rem' S' hlast ih =>
    refine ih (Nat.le_succ_of_le hd) (nextDay_le fpArr day _ hd) ?_ ?_
    · show Sub (if common = 0 then rem else andNot rem common) days
      split
      · exact hr
      · exact Sub.andNot.trans hr
    · intro x hx
      have hx' : x ∈ (if common = 0 then S else found ru rTo stopTo idx common (-total) S).out := hx
      by_cases hc : common = 0
      · rw [if_pos hc] at hx'; exact hS x hx'
      · rw [if_neg hc] at hx'
        rcases found_out _ _ _ _ _ _ _ _ hx' with h | ⟨bf, rfl, hb⟩
        · exact hS x h
        · exact newDep_good ru rTo stopTo arr fpArr days idx day rem bf (by omega) hf hr (by omega) hb
  | case5 idx day rem S h0 h1 ev h2 total common rem' S' hlast ih =>
    have hstep := hs idx (by omega)
    refine ih hd (by omega) ?_ ?_
    · show Sub (if common = 0 then rem else andNot rem common) days
      split
      · exact hr
      · exact Sub.andNot.trans hr
    · intro x hx
      have hx' : x ∈ (if common = 0 then S else found ru rTo stopTo idx common (-total) S).out := hx
      by_cases hc : common = 0
      · rw [if_pos hc] at hx'; exact hS x hx'
      · rw [if_neg hc] at hx'
        rcases found_out _ _ _ _ _ _ _ _ hx' with h | ⟨bf, rfl, hb⟩
        · exact hS x h
        · exact newDep_good ru rTo stopTo arr fpArr days idx day rem bf (by omega) hf hr (by omega) hb

theorem firstDep_good (ru : Route) (stopTo fpArr : Nat) :
    fpArr / 1440 ≤ (firstDep ru stopTo fpArr).2 ∧
    fpArr ≤ (firstDep ru stopTo fpArr).2 * 1440 + ru.dep (firstDep ru stopTo fpArr).1 stopTo % 1440 := by
  unfold firstDep
  cases h : (List.range ru.nTr).find? (fun u => decide (fpArr % 1440 ≤ ru.dep u stopTo % 1440)) with
  | none => simp only; omega
  | some u =>
    have := List.find?_some h
    simp only [decide_eq_true_eq] at this
    simp only
    omega

theorem handleNb_good (tt : TT) (rt : Route) (t : Nat) (nb : Nb) (R : Reached)
    (hs : ∀ u, u + 1 < (tt.route nb.routeTo).nTr →
      (tt.route nb.routeTo).dep u nb.stopTo % 1440 ≤ (tt.route nb.routeTo).dep (u + 1) nb.stopTo % 1440) :
    ∀ x ∈ (handleNb tt rt t nb ⟨R, []⟩).out,
      GoodDep (tt.route nb.routeTo) nb.routeTo nb.stopTo (rt.arr t nb.stopFrom)
        ((rt.arr t nb.stopFrom % 1440 + nb.len) % 65536) (rt.bits t) x := by
  unfold handleNb
  have h := firstDep_good (tt.route nb.routeTo) nb.stopTo ((rt.arr t nb.stopFrom % 1440 + nb.len) % 65536)
  exact depLoop_good _ _ _ _ _ _ hs _ _ _ _ h.1 h.2 (Sub.refl _) (by simp)

theorem lineBased_good (tt : TT) (rt : Route) (t : Nat) (nbs : List Nb)
    (hs : ∀ nb ∈ nbs, ∀ u, u + 1 < (tt.route nb.routeTo).nTr →
      (tt.route nb.routeTo).dep u nb.stopTo % 1440 ≤ (tt.route nb.routeTo).dep (u + 1) nb.stopTo % 1440)
    (seg : Nat) (x : Xfer) (hx : x ∈ lineBased tt rt t nbs seg) :
    ∃ nb ∈ nbs, nb.stopFrom - 1 = seg ∧
      GoodDep (tt.route nb.routeTo) nb.routeTo nb.stopTo (rt.arr t nb.stopFrom)
        ((rt.arr t nb.stopFrom % 1440 + nb.len) % 65536) (rt.bits t) x := by
  cases nbs with
  | nil => simp [lineBased] at hx
  | cons nb0 nbs' =>
    unfold lineBased at hx
    simp only at hx
    refine Raptor.foldl_inv (fun S : LineSt => ∀ seg, ∀ x ∈ S.segs seg, ∃ nb ∈ nb0 :: nbs', nb.stopFrom - 1 = seg ∧
      GoodDep (tt.route nb.routeTo) nb.routeTo nb.stopTo (rt.arr t nb.stopFrom)
        ((rt.arr t nb.stopFrom % 1440 + nb.len) % 65536) (rt.bits t) x) _ _ _ ?_ ?_ seg x hx
    · intro seg x hx
      simp at hx
    · intro S nb hnb hS seg x hx
      unfold lineStep at hx
      simp only [Raptor.upd] at hx
      by_cases he : seg = nb.stopFrom - 1
      · rw [if_pos he, List.mem_append] at hx
        rcases hx with hx | hx
        · obtain ⟨nb', h1, h2, h3⟩ := hS _ x hx
          exact ⟨nb', h1, by omega, h3⟩
        · exact ⟨nb, hnb, he.symm, handleNb_good tt rt t nb _ (hs nb hnb) x hx⟩
      · rw [if_neg he] at hx
        exact hS seg x hx

/-! ## Neighbourhood -/

theorem mem_insertNb (x y : Nb) : ∀ l : List Nb, y ∈ insertNb x l ↔ y = x ∨ y ∈ l
  | [] => by simp [insertNb]
  | z :: zs => by
    unfold insertNb
    split
    · rw [List.mem_cons, mem_insertNb x y zs, List.mem_cons]
      constructor
      · rintro (h | h | h)
        · exact Or.inr (Or.inl h)
        · exact Or.inl h
        · exact Or.inr (Or.inr h)
      · rintro (h | h | h)
        · exact Or.inr (Or.inl h)
        · exact Or.inl h
        · exact Or.inr (Or.inr h)
    · simp [List.mem_cons]

theorem mem_sortNb (y : Nb) (l : List Nb) : y ∈ sortNb l ↔ y ∈ l := by
  unfold sortNb
  induction l with
  | nil => simp
  | cons x xs ih => rw [List.foldr_cons, mem_insertNb, ih, List.mem_cons]

/-- What holds of a neighbour. -/
structure GoodNb (tt : TT) (prf rFrom : Nat) (nb : Nb) : Prop where
  pos : 0 < nb.stopFrom
  lt : nb.stopFrom < (tt.route rFrom).stops.length
  out : ((tt.route rFrom).stop nb.stopFrom).outAllowed = true
  toLt : nb.stopTo + 1 < (tt.route nb.routeTo).stops.length
  inn : ((tt.route nb.routeTo).stop nb.stopTo).inAllowed = true
  walk : (((tt.route nb.routeTo).stop nb.stopTo).loc = ((tt.route rFrom).stop nb.stopFrom).loc ∧
      nb.len = tt.transfer ((tt.route rFrom).stop nb.stopFrom).loc) ∨
    (((tt.route nb.routeTo).stop nb.stopTo).loc, nb.len) ∈ tt.fpsOut prf ((tt.route rFrom).stop nb.stopFrom).loc

theorem addNonUturn_good (tt : TT) (rFrom i : Nat) (fp : Loc × Nat) (nb : Nb) (h : nb ∈ addNonUturn tt rFrom i fp) :
    nb.stopFrom = i ∧ nb.stopTo + 1 < (tt.route nb.routeTo).stops.length ∧
    ((tt.route nb.routeTo).stop nb.stopTo).inAllowed = true ∧ ((tt.route nb.routeTo).stop nb.stopTo).loc = fp.1 ∧ nb.len = fp.2 := by
  unfold addNonUturn nbOfRoute at h
  simp only [List.mem_flatMap, List.mem_filterMap, List.mem_range] at h
  obtain ⟨r, _, j, hj, h⟩ := h
  split at h
  · simp at h
  · rename_i hc
    split at h
    · simp at h
    · injection h with h
      subst h
      have hc1 : ((tt.route r).stop j).loc = fp.1 := Decidable.byContradiction fun h => hc (Or.inl h)
      have hc2 : ((tt.route r).stop j).inAllowed = true := by
        cases h : ((tt.route r).stop j).inAllowed with
        | true => rfl
        | false => exact absurd (Or.inr h) hc
      exact ⟨rfl, by simp only; omega, hc2, hc1, rfl⟩

theorem neighborhood_good (tt : TT) (prf rFrom : Nat) (nb : Nb) (h : nb ∈ neighborhood tt prf rFrom) :
    GoodNb tt prf rFrom nb := by
  unfold neighborhood at h
  rw [mem_sortNb] at h
  simp only [List.mem_flatMap, List.mem_reverse, List.mem_range] at h
  obtain ⟨i, hi, h⟩ := h
  unfold nbAt at h
  simp only at h
  split at h
  · simp at h
  · rename_i hout
    rw [List.mem_append, List.mem_flatMap] at h
    rcases h with h | ⟨fp, hfp, h⟩
    · obtain ⟨h1, h2, h3, h4, h5⟩ := addNonUturn_good tt rFrom (i + 1) _ nb h
      exact ⟨by omega, by omega, by rw [h1]; simpa using hout, h2, h3, Or.inl ⟨by rw [h1]; exact h4, by rw [h1]; exact h5⟩⟩
    · obtain ⟨h1, h2, h3, h4, h5⟩ := addNonUturn_good tt rFrom (i + 1) _ nb h
      refine ⟨by omega, by omega, by rw [h1]; simpa using hout, h2, h3, Or.inr ?_⟩
      rw [h4, h5, h1]
      exact hfp

end Nigiri.TB

/-! ## Flat data -/

namespace Nigiri.TB

theorem flatten_get {α : Type} : ∀ (L : List (List α)) (r o : Nat) (l : List α) (a : α), L[r]? = some l → l[o]? = some a →
    L.flatten[((L.take r).map List.length).sum + o]? = some a
  | [], r, o, l, a, h, _ => by simp at h
  | l0 :: L, 0, o, l, a, h, ho => by
    simp only [List.getElem?_cons_zero, Option.some.injEq] at h
    subst h
    have hlt : o < l0.length := (List.getElem?_eq_some_iff.mp ho).1
    simp only [List.take_zero, List.map_nil, List.sum_nil, Nat.zero_add, List.flatten_cons]
    rw [List.getElem?_append_left hlt]
    exact ho
  | l0 :: L, r + 1, o, l, a, h, ho => by
    simp only [List.getElem?_cons_succ] at h
    have ih := flatten_get L r o l a h ho
    simp only [List.take_succ_cons, List.map_cons, List.sum_cons, List.flatten_cons]
    rw [List.getElem?_append_right (by omega)]
    rw [show l0.length + ((L.take r).map List.length).sum + o - l0.length = ((L.take r).map List.length).sum + o by omega]
    exact ih

theorem mapM_get {α β : Type} (f : α → Option β) : ∀ (l : List α) (l' : List β), l.mapM f = some l' →
    ∀ (i : Nat) (a : α), l[i]? = some a → ∃ b, f a = some b ∧ l'[i]? = some b
  | [], l', h, i, a, hi => by simp at hi
  | x :: xs, l', h, i, a, hi => by
    rw [List.mapM_cons] at h
    cases hx : f x with
    | none => rw [hx] at h; simp at h
    | some y =>
      rw [hx] at h
      cases hxs : xs.mapM f with
      | none => rw [hxs] at h; simp at h
      | some ys =>
        rw [hxs] at h
        simp at h
        subst h
        cases i with
        | zero =>
          simp only [List.getElem?_cons_zero, Option.some.injEq] at hi
          subst hi
          exact ⟨y, hx, by simp⟩
        | succ i =>
          simp only [List.getElem?_cons_succ] at hi
          obtain ⟨b, h1, h2⟩ := mapM_get f xs ys hxs i a hi
          exact ⟨b, h1, by simpa using h2⟩

theorem mapM_mem {α β : Type} (f : α → Option β) : ∀ (l : List α) (l' : List β), l.mapM f = some l' →
    ∀ b ∈ l', ∃ a ∈ l, f a = some b
  | [], l', h, b, hb => by
    simp at h; subst h; simp at hb
  | x :: xs, l', h, b, hb => by
    rw [List.mapM_cons] at h
    cases hx : f x with
    | none => rw [hx] at h; simp at h
    | some y =>
      rw [hx] at h
      cases hxs : xs.mapM f with
      | none => rw [hxs] at h; simp at h
      | some ys =>
        rw [hxs] at h
        simp at h
        subst h
        simp only [List.mem_cons] at hb
        rcases hb with rfl | hb
        · exact ⟨x, by simp, hx⟩
        · obtain ⟨a, ha, h2⟩ := mapM_mem f xs ys hxs b hb
          exact ⟨a, by simp [ha], h2⟩

theorem trList_get (tt : TT) (r o : Nat) (hr : r < tt.routes.length) (ho : o < (tt.route r).nTr) :
    (trList tt)[trFrom tt r + o]? = some (r, o) := by
  have h := flatten_get ((List.range tt.routes.length).map fun r => (List.range (tt.route r).nTr).map fun o => (r, o)) r o
    ((List.range (tt.route r).nTr).map fun o => (r, o)) (r, o)
    (by simp [hr]) (by simp [ho])
  have e : (((List.range tt.routes.length).map fun r => (List.range (tt.route r).nTr).map fun o => (r, o)).take r).map
      List.length = (List.range r).map fun r => (tt.route r).nTr := by
    rw [← List.map_take, List.take_range, Nat.min_eq_left (Nat.le_of_lt hr), List.map_map]
    apply List.map_congr_left
    intro x _
    simp
  rw [e] at h
  exact h

theorem segTr_get (tt : TT) (t : Nat) (x : Nat × Nat) (i : Nat) (ht : (trList tt)[t]? = some x) (hi : i < nSeg tt x) :
    (((trList tt).zipIdx.map fun x => List.replicate (nSeg tt x.1) x.2).flatten)[firstSeg tt t + i]? = some t := by
  have h := flatten_get ((trList tt).zipIdx.map fun x => List.replicate (nSeg tt x.1) x.2) t i
    (List.replicate (nSeg tt x) t) t
    (by simp [ht]) (by simp [hi])
  have e : (((trList tt).zipIdx.map fun x => List.replicate (nSeg tt x.1) x.2).take t).map List.length =
      ((trList tt).take t).map (nSeg tt) := by
    rw [← List.map_take, List.map_map]
    have : (fun x : (Nat × Nat) × Nat => (List.replicate (nSeg tt x.1) x.2).length) = fun x => nSeg tt x.1 := by
      funext x; simp
    rw [show (List.length ∘ fun x : (Nat × Nat) × Nat => List.replicate (nSeg tt x.1) x.2) =
      (nSeg tt) ∘ Prod.fst from funext fun x => by simp]
    rw [← List.map_map, List.map_take, List.zipIdx_map_fst]
  rw [e] at h
  exact h

theorem flatX_get (tt : TT) (prf t : Nat) (x : Nat × Nat) (i : Nat) (ht : (trList tt)[t]? = some x) (hi : i < nSeg tt x) :
    ((trList tt).flatMap fun x => (List.range (nSeg tt x)).map fun seg => preprocessRoute tt prf x.1 x.2 seg)[firstSeg tt t + i]? =
      some (preprocessRoute tt prf x.1 x.2 i) := by
  rw [List.flatMap_def]
  have h := flatten_get ((trList tt).map fun x => (List.range (nSeg tt x)).map fun seg => preprocessRoute tt prf x.1 x.2 seg) t i
    ((List.range (nSeg tt x)).map fun seg => preprocessRoute tt prf x.1 x.2 seg) (preprocessRoute tt prf x.1 x.2 i)
    (by simp [ht]) (by simp [hi])
  have e : (((trList tt).map fun x => (List.range (nSeg tt x)).map fun seg => preprocessRoute tt prf x.1 x.2 seg).take t).map
      List.length = ((trList tt).take t).map (nSeg tt) := by
    rw [← List.map_take, List.map_map]
    apply List.map_congr_left
    intro y _
    simp
  rw [e] at h
  exact h

/-- What `preprocess` returns. -/
theorem preprocess_data {tt : TT} {prf : Nat} {tbd : TbData} (h : preprocess tt prf = some tbd) :
    tbd.prf = prf ∧
    (∀ r o, r < tt.routes.length → o < (tt.route r).nTr → tbd.firstSeg.getD (trFrom tt r + o) 0 = firstSeg tt (trFrom tt r + o)) ∧
    (∀ t x i, (trList tt)[t]? = some x → i < nSeg tt x → tbd.segTr.getD (firstSeg tt t + i) 0 = t) ∧
    (∀ t x i, (trList tt)[t]? = some x → i < nSeg tt x → ∀ y ∈ tbd.segTransfers.getD (firstSeg tt t + i) [],
      ∃ z ∈ preprocessRoute tt prf x.1 x.2 i, toTransfer tt z = some y) := by
  unfold preprocess at h
  cases hm : (((trList tt).flatMap fun x => (List.range (nSeg tt x)).map fun seg => preprocessRoute tt prf x.1 x.2 seg).mapM
    fun (xs : List Xfer) => xs.mapM (toTransfer tt)) with
  | none => rw [hm] at h; simp at h
  | some segs =>
    rw [hm] at h
    simp only [Option.map_some, Option.some.injEq] at h
    subst h
    refine ⟨rfl, ?_, ?_, ?_⟩
    · intro r o hr ho
      have hlt : trFrom tt r + o < (trList tt).length :=
        (List.getElem?_eq_some_iff.mp (trList_get tt r o hr ho)).1
      simp only
      rw [List.getD_eq_getElem?_getD, List.getElem?_map, List.getElem?_range (by omega)]
      rfl
    · intro t x i ht hi
      simp only
      rw [List.getD_eq_getElem?_getD, segTr_get tt t x i ht hi]
      rfl
    · intro t x i ht hi y hy
      simp only at hy
      obtain ⟨b, hb, hs⟩ := mapM_get _ _ _ hm _ _ (flatX_get tt prf t x i ht hi)
      rw [List.getD_eq_getElem?_getD, hs] at hy
      exact mapM_mem _ _ _ hb y hy

end Nigiri.TB
