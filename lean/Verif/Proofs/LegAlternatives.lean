import Verif.Model.LegAlternatives
import Verif.Proofs.DirectOrder
import Verif.Proofs.OptimizeFootpaths
/-! # Lemmas about alternatives for a leg -/

namespace Nigiri.Direct
open Nigiri.Raptor Nigiri.Lb Nigiri.StartTimes

/-! ## The optimisation does not make a journey longer -/

structure Within (L L' : List Leg) : Prop where
  dep : depOf L ≤ depOf L'
  arr : arrOf L' ≤ arrOf L

theorem Within.refl (L : List Leg) : Within L L := ⟨Int.le_refl _, Int.le_refl _⟩
theorem Within.trans {L L' L'' : List Leg} (h : Within L L') (h' : Within L' L'') : Within L L'' :=
  ⟨Int.le_trans h.dep h'.dep, Int.le_trans h'.arr h.arr⟩

theorem arrOf_append (L : List Leg) (x : Leg) : arrOf (L ++ [x]) = x.arr := by
  unfold arrOf; rw [List.getLast?_append]; rfl

theorem arrOf_cons (x y : Leg) (L : List Leg) : arrOf (x :: y :: L) = arrOf (y :: L) := by
  unfold arrOf; rw [List.getLast?_cons_cons]

theorem depOf_rev (L : List Leg) : depOf L.reverse = (L.getLast?.map (·.dep)).getD 0 := by
  unfold depOf; rw [List.head?_reverse]

theorem arrOf_rev (L : List Leg) : arrOf L.reverse = (L.head?.map (·.arr)).getD 0 := by
  unfold arrOf; rw [List.getLast?_reverse]

theorem front_within {a b walk ride : Leg} {rest : List Leg} (h1 : a.dep ≤ walk.dep) (h2 : ride.arr = b.arr) :
    Within (a :: b :: rest) (walk :: ride :: rest) := by
  refine ⟨h1, ?_⟩
  rw [arrOf_cons, arrOf_cons]
  cases rest with
  | nil => exact Int.le_of_eq h2
  | cons c rest => rw [arrOf_cons, arrOf_cons]; exact Int.le_refl _

theorem back_within {a b walk ride : Leg} {rest : List Leg} (h1 : walk.arr ≤ a.arr) (h2 : ride.dep = b.dep) :
    Within (a :: b :: rest).reverse (walk :: ride :: rest).reverse := by
  refine ⟨?_, ?_⟩
  · rw [depOf_rev, depOf_rev, List.getLast?_cons_cons, List.getLast?_cons_cons]
    cases rest with
    | nil => exact Int.le_of_eq h2.symm
    | cons c rest => rw [List.getLast?_cons_cons, List.getLast?_cons_cons]; exact Int.le_refl _
  · rw [arrOf_rev, arrOf_rev]; exact h1

theorem optBoard_times {N : Net} {v : Vehicle} {j : Nat} {mk : Int → Uses} {s : Nat} {sd : StopData} {w : Int} {a b : Leg} {st : EndState}
    (h : a.dep ≤ st.walk.dep ∧ st.ride.arr = b.arr) : a.dep ≤ (optBoard N v j mk s sd w st).walk.dep ∧ (optBoard N v j mk s sd w st).ride.arr = b.arr := by
  unfold optBoard
  split
  · next hc => exact ⟨Int.le_trans h.1 hc.2, h.2⟩
  · exact h

theorem optAlight_times {N : Net} {v : Vehicle} {j : Nat} {mk : Int → Uses} {s : Nat} {sd : StopData} {w : Int} {a b : Leg} {st : EndState}
    (h : st.walk.arr ≤ a.arr ∧ st.ride.dep = b.dep) : (optAlight N v j mk s sd w st).walk.arr ≤ a.arr ∧ (optAlight N v j mk s sd w st).ride.dep = b.dep := by
  unfold optAlight
  split
  · next hc => exact ⟨Int.le_trans hc.2 h.1, h.2⟩
  · exact h

theorem initialDeparture_within (N : Net) (D : OptData) (L : List Leg) : Within L (initialDeparture N D L) := by
  unfold initialDeparture
  split
  · next a b rest =>
    split
    · next w v i j ha hb =>
      have := overStops_inv (fun st : EndState => a.dep ≤ st.walk.dep ∧ st.ride.arr = b.arr) (stops := N.vStops v) (idx := List.range j) (ok := (·.inAllowed))
        (f := fun s sd st => D.startOffs.foldl (fun st o => if o.1 = sd.loc then optBoard N v j .offset s sd o.2 st else st) st)
        (st := (⟨a, b, w⟩ : EndState)) ⟨Int.le_refl _, rfl⟩ (by
          intro s _ sd _ _ st hst
          refine Raptor.foldl_inv (fun st : EndState => a.dep ≤ st.walk.dep ∧ st.ride.arr = b.arr) _ _ _ hst ?_
          intro st o _ hst
          split
          · exact optBoard_times hst
          · exact hst)
      exact front_within this.1 this.2
    · exact Within.refl _
  · exact Within.refl _

theorem initialFootpath_within (N : Net) (D : OptData) (L : List Leg) : Within L (initialFootpath N D L) := by
  unfold initialFootpath
  split
  · next a b rest =>
    split
    · next w v i j ha hb =>
      split
      · exact Within.refl _
      · have := overStops_inv (fun st : EndState => a.dep ≤ st.walk.dep ∧ st.ride.arr = b.arr) (stops := N.vStops v) (idx := List.range j) (ok := (·.inAllowed))
          (f := fun s sd st => match (D.fpsOut a.fr).find? fun fp => fp.1 == sd.loc with
            | none => st
            | some fp => optBoard N v j .foot s sd (D.adj fp.2) st)
          (st := (⟨a, b, D.adj w⟩ : EndState)) ⟨Int.le_refl _, rfl⟩ (by
            intro s _ sd _ _ st hst
            split
            · exact hst
            · exact optBoard_times hst)
        exact front_within this.1 this.2
    · exact Within.refl _
  · exact Within.refl _

theorem lastArrival_within (N : Net) (D : OptData) (L : List Leg) : Within L (lastArrival N D L) := by
  have key : ∀ R : List Leg, Within R.reverse (lastArrivalRev N D R).reverse := by
    intro R
    unfold lastArrivalRev
    split
    · next a b rest =>
      split
      · next w v i j ha hb =>
        have := overStops_inv (fun st : EndState => st.walk.arr ≤ a.arr ∧ st.ride.dep = b.dep) (stops := N.vStops v) (idx := stopsAfter N v i) (ok := (·.outAllowed))
          (f := fun s sd st => D.destOffs.foldl (fun st o => if o.1 = sd.loc then optAlight N v i .offset s sd o.2 st else st) st)
          (st := (⟨a, b, w⟩ : EndState)) ⟨Int.le_refl _, rfl⟩ (by
            intro s _ sd _ _ st hst
            refine Raptor.foldl_inv (fun st : EndState => st.walk.arr ≤ a.arr ∧ st.ride.dep = b.dep) _ _ _ hst ?_
            intro st o _ hst
            split
            · exact optAlight_times hst
            · exact hst)
        exact back_within this.1 this.2
      · exact Within.refl _
    · exact Within.refl _
  have := key L.reverse
  rwa [List.reverse_reverse] at this

theorem finalEgress_within (N : Net) (D : OptData) (L : List Leg) : Within L (finalEgress N D L) := by
  have key : ∀ R : List Leg, Within R.reverse (finalEgressRev N D R).reverse := by
    intro R
    unfold finalEgressRev
    split
    · next a b rest =>
      split
      · next w v i j ha hb =>
        split
        · exact Within.refl _
        · have := overStops_inv (fun st : EndState => st.walk.arr ≤ a.arr ∧ st.ride.dep = b.dep) (stops := N.vStops v) (idx := stopsAfter N v i) (ok := (·.outAllowed))
            (f := fun s sd st => match (D.fpsIn a.to).find? fun fp => fp.1 == sd.loc with
              | none => st
              | some fp => optAlight N v i .foot s sd (D.adj fp.2) st)
            (st := (⟨a, b, D.adj w⟩ : EndState)) ⟨Int.le_refl _, rfl⟩ (by
              intro s _ sd _ _ st hst
              split
              · exact hst
              · exact optAlight_times hst)
          exact back_within this.1 this.2
      · exact Within.refl _
    · exact Within.refl _
  have := key L.reverse
  rwa [List.reverse_reverse] at this

theorem optChange_times {N : Net} {D : OptData} {v v' : Vehicle} {i j' s s' : Nat} {sd sd' : StopData} {x z : Leg} {st : TransferState}
    (h : st.fr.dep = x.dep ∧ st.to.arr = z.arr) : (optChange N D v v' i j' s s' sd sd' st).fr.dep = x.dep ∧ (optChange N D v v' i j' s s' sd sd' st).to.arr = z.arr := by
  unfold optChange
  split
  · exact h
  · dsimp only
    split
    · exact h
    · exact h

theorem optTransfer_times (N : Net) (D : OptData) (x y z : Leg) : (optTransfer N D x y z).1.dep = x.dep ∧ (optTransfer N D x y z).2.2.arr = z.arr := by
  unfold optTransfer
  split
  · next v i j w v' i' j' h1 h2 h3 =>
    refine overStops_inv (fun st : TransferState => st.fr.dep = x.dep ∧ st.to.arr = z.arr) (st := (⟨x, y, z, (w, z.dep - y.arr, x.fr, z.to)⟩ : TransferState)) ⟨rfl, rfl⟩ ?_
    intro s _ sd _ _ st hst
    refine overStops_inv (fun st : TransferState => st.fr.dep = x.dep ∧ st.to.arr = z.arr) hst ?_
    intro s' _ sd' _ _ st hst
    exact optChange_times hst
  · exact ⟨rfl, rfl⟩

theorem optTransfers_times (N : Net) (D : OptData) (L : List Leg) : depOf (optTransfers N D L) = depOf L ∧ arrOf (optTransfers N D L) = arrOf L ∧
    (optTransfers N D L).length = L.length := by
  fun_induction optTransfers N D L with
  | case1 => exact ⟨rfl, rfl, rfl⟩
  | case2 => exact ⟨rfl, rfl, rfl⟩
  | case3 => exact ⟨rfl, rfl, rfl⟩
  | case4 x y z rest t ih =>
    have ht := optTransfer_times N D x y z
    obtain ⟨-, h2, h3⟩ := ih
    refine ⟨ht.1, ?_, by rw [List.length_cons, h3]; rfl⟩
    generalize hL : optTransfers N D (t.2.1 :: t.2.2 :: rest) = L' at h2 h3
    cases L' with
    | nil => cases h3
    | cons c L' =>
      rw [arrOf_cons, h2, arrOf_cons, arrOf_cons, arrOf_cons]
      cases rest with
      | nil => exact ht.2
      | cons c rest => rw [arrOf_cons, arrOf_cons]

theorem optimize_within (N : Net) (D : OptData) (L : List Leg) : Within L (optimizeFootpaths N D L) := by
  unfold optimizeFootpaths
  have h := optTransfers_times N D (finalEgress N D (lastArrival N D (initialFootpath N D (initialDeparture N D L))))
  have h2 := (((initialDeparture_within N D L).trans (initialFootpath_within N D _)).trans (lastArrival_within N D _)).trans (finalEgress_within N D _)
  exact ⟨by rw [h.1]; exact h2.dep, by rw [h.2.1]; exact h2.arr⟩

/-! ## An optimised direct connection is a direct connection -/

/-- The data of the optimisation belong to the query: its offsets, and its (static, adjusted) footpaths. -/
structure AltOk (q : Query) (D : OptData) : Prop where
  startOffs : D.startOffs = q.start.offs
  destOffs : D.destOffs = q.dest.offs
  fpsOut : ∀ l fp, fp ∈ D.fpsOut l → (fp.1, D.adj fp.2) ∈ q.fps .boarding l
  fpsIn : ∀ l fp, fp ∈ D.fpsIn l → (fp.1, D.adj fp.2) ∈ q.fps .alighting l
  plain : ∀ s, (q.side s).mode ≠ .intermodal → (q.side s).useFootpaths = true ∧ ∀ o ∈ (q.side s).offs, o.2 = 0 ∧ o.1 ∈ forEachMeta q.T (q.side s).mode o.1

theorem sideWalk_offset {q : Query} (hs : q.Static) {s : Side} (hm : (q.side s).mode = .intermodal) {o : Loc × Int} (ho : o ∈ (q.side s).offs) (t : Int) :
    SideWalk q s (q.boundary s) o.1 t o.2 := by
  unfold SideWalk
  rw [if_pos hm]
  refine ⟨rfl, Or.inr ⟨?_, ho⟩⟩
  rw [hs.offs s]
  intro es h; cases h

theorem sideWalk_place {q : Query} {s : Side} (hm : (q.side s).mode ≠ .intermodal) {p loc : Loc} {t w : Int} (h : SideWalk q s p loc t w) : ∃ o ∈ (q.side s).offs, o.1 = p := by
  unfold SideWalk at h
  rw [if_neg hm] at h
  obtain ⟨d, hd, -⟩ := h
  exact ⟨_, hd, rfl⟩

theorem sideWalk_footpath {q : Query} (hs : q.Static) {s : Side} (hm : (q.side s).mode ≠ .intermodal) (hu : (q.side s).useFootpaths = true) {o : Loc × Int} (ho : o ∈ (q.side s).offs)
    (h0 : o.2 = 0) (hmeta : o.1 ∈ forEachMeta q.T (q.side s).mode o.1) {loc : Loc} {w : Int} (hf : (loc, w) ∈ q.fps s o.1) (t : Int) : SideWalk q s o.1 loc t w := by
  unfold SideWalk
  rw [if_neg hm]
  refine ⟨o.2, ho, o.1, hmeta, Or.inr ⟨hu, w, ?_, by omega⟩⟩
  unfold FootWalk
  rw [hs.fps s o.1]
  exact hf

/-- What holds for the first walk and the ride. -/
def FrontOk (q : Query) (v : Vehicle) (j : Nat) (p : Loc) (r : Leg) (st : EndState) : Prop :=
  ∃ i w, st.ride.uses = .ride v i j ∧ RideLeg q.N v i j st.ride ∧ st.ride.to = r.to ∧ st.ride.arr = r.arr ∧
    SideWalk q .boarding p st.ride.fr st.ride.dep w ∧ st.walk = ⟨p, st.ride.fr, st.ride.dep - w, st.ride.dep, WalkUses q .boarding w⟩

theorem optBoard_ok {q : Query} {v : Vehicle} (hu : Unrestricted q.N v) {j s : Nat} (hsj : s < j) {sd : StopData} (hsd : (q.N.vStops v)[s]? = some sd) (hin : sd.inAllowed = true)
    {p : Loc} {r : Leg} {mk : Int → Uses} {w : Int} (hmk : mk w = WalkUses q .boarding w) (hw : SideWalk q .boarding p sd.loc (q.N.vDep v s) w) {st : EndState}
    (h : FrontOk q v j p r st) : FrontOk q v j p r (optBoard q.N v j mk s sd w st) := by
  unfold optBoard
  split
  · obtain ⟨i, w0, h1, h2, h3, h4, h5, h6⟩ := h
    refine ⟨s, w, rfl, rideLeg_board hu h2 hsj hsd hin rfl rfl rfl rfl, h3, h4, hw, ?_⟩
    rw [h6, hmk]
  · exact h

def BackOk (q : Query) (v : Vehicle) (i : Nat) (p : Loc) (r : Leg) (st : EndState) : Prop :=
  ∃ j w, st.ride.uses = .ride v i j ∧ RideLeg q.N v i j st.ride ∧ st.ride.fr = r.fr ∧ st.ride.dep = r.dep ∧
    SideWalk q .alighting p st.ride.to st.ride.arr w ∧ st.walk = ⟨st.ride.to, p, st.ride.arr, st.ride.arr + w, WalkUses q .alighting w⟩

theorem optAlight_ok {q : Query} {v : Vehicle} (hu : Unrestricted q.N v) {i s : Nat} (hsj : i < s) {sd : StopData} (hsd : (q.N.vStops v)[s]? = some sd) (hin : sd.outAllowed = true)
    {p : Loc} {r : Leg} {mk : Int → Uses} {w : Int} (hmk : mk w = WalkUses q .alighting w) (hw : SideWalk q .alighting p sd.loc (q.N.vArr v s) w) {st : EndState}
    (h : BackOk q v i p r st) : BackOk q v i p r (optAlight q.N v i mk s sd w st) := by
  unfold optAlight
  split
  · obtain ⟨i, w0, h1, h2, h3, h4, h5, h6⟩ := h
    refine ⟨s, w, rfl, rideLeg_alight hu h2 hsj hsd hin rfl rfl rfl rfl, h3, h4, hw, ?_⟩
    rw [h6, hmk]
  · exact h

theorem not_mode {q : Query} {s : Side} {w w' : Int} : (WalkUses q s w = .offset w' → (q.side s).mode = .intermodal) ∧ (WalkUses q s w = .foot w' → (q.side s).mode ≠ .intermodal) := by
  unfold WalkUses
  constructor
  · intro h
    split at h
    · assumption
    · cases h
  · intro h
    split at h
    · cases h
    · assumption

theorem initialFootpath_noop {N : Net} {D : OptData} {a : Leg} {L : List Leg} (h : ∀ w, a.uses ≠ .foot w) : initialFootpath N D (a :: L) = a :: L := by
  unfold initialFootpath
  split
  · next a b rest heq =>
    cases heq
    split
    · next ha hb => exact absurd ha (h _)
    · rfl
  · rfl

theorem finalEgressRev_noop {N : Net} {D : OptData} {a : Leg} {L : List Leg} (h : ∀ w, a.uses ≠ .foot w) : finalEgressRev N D (a :: L) = a :: L := by
  unfold finalEgressRev
  split
  · next a b rest heq =>
    cases heq
    split
    · next ha hb => exact absurd ha (h _)
    · rfl
  · rfl

theorem lastArrivalRev_noop {N : Net} {D : OptData} {a : Leg} {L : List Leg} (h : ∀ w, a.uses ≠ .offset w) : lastArrivalRev N D (a :: L) = a :: L := by
  unfold lastArrivalRev
  split
  · next a b rest heq =>
    cases heq
    split
    · next ha hb => exact absurd ha (h _)
    · rfl
  · rfl

/-- The first two functions. -/
theorem front_trip {q : Query} (hs : q.Static) {D : OptData} (hD : AltOk q D) {v : Vehicle} (hu : Unrestricted q.N v) {i j : Nat} {L : List Leg} {dp ar : Int}
    (h : DirectTrip q v i j L dp ar) : ∃ i' dp', DirectTrip q v i' j (initialFootpath q.N D (initialDeparture q.N D L)) dp' ar := by
  obtain ⟨r, p, p', w, w', A, B, h1, h2, h3, h4, h5, h6, rfl, hA, hB⟩ := id h
  rcases hA with rfl | ⟨rfl, hA⟩
  · have hinit : FrontOk q v j p r ⟨⟨p, r.fr, dp, r.dep, WalkUses q .boarding w⟩, r, w⟩ :=
      ⟨i, w, h1, h2, rfl, rfl, h3, by rw [h5]⟩
    have hfin : ∀ st : EndState, FrontOk q v j p r st → ∃ i' dp', DirectTrip q v i' j (st.walk :: st.ride :: B) dp' ar := by
      rintro ⟨W, R, b⟩ ⟨i', w1, e1, e2, e3, e4, e5, e6⟩
      dsimp only at e1 e2 e3 e4 e5 e6
      refine ⟨i', R.dep - w1, R, p, p', w1, w', [W], B, e1, e2, e5, by rw [e3, e4]; exact h4, rfl, by rw [e4]; exact h6, rfl, Or.inl ?_, ?_⟩
      · rw [e6]
      · rw [e3, e4]; exact hB
    by_cases hm : (q.side .boarding).mode = .intermodal
    · have hun : ∀ w, WalkUses q .boarding w = .offset w := by intro w; unfold WalkUses; rw [if_pos hm]
      have hpl : p = q.boundary .boarding := by unfold SideWalk at h3; rw [if_pos hm] at h3; exact h3.1
      unfold initialDeparture
      simp only [List.cons_append, List.nil_append, hun, h1]
      have hst := overStops_inv (FrontOk q v j p r) (stops := q.N.vStops v) (idx := List.range j) (ok := (·.inAllowed))
        (f := fun s sd st => D.startOffs.foldl (fun st o => if o.1 = sd.loc then optBoard q.N v j .offset s sd o.2 st else st) st)
        (st := (⟨⟨p, r.fr, dp, r.dep, .offset w⟩, r, w⟩ : EndState)) (by rw [← hun]; exact hinit) (by
          intro s hsj sd hsd hin st hst
          refine Raptor.foldl_inv (FrontOk q v j p r) _ _ _ hst ?_
          intro st o ho hst
          split
          · next hc =>
            refine optBoard_ok hu (List.mem_range.mp hsj) hsd hin (hun _).symm ?_ hst
            rw [← hc, hpl]
            rw [hD.startOffs] at ho
            exact sideWalk_offset hs hm ho _
          · exact hst)
      obtain ⟨i', dp', hdt⟩ := hfin _ hst
      obtain ⟨i1, w1, -, -, -, -, -, e6⟩ := hst
      refine ⟨i', dp', ?_⟩
      rw [initialFootpath_noop (by intro w0; rw [e6, hun]; intro hh; cases hh)]
      exact hdt
    · have hun : ∀ w, WalkUses q .boarding w = .foot w := by intro w; unfold WalkUses; rw [if_neg hm]
      obtain ⟨hfoot, hplain⟩ := hD.plain .boarding hm
      obtain ⟨o, ho, hop⟩ := sideWalk_place hm h3
      have hid : initialDeparture q.N D ([⟨p, r.fr, dp, r.dep, WalkUses q .boarding w⟩] ++ r :: B) = [⟨p, r.fr, dp, r.dep, WalkUses q .boarding w⟩] ++ r :: B := by
        unfold initialDeparture
        simp only [List.cons_append, List.nil_append, hun]
      rw [hid]
      unfold initialFootpath
      simp only [List.cons_append, List.nil_append, hun, h1]
      split
      · obtain ⟨i', dp', hdt⟩ := hfin _ hinit
        rw [hun] at hdt
        exact ⟨i', dp', hdt⟩
      · refine hfin _ (overStops_inv (FrontOk q v j p r) ?_ ?_)
        · obtain ⟨a1, a2, a3⟩ := hinit
          rw [hun] at a3
          exact ⟨a1, a2, a3⟩
        · intro s hsj sd hsd hin st hst
          split
          · exact hst
          · next fp hfp =>
            have hm1 := List.mem_of_find?_eq_some hfp
            have hm2 : fp.1 = sd.loc := by simpa using List.find?_some hfp
            refine optBoard_ok hu (List.mem_range.mp hsj) hsd hin (hun _).symm ?_ hst
            have hff := hD.fpsOut _ fp hm1
            rw [← hm2, ← hop]
            rw [← hop] at hff
            exact sideWalk_footpath hs hm hfoot ho (hplain o ho).1 (hplain o ho).2 hff _
  · refine ⟨i, dp, ?_⟩
    have hid : initialDeparture q.N D ([] ++ r :: B) = [] ++ r :: B := by
      unfold initialDeparture
      split
      · next a b rest heq =>
        cases heq
        split
        · next ha hb => rw [h1] at ha; cases ha
        · rfl
      · rfl
    rw [hid]
    have hid : initialFootpath q.N D ([] ++ r :: B) = [] ++ r :: B := by
      unfold initialFootpath
      split
      · next a b rest heq =>
        cases heq
        split
        · next ha hb => rw [h1] at ha; cases ha
        · rfl
      · rfl
    rw [hid]
    exact h

theorem back_trip {q : Query} (hs : q.Static) {D : OptData} (hD : AltOk q D) {v : Vehicle} (hu : Unrestricted q.N v) {i j : Nat} {L : List Leg} {dp ar : Int}
    (h : DirectTrip q v i j L dp ar) : ∃ j' ar', DirectTrip q v i j' (finalEgress q.N D (lastArrival q.N D L)) dp ar' := by
  obtain ⟨r, p, p', w, w', A, B, h1, h2, h3, h4, h5, h6, rfl, hA, hB⟩ := id h
  have hAlen : A.reverse.reverse = A := List.reverse_reverse A
  rcases hB with rfl | ⟨rfl, hB⟩
  · have hrev : (A ++ r :: [⟨r.to, p', r.arr, ar, WalkUses q .alighting w'⟩]).reverse = ⟨r.to, p', r.arr, ar, WalkUses q .alighting w'⟩ :: r :: A.reverse := by simp
    have hinit : BackOk q v i p' r ⟨⟨r.to, p', r.arr, ar, WalkUses q .alighting w'⟩, r, w'⟩ :=
      ⟨j, w', h1, h2, rfl, rfl, h4, by rw [h6]⟩
    have hfin : ∀ st : EndState, BackOk q v i p' r st → ∃ j' ar', DirectTrip q v i j' (st.walk :: st.ride :: A.reverse).reverse dp ar' := by
      rintro ⟨W, R, b⟩ ⟨j', w1, e1, e2, e3, e4, e5, e6⟩
      dsimp only at e1 e2 e3 e4 e5 e6
      refine ⟨j', R.arr + w1, R, p, p', w, w1, A, [W], e1, e2, by rw [e3, e4]; exact h3, e5, by rw [e4]; exact h5, rfl, by simp, ?_, Or.inl ?_⟩
      · rw [e3, e4]; exact hA
      · rw [e6]
    by_cases hm : (q.side .alighting).mode = .intermodal
    · have hun : ∀ w, WalkUses q .alighting w = .offset w := by intro w; unfold WalkUses; rw [if_pos hm]
      have hpl : p' = q.boundary .alighting := by unfold SideWalk at h4; rw [if_pos hm] at h4; exact h4.1
      unfold lastArrival
      rw [hrev]
      unfold lastArrivalRev
      simp only [hun, h1]
      have hst := overStops_inv (BackOk q v i p' r) (stops := q.N.vStops v) (idx := stopsAfter q.N v i) (ok := (·.outAllowed))
        (f := fun s sd st => D.destOffs.foldl (fun st o => if o.1 = sd.loc then optAlight q.N v i .offset s sd o.2 st else st) st)
        (st := (⟨⟨r.to, p', r.arr, ar, .offset w'⟩, r, w'⟩ : EndState)) (by rw [← hun]; exact hinit) (by
          intro s hsj sd hsd hin st hst
          refine Raptor.foldl_inv (BackOk q v i p' r) _ _ _ hst ?_
          intro st o ho hst
          split
          · next hc =>
            unfold stopsAfter at hsj
            rw [List.mem_filter, decide_eq_true_eq] at hsj
            refine optAlight_ok hu hsj.2 hsd hin (hun _).symm ?_ hst
            rw [← hc, hpl]
            rw [hD.destOffs] at ho
            exact sideWalk_offset hs hm ho _
          · exact hst)
      obtain ⟨i', dp', hdt⟩ := hfin _ hst
      obtain ⟨i1, w1, -, -, -, -, -, e6⟩ := hst
      refine ⟨i', dp', ?_⟩
      unfold finalEgress
      rw [List.reverse_reverse]
      rw [finalEgressRev_noop (by intro w0; rw [e6, hun]; intro hh; cases hh)]
      exact hdt
    · have hun : ∀ w, WalkUses q .alighting w = .foot w := by intro w; unfold WalkUses; rw [if_neg hm]
      obtain ⟨hfoot, hplain⟩ := hD.plain .alighting hm
      obtain ⟨o, ho, hop⟩ := sideWalk_place hm h4
      have hid : lastArrival q.N D (A ++ r :: [⟨r.to, p', r.arr, ar, WalkUses q .alighting w'⟩]) = A ++ r :: [⟨r.to, p', r.arr, ar, WalkUses q .alighting w'⟩] := by
        unfold lastArrival
        rw [hrev]
        unfold lastArrivalRev
        simp only [hun]
        simp
      rw [hid]
      unfold finalEgress
      rw [hrev]
      unfold finalEgressRev
      simp only [hun, h1]
      split
      · obtain ⟨i', dp', hdt⟩ := hfin _ hinit
        rw [hun] at hdt
        exact ⟨i', dp', hdt⟩
      · refine hfin _ (overStops_inv (BackOk q v i p' r) ?_ ?_)
        · obtain ⟨a1, a2, a3⟩ := hinit
          rw [hun] at a3
          exact ⟨a1, a2, a3⟩
        · intro s hsj sd hsd hin st hst
          split
          · exact hst
          · next fp hfp =>
            unfold stopsAfter at hsj
            rw [List.mem_filter, decide_eq_true_eq] at hsj
            have hm1 := List.mem_of_find?_eq_some hfp
            have hm2 : fp.1 = sd.loc := by simpa using List.find?_some hfp
            refine optAlight_ok hu hsj.2 hsd hin (hun _).symm ?_ hst
            have hff := hD.fpsIn _ fp hm1
            rw [← hm2, ← hop]
            rw [← hop] at hff
            exact sideWalk_footpath hs hm hfoot ho (hplain o ho).1 (hplain o ho).2 hff _
  · refine ⟨j, ar, ?_⟩
    have hrev : (A ++ [r]).reverse = r :: A.reverse := by simp
    have hid : lastArrival q.N D (A ++ [r]) = A ++ [r] := by
      unfold lastArrival
      rw [hrev]
      rw [lastArrivalRev_noop (by intro w0; rw [h1]; intro hh; cases hh)]; simp
    rw [hid]
    have hid : finalEgress q.N D (A ++ [r]) = A ++ [r] := by
      unfold finalEgress
      rw [hrev]
      rw [finalEgressRev_noop (by intro w0; rw [h1]; intro hh; cases hh)]; simp
    rw [hid]
    exact h

theorem optTransfers_trip {q : Query} {D : OptData} {v : Vehicle} {i j : Nat} {L : List Leg} {dp ar : Int} (h : DirectTrip q v i j L dp ar) :
    optTransfers q.N D L = L := by
  obtain ⟨r, p, p', w, w', A, B, h1, -, -, -, -, -, rfl, hA, hB⟩ := h
  have hw : ∀ (s : Side) (w w1 : Int) (x : Vehicle) (a b : Nat), WalkUses q s w ≠ .ride x a b := by
    intro s w w1 x a b; unfold WalkUses; split <;> simp
  rcases hA with rfl | ⟨rfl, -⟩ <;> rcases hB with rfl | ⟨rfl, -⟩
  · simp only [List.cons_append, List.nil_append]
    unfold optTransfers
    have : optTransfer q.N D ⟨p, r.fr, dp, r.dep, WalkUses q .boarding w⟩ r ⟨r.to, p', r.arr, ar, WalkUses q .alighting w'⟩ =
        (⟨p, r.fr, dp, r.dep, WalkUses q .boarding w⟩, r, ⟨r.to, p', r.arr, ar, WalkUses q .alighting w'⟩) := by
      unfold optTransfer
      split
      · next hh _ _ => exact absurd hh (hw _ _ 0 _ _ _)
      · rfl
    rw [this]
    simp only
    unfold optTransfers
    rfl
  · simp only [List.cons_append, List.nil_append]; unfold optTransfers; rfl
  · simp only [List.nil_append]; unfold optTransfers; rfl
  · simp only [List.nil_append]; unfold optTransfers; rfl

theorem optimize_trip {q : Query} (hs : q.Static) {D : OptData} (hD : AltOk q D) {v : Vehicle} (hu : Unrestricted q.N v) {i j : Nat} {L : List Leg} {dp ar : Int}
    (h : DirectTrip q v i j L dp ar) : ∃ i' j' dp' ar', DirectTrip q v i' j' (optimizeFootpaths q.N D L) dp' ar' := by
  obtain ⟨i', dp', h1⟩ := front_trip hs hD hu h
  obtain ⟨j', ar', h2⟩ := back_trip hs hD hu h1
  refine ⟨i', j', dp', ar', ?_⟩
  unfold optimizeFootpaths
  rw [optTransfers_trip h2]
  exact h2

end Nigiri.Direct
