import Verif.Proofs.Direct
import Verif.Proofs.Earliest
namespace Nigiri.Direct
open Nigiri.Raptor Nigiri.Lb Nigiri.StartTimes

theorem trip_times {q : Query} {v : Vehicle} {i j : Nat} {legs : List Leg} {dp ar : Int} (h : DirectTrip q v i j legs dp ar) :
    depOf legs = dp ∧ arrOf legs = ar := by
  obtain ⟨r, p, p', w, w', A, B, -, -, -, -, h1, h2, rfl, hA, hB⟩ := h
  constructor
  · rcases hA with rfl | ⟨rfl, -, rfl⟩
    · rfl
    · show r.dep = dp; omega
  · rcases hB with rfl | ⟨rfl, -, rfl⟩
    · show ((A ++ [r, _]).getLast?.map _).getD 0 = _
      simp
    · show ((A ++ [r]).getLast?.map _).getD 0 = _
      simp; omega

/-- The departure of the first and the arrival of the last leg are those of the walks. -/
theorem connection_times {d : Dir} {q : Query} {time : Int} {v : Vehicle} {stops : List StopData} {i j : Nat} {dep arr : Int} {legs : List Leg}
    (h : connection d q time v stops i j dep arr = some legs) :
    ∃ a b, lookupAccess q .boarding (locOf stops i) dep = some a ∧ lookupAccess q .alighting (locOf stops j) arr = some b ∧
      depOf legs = a.dep ∧ arrOf legs = b.arr := by
  have hl : ∀ {s : Side} {loc : Loc} {t : Int} {x : Leg}, lookupAccess q s loc t = some x → ∃ p w u, x = sideLeg s p loc t w u := by
    intro s loc t x h
    unfold lookupAccess at h
    split at h
    · rw [Option.map_eq_some_iff] at h
      obtain ⟨w, -, rfl⟩ := h
      exact ⟨_, _, _, rfl⟩
    · dsimp only at h
      split at h
      · cases h
      · cases h; exact ⟨_, _, _, rfl⟩
  unfold connection at h
  split at h
  · next a b ha hb =>
    split at h
    · cases h
      obtain ⟨p, w, u, rfl⟩ := hl ha
      obtain ⟨p', w', u', rfl⟩ := hl hb
      refine ⟨_, _, ha, hb, ?_, ?_⟩
      · unfold assemble
        by_cases hd : dropAtBoundary (sideLeg .boarding p (locOf stops i) dep w u) = true
        · rw [if_pos hd]
          unfold dropAtBoundary at hd
          rw [Bool.and_eq_true, decide_eq_true_eq] at hd
          have h2 : dep - w = dep := hd.2
          show dep = dep - w
          omega
        · rw [if_neg hd]; rfl
      · unfold assemble
        by_cases hd : dropAtBoundary (sideLeg .alighting p' (locOf stops j) arr w' u') = true
        · rw [if_pos hd]
          unfold dropAtBoundary at hd
          rw [Bool.and_eq_true, decide_eq_true_eq] at hd
          have h2 : arr = arr + w' := hd.2
          unfold arrOf
          rw [List.getLast?_append]
          show arr = arr + w'
          omega
        · rw [if_neg hd]
          unfold arrOf
          rw [List.getLast?_append]
          rfl
    · cases h
  · cases h

/-- Walks do not overtake: alighting later does not mean arriving earlier, boarding earlier does not mean leaving
later. -/
def WalksFifo (d : Dir) (q : Query) : Prop := match d with
  | .fwd => ∀ loc t t' b b', t ≤ t' → lookupAccess q .alighting loc t = some b → lookupAccess q .alighting loc t' = some b' → b.arr ≤ b'.arr
  | .bwd => ∀ loc t t' a a', t ≤ t' → lookupAccess q .boarding loc t = some a → lookupAccess q .boarding loc t' = some a' → a.dep ≤ a'.dep

theorem eff_static {q : Query} (hs : q.Static) (s : Side) (l loc : Loc) (t t' : Int) : q.eff s l loc t = q.eff s l loc t' := by
  unfold Query.eff
  rw [hs.fps s l]

theorem footBest_static {q : Query} (hs : q.Static) (s : Side) (loc : Loc) (t t' : Int) : footBest q s loc t = footBest q s loc t' := by
  have : footStep q s (q.side s) loc t = footStep q s (q.side s) loc t' := by
    funext o st l
    unfold footStep
    rw [eff_static hs s l loc t t']
  unfold footBest
  rw [this]

theorem lookup_static {q : Query} (hs : q.Static) (s : Side) (loc : Loc) :
    ∃ o : Option (Loc × Int × Uses), ∀ t, lookupAccess q s loc t = o.map fun p => sideLeg s p.1 loc t p.2.1 p.2.2 := by
  by_cases hm : (q.side s).mode = .intermodal
  · refine ⟨((q.side s).offs.find? fun o => o.1 == loc).map fun o => (q.boundary s, o.2, .offset o.2), ?_⟩
    intro t
    unfold lookupAccess lookupOffset
    rw [if_pos hm, hs.offs s]
    simp only [List.find?_nil, Option.map_map]
    rfl
  · refine ⟨if 511 ≤ (footBest q s loc 0).1 then none else some ((footBest q s loc 0).2, (footBest q s loc 0).1, .foot (footBest q s loc 0).1), ?_⟩
    intro t
    unfold lookupAccess
    rw [if_neg hm]
    dsimp only
    rw [footBest_static hs s loc t 0]
    split <;> rfl

theorem fifo_static {q : Query} (hs : q.Static) (d : Dir) : WalksFifo d q := by
  cases d with
  | fwd =>
    intro loc t t' b b' ht hb hb'
    obtain ⟨o, ho⟩ := lookup_static hs .alighting loc
    rw [ho] at hb hb'
    cases o with
    | none => cases hb
    | some o => cases hb; cases hb'; show t + _ ≤ t' + _; omega
  | bwd =>
    intro loc t t' b b' ht hb hb'
    obtain ⟨o, ho⟩ := lookup_static hs .boarding loc
    rw [ho] at hb hb'
    cases o with
    | none => cases hb
    | some o => cases hb; cases hb'; show t - _ ≤ t' - _; omega

theorem routeStep_some {d : Dir} {q : Query} {time : Int} {ri : Nat} {r : RouteData} {i j : Nat} {day : Int} {t : Nat} {legs : List Leg}
    (h : routeStep d q time ri r i j day t = some legs) :
    connection d q time (.trip ri t (day - ((genEv d r i j t / 1440 : Nat) : Int))) r.stops i j
      ((day - ((genEv d r i j t / 1440 : Nat) : Int) - q.N.base) * 1440 + r.dep t i)
      ((day - ((genEv d r i j t / 1440 : Nat) : Int) - q.N.base) * 1440 + r.arr t j) = some legs := by
  unfold routeStep at h
  dsimp only at h
  split at h
  · cases h
  split at h
  · cases h
  split at h
  · cases h
  · exact h

theorem event_le {day day' base : Int} {e e' o o' : Nat} (hd : day < day') (h1 : e / 1440 = e' / 1440) (h2 : o / 1440 = o' / 1440) :
    (day - ((e / 1440 : Nat) : Int) - base) * 1440 + (o : Int) ≤ (day' - ((e' / 1440 : Nat) : Int) - base) * 1440 + (o' : Int) := by
  rw [h1]
  have : (o : Int) < (o' : Int) + 1440 := by omega
  generalize ((e' / 1440 : Nat) : Int) = x at *
  omega

theorem event_le' {day base : Int} {e e' o o' : Nat} (h1 : e / 1440 = e' / 1440) (h2 : o / 1440 = o' / 1440) (h3 : o % 1440 ≤ o' % 1440) :
    (day - ((e / 1440 : Nat) : Int) - base) * 1440 + (o : Int) ≤ (day - ((e' / 1440 : Nat) : Int) - base) * 1440 + (o' : Int) := by
  rw [h1]
  have : (o : Int) ≤ (o' : Int) := by omega
  omega

theorem genDays_fwd (q : Query) (time : Int) : (genDays .fwd q time).Pairwise (· < ·) := by
  unfold genDays
  rw [List.pairwise_map]
  exact List.pairwise_lt_range.imp fun h => by omega

theorem genDays_bwd (q : Query) (time : Int) : (genDays .bwd q time).Pairwise (fun a b => b < a) := by
  unfold genDays
  rw [List.pairwise_map]
  exact List.pairwise_lt_range.imp fun h => by omega

/-- The journeys of one generator are in order. -/
theorem routeGen_sorted {d : Dir} {q : Query} (hw : WalksFifo d q) {time : Int} {ri : Nat} {r : RouteData} (ha : Aligned r) {i j : Nat} (hij : i < j)
    (hj : j < r.stops.length) : (routeGen d q time ri r i j).Pairwise fun x y => key d x ≤ key d y := by
  have hstep : ∀ {day day' : Int} {t t' : Nat} {x y : List Leg}, t < r.nTr → t' < r.nTr →
      (match d with | .fwd => day < day' ∨ (day = day' ∧ t < t') | .bwd => day' < day ∨ (day = day' ∧ t' < t)) →
      routeStep d q time ri r i j day t = some x → routeStep d q time ri r i j day' t' = some y → key d x ≤ key d y := by
    intro day day' t t' x y ht ht' hlt hx hy
    obtain ⟨a, b, h1, h2, h3, h4⟩ := connection_times (routeStep_some hx)
    obtain ⟨a', b', g1, g2, g3, g4⟩ := connection_times (routeStep_some hy)
    have hdd := ha.depDay t t' ht ht' i (by omega)
    have haa := ha.arrDay t t' ht ht' j (by omega) hj
    cases d with
    | fwd =>
      show arrOf x ≤ arrOf y
      rw [h4, g4]
      refine hw _ _ _ _ _ ?_ h2 g2
      rcases hlt with hlt | ⟨rfl, hlt⟩
      · exact event_le hlt hdd haa
      · exact event_le' hdd haa (ha.arr t t' hlt ht' j (by omega) hj)
    | bwd =>
      show - depOf x ≤ - depOf y
      rw [h3, g3]
      have := hw _ _ _ _ _ (by
        rcases hlt with hlt | ⟨rfl, hlt⟩
        · exact event_le hlt haa.symm hdd.symm
        · exact event_le' haa.symm hdd.symm (ha.dep t' t hlt ht i (by omega))) g1 h1
      omega
  unfold routeGen
  rw [List.pairwise_flatMap]
  constructor
  · intro day _
    split
    · rw [List.pairwise_filterMap]
      cases d with
      | fwd =>
        unfold trOrder
        refine List.Pairwise.imp_of_mem ?_ List.pairwise_lt_range
        intro t t' ht ht' hlt x hx y hy
        rw [List.mem_range] at ht ht'
        exact hstep ht ht' (Or.inr ⟨rfl, hlt⟩) hx hy
      | bwd =>
        unfold trOrder
        rw [List.pairwise_reverse]
        refine List.Pairwise.imp_of_mem ?_ List.pairwise_lt_range
        intro t t' ht ht' hlt x hx y hy
        rw [List.mem_range] at ht ht'
        exact hstep ht' ht (Or.inr ⟨rfl, hlt⟩) hx hy
    · exact List.Pairwise.nil
  · have hmem : ∀ {day : Int} {x : List Leg}, x ∈ (if routeActive r day then (trOrder d r.nTr).filterMap (routeStep d q time ri r i j day) else []) →
        ∃ t, t < r.nTr ∧ routeStep d q time ri r i j day t = some x := by
      intro day x hx
      split at hx
      · rw [List.mem_filterMap] at hx
        obtain ⟨t, h3, h4⟩ := hx
        refine ⟨t, ?_, h4⟩
        unfold trOrder at h3
        cases d <;> simpa using h3
      · cases hx
    cases d with
    | fwd =>
      refine (genDays_fwd q time).imp ?_
      intro day day' hlt x hx y hy
      obtain ⟨t, ht, hx⟩ := hmem hx
      obtain ⟨t', ht', hy⟩ := hmem hy
      exact hstep ht ht' (Or.inl hlt) hx hy
    | bwd =>
      refine (genDays_bwd q time).imp ?_
      intro day day' hlt x hx y hy
      obtain ⟨t, ht, hx⟩ := hmem hx
      obtain ⟨t', ht', hy⟩ := hmem hy
      exact hstep ht ht' (Or.inl hlt) hx hy

theorem pairs_lt {q : Query} {stops : List StopData} {fl : List FlagData} {i j : Nat} (h : (i, j) ∈ stopPairs q stops fl) : i < j ∧ j < stops.length := by
  unfold stopPairs at h
  rw [List.mem_filter] at h
  obtain ⟨g1, si, sj, g2, g3, -, -⟩ := pairs_sound stops none 0 stops rfl (by simp) h.1
  rw [List.getElem?_eq_some_iff] at g3
  exact ⟨g1, g3.1⟩

theorem gens_sorted {d : Dir} {q : Query} (hw : WalksFifo d q) (ha : ∀ r ∈ q.N.routes, Aligned r) {time : Int} :
    ∀ g ∈ gens d q time, g.Pairwise fun x y => key d x ≤ key d y := by
  intro g hg
  unfold gens at hg
  rw [List.mem_append] at hg
  rcases hg with hg | hg
  · obtain ⟨ri, r, i, j, h1, h2, h3, rfl⟩ := mem_routeGens hg
    have := pairs_lt h3
    exact routeGen_sorted hw (ha r (List.mem_of_getElem? h1)) this.1 this.2
  · obtain ⟨ri, r, i, j, h1, h2, h3, rfl⟩ := mem_rtGens hg
    unfold rtGen
    cases connection d q time (.rt ri) r.stops i j (r.dep i) (r.arr j) with
    | none => exact List.Pairwise.nil
    | some x => exact List.pairwise_singleton _ _

/-! ## Shortest walks -/

theorem effStatic_le {fps : List (Loc × Int)} {loc : Loc} {f : Int} (h : (loc, f) ∈ fps) : effStatic fps loc ≤ f := by
  unfold effStatic
  generalize (511 : Int) = b
  induction fps generalizing b with
  | nil => cases h
  | cons x xs ih =>
    have hmono : ∀ (xs : List (Loc × Int)) (b : Int), xs.foldl (fun (e : Int) (fp : Loc × Int) => if fp.1 = loc ∧ fp.2 < e then fp.2 else e) b ≤ b := by
      intro xs b
      refine Raptor.foldl_inv (fun e => e ≤ b) _ xs b (Int.le_refl _) ?_
      intro e a _ he
      split <;> omega
    rw [List.foldl_cons]
    rw [List.mem_cons] at h
    rcases h with rfl | h
    · refine Int.le_trans (hmono _ _) ?_
      split
      · exact Int.le_refl _
      · next hc => rw [not_and] at hc; have := hc rfl; omega
    · exact ih h _

theorem footStep_le {q : Query} (ht : q.Tidy) {s : Side} (hm : (q.side s).mode ≠ .exact) {loc : Loc} {t : Int} {o : Loc × Int} (st : Int × Loc) (l : Loc) :
    (footStep q s (q.side s) loc t o st l).1 ≤ st.1 := by
  have h1 : (directMatch q (q.side s).mode loc o l st).1 ≤ st.1 := by
    unfold directMatch
    rw [if_neg hm]
    split
    · next hc => show o.2 + 0 ≤ _; omega
    · exact Int.le_refl _
  unfold footStep
  dsimp only
  split
  · exact h1
  · split
    · exact h1
    · split
      · show o.2 + _ ≤ _; omega
      · exact h1

theorem foldl_le {α : Type} (f : Int × Loc → α → Int × Loc) (hf : ∀ st a, (f st a).1 ≤ st.1) (l : List α) (st : Int × Loc) : (l.foldl f st).1 ≤ st.1 :=
  Raptor.foldl_inv (fun x => x.1 ≤ st.1) f l st (Int.le_refl _) fun b a _ hb => Int.le_trans (hf b a) hb

theorem foldl_le_of_mem {α : Type} (f : Int × Loc → α → Int × Loc) (hf : ∀ st a, (f st a).1 ≤ st.1) {l : List α} {a : α} (ha : a ∈ l) {w : Int}
    (h : ∀ st, (f st a).1 ≤ w) (st : Int × Loc) : (l.foldl f st).1 ≤ w := by
  induction l generalizing st with
  | nil => cases ha
  | cons x xs ih =>
    rw [List.foldl_cons]
    rw [List.mem_cons] at ha
    rcases ha with rfl | ha
    · exact Int.le_trans (foldl_le f hf xs _) (h st)
    · exact ih ha _

/-- One step is not worse than the alternatives it looks at. -/
theorem footStep_min {q : Query} (hs : q.Static) (ht : q.Tidy) {s : Side} {loc : Loc} {t w : Int} (hw : w < 511) {o : Loc × Int} (ho : o ∈ (q.side s).offs)
    (st : Int × Loc) (hst : (q.side s).mode = .exact → st.1 = 511) {l : Loc}
    (h : (l = loc ∧ w = o.2 + (if (q.side s).mode = .exact then q.N.transfer l else 0)) ∨ ((q.side s).useFootpaths = true ∧ ∃ f, FootWalk q s l loc t f ∧ w = o.2 + f)) :
    (footStep q s (q.side s) loc t o st l).1 ≤ w := by
  have ho0 := ht.offs s o ho
  have ht0 := ht.transfer l
  rcases h with ⟨rfl, h⟩ | ⟨hu, f, hf, rfl⟩
  · have h1 : (directMatch q (q.side s).mode l o l st).1 ≤ w := by
      unfold directMatch
      split
      · show _ ≤ _; omega
      · next hc =>
        rw [not_and] at hc
        have := hc rfl
        by_cases hm : (q.side s).mode = .exact
        · rw [if_pos hm] at h; have := hst hm; omega
        · rw [if_neg hm] at h; omega
    unfold footStep
    dsimp only
    split
    · exact h1
    · split
      · exact h1
      · split
        · show o.2 + _ ≤ _; omega
        · exact h1
  · have he : q.eff s l loc t ≤ f := by
      unfold FootWalk at hf
      unfold Query.eff
      rw [hs.fps s l] at hf ⊢
      exact effStatic_le hf
    unfold footStep
    dsimp only
    rw [if_neg (by simp [hu]), if_neg (by omega)]
    split
    · show o.2 + _ ≤ _; omega
    · omega

theorem footBest_min {q : Query} (hs : q.Static) (ht : q.Tidy) {s : Side} (hm : (q.side s).mode ≠ .intermodal) {p loc : Loc} {t w : Int} (hw : w < 511)
    (h : SideWalk q s p loc t w) : (footBest q s loc t).1 ≤ w := by
  unfold SideWalk at h
  rw [if_neg hm] at h
  obtain ⟨d, ho, l, hl, h⟩ := h
  unfold footBest
  by_cases hx : (q.side s).mode = .exact
  · have hlen := ht.exact s hx
    have hoffs : (q.side s).offs = [(p, d)] := by
      match hofs : (q.side s).offs with
      | [] => rw [hofs] at ho; cases ho
      | [x] => rw [hofs] at ho; rw [List.mem_singleton] at ho; rw [ho]
      | x :: y :: r => rw [hofs] at hlen; simp at hlen
    have hmeta : forEachMeta q.T (q.side s).mode p = [p] := by rw [hx]; rfl
    rw [hmeta, List.mem_singleton] at hl
    subst hl
    rw [hoffs]
    simp only [List.foldl_cons, List.foldl_nil]
    rw [hmeta]
    simp only [List.foldl_cons, List.foldl_nil]
    exact footStep_min hs ht hw (o := (l, d)) ho _ (fun _ => rfl) h
  · have hf : ∀ (o : Loc × Int) (st : Int × Loc) (l : Loc), (footStep q s (q.side s) loc t o st l).1 ≤ st.1 :=
      fun o st l => footStep_le ht hx st l
    refine foldl_le_of_mem _ (fun st o => foldl_le _ (hf o) _ _) ho (fun st => ?_) _
    exact foldl_le_of_mem _ (hf _) hl (fun st => footStep_min hs ht hw (o := (p, d)) ho st (fun hc => absurd hc hx) h) _

/-- The walk that is found is a shortest one. -/
theorem lookup_min {q : Query} (hs : q.Static) (ht : q.Tidy) {s : Side} {p loc : Loc} {t w : Int} (hw : w < 511) (h : SideWalk q s p loc t w) :
    ∃ p' w' u, w' ≤ w ∧ lookupAccess q s loc t = some (sideLeg s p' loc t w' u) := by
  by_cases hm : (q.side s).mode = .intermodal
  · unfold SideWalk at h
    rw [if_pos hm, hs.offs s] at h
    obtain ⟨-, h | ⟨-, h⟩⟩ := h
    · obtain ⟨_, h, _⟩ := h; cases h
    · have hso := ht.sorted s hm
      unfold lookupAccess lookupOffset
      rw [if_pos hm, hs.offs s]
      simp only [List.find?_nil]
      have : ∀ (offs : List (Loc × Int)), (offs.Pairwise fun a b => a.2 ≤ b.2) → (loc, w) ∈ offs →
          ∃ o, (offs.find? fun o => o.1 == loc) = some o ∧ o.2 ≤ w := by
        intro offs hp hmem
        induction offs with
        | nil => cases hmem
        | cons x xs ih =>
          by_cases hx : x.1 = loc
          · refine ⟨x, by rw [List.find?_cons_of_pos (by simpa using hx)], ?_⟩
            rw [List.mem_cons] at hmem
            rcases hmem with rfl | hmem
            · exact Int.le_refl _
            · exact (List.pairwise_cons.mp hp).1 _ hmem
          · rw [List.find?_cons_of_neg (by simpa using hx)]
            rw [List.mem_cons] at hmem
            rcases hmem with rfl | hmem
            · exact absurd rfl hx
            · exact ih (List.pairwise_cons.mp hp).2 hmem
      obtain ⟨o, h1, h2⟩ := this _ hso h
      rw [h1]
      exact ⟨_, o.2, _, h2, rfl⟩
  · have := footBest_min hs ht hm hw h
    unfold lookupAccess
    rw [if_neg hm]
    dsimp only
    rw [if_neg (by omega)]
    exact ⟨_, _, _, this, rfl⟩

/-! ## Completeness -/

theorem collect_static {q : Query} (hs : q.Static) (s : Side) (loc : Loc) : loc ∈ collectLocs q s ↔ Near q s loc := by
  unfold collectLocs Near SideWalk
  dsimp only
  rw [hs.offs s]
  by_cases hm : (q.side s).mode = .intermodal
  · rw [if_pos hm]
    simp only [if_pos hm, List.map_nil, List.append_nil, List.mem_map, List.not_mem_nil, false_and, exists_false, false_or, not_false_eq_true, implies_true, true_and]
    constructor
    · rintro ⟨o, h1, rfl⟩; exact ⟨_, 0, o.2, rfl, h1⟩
    · rintro ⟨_, _, w, -, h1⟩; exact ⟨_, h1, rfl⟩
  · rw [if_neg hm]
    simp only [if_neg hm, List.map_nil, List.append_nil, List.mem_flatMap, List.mem_cons]
    constructor
    · rintro ⟨o, ho, l, hl, h⟩
      rcases h with rfl | h
      · exact ⟨o.1, 0, _, o.2, ho, loc, hl, Or.inl ⟨rfl, rfl⟩⟩
      · split at h
        · next hu =>
          unfold Query.fpTargets at h
          rw [hs.fps s l] at h
          simp only [List.append_nil, List.mem_map] at h
          obtain ⟨fp, h1, rfl⟩ := h
          refine ⟨o.1, 0, _, o.2, ho, l, hl, Or.inr ⟨hu, fp.2, ?_, rfl⟩⟩
          unfold FootWalk
          rw [hs.fps s l]; exact h1
        · cases h
    · rintro ⟨p, t, w, d, ho, l, hl, h⟩
      refine ⟨(p, d), ho, l, hl, ?_⟩
      rcases h with ⟨rfl, -⟩ | ⟨hu, f, hf, -⟩
      · exact Or.inl rfl
      · right
        rw [if_pos hu]
        unfold FootWalk at hf
        rw [hs.fps s l] at hf
        unfold Query.fpTargets
        rw [List.mem_append]
        exact Or.inl (List.mem_map.mpr ⟨_, hf, rfl⟩)

theorem canBoard_iff {q : Query} (hs : q.Static) (s : StopData) : q.canBoard s = true ↔ Near q .boarding s.loc ∧ MayBoard q.N.wheelchair s := by
  unfold Query.canBoard StopData.canStart MayBoard
  rw [Bool.and_eq_true, List.contains_iff_mem, collect_static hs]
  split <;> simp_all

theorem canAlight_iff {q : Query} (hs : q.Static) (s : StopData) : q.canAlight s = true ↔ Near q .alighting s.loc ∧ MayAlight q.N.wheelchair s := by
  unfold Query.canAlight StopData.canFinish MayAlight
  rw [Bool.and_eq_true, List.contains_iff_mem, collect_static hs]
  split <;> simp_all

theorem stopPairs_complete {q : Query} (hs : q.Static) {stops : List StopData} {secFlags : List (List Bool)} (hf : FlagsOk stops.length q.N.required secFlags)
    {i j : Nat} {si sj : StopData} (hij : i < j) (hi : stops[i]? = some si) (hj : stops[j]? = some sj) (hb : MayBoard q.N.wheelchair si)
    (ha : MayAlight q.N.wheelchair sj) (hsec : ∀ s, i ≤ s → s < j → SectionPermitted q.N.required secFlags s)
    (hni : Near q .boarding si.loc) (hnj : Near q .alighting sj.loc) (hfp : FirstPair q stops i j) :
    (i, j) ∈ stopPairs q stops (secFlags.map Raptor.registerFlag) := by
  unfold stopPairs
  rw [List.mem_filter]
  constructor
  · refine pairs_board stops 0 stops rfl (Nat.zero_le _) hij hi hj ((canBoard_iff hs _).mpr ⟨hni, hb⟩) ((canAlight_iff hs _).mpr ⟨hnj, ha⟩) ?_ ?_
    · intro x s _ hx hxs
      rw [Bool.eq_false_iff]
      intro hc
      have := (canBoard_iff hs _).mp hc
      exact hfp.board x s hx hxs this.2 this.1
    · intro x s hx hx' hxs
      rw [Bool.eq_false_iff]
      intro hc
      have := (canAlight_iff hs _).mp hc
      exact hfp.alight x s hx hx' hxs this.2 this.1
  · have hjl : j < stops.length := by rw [List.getElem?_eq_some_iff] at hj; exact hj.1
    simp only [Bool.not_eq_true']
    exact (not_violate_iff hf hjl).mpr hsec

theorem visits_of {q : Query} (hs : q.Static) {stops : List StopData} {i j : Nat} {si sj : StopData} (hi : stops[i]? = some si) (hj : stops[j]? = some sj)
    (hni : Near q .boarding si.loc) (hnj : Near q .alighting sj.loc) : visits q stops = true := by
  unfold visits
  rw [Bool.and_eq_true, List.any_eq_true, List.any_eq_true]
  exact ⟨⟨si, List.mem_of_getElem? hi, by rw [List.contains_iff_mem, collect_static hs]; exact hni⟩,
    ⟨sj, List.mem_of_getElem? hj, by rw [List.contains_iff_mem, collect_static hs]; exact hnj⟩⟩

theorem connection_complete {d : Dir} {q : Query} (hs : q.Static) (ht : q.Tidy) {time : Int} {v : Vehicle} {stops : List StopData} {i j : Nat}
    {p p' : Loc} {dep arr w w' : Int} (hw : w < 511) (hw' : w' < 511) (h1 : SideWalk q .boarding p (locOf stops i) dep w)
    (h2 : SideWalk q .alighting p' (locOf stops j) arr w') (hin : InTime d time (dep - w) (arr + w')) :
    ∃ legs, connection d q time v stops i j dep arr = some legs ∧ dep - w ≤ depOf legs ∧ arrOf legs ≤ arr + w' := by
  obtain ⟨p1, w1, u1, g1, e1⟩ := lookup_min hs ht hw h1
  obtain ⟨p2, w2, u2, g2, e2⟩ := lookup_min hs ht hw' h2
  have hc : connection d q time v stops i j dep arr = some (assemble (sideLeg .boarding p1 (locOf stops i) dep w1 u1)
      ⟨locOf stops i, locOf stops j, dep, arr, .ride v i j⟩ (sideLeg .alighting p2 (locOf stops j) arr w2 u2)) := by
    unfold connection
    rw [e1, e2]
    dsimp only
    rw [if_pos]
    unfold inTime sideLeg
    unfold InTime at hin
    cases d
    · simp only [decide_eq_true_eq] at hin ⊢; omega
    · simp only [decide_eq_true_eq] at hin ⊢; omega
  refine ⟨_, hc, ?_⟩
  obtain ⟨a, b, f1, f2, f3, f4⟩ := connection_times hc
  rw [e1] at f1; cases f1
  rw [e2] at f2; cases f2
  rw [f3, f4]
  constructor
  · show dep - w ≤ dep - w1; omega
  · show arr + w2 ≤ arr + w'; omega

theorem walk_nonneg {q : Query} (hs : q.Static) (ht : q.Tidy) {s : Side} {p loc : Loc} {t w : Int} (h : SideWalk q s p loc t w) : 0 ≤ w := by
  unfold SideWalk at h
  split at h
  · rw [hs.offs s] at h
    obtain ⟨-, h | ⟨-, h⟩⟩ := h
    · obtain ⟨_, h, _⟩ := h; cases h
    · exact ht.offs s _ h
  · obtain ⟨d, ho, l, hl, h⟩ := h
    have h0 : 0 ≤ d := ht.offs s _ ho
    rcases h with ⟨rfl, h⟩ | ⟨hu, f, hf, rfl⟩
    · have := ht.transfer l
      split at h <;> omega
    · unfold FootWalk at hf
      rw [hs.fps s l] at hf
      have h1 : 0 ≤ f := ht.fps s l _ hf
      omega

theorem complete {d : Dir} {q : Query} (hq : q.Ok) (hs : q.Static) (ht : q.Tidy) {time : Int} {v : Vehicle} {i j : Nat} {r : Leg} (hr : RideLeg q.N v i j r)
    (hrange : InRange d q v r) {p p' : Loc} {w w' : Int} (hw : w < 511) (hw' : w' < 511) (h1 : SideWalk q .boarding p r.fr r.dep w)
    (h2 : SideWalk q .alighting p' r.to r.arr w') (hin : InTime d time (r.dep - w) (r.arr + w')) (hfp : FirstPair q (q.N.vStops v) i j) :
    ∃ g ∈ gens d q time, ∃ legs ∈ g, ∃ dp ar, DirectTrip q v i j legs dp ar ∧ r.dep - w ≤ dp ∧ ar ≤ r.arr + w' := by
  have hw0 := walk_nonneg hs ht h1
  have hw0' := walk_nonneg hs ht h2
  cases v with
  | trip ri t day =>
    obtain ⟨rd, hri, htn, hday, hm, si, sj, hij, hi, hj, hfr, hto, hb, ha, hsec, hdep, harr⟩ := id hr
    dsimp only at hdep harr
    have hstops : q.N.vStops (.trip ri t day) = rd.stops := by simp only [Net.vStops, hri]
    rw [hstops] at hfp
    have hli : r.fr = locOf rd.stops i := by rw [locOf_eq hi]; exact hfr.symm
    have hlj : r.to = locOf rd.stops j := by rw [locOf_eq hj]; exact hto.symm
    have hjl : j < rd.stops.length := by rw [List.getElem?_eq_some_iff] at hj; exact hj.1
    have hni : Near q .boarding si.loc := by rw [hfr]; exact ⟨p, _, w, h1⟩
    have hnj : Near q .alighting sj.loc := by rw [hto]; exact ⟨p', _, w', h2⟩
    have hpair := stopPairs_complete hs (hq.flags rd (List.mem_of_getElem? hri)) hij hi hj hb ha hsec hni hnj hfp
    have hpass : passes q.N rd.clasz rd.flags = true := passes_of hm (hsec i (Nat.le_refl _) hij)
    rw [hli, hdep] at h1
    rw [hlj, harr] at h2
    rw [hdep, harr] at hin
    obtain ⟨legs, hc, hd1, hd2⟩ := connection_complete (v := .trip ri t day) hs ht hw hw' h1 h2 hin
    obtain ⟨r1, r2, r3⟩ := hrange
    have hev : ∃ day' ∈ genDays d q time, routeActive rd day' = true ∧ day' - ((genEv d rd i j t / 1440 : Nat) : Int) = day := by
      refine ⟨day + ((genEv d rd i j t / 1440 : Nat) : Int), ?_, ?_, by omega⟩
      · cases d with
        | fwd =>
          unfold genDays genEv
          dsimp only
          unfold InTime at hin
          rw [hdep] at r3
          rw [List.mem_map]
          unfold Query.dayOf
          refine ⟨(day + ((rd.dep t i / 1440 : Nat) : Int) - (q.N.base + time / 1440)).toNat, ?_, ?_⟩
          · rw [List.mem_range]; omega
          · omega
        | bwd =>
          unfold genDays genEv
          dsimp only
          unfold InTime at hin
          rw [harr] at r3
          rw [List.mem_map]
          unfold Query.dayOf
          refine ⟨((q.N.base + time / 1440) - (day + ((rd.arr t j / 1440 : Nat) : Int))).toNat, ?_, ?_⟩
          · rw [List.mem_range]; omega
          · omega
      · cases d with
        | fwd =>
          refine routeActive_of .fwd rd t i _ htn (by omega) ?_
          unfold genEv RouteData.evBoard
          dsimp only
          rw [show day + ((rd.dep t i / 1440 : Nat) : Int) - ((rd.dep t i / 1440 : Nat) : Int) = day by omega]
          exact hday
        | bwd =>
          refine routeActive_of .bwd rd t (rd.stops.length - 1 - j) _ htn (by omega) ?_
          unfold genEv RouteData.evBoard
          dsimp only
          rw [show rd.stops.length - 1 - (rd.stops.length - 1 - j) = j by omega,
            show day + ((rd.arr t j / 1440 : Nat) : Int) - ((rd.arr t j / 1440 : Nat) : Int) = day by omega]
          exact hday
    obtain ⟨day', hd', hact, hde⟩ := hev
    have hstep : routeStep d q time ri rd i j day' t = some legs := by
      unfold routeStep
      dsimp only
      rw [hde, if_neg (by omega), if_neg (by omega), if_neg (by simp [hday])]
      exact hc
    refine ⟨routeGen d q time ri rd i j, ?_, legs, ?_, ?_⟩
    · unfold gens routeGens
      rw [List.mem_append, List.mem_flatMap]
      refine Or.inl ⟨(rd, ri), by rw [List.mem_zipIdx_iff_getElem?]; exact hri, ?_⟩
      rw [if_pos (by rw [Bool.and_eq_true]; exact ⟨visits_of hs hi hj hni hnj, hpass⟩)]
      exact List.mem_map.mpr ⟨(i, j), hpair, rfl⟩
    · unfold routeGen
      rw [List.mem_flatMap]
      refine ⟨day', hd', ?_⟩
      rw [if_pos hact, List.mem_filterMap]
      exact ⟨t, by unfold trOrder; cases d <;> simpa using htn, hstep⟩
    · obtain ⟨dp, ar, g1, g2⟩ := connection_sound hq hc ⟨rd, hri, htn, hday, hm, si, sj, hij, hi, hj, (locOf_eq hi).symm, (locOf_eq hj).symm, hb, ha, hsec, rfl, rfl⟩
      obtain ⟨e1, e2⟩ := trip_times g1
      exact ⟨dp, ar, g1, by rw [hdep, ← e1]; exact hd1, by rw [harr, ← e2]; exact hd2⟩
  | rt ri =>
    obtain ⟨rd, hri, hm, si, sj, hij, hi, hj, hfr, hto, hb, ha, hsec, hdep, harr⟩ := id hr
    have hstops : q.N.vStops (.rt ri) = rd.stops := by simp only [Net.vStops, hri]
    rw [hstops] at hfp
    have hli : r.fr = locOf rd.stops i := by rw [locOf_eq hi]; exact hfr.symm
    have hlj : r.to = locOf rd.stops j := by rw [locOf_eq hj]; exact hto.symm
    have hni : Near q .boarding si.loc := by rw [hfr]; exact ⟨p, _, w, h1⟩
    have hnj : Near q .alighting sj.loc := by rw [hto]; exact ⟨p', _, w', h2⟩
    have hpair := stopPairs_complete hs (hq.rtFlags rd (List.mem_of_getElem? hri)) hij hi hj hb ha hsec hni hnj hfp
    have hpass : passes q.N rd.clasz rd.flags = true := passes_of hm (hsec i (Nat.le_refl _) hij)
    rw [hli, hdep] at h1
    rw [hlj, harr] at h2
    rw [hdep, harr] at hin
    obtain ⟨legs, hc, hd1, hd2⟩ := connection_complete (v := .rt ri) hs ht hw hw' h1 h2 hin
    refine ⟨rtGen d q time ri rd i j, ?_, legs, ?_, ?_⟩
    · unfold gens rtGens
      rw [List.mem_append, List.mem_flatMap]
      refine Or.inr ?_
      refine ⟨(rd, ri), by rw [List.mem_zipIdx_iff_getElem?]; exact hri, ?_⟩
      rw [if_pos (by rw [Bool.and_eq_true]; exact ⟨visits_of hs hi hj hni hnj, hpass⟩)]
      exact List.mem_map.mpr ⟨(i, j), hpair, rfl⟩
    · unfold rtGen
      rw [hc]; exact List.mem_singleton.mpr rfl
    · obtain ⟨dp, ar, g1, g2⟩ := connection_sound hq hc ⟨rd, hri, hm, si, sj, hij, hi, hj, (locOf_eq hi).symm, (locOf_eq hj).symm, hb, ha, hsec, rfl, rfl⟩
      obtain ⟨e1, e2⟩ := trip_times g1
      exact ⟨dp, ar, g1, by rw [hdep, ← e1]; exact hd1, by rw [harr, ← e2]; exact hd2⟩

end Nigiri.Direct
