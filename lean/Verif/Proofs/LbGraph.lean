import Verif.Model.LbGraph
import Verif.Props.Dijkstra
import Verif.Props.Misc
import Verif.Proofs.RaptorScan
/-!
# Proofs about the lower-bound graph
-/

namespace Nigiri.Lb
open Nigiri.Raptor Nigiri.Dijkstra

/-! ## Weights -/

/-- There is an entry for `t` that is at most `d`. -/
def WCov (w : List (Nat × Int)) (t : Nat) (d : Int) : Prop := ∃ x, (t, x) ∈ w ∧ x ≤ d

theorem updateWeight_mono {w : List (Nat × Int)} {t : Nat} {d : Int} (t' : Nat) (d' : Int) (h : WCov w t d) :
    WCov (updateWeight w t' d') t d := by
  obtain ⟨x, h1, h2⟩ := h
  induction w with
  | nil => simp at h1
  | cons a w ih =>
    obtain ⟨ta, da⟩ := a
    unfold updateWeight
    split
    · rename_i he
      rcases List.mem_cons.mp h1 with h1 | h1
      · simp only [Prod.mk.injEq] at h1
        obtain ⟨rfl, rfl⟩ := h1
        exact ⟨min x d', by simp, by omega⟩
      · exact ⟨x, by simp [h1], h2⟩
    · rcases List.mem_cons.mp h1 with h1 | h1
      · exact ⟨x, by simp [h1], h2⟩
      · obtain ⟨y, h3, h4⟩ := ih h1
        exact ⟨y, by simp [h3], h4⟩

theorem updateWeight_hit (w : List (Nat × Int)) (t : Nat) (d : Int) : WCov (updateWeight w t d) t d := by
  induction w with
  | nil => exact ⟨d, by simp [updateWeight], Int.le_refl _⟩
  | cons a w ih =>
    obtain ⟨ta, da⟩ := a
    unfold updateWeight
    split
    · rename_i he; subst he; exact ⟨min da d, by simp, by omega⟩
    · obtain ⟨y, h3, h4⟩ := ih
      exact ⟨y, by simp [h3], h4⟩

theorem updateWeight_targets {w : List (Nat × Int)} {t : Nat} {d : Int} {n : Nat} (hw : ∀ x ∈ w, x.1 < n) (ht : t < n) :
    ∀ x ∈ updateWeight w t d, x.1 < n := by
  induction w with
  | nil => intro x hx; simp [updateWeight] at hx; subst hx; exact ht
  | cons a w ih =>
    obtain ⟨ta, da⟩ := a
    unfold updateWeight
    split
    · intro x hx
      rcases List.mem_cons.mp hx with rfl | hx
      · exact hw (ta, da) (by simp)
      · exact hw x (by simp [hx])
    · intro x hx
      rcases List.mem_cons.mp hx with rfl | hx
      · exact hw (ta, da) (by simp)
      · exact ih (fun x hx => hw x (by simp [hx])) x hx

theorem minTravel_le (r : RouteData) (s t : Nat) (ht : t < r.nTr) : minTravel r s ≤ (r.arr t (s + 1) : Int) - r.dep t s := by
  unfold minTravel
  apply foldl_hit (fun m : Int => m ≤ (r.arr t (s + 1) : Int) - r.dep t s) _ _ _ t (by simpa using ht)
  · intro m; omega
  · intro m t' h; omega

theorem addSection_mono {T : Tt} {d : Dir} {l : Nat} {r : RouteData} {w : List (Nat × Int)} {s t : Nat} {x : Int} (h : WCov w t x) :
    WCov (addSection T d l r w s) t x := by
  unfold addSection
  simp only
  split
  · exact h
  · split
    · exact h
    · exact updateWeight_mono _ _ h

theorem addSections_mono {T : Tt} {d : Dir} {l : Nat} {r : RouteData} {ss : List Nat} {w : List (Nat × Int)} {t : Nat} {x : Int} (h : WCov w t x) :
    WCov (ss.foldl (addSection T d l r) w) t x :=
  foldl_inv (fun w => WCov w t x) _ _ _ h (fun _ _ _ h => addSection_mono h)

theorem addEdges_mono {T : Tt} {d : Dir} {l : Nat} {w : List (Nat × Int)} {t : Nat} {x : Int} (h : WCov w t x) : WCov (addEdges T d w l) t x := by
  unfold addEdges
  simp only
  apply foldl_inv (fun w => WCov w t x)
  · apply foldl_inv (fun w => WCov w t x) _ _ _ h
    intro w fp _ h
    split
    · exact updateWeight_mono _ _ h
    · exact h
  · intro w r _ h; exact addSections_mono h

theorem addEdges_fp {T : Tt} {d : Dir} {l : Nat} {w : List (Nat × Int)} {e : Edge} (he : e ∈ T.fpsAgainst d l)
    (hne : T.root e.target ≠ T.root l) : WCov (addEdges T d w l) (T.root e.target) e.duration := by
  unfold addEdges
  simp only
  apply foldl_inv (fun w => WCov w (T.root e.target) e.duration)
  · apply foldl_hit (fun w => WCov w (T.root e.target) e.duration) _ _ _ e he
    · intro w; rw [if_pos hne]; exact updateWeight_hit _ _ _
    · intro w fp h
      split
      · exact updateWeight_mono _ _ h
      · exact h
  · intro w r _ h; exact addSections_mono h

theorem locAt_mem {stops : List StopData} {s : Nat} (h : s < stops.length) : ∃ x ∈ stops, x.loc = locAt stops s := by
  refine ⟨stops[s], List.getElem_mem h, ?_⟩
  unfold locAt
  simp [List.getD_eq_getElem?_getD, h]

theorem locAt_get {stops : List StopData} {s : Nat} {x : StopData} (h : stops[s]? = some x) : locAt stops s = x.loc := by
  unfold locAt
  simp [List.getD_eq_getElem?_getD, h]

theorem addEdges_section {T : Tt} {d : Dir} {w : List (Nat × Int)} {r : RouteData} (hr : r ∈ T.routes) {s : Nat} (hs : s + 1 < r.stops.length)
    (hne : T.root (sectionEnds d r.stops s).2 ≠ T.root (sectionEnds d r.stops s).1) :
    WCov (addEdges T d w (sectionEnds d r.stops s).1) (T.root (sectionEnds d r.stops s).2) (minTravel r s) := by
  unfold addEdges
  simp only
  apply foldl_hit (fun w => WCov w (T.root (sectionEnds d r.stops s).2) (minTravel r s)) _ _ _ r
  · rw [List.mem_filter]
    refine ⟨hr, ?_⟩
    rw [List.any_eq_true]
    cases d with
    | fwd =>
      obtain ⟨x, h1, h2⟩ := locAt_mem (stops := r.stops) (s := s + 1) hs
      exact ⟨x, h1, by simpa [sectionEnds] using h2⟩
    | bwd =>
      obtain ⟨x, h1, h2⟩ := locAt_mem (stops := r.stops) (s := s) (by omega)
      exact ⟨x, h1, by simpa [sectionEnds] using h2⟩
  · intro w
    apply foldl_hit (fun w => WCov w (T.root (sectionEnds d r.stops s).2) (minTravel r s)) _ _ _ s
    · simp; omega
    · intro w
      unfold addSection
      simp only
      rw [if_neg (by simp), if_neg hne]
      exact updateWeight_hit _ _ _
    · intro w s' h; exact addSection_mono h
  · intro w r' h; exact addSections_mono h

/-- There is an edge from `u` to `v` that takes at most `d`. -/
def Cov (es : Nat → List Edge) (u v : Nat) (d : Int) : Prop := ∃ e ∈ es u, e.target = v ∧ (e.duration : Int) ≤ d

theorem lbEdges_cov {T : Tt} {d : Dir} {i l : Nat} (hp : T.parent i = none) (hl : l ∈ group T i) {t : Nat} {x y : Int}
    (h : ∀ w, WCov (addEdges T d w l) t x) (hxy : x ≤ y) (hy : 0 ≤ y) : Cov (lbEdges T d) i t y := by
  have : WCov ((group T i).foldl (addEdges T d) []) t x :=
    foldl_hit (fun w => WCov w t x) _ _ _ l hl h (fun w l h => addEdges_mono h)
  obtain ⟨z, h1, h2⟩ := this
  refine ⟨⟨t, (min 511 z).toNat⟩, ?_, rfl, ?_⟩
  · unfold lbEdges
    rw [hp]
    exact List.mem_map.mpr ⟨(t, z), h1, rfl⟩
  · simp only; omega

/-! ## Real-time edges -/

def RtCov (static : Nat → List Edge) (st : RtLb) (u v : Nat) (d : Int) : Prop :=
  Cov static u v d ∨ (st.has u = true ∧ Cov st.lbs u v d)

theorem isFastest_false {es : List Edge} {fp : Edge} (h : isFastest es fp = false) :
    ∃ e ∈ es, e.target = fp.target ∧ e.duration ≤ fp.duration := by
  unfold isFastest at h
  split at h
  · cases h
  · rename_i x hx
    have h1 := List.find?_some hx
    have h2 := List.mem_of_find?_eq_some hx
    simp at h h1
    exact ⟨x, h2, h1, h⟩

theorem setFirst_cov {es : List Edge} {fp : Edge} (h : isFastest es fp = true) {v : Nat} {d : Int}
    (hc : ∃ e ∈ es, e.target = v ∧ (e.duration : Int) ≤ d) : ∃ e ∈ setFirst es fp, e.target = v ∧ (e.duration : Int) ≤ d := by
  induction es with
  | nil => simp at hc
  | cons a es ih =>
    obtain ⟨e, h1, h2, h3⟩ := hc
    unfold setFirst
    by_cases ht : a.target = fp.target
    · rw [if_pos ht]
      have hlt : fp.duration < a.duration := by
        unfold isFastest at h
        rw [List.find?_cons_of_pos (by simp [ht])] at h
        simpa using h
      rcases List.mem_cons.mp h1 with rfl | h1
      · exact ⟨⟨e.target, fp.duration⟩, by simp, h2, by simp only; omega⟩
      · exact ⟨e, by simp [h1], h2, h3⟩
    · rw [if_neg ht]
      rcases List.mem_cons.mp h1 with rfl | h1
      · exact ⟨e, by simp, h2, h3⟩
      · obtain ⟨e', g1, g2, g3⟩ := ih (by
          unfold isFastest at h ⊢
          rwa [List.find?_cons_of_neg (by simp [ht])] at h) ⟨e, h1, h2, h3⟩
        exact ⟨e', by simp [g1], g2, g3⟩

theorem updateRtLb_mono {static : Nat → List Edge} {st : RtLb} {src : Nat} {fp : Edge} {u v : Nat} {d : Int}
    (h : RtCov static st u v d) : RtCov static (updateRtLb static st src fp) u v d := by
  unfold updateRtLb
  by_cases h1 : isFastest (static src) fp = true
  · rw [if_neg (by simp [h1])]
    rcases h with h | ⟨hh, e, g1, g2, g3⟩
    · exact Or.inl h
    · by_cases h2 : st.has src = true
      · rw [if_neg (by simp [h2])]
        by_cases h3 : isFastest (st.lbs src) fp = true
        · rw [if_neg (by simp [h3])]
          right
          refine ⟨hh, ?_⟩
          unfold Cov
          simp only [upd]
          split
          · rename_i hu; subst hu
            obtain ⟨e', k1, k2, k3⟩ := setFirst_cov h3 ⟨e, g1, g2, g3⟩
            exact ⟨e', by simp [k1], k2, k3⟩
          · exact ⟨e, g1, g2, g3⟩
        · rw [if_pos (by simp [h3])]
          exact Or.inr ⟨hh, e, g1, g2, g3⟩
      · rw [if_pos (by simp [h2])]
        right
        have hu : u ≠ src := by rintro rfl; exact h2 hh
        refine ⟨by simp [upd, hu, hh], e, ?_, g2, g3⟩
        simp [upd, hu, g1]
  · rw [if_pos (by simp [h1])]
    exact h

theorem updateRtLb_hit (static : Nat → List Edge) (st : RtLb) (src : Nat) (fp : Edge) :
    RtCov static (updateRtLb static st src fp) src fp.target fp.duration := by
  unfold updateRtLb
  by_cases h1 : isFastest (static src) fp = true
  · rw [if_neg (by simp [h1])]
    by_cases h2 : st.has src = true
    · rw [if_neg (by simp [h2])]
      by_cases h3 : isFastest (st.lbs src) fp = true
      · rw [if_neg (by simp [h3])]
        exact Or.inr ⟨h2, fp, by simp [upd], rfl, Int.le_refl _⟩
      · rw [if_pos (by simp [h3])]
        obtain ⟨e, g1, g2, g3⟩ := isFastest_false (by simpa using h3)
        exact Or.inr ⟨h2, e, g1, g2, by omega⟩
    · rw [if_pos (by simp [h2])]
      exact Or.inr ⟨by simp [upd], fp, by simp [upd], rfl, Int.le_refl _⟩
  · rw [if_pos (by simp [h1])]
    obtain ⟨e, g1, g2, g3⟩ := isFastest_false (by simpa using h1)
    exact Or.inl ⟨e, g1, g2, by omega⟩

theorem updateSection_mono {T : Tt} {d : Dir} {static : Nat → List Edge} {r : RtData} {st : RtLb} {s u v : Nat} {x : Int}
    (h : RtCov static st u v x) : RtCov static (updateSection T d static r st s) u v x := by
  unfold updateSection
  simp only
  split
  · exact h
  · split
    · exact h
    · exact updateRtLb_mono h

theorem updateLbs_cov {T : Tt} {d : Dir} {has : Nat → Bool} {r : RtData} (hr : r ∈ T.rts) {s : Nat} (hs : s + 1 < r.stops.length)
    (hne : T.root (sectionEnds d r.stops s).1 ≠ T.root (sectionEnds d r.stops s).2) (htr : r.dep s ≤ r.arr (s + 1)) :
    RtCov (lbEdges T d) (updateLbs T d has) (T.root (sectionEnds d r.stops s).1) (T.root (sectionEnds d r.stops s).2) (r.arr (s + 1) - r.dep s) := by
  unfold updateLbs
  apply foldl_hit (fun st => RtCov (lbEdges T d) st (T.root (sectionEnds d r.stops s).1) (T.root (sectionEnds d r.stops s).2) (r.arr (s + 1) - r.dep s))
    _ _ _ r hr
  · intro st
    apply foldl_hit (fun st => RtCov (lbEdges T d) st (T.root (sectionEnds d r.stops s).1) (T.root (sectionEnds d r.stops s).2) (r.arr (s + 1) - r.dep s))
      _ _ _ s (by simp; omega)
    · intro st
      unfold updateSection
      simp only
      rw [if_neg (by omega), if_neg hne]
      have := updateRtLb_hit (lbEdges T d) st (T.root (sectionEnds d r.stops s).1)
        ⟨T.root (sectionEnds d r.stops s).2, (min 511 (r.arr (s + 1) - r.dep s)).toNat⟩
      simp only at this
      rcases this with ⟨e, g1, g2, g3⟩ | ⟨h, e, g1, g2, g3⟩
      · exact Or.inl ⟨e, g1, g2, by omega⟩
      · exact Or.inr ⟨h, e, g1, g2, by omega⟩
    · intro st s' h; exact updateSection_mono h
  · intro st r' h
    exact foldl_inv (fun st => RtCov (lbEdges T d) st (T.root (sectionEnds d r.stops s).1) (T.root (sectionEnds d r.stops s).2) (r.arr (s + 1) - r.dep s))
      _ _ _ h (fun st s' _ h => updateSection_mono h)

/-! ## Targets are locations -/

theorem addEdges_targets {T : Tt} {d : Dir} {n : Nat} (hroot : ∀ l, l < n → T.root l < n)
    (hfp : ∀ l, ∀ e ∈ T.fpsAgainst d l, e.target < n) (hst : ∀ r ∈ T.routes, ∀ s ∈ r.stops, s.loc < n) (w : List (Nat × Int)) (l : Nat)
    (hw : ∀ x ∈ w, x.1 < n) : ∀ x ∈ addEdges T d w l, x.1 < n := by
  unfold addEdges
  simp only
  apply foldl_inv (fun w : List (Nat × Int) => ∀ x ∈ w, x.1 < n)
  · apply foldl_inv (fun w : List (Nat × Int) => ∀ x ∈ w, x.1 < n) _ _ _ hw
    intro w fp hfp' h
    split
    · exact updateWeight_targets h (hroot _ (hfp l fp hfp'))
    · exact h
  · intro w r hr h
    apply foldl_inv (fun w : List (Nat × Int) => ∀ x ∈ w, x.1 < n) _ _ _ h
    intro w s hs h
    have hs' : s + 1 < r.stops.length := by simp at hs; omega
    unfold addSection
    simp only
    split
    · exact h
    · split
      · exact h
      · refine updateWeight_targets h (hroot _ ?_)
        have hr' := (List.mem_filter.mp hr).1
        cases d with
        | fwd =>
          obtain ⟨x, h1, h2⟩ := locAt_mem (stops := r.stops) (s := s) (by omega)
          simp only [sectionEnds]; rw [← h2]; exact hst r hr' x h1
        | bwd =>
          obtain ⟨x, h1, h2⟩ := locAt_mem (stops := r.stops) (s := s + 1) hs'
          simp only [sectionEnds]; rw [← h2]; exact hst r hr' x h1

theorem lbEdges_targets {T : Tt} {d : Dir} {n : Nat} (hroot : ∀ l, l < n → T.root l < n)
    (hfp : ∀ l, ∀ e ∈ T.fpsAgainst d l, e.target < n) (hst : ∀ r ∈ T.routes, ∀ s ∈ r.stops, s.loc < n) (i : Nat) :
    ∀ e ∈ lbEdges T d i, e.target < n := by
  unfold lbEdges
  split
  · simp
  · intro e he
    obtain ⟨x, hx, rfl⟩ := List.mem_map.mp he
    exact foldl_inv (fun w : List (Nat × Int) => ∀ x ∈ w, x.1 < n) _ _ _ (by simp)
      (fun w l _ h => addEdges_targets hroot hfp hst w l h) x hx

theorem setFirst_targets {es : List Edge} {fp : Edge} {n : Nat} (h : ∀ e ∈ es, e.target < n) : ∀ e ∈ setFirst es fp, e.target < n := by
  induction es with
  | nil => simp [setFirst]
  | cons a es ih =>
    unfold setFirst
    split
    · intro e he
      rcases List.mem_cons.mp he with rfl | he
      · exact h a (by simp)
      · exact h e (by simp [he])
    · intro e he
      rcases List.mem_cons.mp he with rfl | he
      · exact h e (by simp)
      · exact ih (fun e he => h e (by simp [he])) e he

theorem updateLbs_targets {T : Tt} {d : Dir} {has : Nat → Bool} {n : Nat} (hroot : ∀ l, l < n → T.root l < n)
    (hst : ∀ r ∈ T.rts, ∀ s ∈ r.stops, s.loc < n) (i : Nat) : ∀ e ∈ (updateLbs T d has).lbs i, e.target < n := by
  unfold updateLbs
  revert i
  apply foldl_inv (fun st : RtLb => ∀ i, ∀ e ∈ st.lbs i, e.target < n)
  · simp
  · intro st r hr h
    apply foldl_inv (fun st : RtLb => ∀ i, ∀ e ∈ st.lbs i, e.target < n) _ _ _ h
    intro st s hs h i
    have hs' : s + 1 < r.stops.length := by simp at hs; omega
    have htgt : T.root (sectionEnds d r.stops s).2 < n := by
      apply hroot
      cases d with
      | fwd =>
        obtain ⟨x, h1, h2⟩ := locAt_mem (stops := r.stops) (s := s) (by omega)
        simp only [sectionEnds]; rw [← h2]; exact hst r hr x h1
      | bwd =>
        obtain ⟨x, h1, h2⟩ := locAt_mem (stops := r.stops) (s := s + 1) hs'
        simp only [sectionEnds]; rw [← h2]; exact hst r hr x h1
    unfold updateSection
    simp only
    split
    · exact h i
    · split
      · exact h i
      · unfold updateRtLb
        split
        · exact h i
        · split
          · simp only [upd]
            split
            · intro e he
              rcases List.mem_append.mp he with he | he
              · exact h _ e he
              · simp at he; subst he; exact htgt
            · exact h i
          · split
            · exact h i
            · simp only [upd]
              split
              · intro e he
                rcases List.mem_append.mp he with he | he
                · exact setFirst_targets (h _) e he
                · simp at he; subst he; exact htgt
              · exact h i

/-! ## The start of the search -/

/-- There is an entry for `l` that is at most `d`. -/
def MCov (m : List (Nat × Nat)) (l d : Nat) : Prop := ∃ x, (l, x) ∈ m ∧ x ≤ d

theorem updateMin_mono {m : List (Nat × Nat)} {l d : Nat} (l' d' : Nat) (h : MCov m l d) : MCov (updateMin m l' d') l d := by
  obtain ⟨x, h1, h2⟩ := h
  induction m with
  | nil => simp at h1
  | cons a m ih =>
    obtain ⟨la, da⟩ := a
    unfold updateMin
    split
    · exact ⟨x, by simp only [List.mem_cons] at h1 ⊢; exact Or.inr h1, h2⟩
    · split
      · rcases List.mem_cons.mp h1 with h1 | h1
        · simp only [Prod.mk.injEq] at h1
          obtain ⟨rfl, rfl⟩ := h1
          exact ⟨min d' x, by simp, by omega⟩
        · exact ⟨x, by simp [h1], h2⟩
      · rcases List.mem_cons.mp h1 with h1 | h1
        · exact ⟨x, by simp [h1], h2⟩
        · obtain ⟨y, g1, g2⟩ := ih h1
          exact ⟨y, by simp [g1], g2⟩

theorem updateMin_hit (m : List (Nat × Nat)) (l d : Nat) : MCov (updateMin m l d) l d := by
  induction m with
  | nil => exact ⟨min d 65535, by simp [updateMin], by omega⟩
  | cons a m ih =>
    obtain ⟨la, da⟩ := a
    unfold updateMin
    split
    · exact ⟨min d 65535, by simp, by omega⟩
    · split
      · rename_i h; subst h; exact ⟨min d da, by simp, by omega⟩
      · obtain ⟨y, g1, g2⟩ := ih
        exact ⟨y, by simp [g1], g2⟩

theorem updateMin_all {Q : Nat × Nat → Prop} (hQ : ∀ l a b, Q (l, a) → b ≤ a → Q (l, b)) {m : List (Nat × Nat)} {l d : Nat}
    (hm : ∀ x ∈ m, Q x) (hl : Q (l, d)) : ∀ x ∈ updateMin m l d, Q x := by
  induction m with
  | nil => intro x hx; simp [updateMin] at hx; subst hx; exact hQ l d _ hl (by omega)
  | cons a m ih =>
    obtain ⟨la, da⟩ := a
    unfold updateMin
    split
    · intro x hx
      rcases List.mem_cons.mp hx with rfl | hx
      · exact hQ l d _ hl (by omega)
      · exact hm x hx
    · split
      · intro x hx
        rcases List.mem_cons.mp hx with rfl | hx
        · exact hQ la da _ (hm _ (by simp)) (by omega)
        · exact hm x (by simp [hx])
      · intro x hx
        rcases List.mem_cons.mp hx with rfl | hx
        · exact hm _ (by simp)
        · exact ih (fun x hx => hm x (by simp [hx])) x hx

theorem minMap_dest {T : Tt} {q : Qry} {o : Nat × Nat} (ho : o ∈ q.dest) {x : Nat} (hx : x ∈ forEachMeta T q.mode o.1) :
    MCov (minMap T q) (T.root x) o.2 := by
  unfold minMap
  simp only
  apply foldl_inv (fun m => MCov m (T.root x) o.2)
  · apply foldl_hit (fun m => MCov m (T.root x) o.2) _ _ _ o ho
    · intro m
      apply foldl_hit (fun m => MCov m (T.root x) o.2) _ _ _ x hx
      · intro m; exact updateMin_hit _ _ _
      · intro m y h; exact updateMin_mono _ _ h
    · intro m o' h
      exact foldl_inv (fun m => MCov m (T.root x) o.2) _ _ _ h (fun m y _ h => updateMin_mono _ _ h)
  · intro m td _ h
    apply foldl_inv (fun m => MCov m (T.root x) o.2) _ _ _ h
    intro m dur _ h
    split
    · exact updateMin_mono _ _ h
    · exact h

theorem minMap_td {T : Tt} {q : Qry} {td : Nat × List Nat} (htd : td ∈ q.tdDest) {dur : Nat} (hd : dur ∈ td.2) (h1 : dur ≠ 511)
    (h2 : dur < q.maxTravel) : MCov (minMap T q) (T.root td.1) dur := by
  unfold minMap
  simp only
  apply foldl_hit (fun m => MCov m (T.root td.1) dur) _ _ _ td htd
  · intro m
    apply foldl_hit (fun m => MCov m (T.root td.1) dur) _ _ _ dur hd
    · intro m; rw [if_pos ⟨h1, h2⟩]; exact updateMin_hit _ _ _
    · intro m y h
      split
      · exact updateMin_mono _ _ h
      · exact h
  · intro m td' h
    apply foldl_inv (fun m => MCov m (T.root td.1) dur) _ _ _ h
    intro m y _ h
    split
    · exact updateMin_mono _ _ h
    · exact h

/-- All entries are roots of destinations, with a distance below the number of buckets. -/
theorem minMap_all {T : Tt} {q : Qry} {Q : Nat × Nat → Prop} (hQ : ∀ l a b, Q (l, a) → b ≤ a → Q (l, b))
    (h1 : ∀ o ∈ q.dest, ∀ x ∈ forEachMeta T q.mode o.1, Q (T.root x, o.2))
    (h2 : ∀ td ∈ q.tdDest, ∀ dur ∈ td.2, dur < q.maxTravel → Q (T.root td.1, dur)) : ∀ x ∈ minMap T q, Q x := by
  unfold minMap
  simp only
  apply foldl_inv (fun m : List (Nat × Nat) => ∀ x ∈ m, Q x)
  · apply foldl_inv (fun m : List (Nat × Nat) => ∀ x ∈ m, Q x) _ _ _ (by simp)
    intro m o ho h
    apply foldl_inv (fun m : List (Nat × Nat) => ∀ x ∈ m, Q x) _ _ _ h
    intro m y hy h
    exact updateMin_all hQ h (h1 o ho y hy)
  · intro m td htd h
    apply foldl_inv (fun m : List (Nat × Nat) => ∀ x ∈ m, Q x) _ _ _ h
    intro m dur hd h
    split
    · rename_i hc; exact updateMin_all hQ h (h2 td htd dur hd hc.2)
    · exact h

structure InitInv (n : Nat) (s : Init) : Prop where
  inv : Dial.Inv Label.bucket s.1
  buckets : s.1.nBuckets = 7201
  len : s.2.length = n
  queued : ∀ x ∈ s.1.buckets.flatten, ∃ d, s.2[x.l]? = some d ∧ d ≤ x.d
  labelled : ∀ v d, s.2[v]? = some d → d < 65535 → ⟨v, d⟩ ∈ s.1.buckets.flatten
  small : ∀ d ∈ s.2, d ≤ 65535

theorem initPush_spec {n : Nat} {s : Init} (h : InitInv n s) {x : Nat × Nat} (hl : x.1 < n) (hd : x.2 ≤ 7200) :
    ∃ s', initPush s x = some s' ∧ InitInv n s' ∧ (∀ v, s'.2.getD v 65535 ≤ s.2.getD v 65535) ∧ s'.2.getD x.1 65535 ≤ x.2 := by
  obtain ⟨pq, h1, h2, h3, h4⟩ := Dial.push_spec h.inv ⟨x.1, x.2⟩ (show x.2 < s.1.nBuckets by rw [h.buckets]; omega)
  have hlen := h.len
  have hx : s.2[x.1]? = some (s.2[x.1]'(by omega)) := by rw [List.getElem?_eq_getElem]
  generalize hc : s.2[x.1]'(by omega) = cur at hx
  refine ⟨(pq, s.2.set x.1 (min x.2 cur)), by unfold initPush; rw [h1, hx], ⟨h2, by rw [h3, h.buckets], by simp [hlen], ?_, ?_, ?_⟩, ?_, ?_⟩
  · intro y hy
    rcases List.mem_cons.mp (h4.mem_iff.mp hy) with rfl | hy
    · exact ⟨min x.2 cur, List.getElem?_set_self (by omega), by simp only; omega⟩
    · obtain ⟨d, g1, g2⟩ := h.queued y hy
      by_cases he : x.1 = y.l
      · rw [← he] at g1; rw [hx] at g1; cases g1
        exact ⟨min x.2 cur, by rw [← he]; exact List.getElem?_set_self (by omega), by omega⟩
      · exact ⟨d, by simp [List.getElem?_set, he, g1], g2⟩
  · intro v d hv hd'
    show _ ∈ Dial.contents pq
    rw [h4.mem_iff]
    simp only [List.getElem?_set] at hv
    split at hv
    · rename_i he; subst he
      rw [if_pos (by omega)] at hv
      have hv := Option.some.inj hv
      by_cases hle : x.2 ≤ cur
      · have : d = x.2 := by omega
        subst this; simp
      · have : d = cur := by omega
        subst this
        exact List.mem_cons_of_mem _ (h.labelled x.1 d hx hd')
    · exact List.mem_cons_of_mem _ (h.labelled v d hv hd')
  · intro d hd'
    rcases List.mem_or_eq_of_mem_set hd' with g | g
    · exact h.small d g
    · omega
  · intro v
    simp only [List.getD_eq_getElem?_getD, List.getElem?_set]
    split
    · rename_i he; subst he
      rw [if_pos (by omega), hx]
      simp only [Option.getD_some]; omega
    · exact Nat.le_refl _
  · simp only [List.getD_eq_getElem?_getD]
    rw [List.getElem?_set_self (by omega)]
    simp only [Option.getD_some]; omega

theorem initPushes_spec {n : Nat} (xs : List (Nat × Nat)) : ∀ {s : Init}, InitInv n s → (∀ x ∈ xs, x.1 < n ∧ x.2 ≤ 7200) →
    ∃ s', xs.foldlM initPush s = some s' ∧ InitInv n s' ∧ (∀ v, s'.2.getD v 65535 ≤ s.2.getD v 65535) ∧
      ∀ x ∈ xs, s'.2.getD x.1 65535 ≤ x.2 := by
  induction xs with
  | nil => intro s h _; exact ⟨s, rfl, h, fun _ => Nat.le_refl _, by simp⟩
  | cons x xs ih =>
    intro s h hx
    obtain ⟨s1, g1, g2, g3, g4⟩ := initPush_spec h (hx x (by simp)).1 (hx x (by simp)).2
    obtain ⟨s2, k1, k2, k3, k4⟩ := ih g2 (fun y hy => hx y (by simp [hy]))
    refine ⟨s2, ?_, k2, fun v => Nat.le_trans (k3 v) (g3 v), ?_⟩
    · rw [List.foldlM_cons, g1]; exact k1
    · intro y hy
      rcases List.mem_cons.mp hy with rfl | hy
      · exact Nat.le_trans (k3 _) g4
      · exact k4 y hy

theorem initInv_begin (n : Nat) : InitInv n (Dial.make 7200, List.replicate n 65535) := by
  have he : (Dial.make 7200 : Dial Label) = Dial.ofBuckets 7201 := rfl
  have hc := Dial.contents_ofBuckets (α := Label) 7201
  refine ⟨?_, ?_, by simp, ?_, ?_, ?_⟩
  · rw [he]; exact Dial.inv_ofBuckets 7201
  · unfold Dial.nBuckets Dial.make; exact List.length_replicate
  · intro x hx
    have : x ∈ Dial.contents (Dial.ofBuckets 7201 : Dial Label) := hx
    rw [hc] at this; simp at this
  · intro v d hv hd
    have hv' : (List.replicate n 65535)[v]? = some d := hv
    rw [List.getElem?_replicate] at hv'
    split at hv'
    · have := Option.some.inj hv'; omega
    · cases hv'
  · intro d hd
    have := List.eq_of_mem_replicate hd
    omega

/-! ## Propagation to children -/

theorem getD_set_le (ds : List Nat) (c v j : Nat) (h : v ≤ ds.getD c 65535) : (ds.set c v).getD j 65535 ≤ ds.getD j 65535 := by
  simp only [List.getD_eq_getElem?_getD, List.getElem?_set] at h ⊢
  split
  · rename_i he; subst he
    split
    · exact h
    · rw [List.getElem?_eq_none (by omega)]; exact Nat.le_refl _
  · exact Nat.le_refl _

theorem propagateOne_le (T : Tt) (ds : List Nat) (i : Nat) :
    (propagateOne T ds i).length = ds.length ∧ ∀ j, (propagateOne T ds i).getD j 65535 ≤ ds.getD j 65535 := by
  unfold propagateOne
  apply foldl_inv (fun x : List Nat => x.length = ds.length ∧ ∀ j, x.getD j 65535 ≤ ds.getD j 65535)
  · exact ⟨rfl, fun _ => Nat.le_refl _⟩
  · intro x c _ h
    refine ⟨by simp [h.1], fun j => ?_⟩
    exact Nat.le_trans (getD_set_le _ _ _ _ (by omega)) (h.2 j)

theorem propagateOne_child (T : Tt) (ds : List Nat) {i c : Nat} (hc : c ∈ T.children i) (hl : c < ds.length) :
    (propagateOne T ds i).getD c 65535 ≤ ds.getD i 65535 := by
  unfold propagateOne
  have hlen : ∀ (l : List Nat) (x : List Nat), x.length = ds.length →
      (l.foldl (fun ds' c => ds'.set c (min (ds.getD i 65535) (ds'.getD c 65535))) x).length = ds.length := by
    intro l x h
    exact foldl_inv (fun x : List Nat => x.length = ds.length) _ _ _ h (fun x c _ h => by simp [h])
  have key : ∀ (l : List Nat) (x : List Nat), c ∈ l → x.length = ds.length →
      (l.foldl (fun ds' c => ds'.set c (min (ds.getD i 65535) (ds'.getD c 65535))) x).getD c 65535 ≤ ds.getD i 65535 := by
    intro l
    induction l with
    | nil => intro x h; simp at h
    | cons a l ih =>
      intro x h hx
      simp only [List.foldl_cons]
      by_cases hm : c ∈ l
      · exact ih _ hm (by simp [hx])
      · have hac : a = c := by
          rcases List.mem_cons.mp h with h | h
          · exact h.symm
          · exact absurd h hm
        subst hac
        apply foldl_inv (fun x : List Nat => x.getD a 65535 ≤ ds.getD i 65535)
        · simp only [List.getD_eq_getElem?_getD]
          rw [List.getElem?_set_self (by omega)]
          simp only [Option.getD_some]; omega
        · intro y b _ hy
          exact Nat.le_trans (getD_set_le _ _ _ _ (by omega)) hy
  exact key _ _ hc rfl

theorem propagate_fold (T : Tt) (l : List Nat) (ds : List Nat) :
    (l.foldl (propagateOne T) ds).length = ds.length ∧ ∀ j, (l.foldl (propagateOne T) ds).getD j 65535 ≤ ds.getD j 65535 := by
  apply foldl_inv (fun x : List Nat => x.length = ds.length ∧ ∀ j, x.getD j 65535 ≤ ds.getD j 65535)
  · exact ⟨rfl, fun _ => Nat.le_refl _⟩
  · intro x c _ h
    have := propagateOne_le T x c
    exact ⟨by rw [this.1, h.1], fun j => Nat.le_trans (this.2 j) (h.2 j)⟩

theorem propagate_le (T : Tt) (ds : List Nat) (j : Nat) : (propagate T ds).getD j 65535 ≤ ds.getD j 65535 := (propagate_fold T _ ds).2 j

/-- After step `i` of `n` (`i < n`), a child of `i` is at most what `i` was then. -/
theorem range_split {n i : Nat} (h : i < n) : List.range n = List.range i ++ i :: List.range' (i + 1) (n - i - 1) := by
  rw [List.range_eq_range', List.range_eq_range', show n = i + ((n - i - 1) + 1) by omega, ← List.range'_append_1]
  congr 1
  rw [List.range'_succ]
  simp

theorem propagate_child (T : Tt) (ds : List Nat) (hlen : ds.length = T.nLoc) {i c : Nat} (hi : i < T.nLoc) (hc : c ∈ T.children i) (hcl : c < T.nLoc) :
    (propagate T ds).getD c 65535 ≤ ((List.range i).foldl (propagateOne T) ds).getD i 65535 := by
  unfold propagate
  rw [range_split hi, List.foldl_append, List.foldl_cons]
  have h1 := propagate_fold T (List.range i) ds
  exact Nat.le_trans ((propagate_fold T _ _).2 c) (propagateOne_child T _ hc (by rw [h1.1]; omega))

theorem propagate_grandchild (T : Tt) (ds : List Nat) (hlen : ds.length = T.nLoc) {g p c : Nat} (hgp : g < p) (hp : p < T.nLoc)
    (hpg : p ∈ T.children g) (hc : c ∈ T.children p) (hcl : c < T.nLoc) : (propagate T ds).getD c 65535 ≤ ds.getD g 65535 := by
  refine Nat.le_trans (propagate_child T ds hlen hp hc hcl) ?_
  rw [range_split hgp, List.foldl_append, List.foldl_cons]
  have h1 := propagate_fold T (List.range g) ds
  refine Nat.le_trans ((propagate_fold T _ _).2 p) (Nat.le_trans (propagateOne_child T _ hpg (by rw [h1.1]; omega)) (h1.2 g))

end Nigiri.Lb
