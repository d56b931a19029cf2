import Verif.Proofs.LbGraph
import Verif.Props.Raptor
/-!
# Property C22: lower bounds never exceed the true travel time
-/

namespace Nigiri.Lb
open Nigiri.Raptor Nigiri.Dijkstra

/-! ## Specification -/

/-- One section of a vehicle: from a stop to the next one in search direction, with the travel time of one of
its trips. -/
def Hop (d : Dir) (N : Net) (l m : Loc) (w : Int) : Prop :=
  ∃ (stops : List StopData) (dep arr : Nat → Int) (s : Nat) (x y : StopData), stops[s]? = some x ∧ stops[s + 1]? = some y ∧
    w = arr (s + 1) - dep s ∧ (match d with | .fwd => x.loc = l ∧ y.loc = m | .bwd => y.loc = l ∧ x.loc = m) ∧
    ((∃ r ∈ N.routes, ∃ t, t < r.nTr ∧ stops = r.stops ∧ (∀ i, dep i = r.dep t i) ∧ ∀ i, arr i = r.arr t i) ∨
     (∃ r ∈ N.rts, stops = r.stops ∧ dep = r.dep ∧ arr = r.arr))

/-- `Opt d N root l c`: from `l` the destination can be reached in `c` minutes by riding sections and walking,
if one never waits, changes for free, and all locations of a station (same root) count as one place. -/
inductive Opt (d : Dir) (N : Net) (root : Loc → Loc) : Loc → Int → Prop
  | arrive {m a A} : Arrive N m a A → Opt d N root m (A - a)
  | hop {l m w c} : Hop d N l m w → Opt d N root m c → Opt d N root l (c + w)
  | walk {m a l' w c} : (l', w) ∈ N.fps m a → Opt d N root l' c → Opt d N root m (c + w)
  | station {l m c} : root l = root m → Opt d N root m c → Opt d N root l c

/-- The station hierarchy and footpaths of a loaded timetable: at most three levels, children and parents
agree, incoming footpaths are the outgoing ones reversed; a station precedes its platforms' parents in the
numbering (see `C22_order_counterexample`). -/
structure TtOk (T : Tt) : Prop where
  child : ∀ c p, c ∈ T.children p ↔ T.parent c = some p
  depth : ∀ l p g, T.parent l = some p → T.parent p = some g → T.parent g = none
  order : ∀ l p g, T.parent l = some p → T.parent p = some g → g < p
  locs : ∀ c p, T.parent c = some p → c < T.nLoc ∧ p < T.nLoc
  equivLocs : ∀ l, ∀ e ∈ T.equiv l, e < T.nLoc
  transposed : ∀ l l' w, ⟨l', w⟩ ∈ T.fpsOut l ↔ (⟨l, w⟩ : Edge) ∈ T.fpsIn l'
  fpLocs : ∀ l l' w, (⟨l', w⟩ : Edge) ∈ T.fpsOut l → l < T.nLoc ∧ l' < T.nLoc
  stopLocs : ∀ r ∈ T.routes, ∀ s ∈ r.stops, s.loc < T.nLoc
  rtLocs : ∀ r ∈ T.rts, ∀ s ∈ r.stops, s.loc < T.nLoc
  trips : ∀ r ∈ T.routes, 0 < r.nTr

/-- Destinations are known locations not more than five days away. -/
structure QryOk (T : Tt) (q : Qry) : Prop where
  dest : ∀ o ∈ q.dest, o.1 < T.nLoc ∧ o.2 ≤ 7200
  td : ∀ o ∈ q.tdDest, o.1 < T.nLoc
  maxTravel : q.maxTravel ≤ 7200

/-- Footpaths in search direction. -/
def Tt.fpsAlong (T : Tt) : Dir → Nat → List Edge
  | .fwd => T.fpsOut
  | .bwd => T.fpsIn

/-- The search works on the timetable `T` and the query `q`: same vehicles, footpaths not shorter than those
of the timetable (transfer time settings never shorten them), destinations those of the query. -/
structure Agrees (d : Dir) (T : Tt) (q : Qry) (N : Net) : Prop where
  nLoc : N.nLoc = T.nLoc
  routes : N.routes = T.routes
  rts : N.rts = T.rts
  fps : ∀ l t l' w, (l', w) ∈ N.fps l t → ∃ w0 : Nat, ⟨l', w0⟩ ∈ T.fpsAlong d l ∧ (w0 : Int) ≤ w
  dest : N.intermodal = false → ∀ l, N.isDest l = true → ∃ o ∈ q.dest, l ∈ forEachMeta T q.mode o.1 ∧ o.2 = 0
  endDist : N.intermodal = true → ∀ m w, N.endDist m = some w → ∃ o ∈ q.dest, m ∈ forEachMeta T q.mode o.1 ∧ (o.2 : Int) ≤ w
  endTd : N.intermodal = true → ∀ m t w, N.endTd m t = some w → ∃ o ∈ q.tdDest, o.1 = m ∧
    ∃ dur ∈ o.2, dur ≠ 511 ∧ dur < q.maxTravel ∧ (dur : Int) ≤ w

/-! ## Stations -/

theorem root_none {T : Tt} {l : Nat} (h : T.parent l = none) : T.root l = l := by
  unfold Tt.root
  rw [C43_root (RootAt.here h) (by omega)]; rfl

theorem root_one {T : Tt} {l p : Nat} (h : T.parent l = some p) (hp : T.parent p = none) : T.root l = p := by
  unfold Tt.root
  rw [C43_root (RootAt.up h (RootAt.here hp)) (by omega)]; rfl

theorem root_two {T : Tt} {l p g : Nat} (h : T.parent l = some p) (hp : T.parent p = some g) (hg : T.parent g = none) : T.root l = g := by
  unfold Tt.root
  rw [C43_root (RootAt.up h (RootAt.up hp (RootAt.here hg))) (by omega)]; rfl

theorem root_cases {T : Tt} (hT : TtOk T) (l : Nat) : T.parent (T.root l) = none ∧
    (T.root l = l ∨ l ∈ T.children (T.root l) ∨ ∃ p, l ∈ T.children p ∧ p ∈ T.children (T.root l) ∧ T.root l < p) := by
  cases h : T.parent l with
  | none => rw [root_none h]; exact ⟨h, Or.inl rfl⟩
  | some p =>
    cases hp : T.parent p with
    | none => rw [root_one h hp]; exact ⟨hp, Or.inr (Or.inl ((hT.child _ _).mpr h))⟩
    | some g =>
      have hg := hT.depth _ _ _ h hp
      rw [root_two h hp hg]
      exact ⟨hg, Or.inr (Or.inr ⟨p, (hT.child _ _).mpr h, (hT.child _ _).mpr hp, hT.order _ _ _ h hp⟩)⟩

theorem mem_group {T : Tt} (hT : TtOk T) (l : Nat) : l ∈ group T (T.root l) := by
  unfold group
  rw [List.mem_append]
  rcases (root_cases hT l).2 with h | h | ⟨p, h1, h2, -⟩
  · right; rw [h]; simp
  · left; rw [List.mem_flatMap]; exact ⟨l, h, by simp⟩
  · left; rw [List.mem_flatMap]; exact ⟨p, h2, by simp [h1]⟩

theorem root_lt {T : Tt} (hT : TtOk T) {l : Nat} (hl : l < T.nLoc) : T.root l < T.nLoc := by
  cases h : T.parent l with
  | none => rw [root_none h]; exact hl
  | some p =>
    cases hp : T.parent p with
    | none => rw [root_one h hp]; exact (hT.locs _ _ h).2
    | some g => rw [root_two h hp (hT.depth _ _ _ h hp)]; exact (hT.locs _ _ hp).2

theorem descendants_lt {T : Tt} (hT : TtOk T) {l x : Nat} (h : x ∈ descendants T l) : x < T.nLoc := by
  unfold descendants at h
  rw [List.mem_flatMap] at h
  obtain ⟨c, h1, h2⟩ := h
  rcases List.mem_cons.mp h2 with rfl | h2
  · exact (hT.locs _ _ ((hT.child _ _).mp h1)).1
  · exact (hT.locs _ _ ((hT.child _ _).mp h2)).1

theorem metas_lt {T : Tt} (hT : TtOk T) {m : Mode} {l x : Nat} (hl : l < T.nLoc) (h : x ∈ forEachMeta T m l) : x < T.nLoc := by
  unfold forEachMeta at h
  split at h
  · simp at h; omega
  · rcases List.mem_cons.mp h with rfl | h
    · exact hl
    · exact (hT.locs _ _ ((hT.child _ _).mp (List.mem_filter.mp h).1)).1
  · rcases List.mem_cons.mp h with rfl | h
    · exact hl
    · exact descendants_lt hT h
  · rcases List.mem_append.mp h with h | h
    · rcases List.mem_cons.mp h with rfl | h
      · exact root_lt hT hl
      · exact descendants_lt hT h
    · rw [List.mem_flatMap] at h
      obtain ⟨e, h1, h2⟩ := h
      rcases List.mem_cons.mp h2 with rfl | h2
      · exact hT.equivLocs _ _ h1
      · exact descendants_lt hT h2

theorem self_meta {T : Tt} {m : Mode} {l : Nat} (h : T.parent l = none) : l ∈ forEachMeta T m l := by
  unfold forEachMeta
  cases m with
  | exact => simp
  | onlyChildren => simp
  | intermodal => simp
  | equivalent => simp [root_none h]

/-! ## Distances in the graph -/

/-- The edges of the graph the search runs on. -/
def allEdges (T : Tt) (d : Dir) (useRt : Bool) (has : Nat → Bool) : Nat → List Edge :=
  fun v => lbEdges T d v ++ (if useRt && (updateLbs T d has).has v then (updateLbs T d has).lbs v else [])

theorem static_edge {T : Tt} {d : Dir} {useRt : Bool} {has : Nat → Bool} {u v : Nat} {x : Int} (h : Cov (lbEdges T d) u v x) :
    Cov (allEdges T d useRt has) u v x := by
  obtain ⟨e, h1, h2⟩ := h
  exact ⟨e, by unfold allEdges; simp [h1], h2⟩

theorem fp_edge {T : Tt} (hT : TtOk T) {d : Dir} {useRt : Bool} {has : Nat → Bool} {m l' w : Nat} (h : ⟨l', w⟩ ∈ T.fpsAlong d m)
    (hne : T.root m ≠ T.root l') : Cov (allEdges T d useRt has) (T.root l') (T.root m) w := by
  apply static_edge
  have he : (⟨m, w⟩ : Edge) ∈ T.fpsAgainst d l' := by
    cases d with
    | fwd => exact (hT.transposed m l' w).mp h
    | bwd => exact (hT.transposed l' m w).mpr h
  exact lbEdges_cov (root_cases hT l').1 (mem_group hT l') (fun w => addEdges_fp he hne) (Int.le_refl _) (by omega)

theorem section_edge {T : Tt} (hT : TtOk T) {d : Dir} {useRt : Bool} {has : Nat → Bool} {r : RouteData} (hr : r ∈ T.routes) {s t : Nat}
    (hs : s + 1 < r.stops.length) (ht : t < r.nTr) (hle : r.dep t s ≤ r.arr t (s + 1))
    (hne : T.root (sectionEnds d r.stops s).2 ≠ T.root (sectionEnds d r.stops s).1) :
    Cov (allEdges T d useRt has) (T.root (sectionEnds d r.stops s).1) (T.root (sectionEnds d r.stops s).2)
      ((r.arr t (s + 1) : Int) - r.dep t s) := by
  apply static_edge
  exact lbEdges_cov (root_cases hT _).1 (mem_group hT _) (fun w => addEdges_section hr hs hne) (minTravel_le r s t ht) (by omega)

theorem rt_edge {T : Tt} {d : Dir} {useRt : Bool} {has : Nat → Bool} (hu : useRt = true) {r : RtData} (hr : r ∈ T.rts) {s : Nat}
    (hs : s + 1 < r.stops.length) (hle : r.dep s ≤ r.arr (s + 1))
    (hne : T.root (sectionEnds d r.stops s).2 ≠ T.root (sectionEnds d r.stops s).1) :
    Cov (allEdges T d useRt has) (T.root (sectionEnds d r.stops s).1) (T.root (sectionEnds d r.stops s).2) (r.arr (s + 1) - r.dep s) := by
  rcases updateLbs_cov (has := has) hr hs (fun h => hne h.symm) hle with h | ⟨h, e, h1, h2⟩
  · exact static_edge h
  · exact ⟨e, by unfold allEdges; simp [hu, h, h1], h2⟩

/-- A section of a vehicle costs in the graph at most its travel time. -/
theorem hop_edge {T : Tt} (hT : TtOk T) {d : Dir} {q : Qry} {N : Net} (hA : Agrees d T q N) (hN : NetOk N) {useRt : Bool} {has : Nat → Bool}
    (hu : T.rts ≠ [] → useRt = true) {l m : Loc} {w : Int} (h : Hop d N l m w) (hne : T.root m ≠ T.root l) :
    Cov (allEdges T d useRt has) (T.root m) (T.root l) w := by
  obtain ⟨stops, dep, arr, s, x, y, hx, hy, rfl, hd, hveh⟩ := h
  have hlen : s + 1 < stops.length := (List.getElem?_eq_some_iff.mp hy).1
  have hends : sectionEnds d stops s = (m, l) := by
    cases d with
    | fwd => simp only [sectionEnds, locAt_get hx, locAt_get hy]; rw [hd.1, hd.2]
    | bwd => simp only [sectionEnds, locAt_get hx, locAt_get hy]; rw [hd.1, hd.2]
  rcases hveh with ⟨r, hr, t, ht, rfl, h1, h2⟩ | ⟨r, hr, rfl, rfl, rfl⟩
  · have hr' : r ∈ T.routes := by rw [← hA.routes]; exact hr
    have hle : r.dep t s ≤ r.arr t (s + 1) := by
      have : (r.dep t s : Int) ≤ r.arr t (s + 1) := (hN.times r hr t ht).1 s hlen
      omega
    have := section_edge hT (useRt := useRt) (has := has) (d := d) hr' hlen ht hle (by rw [hends]; exact hne.symm)
    rw [hends] at this
    rw [h1, h2]; exact this
  · have hr' : r ∈ T.rts := by rw [← hA.rts]; exact hr
    have hu' := hu (by intro h; rw [h] at hr'; cases hr')
    have := rt_edge (T := T) (has := has) (d := d) hu' hr' hlen ((hN.rtTimes r hr).1 s hlen) (by rw [hends]; exact hne.symm)
    rw [hends] at this
    exact this

/-- The distances from which the search starts. -/
structure StartOk (T : Tt) (q : Qry) (start : List Nat) : Prop where
  len : start.length = T.nLoc
  cov : ∀ l x, MCov (minMap T q) (T.root l) x → start.getD (T.root l) 65535 ≤ x

theorem cov_walk {edges : Nat → List Edge} {start : List Nat} {u v x : Nat} {c w : Int} (hw : WalkDist edges start u x) (hx : (x : Int) ≤ c)
    (h : Cov edges u v w) : ∃ y, WalkDist edges start v y ∧ (y : Int) ≤ c + w := by
  obtain ⟨e, h1, rfl, h3⟩ := h
  exact ⟨x + e.duration, .step hw h1, by omega⟩

/-- Everything that is possible without waiting is a walk in the graph. -/
theorem opt_walk {T : Tt} (hT : TtOk T) {d : Dir} {q : Qry} (hq : QryOk T q) {N : Net} (hA : Agrees d T q N) (hN : NetOk N) {useRt : Bool} {has : Nat → Bool}
    (hu : T.rts ≠ [] → useRt = true) {start : List Nat} (hst : StartOk T q start) {l : Loc} {c : Int} (h : Opt d N T.root l c) :
    ∃ x, WalkDist (allEdges T d useRt has) start (T.root l) x ∧ (x : Int) ≤ c := by
  have hdest : ∀ l x : Nat, MCov (minMap T q) (T.root l) x → x ≤ 7200 → T.root l < T.nLoc →
      ∃ y, WalkDist (allEdges T d useRt has) start (T.root l) y ∧ y ≤ x := by
    intro l x hm hx hl
    have h1 := hst.cov l x hm
    have hlt : T.root l < start.length := by rw [hst.len]; exact hl
    rw [List.getD_eq_getElem?_getD, List.getElem?_eq_getElem hlt, Option.getD_some] at h1
    exact ⟨start[T.root l], .start (List.getElem?_eq_getElem hlt) (by omega), h1⟩
  have hdestm : ∀ {l x}, ∀ o ∈ q.dest, l ∈ forEachMeta T q.mode o.1 → (o.2 : Int) ≤ x →
      ∃ y, WalkDist (allEdges T d useRt has) start (T.root l) y ∧ (y : Int) ≤ x := by
    intro l x o ho hl hox
    obtain ⟨y, h1, h2⟩ := hdest l o.2 (minMap_dest ho hl) (hq.dest o ho).2 (root_lt hT (metas_lt hT (hq.dest o ho).1 hl))
    exact ⟨y, h1, by omega⟩
  have hwalkTo : ∀ m a l' w c, (l', w) ∈ N.fps m a →
      (∃ x, WalkDist (allEdges T d useRt has) start (T.root l') x ∧ (x : Int) ≤ c) →
      ∃ x, WalkDist (allEdges T d useRt has) start (T.root m) x ∧ (x : Int) ≤ c + w := by
    intro m a l' w c h ⟨x, h1, h2⟩
    obtain ⟨w0, g1, g2⟩ := hA.fps m a l' w h
    by_cases hr : T.root m = T.root l'
    · rw [hr]; exact ⟨x, h1, by omega⟩
    · obtain ⟨y, k1, k2⟩ := cov_walk h1 h2 (fp_edge hT (useRt := useRt) (has := has) g1 hr)
      exact ⟨y, k1, by omega⟩
  induction h with
  | @arrive m a A h =>
    unfold Arrive at h
    split at h
    · rename_i hi
      obtain ⟨w, h1, rfl⟩ := h
      rcases h1 with h1 | h1
      · obtain ⟨o, ho, hm, hw⟩ := hA.endDist hi m w h1
        exact hdestm o ho hm (by omega)
      · obtain ⟨o, ho, rfl, dur, h2, h3, h4, h5⟩ := hA.endTd hi m a w h1
        obtain ⟨y, k1, k2⟩ := hdest o.1 dur (minMap_td ho h2 h3 h4) (by have := hq.maxTravel; omega) (root_lt hT (hq.td o ho))
        exact ⟨y, k1, by omega⟩
    · rename_i hi
      have hi' : N.intermodal = false := by simpa using hi
      rcases h with ⟨h1, rfl⟩ | ⟨l', w, h1, h2, rfl⟩
      · obtain ⟨o, ho, hm, hw⟩ := hA.dest hi' m h1
        exact hdestm o ho hm (by omega)
      · obtain ⟨o, ho, hm, hw⟩ := hA.dest hi' l' h1
        obtain ⟨y, k1, k2⟩ := hwalkTo m a l' w 0 h2 (hdestm o ho hm (by omega))
        exact ⟨y, k1, by omega⟩
  | hop h _ ih =>
    rename_i l m w c _
    obtain ⟨x, h1, h2⟩ := ih
    by_cases hr : T.root m = T.root l
    · obtain ⟨stops, dep, arr, s, x', y', hx', hy', rfl, -, hveh⟩ := h
      have hlen : s + 1 < stops.length := (List.getElem?_eq_some_iff.mp hy').1
      refine ⟨x, by rw [← hr]; exact h1, ?_⟩
      rcases hveh with ⟨r, hr, t, ht, rfl, g1, g2⟩ | ⟨r, hr, rfl, rfl, rfl⟩
      · have : (r.dep t s : Int) ≤ r.arr t (s + 1) := (hN.times r hr t ht).1 s hlen
        rw [g1, g2]
        omega
      · have := (hN.rtTimes r hr).1 s hlen
        omega
    · exact cov_walk h1 h2 (hop_edge hT hA hN hu h hr)
  | walk h _ ih => exact hwalkTo _ _ _ _ _ h ih
  | station h _ ih => rw [h]; exact ih

/-- The lower bounds are computed without undefined behaviour, and a location from which the destination can
be reached in `c ≤ 7200` minutes without waiting has a bound of at most `c`. -/
theorem lowerBounds_spec {T : Tt} (hT : TtOk T) {d : Dir} {q : Qry} (hq : QryOk T q) (useRt : Bool) (has : Nat → Bool) :
    ∃ dists, lowerBounds T d q useRt has = some dists ∧ dists.length = T.nLoc ∧
      ∀ N, Agrees d T q N → NetOk N → (T.rts ≠ [] → useRt = true) → ∀ l c, l < T.nLoc → Opt d N T.root l c → c ≤ 7200 →
        ∃ x : Nat, lbOf dists l = some (x : Int) ∧ (x : Int) ≤ c := by
  have hmin : ∀ x ∈ minMap T q, T.parent x.1 = none ∧ x.1 < T.nLoc ∧ x.2 ≤ 7200 := by
    apply minMap_all (Q := fun x => T.parent x.1 = none ∧ x.1 < T.nLoc ∧ x.2 ≤ 7200)
    · intro l a b h hb; exact ⟨h.1, h.2.1, by simp only at h ⊢; omega⟩
    · intro o ho x hx
      exact ⟨(root_cases hT x).1, root_lt hT (metas_lt hT (hq.dest o ho).1 hx), (hq.dest o ho).2⟩
    · intro td htd dur hd hlt
      exact ⟨(root_cases hT _).1, root_lt hT (hq.td td htd), by have := hq.maxTravel; simp only; omega⟩
  obtain ⟨⟨pq, start⟩, h1, h2, -, h4⟩ := initPushes_spec (n := T.nLoc)
    ((minMap T q).flatMap fun m => (forEachMeta T q.mode m.1).map fun l => (l, m.2)) (initInv_begin T.nLoc) (by
      intro x hx
      rw [List.mem_flatMap] at hx
      obtain ⟨m, hm, hx⟩ := hx
      obtain ⟨l, hl, rfl⟩ := List.mem_map.mp hx
      exact ⟨metas_lt hT (hmin m hm).2.1 hl, (hmin m hm).2.2⟩)
  have hpre : Pre pq start := ⟨h2.inv, by rw [h2.buckets]; omega, h2.queued, h2.labelled⟩
  have hlen : start.length = T.nLoc := h2.len
  have hfpt : ∀ l, ∀ e ∈ T.fpsAgainst d l, e.target < T.nLoc := by
    intro l e he
    cases d with
    | fwd => exact (hT.fpLocs e.target l e.duration ((hT.transposed _ _ _).mpr he)).1
    | bwd => exact (hT.fpLocs l e.target e.duration he).2
  obtain ⟨dists, g1, g2, g3⟩ := C08_dijkstra_exact (lbEdges T d) (fun v => useRt && (updateLbs T d has).has v) (updateLbs T d has).lbs pq start distMax hpre
    (fun v e he => by rw [hlen]; exact lbEdges_targets (fun l hl => root_lt hT hl) hfpt hT.stopLocs v e he)
    (fun v e he => by rw [hlen]; exact updateLbs_targets (fun l hl => root_lt hT hl) hT.rtLocs v e he)
  refine ⟨propagate T dists, ?_, by rw [show (propagate T dists).length = dists.length from (propagate_fold T _ dists).1, g2, hlen], ?_⟩
  · unfold lowerBounds initAll
    rw [h1]
    simp only
    rw [g1]; rfl
  · intro N hA hN hu l c hl hopt hc
    have hst : StartOk T q start := by
      refine ⟨hlen, ?_⟩
      intro l x ⟨y, k1, k2⟩
      refine Nat.le_trans (h4 (T.root l, y) ?_) k2
      rw [List.mem_flatMap]
      exact ⟨(T.root l, y), k1, List.mem_map.mpr ⟨T.root l, self_meta (root_cases hT l).1, rfl⟩⟩
    obtain ⟨x, k1, k2⟩ := opt_walk hT hq hA hN (useRt := useRt) (has := has) hu hst hopt
    have hr := root_lt hT hl
    have hb : dists.getD (T.root l) 65535 ≤ x := by
      have := (g3 (T.root l) (by omega)).2 x k1 (by rw [h2.buckets]; omega) (by unfold distMax; omega)
      rw [List.getD_eq_getElem?_getD, List.getElem?_eq_getElem (by omega)]
      exact this
    have hp : (propagate T dists).getD l 65535 ≤ dists.getD (T.root l) 65535 := by
      rcases (root_cases hT l).2 with h | h | ⟨p, e1, e2, e3⟩
      · rw [h]; exact propagate_le T dists l
      · refine Nat.le_trans (propagate_child T dists (by omega) hr h hl) ((propagate_fold T _ dists).2 _)
      · exact propagate_grandchild T dists (by omega) e3 (hT.locs _ _ ((hT.child _ _).mp e1)).2 e2 e1 hl
    refine ⟨(propagate T dists).getD l 65535, ?_, by omega⟩
    unfold lbOf
    simp only
    rw [if_neg (by omega)]

/-! ## Journeys -/

/-- The hop between two consecutive stops of a vehicle, in search direction. -/
def HopAlong (d : Dir) (N : Net) (x y : Loc) (w : Int) : Prop := match d with
  | .fwd => Hop .fwd N x y w
  | .bwd => Hop .bwd N y x w

/-- From the first of two places in search direction the destination is at most `w` minutes farther. -/
def OptAlong (d : Dir) (N : Net) (root : Loc → Loc) (x y : Loc) (c w : Int) : Prop := match d with
  | .fwd => Opt .fwd N root y c → ∃ c', Opt .fwd N root x c' ∧ c' ≤ c + w
  | .bwd => Opt .bwd N root x c → ∃ c', Opt .bwd N root y c' ∧ c' ≤ c + w

/-- A ride costs at least the sum of the travel times of its sections. -/
theorem vehicle_opt {d : Dir} {N : Net} {root : Loc → Loc} {stops : List StopData} {dep arr : Nat → Int} (hT : TimesOk stops.length dep arr)
    (hop : ∀ s x y, stops[s]? = some x → stops[s + 1]? = some y →
      HopAlong d N x.loc y.loc (arr (s + 1) - dep s))
    (n : Nat) : ∀ (i : Nat) (x y : StopData) (c : Int), stops[i]? = some x → stops[i + 1 + n]? = some y →
      OptAlong d N root x.loc y.loc c (arr (i + 1 + n) - dep i) := by
  cases d with
  | fwd =>
    induction n with
    | zero =>
      intro i x y c hx hy h
      exact ⟨_, .hop (hop i x y hx hy) h, Int.le_refl _⟩
    | succ n ih =>
      intro i x y c hx hy h
      have hlen : i + 1 + (n + 1) < stops.length := (List.getElem?_eq_some_iff.mp hy).1
      obtain ⟨z, hz⟩ : ∃ z, stops[i + 1 + n]? = some z := ⟨stops[i + 1 + n], List.getElem?_eq_getElem (by omega)⟩
      have h1 : Opt .fwd N root z.loc (c + (arr (i + 1 + n + 1) - dep (i + 1 + n))) := .hop (hop (i + 1 + n) z y hz hy) h
      obtain ⟨c', h2, h3⟩ := ih i x z _ hx hz h1
      have := hT.2 (i + 1 + n) (by omega) (by omega)
      exact ⟨c', h2, by rw [show i + 1 + (n + 1) = i + 1 + n + 1 by omega]; omega⟩
  | bwd =>
    induction n with
    | zero =>
      intro i x y c hx hy h
      exact ⟨_, .hop (hop i x y hx hy) h, Int.le_refl _⟩
    | succ n ih =>
      intro i x y c hx hy h
      have hlen : i + 1 + (n + 1) < stops.length := (List.getElem?_eq_some_iff.mp hy).1
      obtain ⟨z, hz⟩ : ∃ z, stops[i + 1 + n]? = some z := ⟨stops[i + 1 + n], List.getElem?_eq_getElem (by omega)⟩
      obtain ⟨c', h2, h3⟩ := ih i x z _ hx hz h
      have h1 : Opt .bwd N root y.loc (c' + (arr (i + 1 + n + 1) - dep (i + 1 + n))) := .hop (hop (i + 1 + n) z y hz hy) h2
      have := hT.2 (i + 1 + n) (by omega) (by omega)
      exact ⟨_, h1, by rw [show i + 1 + (n + 1) = i + 1 + n + 1 by omega]; omega⟩

theorem route_hop {d : Dir} {N : Net} {r : RouteData} (hr : r ∈ N.routes) {t : Nat} (ht : t < r.nTr) (D : Int) :
    ∀ s x y, r.stops[s]? = some x → r.stops[s + 1]? = some y →
      HopAlong d N x.loc y.loc ((D + r.arr t (s + 1)) - (D + r.dep t s)) := by
  intro s x y hx hy
  cases d with
  | fwd => exact ⟨r.stops, fun i => r.dep t i, fun i => r.arr t i, s, x, y, hx, hy, by simp only; omega, ⟨rfl, rfl⟩,
      Or.inl ⟨r, hr, t, ht, rfl, fun _ => rfl, fun _ => rfl⟩⟩
  | bwd => exact ⟨r.stops, fun i => r.dep t i, fun i => r.arr t i, s, x, y, hx, hy, by simp only; omega, ⟨rfl, rfl⟩,
      Or.inl ⟨r, hr, t, ht, rfl, fun _ => rfl, fun _ => rfl⟩⟩

theorem rt_hop {d : Dir} {N : Net} {r : RtData} (hr : r ∈ N.rts) :
    ∀ s x y, r.stops[s]? = some x → r.stops[s + 1]? = some y →
      HopAlong d N x.loc y.loc (r.arr (s + 1) - r.dep s) := by
  intro s x y hx hy
  cases d with
  | fwd => exact ⟨r.stops, r.dep, r.arr, s, x, y, hx, hy, rfl, ⟨rfl, rfl⟩, Or.inr ⟨r, hr, rfl, rfl, rfl⟩⟩
  | bwd => exact ⟨r.stops, r.dep, r.arr, s, x, y, hx, hy, rfl, ⟨rfl, rfl⟩, Or.inr ⟨r, hr, rfl, rfl, rfl⟩⟩

theorem timesOk_shift {n : Nat} {dep arr : Nat → Int} (h : TimesOk n dep arr) (D : Int) : TimesOk n (fun i => D + dep i) (fun i => D + arr i) :=
  ⟨fun s hs => by have := h.1 s hs; simp only; omega, fun s h0 hs => by have := h.2 s h0 hs; simp only; omega⟩

/-- C22 (rides): the optimistic distance of the boarding stop exceeds that of the alighting stop by at most
the duration of the ride. -/
theorem ride_opt {d : Dir} {N : Net} (hN : NetOk N) {root : Loc → Loc} {l : Loc} {t : Int} {m : Loc} {a c : Int} (h : RideDir d N l t m a)
    (hc : Opt d N root m c) : ∃ c', Opt d N root l c' ∧ c' ≤ c + (a - t) := by
  cases d with
  | fwd =>
    obtain ⟨dep0, hle, h⟩ := h
    rcases h with ⟨r, hr, tr, D, ht, -, -, i, j, si, sj, hij, hi, hj, rfl, rfl, -, -, -, rfl, rfl⟩ |
      ⟨r, hr, -, i, j, si, sj, hij, hi, hj, rfl, rfl, -, -, -, rfl, rfl⟩
    · obtain ⟨n, rfl⟩ : ∃ n, j = i + 1 + n := ⟨j - i - 1, by omega⟩
      obtain ⟨c', h1, h2⟩ := vehicle_opt (d := .fwd) (N := N) (root := root) (timesOk_shift (hN.times r hr tr ht) ((D - N.base) * 1440))
        (route_hop hr ht _) n i si sj c hi hj hc
      exact ⟨c', h1, by first | (simp only at h2 hle ⊢; omega) | (simp only at hle ⊢; omega) | (simp only at h2 ⊢; omega) | omega | (simp only at h2 hle; omega) | (simp only at h2; omega)⟩
    · obtain ⟨n, rfl⟩ : ∃ n, j = i + 1 + n := ⟨j - i - 1, by omega⟩
      obtain ⟨c', h1, h2⟩ := vehicle_opt (d := .fwd) (N := N) (root := root) (hN.rtTimes r hr) (rt_hop hr) n i si sj c hi hj hc
      exact ⟨c', h1, by first | (simp only at h2 ⊢; omega) | omega | (simp only at h2 hle; omega) | (simp only at h2; omega)⟩
  | bwd =>
    obtain ⟨arr0, hle, h⟩ := h
    rcases h with ⟨r, hr, tr, D, ht, -, -, i, j, si, sj, hij, hi, hj, rfl, rfl, -, -, -, e1, rfl⟩ |
      ⟨r, hr, -, i, j, si, sj, hij, hi, hj, rfl, rfl, -, -, -, e1, rfl⟩
    · obtain ⟨n, rfl⟩ : ∃ n, j = i + 1 + n := ⟨j - i - 1, by omega⟩
      obtain ⟨c', h1, h2⟩ := vehicle_opt (d := .bwd) (N := N) (root := root) (timesOk_shift (hN.times r hr tr ht) ((D - N.base) * 1440))
        (route_hop hr ht _) n i si sj c hi hj hc
      exact ⟨c', h1, by first | (simp only at h2 ⊢; omega) | omega | (simp only at h2 hle e1; omega) | (simp only at h2 e1; omega)⟩
    · obtain ⟨n, rfl⟩ : ∃ n, j = i + 1 + n := ⟨j - i - 1, by omega⟩
      obtain ⟨c', h1, h2⟩ := vehicle_opt (d := .bwd) (N := N) (root := root) (hN.rtTimes r hr) (rt_hop hr) n i si sj c hi hj hc
      exact ⟨c', h1, by first | (simp only at h2 ⊢; omega) | omega | (simp only at h2 hle e1; omega) | (simp only at h2 e1; omega)⟩

theorem walk_opt {d : Dir} {N : Net} (hN : NetOk N) {root : Loc → Loc} {m : Loc} {a : Int} {l' : Loc} {t' c : Int} (h : Walk N m a l' t')
    (hc : Opt d N root l' c) : ∃ c', Opt d N root m c' ∧ c' ≤ c + (t' - a) := by
  rcases h with ⟨rfl, rfl⟩ | ⟨w, h, rfl⟩
  · exact ⟨c, hc, by have := hN.transfer l'; omega⟩
  · exact ⟨c + w, .walk h hc, by omega⟩

theorem journey_opt {d : Dir} {N : Net} (hN : NetOk N) {root : Loc → Loc} {n : Nat} {l : Loc} {t A : Int} (h : Journey d N n l t A) :
    ∃ c, Opt d N root l c ∧ c ≤ A - t := by
  induction h with
  | last hr ha =>
    obtain ⟨c, h1, h2⟩ := ride_opt hN (root := root) hr (.arrive ha)
    exact ⟨c, h1, by omega⟩
  | more hr hw _ ih =>
    obtain ⟨c, h1, h2⟩ := ih
    obtain ⟨c1, h3, h4⟩ := walk_opt hN hw h1
    obtain ⟨c2, h5, h6⟩ := ride_opt hN hr h3
    exact ⟨c2, h5, by omega⟩

theorem onward_opt {d : Dir} {N : Net} (hN : NetOk N) {root : Loc → Loc} {m : Loc} {a A : Int} (h : Onward d N m a A) :
    ∃ c, Opt d N root m c ∧ c ≤ A - a := by
  rcases h with h | ⟨n, l', t', hw, hj⟩
  · exact ⟨A - a, .arrive h, Int.le_refl _⟩
  · obtain ⟨c, h1, h2⟩ := journey_opt hN (root := root) hj
    obtain ⟨c1, h3, h4⟩ := walk_opt hN hw h1
    exact ⟨c1, h3, by omega⟩

theorem onward_le {d : Dir} {N : Net} (hN : NetOk N) {m : Loc} {a A : Int} (h : Onward d N m a A) : a ≤ A := by
  obtain ⟨n, l', t', A', h1, h2, h3⟩ := onward_cont hN h
  have := cont_le (sane_of_ok d hN) h3
  have := change_le (sane_of_ok d hN) h2
  omega

theorem stop_opt {d : Dir} {N : Net} {root : Loc → Loc} {stops : List StopData} {dep arr : Nat → Int} (hT : TimesOk stops.length dep arr)
    (hop : ∀ s x y, stops[s]? = some x → stops[s + 1]? = some y →
      HopAlong d N x.loc y.loc (arr (s + 1) - dep s))
    {i j : Nat} {si sj : StopData} (hij : d.before i j) (hi : stops[i]? = some si) (hj : stops[j]? = some sj) {c : Int}
    (hc : Opt d N root sj.loc c) : ∃ c', Opt d N root si.loc c' := by
  cases d with
  | fwd =>
    have hij : i < j := hij
    obtain ⟨n, rfl⟩ : ∃ n, j = i + 1 + n := ⟨j - i - 1, by omega⟩
    obtain ⟨c', h, _⟩ := vehicle_opt (d := .fwd) (N := N) (root := root) hT hop n i si sj c hi hj hc
    exact ⟨c', h⟩
  | bwd =>
    have hij : j < i := hij
    obtain ⟨n, rfl⟩ : ∃ n, i = j + 1 + n := ⟨i - j - 1, by omega⟩
    obtain ⟨c', h, _⟩ := vehicle_opt (d := .bwd) (N := N) (root := root) hT hop n j sj si c hj hi hc
    exact ⟨c', h⟩

/-- C22 (edges and paths): the lower bounds of a query are computed without undefined behaviour, and if the
destination can be reached from `l` in `c` minutes by riding sections and walking without ever waiting or
changing (`c` at most five days), the lower bound of `l` is at most `c`. -/
theorem C22_optimistic (d : Dir) (T : Tt) (hT : TtOk T) (q : Qry) (hq : QryOk T q) (useRt : Bool) (has : Nat → Bool) :
    ∃ dists, lowerBounds T d q useRt has = some dists ∧ ∀ N, Agrees d T q N → NetOk N → (T.rts ≠ [] → useRt = true) →
      ∀ l c, l < T.nLoc → Opt d N T.root l c → c ≤ 7200 → ∃ x : Nat, lbOf dists l = some (x : Int) ∧ (x : Int) ≤ c := by
  obtain ⟨dists, h1, -, h3⟩ := lowerBounds_spec hT hq useRt has (d := d)
  exact ⟨dists, h1, h3⟩

/-- C22: the lower bound of every location is at most the duration of every journey (of at most five days) to
the destination. -/
theorem C22_journeys (d : Dir) (T : Tt) (hT : TtOk T) (q : Qry) (hq : QryOk T q) (useRt : Bool) (has : Nat → Bool) :
    ∃ dists, lowerBounds T d q useRt has = some dists ∧ ∀ N, Agrees d T q N → NetOk N → (T.rts ≠ [] → useRt = true) →
      ∀ n l t A, Journey d N n l t A → A - t ≤ 7200 → ∃ x : Nat, lbOf dists l = some (x : Int) ∧ (x : Int) ≤ A - t := by
  obtain ⟨dists, h1, -, h3⟩ := lowerBounds_spec hT hq useRt has (d := d)
  refine ⟨dists, h1, ?_⟩
  intro N hA hN hu n l t A hj hle
  obtain ⟨c, g1, g2⟩ := journey_opt hN (root := T.root) hj
  have hl : l < T.nLoc := by
    obtain ⟨m, a, hr⟩ := journey_start hj
    rw [← hA.nLoc]
    cases d with
    | fwd =>
      obtain ⟨_, _, hr⟩ := hr
      rcases hr with ⟨r, hr, t, D, -, -, -, i, j, si, sj, -, hi, -, rfl, -⟩ | ⟨r, hr, -, i, j, si, sj, -, hi, -, rfl, -⟩
      · exact hN.locs r hr si (List.mem_of_getElem? hi)
      · exact hN.rtLocs r hr si (List.mem_of_getElem? hi)
    | bwd =>
      obtain ⟨_, _, hr⟩ := hr
      rcases hr with ⟨r, hr, t, D, -, -, -, i, j, si, sj, -, -, hj', -, rfl, -⟩ | ⟨r, hr, -, i, j, si, sj, -, -, hj', -, rfl, -⟩
      · exact hN.locs r hr sj (List.mem_of_getElem? hj')
      · exact hN.rtLocs r hr sj (List.mem_of_getElem? hj')
  obtain ⟨x, k1, k2⟩ := h3 N hA hN hu l c hl g1 (by omega)
  exact ⟨x, k1, by omega⟩

/-- Every place from which the destination can be reached at all is (ignoring waiting times) within five days
of it, so that the search never takes it for unreachable. -/
def Near (d : Dir) (N : Net) (root : Loc → Loc) : Prop := ∀ l c, Opt d N root l c → ∃ c', Opt d N root l c' ∧ c' ≤ 7200

/-- C22 (consequence): the lower bounds are admissible in the sense of C20 and C21, for every time window of
at most five days.  Locations outside of the vector (there are none) are not accessed. -/
theorem C22_admissible (d : Dir) (T : Tt) (hT : TtOk T) (q : Qry) (hq : QryOk T q) (useRt : Bool) (has : Nat → Bool) :
    ∃ dists, lowerBounds T d q useRt has = some dists ∧ ∀ N, Agrees d T q N → NetOk N → (T.rts ≠ [] → useRt = true) →
      (∀ l, N.lb l = lbOf dists l) → (∀ l t l' w, (l', w) ∈ N.fps l t → l < T.nLoc) →
      (∀ l w, N.endDist l = some w → l < T.nLoc) → (∀ l t w, N.endTd l t = some w → l < T.nLoc) → Near d N T.root →
      ∀ T0 W, W ≤ T0 + 7200 → LbOk d N T0 W := by
  obtain ⟨dists, h1, -, h3⟩ := lowerBounds_spec hT hq useRt has (d := d)
  obtain ⟨dists', h1', h3'⟩ := C22_journeys d T hT q hq useRt has
  rw [h1] at h1'; cases h1'
  refine ⟨dists, h1, ?_⟩
  intro N hA hN hu hlb hfl hel hetl hnear T0 W hW
  have hloc : ∀ {m a A}, Onward d N m a A → m < T.nLoc ∨ ∃ n t, Journey d N n m t A ∧ a ≤ t := by
    intro m a A h
    rcases h with h | ⟨n, l', t', hw, hj⟩
    · left
      unfold Arrive at h
      split at h
      · obtain ⟨w, h1 | h1, -⟩ := h
        · exact hel m w h1
        · exact hetl m a w h1
      · rcases h with ⟨h, -⟩ | ⟨l', w, -, h, -⟩
        · rw [← hA.nLoc]; exact hN.destLocs m h
        · exact hfl _ _ _ _ h
    · rcases hw with ⟨rfl, rfl⟩ | ⟨w, h, -⟩
      · exact Or.inr ⟨n, _, hj, by have := hN.transfer l'; omega⟩
      · exact Or.inl (hfl _ _ _ _ h)
  have hstop : ∀ {si : StopData}, si.loc < T.nLoc → (∃ c, Opt d N T.root si.loc c) → N.lb si.loc ≠ none := by
    intro si hs ⟨c, hc⟩
    obtain ⟨c', g1, g2⟩ := hnear _ _ hc
    obtain ⟨x, k1, k2⟩ := h3 N hA hN hu _ c' hs g1 g2
    rw [hlb, k1]; simp
  refine ⟨?_, ?_, ?_, ?_, ?_, ?_⟩
  · intro l x hx
    rw [hlb] at hx
    unfold lbOf at hx
    simp only at hx
    split at hx
    · cases hx
    · have := Option.some.inj hx; omega
  · intro hi l hl
    have ha : Arrive N l 0 0 := by unfold Arrive; rw [if_neg (by simp [hi])]; exact Or.inl ⟨hl, rfl⟩
    obtain ⟨x, k1, k2⟩ := h3 N hA hN hu l (0 - 0) (by rw [← hA.nLoc]; exact hN.destLocs l hl) (.arrive ha) (by omega)
    have hx0 : x = 0 := by omega
    rw [hlb, k1, hx0]; rfl
  · intro n l t A ht hj hAW
    obtain ⟨x, k1, k2⟩ := h3' N hA hN hu n l t A hj (by omega)
    exact ⟨x, by rw [hlb, k1], by omega⟩
  · intro m a A ha ho hAW
    rcases hloc ho with hm | ⟨n, t, hj, hat⟩
    · obtain ⟨c, g1, g2⟩ := onward_opt hN (root := T.root) ho
      obtain ⟨x, k1, k2⟩ := h3 N hA hN hu m c hm g1 (by omega)
      exact ⟨x, by rw [hlb, k1], by omega⟩
    · obtain ⟨x, k1, k2⟩ := h3' N hA hN hu n m t A hj (by omega)
      exact ⟨x, by rw [hlb, k1], by omega⟩
  · intro r hr i j si sj hij hi hj a A _ ho _
    obtain ⟨c, g1, -⟩ := onward_opt hN (root := T.root) ho
    have hs : si.loc < T.nLoc := by rw [← hA.nLoc]; exact hN.locs r hr si (List.mem_of_getElem? hi)
    have ht := hT.trips r (by rw [← hA.routes]; exact hr)
    refine hstop hs (stop_opt (timesOk_shift (hN.times r hr 0 ht) 0) (route_hop hr ht 0) hij hi hj g1)
  · intro r hr i j si sj hij hi hj a A _ ho _
    obtain ⟨c, g1, -⟩ := onward_opt hN (root := T.root) ho
    have hs : si.loc < T.nLoc := by rw [← hA.nLoc]; exact hN.rtLocs r hr si (List.mem_of_getElem? hi)
    exact hstop hs (stop_opt (hN.rtTimes r hr) (rt_hop hr) hij hi hj g1)

/-! ## The hypotheses can be met -/

namespace Demo
open Nigiri.Raptor.Demo (lineA lineB lineC lineD rt st net)

/-- The demonstration timetable with a station 4 that has the platforms 1 and 5; walking from 2 to 3 takes 30
minutes (the search below assumes 40). -/
def tt : Tt where
  nLoc := 6
  parent := fun l => if l = 1 ∨ l = 5 then some 4 else none
  children := fun l => if l = 4 then [1, 5] else []
  equiv := fun _ => []
  generated := fun _ => false
  fpsOut := fun l => if l = 2 then [⟨3, 30⟩] else []
  fpsIn := fun l => if l = 3 then [⟨2, 30⟩] else []
  routes := [lineA, lineB, lineC, lineD]
  rts := [rt]

def qry : Qry := ⟨.exact, [(3, 0)], [], 1440⟩

/-- The computed bounds, and the network of the search that uses them. -/
def bounds : List Nat := (lowerBounds tt .fwd qry true (fun _ => false)).getD []

def lbNet : Net := { net with nLoc := 6, lb := lbOf bounds }

example : bounds = [5, 18, 10, 0, 18, 18] := by decide +kernel

theorem tt_ok : TtOk tt where
  child := by
    intro c p
    simp only [tt]
    by_cases hp : p = 4 <;> by_cases hc : c = 1 ∨ c = 5 <;> simp [hp, hc] <;> omega
  depth := by
    intro l p g h1 h2
    simp only [tt] at *
    split at h1 <;> simp at h1
    subst h1
    simp at h2
  order := by
    intro l p g h1 h2
    simp only [tt] at *
    split at h1 <;> simp at h1
    subst h1
    simp at h2
  locs := by
    intro c p h
    simp only [tt] at *
    split at h <;> simp at h
    omega
  equivLocs := by intro l e h; cases h
  transposed := by
    intro l l' w
    simp only [tt]
    by_cases h1 : l = 2 <;> by_cases h2 : l' = 3 <;> simp [h1, h2]
  fpLocs := by
    intro l l' w h
    simp only [tt] at *
    split at h <;> simp at h
    omega
  stopLocs := by decide
  rtLocs := by decide
  trips := by decide

theorem qry_ok : QryOk tt qry := ⟨by decide, by decide, by decide⟩

theorem agrees : Agrees .fwd tt qry lbNet where
  nLoc := rfl
  routes := rfl
  rts := rfl
  fps := by
    intro l t l' w h
    simp only [lbNet, net] at h
    split at h <;> simp at h
    rename_i hl
    exact ⟨30, by simp [Tt.fpsAlong, tt, hl, h.1], by omega⟩
  dest := by
    intro _ l hl
    have hl : l = 3 := by simpa [lbNet, net] using hl
    subst hl
    exact ⟨(3, 0), by simp [qry], by simp [qry, forEachMeta], rfl⟩
  endDist := by intro h; cases h
  endTd := by intro h; cases h

theorem lbNet_ok : NetOk lbNet :=
  ⟨Raptor.Demo.net_ok.times, Raptor.Demo.net_ok.rtTimes, Raptor.Demo.net_ok.flags, Raptor.Demo.net_ok.rtFlags, Raptor.Demo.net_ok.transfer,
    Raptor.Demo.net_ok.fps, Raptor.Demo.net_ok.endDist, Raptor.Demo.net_ok.endTd, by
      intro r hr s hs
      exact Nat.lt_of_lt_of_le (Raptor.Demo.net_ok.locs r hr s hs) (by decide), by
      intro r hr s hs
      exact Nat.lt_of_lt_of_le (Raptor.Demo.net_ok.rtLocs r hr s hs) (by decide), by
      intro l hl
      exact Nat.lt_of_lt_of_le (Raptor.Demo.net_ok.destLocs l hl) (by decide), Raptor.Demo.net_ok.endDest, Raptor.Demo.net_ok.endStop, Raptor.Demo.net_ok.endFps⟩

theorem root_eq (l : Nat) : tt.root l = if l = 1 ∨ l = 5 then 4 else l := by
  by_cases h : l = 1 ∨ l = 5
  · rw [if_pos h, root_one (p := 4) (by simp [tt, h]) (by simp [tt])]
  · rw [if_neg h, root_none (by simp [tt, h])]

theorem opt3 : Opt .fwd lbNet tt.root 3 0 :=
  .arrive (a := 0) (A := 0) (by unfold Arrive; rw [if_neg (by decide)]; exact Or.inl ⟨by decide, rfl⟩)

theorem opt2 : Opt .fwd lbNet tt.root 2 10 :=
  .hop (d := .fwd) (l := 2) (m := 3) (w := 10) ⟨rt.stops, rt.dep, rt.arr, 0, st 2, st 3, rfl, rfl, by decide, ⟨rfl, rfl⟩, Or.inr ⟨rt, by simp [lbNet, net], rfl, rfl, rfl⟩⟩ opt3

theorem opt1 : Opt .fwd lbNet tt.root 1 80 :=
  .hop (d := .fwd) (l := 1) (m := 3) (w := 80) ⟨lineB.stops, fun i => lineB.dep 0 i, fun i => lineB.arr 0 i, 0, st 1, st 3, rfl, rfl, by decide, ⟨rfl, rfl⟩,
    Or.inl ⟨lineB, by simp [lbNet, net], 0, by decide, rfl, fun _ => rfl, fun _ => rfl⟩⟩ opt3

theorem opt0 : Opt .fwd lbNet tt.root 0 5 :=
  .hop (d := .fwd) (l := 0) (m := 3) (w := 5) ⟨lineC.stops, fun i => lineC.dep 0 i, fun i => lineC.arr 0 i, 0, st 0, st 3, rfl, rfl, by decide, ⟨rfl, rfl⟩,
    Or.inl ⟨lineC, by simp [lbNet, net], 0, by decide, rfl, fun _ => rfl, fun _ => rfl⟩⟩ opt3

theorem opt_lt {l : Nat} {c : Int} (h : Opt .fwd lbNet tt.root l c) : l < 6 := by
  induction h with
  | arrive h =>
    unfold Arrive at h
    rw [if_neg (by decide)] at h
    rcases h with ⟨h, -⟩ | ⟨l', w, -, h, -⟩
    · exact lbNet_ok.destLocs _ h
    · simp only [lbNet, net] at h
      split at h <;> simp at h
      rename_i hm
      rw [hm]; decide
  | hop h _ _ =>
    obtain ⟨stops, dep, arr, s, x, y, hx, hy, -, ⟨rfl, -⟩, h⟩ := h
    rcases h with ⟨r, hr, t, -, rfl, -⟩ | ⟨r, hr, rfl, -⟩
    · exact lbNet_ok.locs r hr x (List.mem_of_getElem? hx)
    · exact lbNet_ok.rtLocs r hr x (List.mem_of_getElem? hx)
  | walk h _ _ =>
    simp only [lbNet, net] at h
    split at h <;> simp at h
    rename_i hm
    rw [hm]; decide
  | @station l m c h _ ih =>
    rw [root_eq, root_eq] at h
    have ih : (m : Nat) < 6 := ih
    show (l : Nat) < 6
    by_cases h1 : l = 1 ∨ l = 5
    · rcases h1 with rfl | rfl <;> decide
    · by_cases h2 : m = 1 ∨ m = 5
      · rw [if_neg h1, if_pos h2] at h; rw [h]; decide
      · rw [if_neg h1, if_neg h2] at h; rw [h]; exact ih

theorem near : Near .fwd lbNet tt.root := by
  intro l c h
  have hl := opt_lt h
  match l, hl with
  | 0, _ => exact ⟨_, opt0, by decide⟩
  | 1, _ => exact ⟨_, opt1, by decide⟩
  | 2, _ => exact ⟨_, opt2, by decide⟩
  | 3, _ => exact ⟨_, opt3, by decide⟩
  | 4, _ => exact ⟨_, .station (by rw [root_eq, root_eq]; rfl) opt1, by decide⟩
  | 5, _ => exact ⟨_, .station (by rw [root_eq, root_eq]; rfl) opt1, by decide⟩

theorem bounds_eq : lowerBounds tt .fwd qry true (fun _ => false) = some bounds := by decide +kernel

theorem lb_eq (l : Loc) : lbNet.lb l = lbOf bounds l := by simp only [lbNet]

/-- All hypotheses of the theorems hold for this timetable. -/
theorem lb_ok (T0 W : Int) (h : W ≤ T0 + 7200) : LbOk .fwd lbNet T0 W := by
  obtain ⟨dists, h1, h2⟩ := C22_admissible .fwd tt tt_ok qry qry_ok true (fun _ => false)
  rw [bounds_eq] at h1
  have h1 := Option.some.inj h1
  subst h1
  refine h2 lbNet agrees lbNet_ok (fun _ => rfl) lb_eq ?_ ?_ ?_ near T0 W h
  · intro l t l' w h
    simp only [lbNet, net] at h
    split at h <;> simp at h
    rename_i hm
    rw [hm]; decide
  · intro l w h; cases h
  · intro l t w h; cases h

/-- The bound of the platform 5, at which no vehicle stops, is that of its station. -/
example : lbOf bounds 5 = some 18 := by decide +kernel

/-- A journey of 50 minutes; the bound of its start is 5 minutes. -/
example : ∃ x : Nat, lbOf bounds 0 = some (x : Int) ∧ (x : Int) ≤ 650 - 600 := by
  obtain ⟨dists, h1, h2⟩ := C22_journeys .fwd tt tt_ok qry qry_ok true (fun _ => false)
  rw [bounds_eq] at h1
  have h1 := Option.some.inj h1
  subst h1
  refine h2 lbNet agrees lbNet_ok (fun _ => rfl) 2 0 600 650 ?_ (by decide)
  exact .more (m := 2) (a := 620) ⟨602, by decide, Raptor.Demo.rideA⟩ (Or.inl ⟨rfl, rfl⟩) (.last ⟨640, by decide, Raptor.Demo.rideRt⟩
    (by unfold Arrive; rw [if_neg (by decide)]; exact Or.inl ⟨by decide, rfl⟩))

end Demo

/-- C22, C20 and C21 together: a search with the lower bounds computed for its query offers exactly what is
possible within its horizon. -/
theorem C22_search (d : Dir) (T : Tt) (hT : TtOk T) (q : Qry) (hq : QryOk T q) (useRt : Bool) (has : Nat → Bool) (N : Net)
    (hA : Agrees d T q N) (hN : NetOk N) (hF : NetFifo N) (hu : T.rts ≠ [] → useRt = true)
    (hlb : ∀ dists, lowerBounds T d q useRt has = some dists → ∀ l, N.lb l = lbOf dists l)
    (hfp : ∀ l t l' w, (l', w) ∈ N.fps l t → l < T.nLoc) (hed : ∀ l w, N.endDist l = some w → l < T.nLoc)
    (het : ∀ l t w, N.endTd l t = some w → l < T.nLoc) (hnear : Near d N T.root) (n : Nat) (qs : List Start) (hqs : RangeQuery d N qs)
    (j : Nat) (hj : j ≤ n) (A : Int) (hAw : ∀ s ∈ qs, A ≤ s.horizon) :
    Offered d N n qs j A ↔ Possible d N qs j A := by
  obtain ⟨dists, h1, h2⟩ := C22_admissible d T hT q hq useRt has
  exact C20_exact d N hN hF n qs hqs (fun s hs => h2 N hA hN hu (hlb dists h1) hfp hed het hnear s.time s.horizon (by unfold Start.horizon; omega)) j hj A hAw

example : reported .fwd Demo.lbNet 8 Raptor.Demo.qs = [(3, 1, 660), (3, 2, 650)] := by decide +kernel

/-! ## Why the numbering of stations matters -/

namespace Order
open Nigiri.Raptor.Demo (st)

/-- Platform 0 of a station part 1 of the station 2; a line runs from 0 to 3. -/
def line : RouteData := ⟨[st 0, st 3], 1, fun _ s => 600 + 10 * s, fun _ s => 600 + 10 * s, fun _ _ => true, 3, [[], []]⟩

def tt : Tt where
  nLoc := 4
  parent := fun l => if l = 0 then some 1 else if l = 1 then some 2 else none
  children := fun l => if l = 1 then [0] else if l = 2 then [1] else []
  equiv := fun _ => []
  generated := fun _ => false
  fpsOut := fun _ => []
  fpsIn := fun _ => []
  routes := [line]
  rts := []

def qry : Qry := ⟨.exact, [(3, 0)], [], 1440⟩

def net (lb : Loc → Option Int) : Net where
  nLoc := 4
  routes := [line]
  rts := []
  base := 5
  wheelchair := false
  claszMask := 255
  required := []
  transfer := fun _ => 2
  fps := fun _ _ => []
  intermodal := false
  endDist := fun _ => none
  endTd := fun _ _ => none
  endLoc := 9
  isDest := fun l => l == 3
  lb := lb

end Order

/-- C22 needs the numbering: if a station part has a smaller index than its station (the GTFS loader numbers
stops in the order of a hash map), the bound of a platform is "unreachable" although a journey of 10 minutes
exists, and a search with these bounds from the platform reports nothing, while it does report the journey
without bounds. -/
theorem C22_order_counterexample : ∃ dists, lowerBounds Order.tt .fwd Order.qry false (fun _ => false) = some dists ∧
    lbOf dists 0 = none ∧ Journey .fwd (Order.net (lbOf dists)) 1 0 600 610 ∧
    reported .fwd (Order.net (lbOf dists)) 8 [⟨600, [(0, 600)], 600 + 1440⟩] = [] ∧
    reported .fwd (Order.net fun _ => some 0) 8 [⟨600, [(0, 600)], 600 + 1440⟩] = [(3, 1, 610)] := by
  refine ⟨(lowerBounds Order.tt .fwd Order.qry false (fun _ => false)).getD [], by decide +kernel, by decide +kernel, ?_, by decide +kernel,
    by decide +kernel⟩
  refine .last (m := 3) (a := 610) ⟨600, by decide, Or.inl ⟨Order.line, by simp [Order.net], 0, 5, by decide, rfl, by decide, 0, 1, Raptor.Demo.st 0,
    Raptor.Demo.st 3, by decide, rfl, rfl, rfl, rfl, by unfold MayBoard; decide, by unfold MayAlight; decide, ?_, by decide, by decide⟩⟩ ?_
  · intro s _ _ f sec h1
    simp [Order.net] at h1
  · unfold Arrive; rw [if_neg (by decide)]; exact Or.inl ⟨by decide, rfl⟩

end Nigiri.Lb
