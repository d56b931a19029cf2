import Verif.Props.ShapeStore
import Verif.Props.TripWalk
/-!
# Property C80: bounding boxes

The bounding box of a route contains all its stops and everything its trips drive on; the box of a
segment contains its two stops and everything the trips drive on between them. Loading never accesses
anything out of bounds.
-/

namespace Nigiri.Shapes

/-! ### Boxes -/

theorem extend_self (b : Box) (p : Pos) : (b.extend p).contains p = true := by
  match b with
  | none => simp [Box.extend, Box.contains]
  | some (lo, hi) =>
    simp only [Box.extend, Box.contains, decide_eq_true_eq]
    omega

theorem extend_mono (b : Box) (p q : Pos) (h : b.contains q = true) : (b.extend p).contains q = true := by
  match b, h with
  | some (lo, hi), h =>
    simp only [Box.extend, Box.contains, decide_eq_true_eq] at *
    omega

theorem merge_left (a b : Box) (q : Pos) (h : a.contains q = true) : (a.merge b).contains q = true := by
  match b with
  | none => exact h
  | some (lo, hi) => exact extend_mono _ _ _ (extend_mono _ _ _ h)

theorem contains_between (a : Box) (lo hi q : Pos) (h1 : a.contains lo = true) (h2 : a.contains hi = true)
    (hq : Box.contains (some (lo, hi)) q = true) : a.contains q = true := by
  match a, h1, h2 with
  | some (l, h), h1, h2 =>
    simp only [Box.contains, decide_eq_true_eq] at *
    omega

theorem merge_right (a b : Box) (q : Pos) (h : b.contains q = true) : (a.merge b).contains q = true := by
  match b, h with
  | some (lo, hi), h =>
    exact contains_between _ lo hi q (extend_mono _ _ _ (extend_self _ _)) (extend_self _ _) h

theorem containsBox_spec (a b : Box) (h : a.containsBox b = true) (q : Pos) (hq : b.contains q = true) : a.contains q = true := by
  match b, h, hq with
  | some (lo, hi), h, hq =>
    simp only [Box.containsBox, Bool.and_eq_true] at h
    exact contains_between _ lo hi q h.1 h.2 hq

theorem foldl_extend : ∀ (l : List Pos) (b : Box),
    (∀ q, b.contains q = true → (l.foldl Box.extend b).contains q = true) ∧
    (∀ q ∈ l, (l.foldl Box.extend b).contains q = true)
  | [], b => ⟨fun _ h => h, by simp⟩
  | p :: l, b => by
    obtain ⟨h1, h2⟩ := foldl_extend l (b.extend p)
    rw [List.foldl_cons]
    refine ⟨fun q hq => h1 q (extend_mono _ _ _ hq), ?_⟩
    intro q hq
    rcases List.mem_cons.1 hq with rfl | hq
    · exact h1 _ (extend_self _ _)
    · exact h2 q hq

theorem boxOf_mem (l : List Pos) : ∀ q ∈ l, (boxOf l).contains q = true := (foldl_extend l none).2

/-! ### Boxes of a task -/

theorem subspanTo_slice (pts : List Pos) (a b : Nat) (h : a ≤ b) (hb : b < pts.length) : subspanTo pts a b = some (slice pts a b) := by
  unfold subspanTo subspan slice
  rw [if_pos (by omega), if_pos (by omega)]

theorem segmentBoxes_spec (pts : List Pos) : ∀ os : List Nat, (∀ o ∈ os, o < pts.length) → os.Pairwise (· ≤ ·) →
    ∃ segs, segmentBoxes pts os = some segs ∧ segs.length = os.length - 1 ∧
      ∀ i a b : Nat, os[i]? = some a → os[i + 1]? = some b →
        ∃ bx, segs[i]? = some bx ∧ ∀ q ∈ slice pts a b, bx.contains q = true
  | [], _, _ => ⟨[], rfl, rfl, by simp⟩
  | [a], _, _ => ⟨[], rfl, rfl, by
      intro i a b _ h2
      simp at h2⟩
  | a :: b :: os, hlt, hp => by
    rw [List.pairwise_cons] at hp
    obtain ⟨segs, h1, h2, h3⟩ := segmentBoxes_spec pts (b :: os) (fun o ho => hlt o (List.mem_cons_of_mem _ ho)) hp.2
    refine ⟨boxOf (slice pts a b) :: segs, ?_, ?_, ?_⟩
    · unfold segmentBoxes
      rw [subspanTo_slice pts a b (hp.1 b (by simp)) (hlt b (by simp)), h1]
    · simp only [List.length_cons] at *; omega
    · intro i x y hx hy
      cases i with
      | zero =>
        have e1 : a = x := by simpa using hx
        have e2 : b = y := by simpa using hy
        subst e1 e2
        exact ⟨_, by simp, boxOf_mem _⟩
      | succ i =>
        obtain ⟨bx, e1, e2⟩ := h3 i x y (by simpa using hx) (by simpa using hy)
        exact ⟨bx, by simpa using e1, e2⟩

theorem tripBox_spec (pts : List Pos) : ∀ (os : List Nat) (b0 : Box), (∀ o ∈ os, o < pts.length) → os.Pairwise (· ≤ ·) →
    ∃ bx, tripBox pts os b0 = some bx ∧ (∀ q, b0.contains q = true → bx.contains q = true) ∧
      ∀ i a b : Nat, os[i]? = some a → os[i + 1]? = some b → ∀ q ∈ slice pts a b, bx.contains q = true
  | [], b0, _, _ => ⟨b0, rfl, fun _ h => h, by simp⟩
  | [a], b0, _, _ => ⟨b0, rfl, fun _ h => h, by
      intro i a b _ h2
      simp at h2⟩
  | a :: b :: os, b0, hlt, hp => by
    rw [List.pairwise_cons] at hp
    obtain ⟨bx, h1, h2, h3⟩ := tripBox_spec pts (b :: os) ((slice pts a b).foldl Box.extend b0)
      (fun o ho => hlt o (List.mem_cons_of_mem _ ho)) hp.2
    obtain ⟨f1, f2⟩ := foldl_extend (slice pts a b) b0
    refine ⟨bx, ?_, fun q hq => h2 q (f1 q hq), ?_⟩
    · unfold tripBox
      rw [subspanTo_slice pts a b (hp.1 b (by simp)) (hlt b (by simp))]
      exact h1
    · intro i x y hx hy
      cases i with
      | zero =>
        have e1 : a = x := by simpa using hx
        have e2 : b = y := by simpa using hy
        subst e1 e2
        exact fun q hq => h2 q (f2 q hq)
      | succ i => exact h3 i x y (by simpa using hx) (by simpa using hy)

/-- All points between two stops lie between two neighbouring stops. -/
theorem slice_cover (pts : List Pos) (os : List Nat) (m : Nat) (hv : Valid pts.length m os) (q : Pos) :
    ∀ n fr a b : Nat, os[fr]? = some a → os[fr + n + 1]? = some b → q ∈ slice pts a b →
      ∃ i x y : Nat, os[i]? = some x ∧ os[i + 1]? = some y ∧ q ∈ slice pts x y
  | 0, fr, a, b, ha, hb, hq => ⟨fr, a, b, ha, hb, hq⟩
  | n + 1, fr, a, b, ha, hb, hq => by
    have hbl := (List.getElem?_eq_some_iff.1 hb).1
    have hc : os[fr + 1]? = some os[fr + 1] := List.getElem?_eq_getElem (by omega)
    have hpw := List.pairwise_iff_getElem.1 hv.mono
    have ha' := List.getElem?_eq_some_iff.1 ha
    have hb' := List.getElem?_eq_some_iff.1 hb
    have h1 : a ≤ os[fr + 1] := by
      exact Nat.le_trans (Nat.le_of_eq ha'.2.symm) (hpw fr (fr + 1) (by omega) (by omega) (by omega))
    have h2 : os[fr + 1] ≤ b := by
      exact Nat.le_trans (hpw (fr + 1) (fr + (n + 1) + 1) (by omega) (by omega) (by omega)) (Nat.le_of_eq hb'.2)
    have h3 : b < pts.length := hv.lt _ (List.mem_of_getElem? hb)
    rw [(slice_append pts a os[fr + 1] b h1 h2 h3).1] at hq
    rcases List.mem_append.1 hq with hq | hq
    · exact ⟨fr, _, _, ha, hc, hq⟩
    · exact slice_cover pts os m hv q n (fr + 1) _ b hc (by rw [show fr + 1 + n + 1 = fr + (n + 1) + 1 by omega]; exact hb)
        (List.mem_of_mem_tail hq)

theorem trivial_spec (sp : Nat → Pos) : ∀ (stops : List Nat) (segs : List Box), segs.length = stops.length - 1 →
    trivialBoxes sp stops segs = true →
    ∀ (i s s' : Nat) (b : Box), stops[i]? = some s → stops[i + 1]? = some s' → segs[i]? = some b →
      ∀ q, b.contains q = true → (boxOf [sp s, sp s']).contains q = true
  | [], _, _, _, i, s, s', b, h, _, _ => by simp at h
  | [_], _, _, _, i, s, s', b, _, h, _ => by simp at h
  | s0 :: s1 :: ss, [], hl, _, i, s, s', b, _, _, h => by simp at h
  | s0 :: s1 :: ss, b0 :: bs, hl, ht, i, s, s', b, h1, h2, h3 => by
    unfold trivialBoxes at ht
    rw [Bool.and_eq_true] at ht
    cases i with
    | zero =>
      have e1 : s0 = s := by simpa using h1
      have e2 : s1 = s' := by simpa using h2
      have e3 : b0 = b := by simpa using h3
      subst e1 e2 e3
      exact containsBox_spec _ _ ht.1
    | succ i =>
      exact trivial_spec sp (s1 :: ss) bs (by simp at hl ⊢; omega) ht.2 i s s' b (by simpa using h1) (by simpa using h2)
        (by simpa using h3)

/-- Offsets of a task: none, or valid. -/
theorem offsetsFor_total {g : Geo} (hg : g.Ok) (sp : Nat → Pos) (pts : List Pos) (ds : List Int) (stops : List Nat) (dist : List Int)
    (hd : ds = [] ∨ ds.length = pts.length) (hdt : dist = [] ∨ dist.length = stops.length) :
    ∃ os, offsetsFor g sp pts ds stops dist = some os ∧ (os = [] ∨ Valid pts.length stops.length os) := by
  unfold offsetsFor
  by_cases hn : pts.length < stops.length
  · rw [if_pos hn]; exact ⟨_, rfl, .inl rfl⟩
  · rw [if_neg hn]
    by_cases hc : (!ds.isEmpty && !dist.isEmpty) = true
    · rw [if_pos hc]
      simp only [Bool.and_eq_true, Bool.not_eq_true', List.isEmpty_eq_false_iff] at hc
      rcases hd with hd | hd
      · exact absurd hd hc.1
      · rcases hdt with hdt | hdt
        · exact absurd hdt hc.2
        · refine ⟨_, rfl, .inr ?_⟩
          have hlen : 1 ≤ ds.length := by
            have := List.length_pos_iff.2 hc.1; omega
          have := C78_by_dist ds dist hlen
          rw [hd, hdt] at this
          exact this
    · rw [if_neg hc]
      by_cases h2 : stops.length < 2
      · unfold offsetsByStops; rw [if_pos h2]; exact ⟨_, rfl, .inl rfl⟩
      · obtain ⟨os, h1, h2⟩ := C78_by_stops hg sp pts stops (by omega) (by omega)
        exact ⟨os, h1, .inr h2.toValid⟩

/-- The result of a task. -/
theorem processTask_total {g : Geo} (hg : g.Ok) (sp : Nat → Pos) (pts : List Pos) (ds : List Int) (x : Task)
    (hd : ds = [] ∨ ds.length = pts.length) (hdt : x.dist = [] ∨ x.dist.length = x.stops.length) :
    ∃ y, processTask g sp pts ds x = some y ∧ y.stops = x.stops ∧
      ((y.offsets = [] ∧ y.segBoxes = []) ∨ (Valid pts.length x.stops.length y.offsets ∧
        y.segBoxes.length ≤ x.stops.length - 1 ∧
        (∀ i a b : Nat, y.offsets[i]? = some a → y.offsets[i + 1]? = some b → ∀ q ∈ slice pts a b, y.tripBox.contains q = true) ∧
        (∀ i a b s s' : Nat, y.offsets[i]? = some a → y.offsets[i + 1]? = some b → x.stops[i]? = some s → x.stops[i + 1]? = some s' →
          ∀ q ∈ slice pts a b, (boxOf [sp s, sp s']).contains q = true ∨
            ∃ bx, y.segBoxes[i]? = some bx ∧ bx.contains q = true))) := by
  obtain ⟨os, h1, h2⟩ := offsetsFor_total hg sp pts ds x.stops x.dist hd hdt
  unfold processTask
  rw [h1]
  dsimp only
  by_cases he : os.isEmpty = true
  · rw [if_pos he]
    exact ⟨_, rfl, rfl, .inl ⟨rfl, rfl⟩⟩
  · rw [if_neg he]
    rcases h2 with h2 | hv
    · subst h2; simp at he
    · obtain ⟨segs, e1, e2, e3⟩ := segmentBoxes_spec pts os hv.lt hv.mono
      obtain ⟨tb, f1, -, f2⟩ := tripBox_spec pts os none hv.lt hv.mono
      rw [e1, f1]
      dsimp only
      refine ⟨_, rfl, rfl, .inr ⟨hv, ?_, f2, ?_⟩⟩
      · dsimp only
        rw [← hv.len, ← e2]
        by_cases ht : trivialBoxes sp x.stops segs = true
        · rw [if_pos ht]; simp
        · rw [if_neg ht]; exact Nat.le_refl _
      · dsimp only
        intro i a b s s' ha hb hs hs' q hq
        obtain ⟨bx, g1, g2⟩ := e3 i a b ha hb
        by_cases ht : trivialBoxes sp x.stops segs = true
        · exact .inl (trivial_spec sp x.stops segs (by rw [e2, hv.len]) ht i s s' bx hs hs' g1 q (g2 q hq))
        · rw [if_neg ht]
          exact .inr ⟨bx, g1, g2 q hq⟩

/-! ### Boxes of a route -/

theorem stopBoxes_spec (sp : Nat → Pos) : ∀ stops : List Nat, (stopBoxes sp stops).length = stops.length - 1 ∧
    ∀ i s s' : Nat, stops[i]? = some s → stops[i + 1]? = some s' → (stopBoxes sp stops)[i]? = some (boxOf [sp s, sp s'])
  | [] => ⟨rfl, by simp⟩
  | [_] => ⟨rfl, by intro i s s' _ h; simp at h⟩
  | s0 :: s1 :: ss => by
    obtain ⟨h1, h2⟩ := stopBoxes_spec sp (s1 :: ss)
    refine ⟨by simp [stopBoxes] at *; omega, ?_⟩
    intro i s s' hs hs'
    cases i with
    | zero =>
      have e1 : s0 = s := by simpa using hs
      have e2 : s1 = s' := by simpa using hs'
      subst e1 e2
      simp [stopBoxes]
    | succ i =>
      have := h2 i s s' (by simpa using hs) (by simpa using hs')
      simpa [stopBoxes] using this

/-- Boxes only grow. -/
def Grown (S S' : List Box) : Prop :=
  S'.length = S.length ∧ ∀ (i : Nat) (b : Box), S[i]? = some b → ∃ b', S'[i]? = some b' ∧ ∀ q, b.contains q = true → b'.contains q = true

theorem Grown.refl (S : List Box) : Grown S S := ⟨rfl, fun i b h => ⟨b, h, fun _ h => h⟩⟩

theorem Grown.trans {S T U : List Box} (h1 : Grown S T) (h2 : Grown T U) : Grown S U := by
  refine ⟨h2.1.trans h1.1, ?_⟩
  intro i b hb
  obtain ⟨b', a1, a2⟩ := h1.2 i b hb
  obtain ⟨b'', c1, c2⟩ := h2.2 i b' a1
  exact ⟨b'', c1, fun q hq => c2 q (a2 q hq)⟩

theorem addBoxes_spec : ∀ (bs : List Box) (S : List Box) (i : Nat), i + bs.length ≤ S.length →
    ∃ S', addBoxes S i bs = some S' ∧ Grown S S' ∧
      ∀ (j : Nat) (b : Box), bs[j]? = some b → ∃ b', S'[i + j]? = some b' ∧ ∀ q, b.contains q = true → b'.contains q = true
  | [], S, i, _ => ⟨S, rfl, .refl S, by simp⟩
  | b :: bs, S, i, h => by
    simp only [List.length_cons] at h
    have hi : S[i]? = some S[i] := List.getElem?_eq_getElem (by omega)
    obtain ⟨S', h1, h2, h3⟩ := addBoxes_spec bs (S.set i (S[i].merge b)) (i + 1) (by rw [List.length_set]; omega)
    have hg : Grown S (S.set i (S[i].merge b)) := by
      refine ⟨List.length_set, ?_⟩
      intro k c hc
      by_cases hk : i = k
      · subst hk
        rw [hi] at hc
        cases hc
        exact ⟨_, List.getElem?_set_self (by omega), fun q hq => merge_left _ _ _ hq⟩
      · exact ⟨c, by rw [List.getElem?_set_ne hk]; exact hc, fun _ h => h⟩
    refine ⟨S', ?_, hg.trans h2, ?_⟩
    · unfold addBoxes
      rw [hi]
      exact h1
    · intro j c hc
      cases j with
      | zero =>
        have : b = c := by simpa using hc
        subst this
        obtain ⟨b', e1, e2⟩ := h2.2 i _ (List.getElem?_set_self (by omega))
        exact ⟨b', e1, fun q hq => e2 q (merge_right _ _ _ hq)⟩
      | succ j =>
        obtain ⟨b', e1, e2⟩ := h3 j c (by simpa using hc)
        exact ⟨b', by rw [show i + (j + 1) = i + 1 + j by omega]; exact e1, e2⟩

/-- Specification: the route's transports serve trips of this feed; where a trip is served, the route
has its stops. -/
def RouteOk (sp : Nat → Pos) (st : Store) (trips : List Trip) (r : Route) : Prop :=
  ∀ tr ∈ r.transports, ∀ x ∈ Resolve.forEachTrip tr r.stops.length, ∃ k t, x.1 = some (st.trips.length + k) ∧
    trips[k]? = some t ∧ x.2.1 + t.stops.length ≤ r.stops.length ∧
    ∀ i s s' : Nat, t.stops[i]? = some s → r.stops[x.2.1 + i]? = some s' → sp s = sp s'

/-- Specification: shape indices of trips are those of the feed's shapes. -/
def ShapesOk (rows : List Row) (st : Store) (trips : List Trip) : Prop :=
  ∀ t ∈ trips, ∀ s, t.shape = some s → ∃ pts dists, ShapeIs rows st s pts dists

/-- What the boxes of a route know about one trip. -/
def CoversTrip (st' : Store) (x : Option Nat × Nat × Nat) (m : Nat) (B : Box) (S : List Box) : Prop :=
  ∀ trip, x.1 = some trip →
    (∀ fr to p src, fr + 1 < to → to ≤ m → getShape st' trip fr to = some (some (p, src)) → ∀ q ∈ p, B.contains q = true) ∧
    (∀ i p src, i + 2 ≤ m → getShape st' trip i (i + 2) = some (some (p, src)) →
      ∃ b, S[x.2.1 + i]? = some b ∧ ∀ q ∈ p, b.contains q = true)

theorem covers_mono {st' : Store} {x : Option Nat × Nat × Nat} {m : Nat} {B B' : Box} {S S' : List Box}
    (hB : ∀ q, B.contains q = true → B'.contains q = true) (hS : Grown S S') (h : CoversTrip st' x m B S) : CoversTrip st' x m B' S' := by
  intro trip ht
  obtain ⟨h1, h2⟩ := h trip ht
  refine ⟨fun fr to p src a b c q hq => hB q (h1 fr to p src a b c q hq), ?_⟩
  intro i p src a b
  obtain ⟨bx, e1, e2⟩ := h2 i p src a b
  obtain ⟨b', e3, e4⟩ := hS.2 _ _ e1
  exact ⟨b', e3, fun q hq => e4 q (e2 q hq)⟩

theorem addTrip_spec {g : Geo} (hg : g.Ok) {sp : Nat → Pos} {rows : List Row} {trips : List Trip} {routes : List Route} {st st' mid : Store}
    {tasks : List (List Task)} (hL : Loaded g sp rows trips routes st st' tasks) (hmid : mid.trips = st'.trips)
    (hdist : ∀ t ∈ trips, TripOk t) (hso : ShapesOk rows st trips)
    (r : Route) (x : Option Nat × Nat × Nat) (k : Nat) (t : Trip) (hx : x.1 = some (st.trips.length + k)) (hk : trips[k]? = some t)
    (hfit : x.2.1 + t.stops.length ≤ r.stops.length)
    (hpos : ∀ i s s' : Nat, t.stops[i]? = some s → r.stops[x.2.1 + i]? = some s' → sp s = sp s')
    (B : Box) (S : List Box) (hbase : Grown (stopBoxes sp r.stops) S) :
    ∃ B' S', addTrip mid st.data.length tasks (some (B, S)) x = some (B', S') ∧
      (∀ q, B.contains q = true → B'.contains q = true) ∧ Grown S S' ∧ CoversTrip st' x t.stops.length B' S' := by
  have hSlen : S.length = r.stops.length - 1 := by rw [hbase.1]; exact (stopBoxes_spec sp r.stops).1
  have hnone : (st'.trips[st.trips.length + k]?).join = none → ∃ B' S', addTrip mid st.data.length tasks (some (B, S)) x = some (B', S') ∧
      (∀ q, B.contains q = true → B'.contains q = true) ∧ Grown S S' ∧ CoversTrip st' x t.stops.length B' S' := by
    intro hn
    refine ⟨B, S, ?_, fun _ h => h, .refl S, ?_⟩
    · unfold addTrip
      rw [hx, hmid]
      dsimp only [Option.bind_some]
      rw [hn]
    · intro trip ht
      rw [hx] at ht
      cases ht
      have : ∀ fr to, getShape st' (st.trips.length + k) fr to = some none := by
        intro fr to
        unfold getShape getTripShape
        rw [hn]
      exact ⟨fun fr to p src _ _ h => by rw [this] at h; simp at h, fun i p src _ h => by rw [this] at h; simp at h⟩
  cases hsh : t.shape with
  | none =>
    apply hnone
    rw [hL.tripsEq, List.getElem?_append_right (by omega), Nat.add_sub_cancel_left, List.getElem?_map, hk]
    show tripEntry _ _ _ = _
    unfold tripEntry
    rw [hsh]
  | some s =>
    obtain ⟨pts, dists, hSI⟩ := hso t (List.mem_of_getElem? hk) s hsh
    obtain ⟨ts, y, z, t', e0, ed, ey, e1, e2, e3, e4, e5, e6, e7⟩ := trip_entry hL k t hk s hsh pts dists hSI
    obtain ⟨z', f1, f2, f3⟩ := processTask_total hg sp pts dists (freshTask t') (shape_dists rows st s pts dists hSI) (hdist t' e1)
    rw [e4] at f1
    cases f1
    have hzi : z.idx = none := (processTask_frame e4).2.1
    rcases e5.2 with ⟨h3, h4⟩ | ⟨h3, i, h4, -, h5⟩
    · apply hnone
      rw [e7, h4, hzi]
      rfl
    · rcases f3 with ⟨f3, -⟩ | ⟨hv, f4, f5, f6⟩
      · exact absurd f3 h3
      · rw [show (freshTask t').stops = t.stops from e3] at hv f4 f6
        have hyz : y.segBoxes = z.segBoxes ∧ y.tripBox = z.tripBox := by rw [e5.1]; exact ⟨rfl, rfl⟩
        have hfind : ts.find? (fun w => decide (w.idx = some i)) = some y := by
          clear e0
          induction ts with
          | nil => simp at ey
          | cons w ws ih =>
            unfold Distinct at ed
            rw [List.pairwise_cons] at ed
            rcases List.mem_cons.1 ey with rfl | ey
            · rw [List.find?_cons_of_pos (by simp [h4])]
            · rw [List.find?_cons_of_neg (by
                intro hw
                exact ed.1 y ey i (by simpa using hw) h4)]
              exact ih ed.2 ey
        have hroom : x.2.1 + y.segBoxes.length ≤ S.length ∨ y.segBoxes = [] := by
          by_cases h0 : y.segBoxes = []
          · exact .inr h0
          · left
            have := List.length_pos_iff.2 h0
            rw [hyz.1] at this ⊢
            omega
        have hadd : ∃ S', addBoxes S x.2.1 y.segBoxes = some S' ∧ Grown S S' ∧
            ∀ (j : Nat) (b : Box), y.segBoxes[j]? = some b → ∃ b', S'[x.2.1 + j]? = some b' ∧ ∀ q, b.contains q = true → b'.contains q = true := by
          rcases hroom with hroom | hroom
          · exact addBoxes_spec y.segBoxes S x.2.1 hroom
          · rw [hroom]; exact ⟨S, rfl, .refl S, by simp⟩
        obtain ⟨S', a1, a2, a3⟩ := hadd
        rw [h4] at e7
        refine ⟨B.merge y.tripBox, S', ?_, fun q hq => merge_left _ _ _ hq, a2, ?_⟩
        · unfold addTrip
          rw [hx, hmid]
          dsimp only [Option.bind_some]
          rw [e7]
          dsimp only [Option.map_some]
          rw [e0]
          dsimp only [Option.getD_some]
          rw [hfind]
          dsimp only
          rw [a1]
          rfl
        · intro trip ht
          rw [hx] at ht
          cases ht
          constructor
          · intro fr to p src hf hto hget q hq
            obtain ⟨a, b, b1, b2, b3, b4, b5⟩ := getShape_slice e7 e6 h5 hv fr to (by omega) hto
            rw [b5] at hget
            cases hget
            obtain ⟨n, hn⟩ : ∃ n, to - 1 = fr + n + 1 := ⟨to - 1 - fr - 1, by omega⟩
            rw [hn] at b2
            obtain ⟨j, u, v, c1, c2, c3⟩ := slice_cover pts z.offsets _ hv q n fr a b b1 b2 hq
            apply merge_right
            rw [hyz.2]
            exact f5 j u v c1 c2 q c3
          · intro j p src hj hget
            obtain ⟨a, b, b1, b2, b3, b4, b5⟩ := getShape_slice e7 e6 h5 hv j (j + 2) (by omega) hj
            rw [b5] at hget
            cases hget
            rw [show j + 2 - 1 = j + 1 by omega] at b2
            have hs1 : t.stops[j]? = some t.stops[j] := List.getElem?_eq_getElem (by omega)
            have hs2 : t.stops[j + 1]? = some t.stops[j + 1] := List.getElem?_eq_getElem (by omega)
            have hr1 : r.stops[x.2.1 + j]? = some r.stops[x.2.1 + j] := List.getElem?_eq_getElem (by omega)
            have hr2 : r.stops[x.2.1 + j + 1]? = some r.stops[x.2.1 + j + 1] := List.getElem?_eq_getElem (by omega)
            have hp1 := hpos j _ _ hs1 hr1
            have hp2 := hpos (j + 1) _ _ hs2 hr2
            have hsb := (stopBoxes_spec sp r.stops).2 (x.2.1 + j) _ _ hr1 hr2
            obtain ⟨b', g1, g2⟩ := (hbase.trans a2).2 _ _ hsb
            refine ⟨b', g1, ?_⟩
            intro q hq
            rcases f6 j a b _ _ b1 b2 hs1 hs2 q hq with h6 | ⟨bx, h6, h7⟩
            · apply g2
              rw [← hp1, ← hp2]
              exact h6
            · rw [← hyz.1] at h6
              obtain ⟨b'', k1, k2⟩ := a3 j bx h6
              rw [g1] at k1
              cases k1
              exact k2 q h7

theorem addTrips_spec {g : Geo} (hg : g.Ok) {sp : Nat → Pos} {rows : List Row} {trips : List Trip} {routes : List Route} {st st' mid : Store}
    {tasks : List (List Task)} (hL : Loaded g sp rows trips routes st st' tasks) (hmid : mid.trips = st'.trips)
    (hdist : ∀ t ∈ trips, TripOk t) (hso : ShapesOk rows st trips) (r : Route) : ∀ (L : List (Option Nat × Nat × Nat)),
    (∀ x ∈ L, ∃ k t, x.1 = some (st.trips.length + k) ∧ trips[k]? = some t ∧ x.2.1 + t.stops.length ≤ r.stops.length ∧
      ∀ i s s' : Nat, t.stops[i]? = some s → r.stops[x.2.1 + i]? = some s' → sp s = sp s') →
    ∀ (B : Box) (S : List Box), Grown (stopBoxes sp r.stops) S →
    ∃ B' S', L.foldl (addTrip mid st.data.length tasks) (some (B, S)) = some (B', S') ∧
      (∀ q, B.contains q = true → B'.contains q = true) ∧ Grown S S' ∧
      ∀ x ∈ L, ∀ k t, x.1 = some (st.trips.length + k) → trips[k]? = some t → CoversTrip st' x t.stops.length B' S'
  | [], _, B, S, _ => ⟨B, S, rfl, fun _ h => h, .refl S, by simp⟩
  | x :: L, hr, B, S, hbase => by
    obtain ⟨k, t, h1, h2, h3, h4⟩ := hr x (by simp)
    obtain ⟨B1, S1, a1, a2, a3, a4⟩ := addTrip_spec hg hL hmid hdist hso r x k t h1 h2 h3 h4 B S hbase
    obtain ⟨B2, S2, b1, b2, b3, b4⟩ := addTrips_spec hg hL hmid hdist hso r L (fun y hy => hr y (List.mem_cons_of_mem _ hy)) B1 S1
      (hbase.trans a3)
    refine ⟨B2, S2, ?_, fun q hq => b2 q (a2 q hq), a3.trans b3, ?_⟩
    · rw [List.foldl_cons, a1]; exact b1
    · intro y hy k' t' hk' ht'
      rcases List.mem_cons.1 hy with rfl | hy
      · rw [h1] at hk'
        have : k = k' := by have := Option.some.inj hk'; omega
        subst this
        rw [h2] at ht'
        cases ht'
        exact covers_mono b2 b3 a4
      · exact b4 y hy k' t' hk' ht'

/-- What is promised for the boxes of a route. -/
structure BoxesOk (sp : Nat → Pos) (st' : Store) (r : Route) (B : Box) (S : List Box) : Prop where
  stops : ∀ s ∈ r.stops, B.contains (sp s) = true
  segs : ∀ i s s' : Nat, r.stops[i]? = some s → r.stops[i + 1]? = some s' →
    ∃ b, S[i]? = some b ∧ b.contains (sp s) = true ∧ b.contains (sp s') = true
  trips : ∀ tr ∈ r.transports, ∀ x ∈ Resolve.forEachTrip tr r.stops.length, ∀ trip, x.1 = some trip →
    (∀ fr to p src, fr + 1 < to → x.2.1 + to ≤ x.2.2 → getShape st' trip fr to = some (some (p, src)) → ∀ q ∈ p, B.contains q = true) ∧
    (∀ i p src, x.2.1 + i + 2 ≤ x.2.2 → getShape st' trip i (i + 2) = some (some (p, src)) →
      ∃ b, S[x.2.1 + i]? = some b ∧ ∀ q ∈ p, b.contains q = true)

theorem routeBoxes_spec {g : Geo} (hg : g.Ok) {sp : Nat → Pos} {rows : List Row} {trips : List Trip} {routes : List Route} {st st' mid : Store}
    {tasks : List (List Task)} (hL : Loaded g sp rows trips routes st st' tasks) (hmid : mid.trips = st'.trips)
    (hdist : ∀ t ∈ trips, TripOk t) (hso : ShapesOk rows st trips) (r : Route) (hr : RouteOk sp st trips r)
    (hlen : ∀ tr ∈ r.transports, ∀ x ∈ Resolve.forEachTrip tr r.stops.length, ∀ k t, x.1 = some (st.trips.length + k) →
      trips[k]? = some t → x.2.2 = x.2.1 + t.stops.length) :
    ∃ B S, routeBoxes mid sp st.data.length tasks r = some (B, S) ∧ BoxesOk sp st' r B S := by
  obtain ⟨B, S, h1, h2, h3, h4⟩ := addTrips_spec hg hL hmid hdist hso r
    (r.transports.flatMap fun tr => Resolve.forEachTrip tr r.stops.length) (by
      intro x hx
      obtain ⟨tr, htr, hx⟩ := List.mem_flatMap.1 hx
      exact hr tr htr x hx) (boxOf (r.stops.map sp)) (stopBoxes sp r.stops) (.refl _)
  refine ⟨B, S, h1, ?_, ?_, ?_⟩
  · intro s hs
    exact h2 _ (boxOf_mem _ _ (List.mem_map.2 ⟨s, hs, rfl⟩))
  · intro i s s' hs hs'
    obtain ⟨b, e1, e2⟩ := h3.2 i _ ((stopBoxes_spec sp r.stops).2 i s s' hs hs')
    exact ⟨b, e1, e2 _ (boxOf_mem _ _ (by simp)), e2 _ (boxOf_mem _ _ (by simp))⟩
  · intro tr htr x hx trip ht
    obtain ⟨k, t, e1, e2, -, -⟩ := hr tr htr x hx
    have hl := hlen tr htr x hx k t e1 e2
    obtain ⟨c1, c2⟩ := h4 x (List.mem_flatMap.2 ⟨tr, htr, hx⟩) k t e1 e2 trip ht
    exact ⟨fun fr to p src a b => c1 fr to p src a (by omega), fun i p src a => c2 i p src (by omega)⟩

/-- Specification: trips occupy exactly their stops on the route. -/
def RouteFits (sp : Nat → Pos) (st : Store) (trips : List Trip) (r : Route) : Prop :=
  RouteOk sp st trips r ∧ ∀ tr ∈ r.transports, ∀ x ∈ Resolve.forEachTrip tr r.stops.length, ∀ k t,
    x.1 = some (st.trips.length + k) → trips[k]? = some t → x.2.2 = x.2.1 + t.stops.length

theorem assignBoxes_spec {g : Geo} (hg : g.Ok) {sp : Nat → Pos} {rows : List Row} {trips : List Trip} {routes : List Route} {st st' : Store}
    {tasks : List (List Task)} (hL : Loaded g sp rows trips routes st st' tasks)
    (hdist : ∀ t ∈ trips, TripOk t) (hso : ShapesOk rows st trips) : ∀ (rs : List Route) (mid fin : Store),
    mid.trips = st'.trips → mid.boxes.length = mid.segBoxes.length → (∀ r ∈ rs, RouteFits sp st trips r) →
    assignBoxes sp st.data.length tasks mid rs = some fin →
    mid.boxes <+: fin.boxes ∧ mid.segBoxes <+: fin.segBoxes ∧
    ∀ (n : Nat) (r : Route), rs[n]? = some r → ∃ B S, fin.boxes[mid.boxes.length + n]? = some B ∧
      fin.segBoxes[mid.boxes.length + n]? = some S ∧ BoxesOk sp st' r B S
  | [], mid, fin, _, _, _, h => by
    simp [assignBoxes] at h
    subst h
    exact ⟨List.prefix_refl _, List.prefix_refl _, by simp⟩
  | r :: rs, mid, fin, hm, hl, hr, h => by
    obtain ⟨B, S, h1, h2⟩ := routeBoxes_spec hg hL hm hdist hso r (hr r (by simp)).1 (hr r (by simp)).2
    unfold assignBoxes at h
    rw [h1] at h
    dsimp only at h
    obtain ⟨a1, a2, a3⟩ := assignBoxes_spec hg hL hdist hso rs
      { mid with boxes := mid.boxes ++ [B], segBoxes := mid.segBoxes ++ [S] } fin hm (by simp [hl])
      (fun x hx => hr x (List.mem_cons_of_mem _ hx)) h
    dsimp only at a1 a2 a3
    refine ⟨(List.prefix_append _ _).trans a1, (List.prefix_append _ _).trans a2, ?_⟩
    intro n x hx
    cases n with
    | zero =>
      have : r = x := by simpa using hx
      subst this
      refine ⟨B, S, getElem?_prefix a1 ?_, getElem?_prefix a2 ?_, h2⟩
      · simp
      · rw [Nat.add_zero, hl]; simp
    | succ n =>
      obtain ⟨B', S', c1, c2, c3⟩ := a3 n x (by simpa using hx)
      rw [List.length_append, List.length_singleton] at c1 c2
      exact ⟨B', S', by rw [show mid.boxes.length + (n + 1) = mid.boxes.length + 1 + n by omega]; exact c1,
        by rw [show mid.boxes.length + (n + 1) = mid.boxes.length + 1 + n by omega]; exact c2, c3⟩

/-- C80: after loading a feed, the bounding box of every route contains its stops and all points its trips
drive on, and the box of every segment contains its two stops and all points its trips drive on between
them. -/
theorem C80_boxes {g : Geo} (hg : g.Ok) (sp : Nat → Pos) (rows : List Row) (trips : List Trip) (routes : List Route)
    (st st' : Store) (h : loadFeed g sp rows trips routes st = some st') (hdist : ∀ t ∈ trips, TripOk t)
    (hso : ShapesOk rows st trips) (hl : st.boxes.length = st.segBoxes.length) (hr : ∀ r ∈ routes, RouteFits sp st trips r)
    (n : Nat) (r : Route) (hn : routes[n]? = some r) :
    ∃ B S, st'.boxes[st.boxes.length + n]? = some B ∧ st'.segBoxes[st.boxes.length + n]? = some S ∧ BoxesOk sp st' r B S := by
  obtain ⟨tasks, hL⟩ := loaded_of h
  obtain ⟨mid, -, m2, -, m4, m5, m6⟩ := hL.boxes
  obtain ⟨-, -, h3⟩ := assignBoxes_spec hg hL hdist hso routes mid st' m2 (by rw [m4, m5]; exact hl) hr m6
  rw [m4] at h3
  exact h3 n r hn

/-! ### Loading succeeds -/

theorem processAll_total {g : Geo} (sp : Nat → Pos) (pts : List Pos) (ds : List Int) : ∀ xs : List Task,
    (∀ x ∈ xs, ∃ y, processTask g sp pts ds x = some y) → ∃ ys, processAll g sp pts ds xs = some ys
  | [], _ => ⟨[], rfl⟩
  | x :: xs, h => by
    obtain ⟨y, hy⟩ := h x (by simp)
    obtain ⟨ys, hys⟩ := processAll_total sp pts ds xs (fun z hz => h z (List.mem_cons_of_mem _ hz))
    exact ⟨y :: ys, by unfold processAll; rw [hy, hys]⟩

theorem processShapes_total {g : Geo} (hg : g.Ok) (sp : Nat → Pos) (trips : List Trip) (hdist : ∀ t ∈ trips, TripOk t) :
    ∀ (shapes : List (Nat × Raw)) (i : Nat), (∀ x ∈ shapes, x.2.dists = [] ∨ x.2.dists.length = x.2.pts.length) →
    ∃ tasks, processShapes g sp trips i shapes = some tasks
  | [], i, _ => ⟨[], rfl⟩
  | x :: xs, i, h => by
    obtain ⟨tasks, ht⟩ := processShapes_total hg sp trips hdist xs (i + 1) (fun y hy => h y (List.mem_cons_of_mem _ hy))
    obtain ⟨ys, hys⟩ := processAll_total (g := g) sp x.2.pts x.2.dists (tasksOf trips i) (by
      intro w hw
      obtain ⟨t, ht, -, rfl⟩ := (tasksOf_spec trips i).2.1 w hw
      obtain ⟨y, hy, -⟩ := processTask_total hg sp x.2.pts x.2.dists (freshTask t) (h x (by simp)) (hdist t ht)
      exact ⟨y, hy⟩)
    exact ⟨ys :: tasks, by unfold processShapes; rw [hys, ht]⟩

theorem assignBoxes_total (sp : Nat → Pos) (off : Nat) (tasks : List (List Task)) : ∀ (rs : List Route) (mid : Store),
    (∀ r ∈ rs, ∀ m : Store, m.trips = mid.trips → ∃ x, routeBoxes m sp off tasks r = some x) →
    ∃ fin, assignBoxes sp off tasks mid rs = some fin
  | [], mid, _ => ⟨mid, rfl⟩
  | r :: rs, mid, h => by
    obtain ⟨⟨B, S⟩, hx⟩ := h r (by simp) mid rfl
    obtain ⟨fin, hf⟩ := assignBoxes_total sp off tasks rs { mid with boxes := mid.boxes ++ [B], segBoxes := mid.segBoxes ++ [S] }
      (fun r' hr' m hm => h r' (List.mem_cons_of_mem _ hr') m hm)
    exact ⟨fin, by unfold assignBoxes; rw [hx]; exact hf⟩

/-- C80 (no access out of bounds): loading the shapes of a feed always succeeds. -/
theorem C80_loads {g : Geo} (hg : g.Ok) (sp : Nat → Pos) (rows : List Row) (trips : List Trip) (routes : List Route)
    (st : Store) (hdist : ∀ t ∈ trips, TripOk t) (hso : ShapesOk rows st trips) (hr : ∀ r ∈ routes, RouteFits sp st trips r) :
    ∃ st', loadFeed g sp rows trips routes st = some st' := by
  obtain ⟨tasks, ht⟩ := processShapes_total hg sp trips hdist (parseShapes rows) st.data.length (by
    intro x hx
    obtain ⟨j, hj⟩ := List.mem_iff_getElem?.1 hx
    exact shape_dists rows st _ _ _ ⟨j, x, rfl, hj, rfl, rfl⟩)
  have h0 : loadFeed g sp rows trips [] st =
      some (assignOffsets { st with data := st.data ++ (parseShapes rows).map (·.2.pts) } st.data.length trips tasks).1 := by
    unfold loadFeed
    dsimp only
    rw [ht]
    rfl
  have hl0 := h0
  unfold loadFeed at h0 ⊢
  dsimp only at h0 ⊢
  rw [ht] at h0 ⊢
  dsimp only at h0 ⊢
  -- the state before the boxes are assigned is the feed without routes
  apply assignBoxes_total
  intro r hr' m hm
  have hL' : Loaded g sp rows trips [] st
      (assignOffsets { st with data := st.data ++ (parseShapes rows).map (·.2.pts) } st.data.length trips tasks).1
      (assignOffsets { st with data := st.data ++ (parseShapes rows).map (·.2.pts) } st.data.length trips tasks).2 := by
    obtain ⟨tk, hk, hloaded⟩ := loaded_tasks hl0
    rw [ht] at hk
    cases hk
    exact hloaded
  obtain ⟨B, S, h1, -⟩ := routeBoxes_spec hg hL' hm hdist hso r (hr r hr').1 (hr r hr').2
  exact ⟨_, h1⟩

end Nigiri.Shapes
