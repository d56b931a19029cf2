import Verif.Props.ShapeRead
import Verif.Props.Resolve
/-!
# Property C78: matching stops to shape points
-/

namespace Nigiri.Shapes

/-- Specification: the closest segment of a polyline is one of its segments. -/
def Geo.Ok (g : Geo) : Prop := ∀ p l, 2 ≤ l.length → g.segment p l + 1 < l.length

/-- Specification: `os` assigns each of `m` stops a point of a shape with `n` points, in driving order. -/
structure Valid (n m : Nat) (os : List Nat) : Prop where
  len : os.length = m
  lt : ∀ o ∈ os, o < n
  mono : os.Pairwise (· ≤ ·)

/-- Specification: additionally the stops have different points and the first and last stop the ends. -/
structure Strict (n m : Nat) (os : List Nat) : Prop extends Valid n m os where
  strict : os.Pairwise (· < ·)
  first : os[0]? = some 0
  last : os[m - 1]? = some (n - 1)

theorem getClosest_lt {g : Geo} (hg : g.Ok) (p : Pos) (l : List Pos) (hl : 1 ≤ l.length) :
    ∃ o, getClosest g p l = some o ∧ o < l.length := by
  unfold getClosest
  by_cases h : l.length < 2
  · rw [if_pos h]; exact ⟨0, rfl, by omega⟩
  · rw [if_neg h]
    have := hg p l (by omega)
    dsimp only
    rw [List.getElem?_eq_getElem (show g.segment p l < l.length by omega), List.getElem?_eq_getElem this]
    dsimp only
    by_cases hd : g.dist p l[g.segment p l] ≤ g.dist p l[g.segment p l + 1]
    · rw [if_pos hd]; exact ⟨_, rfl, by omega⟩
    · rw [if_neg hd]; exact ⟨_, rfl, by omega⟩

theorem subspan_some {α : Type} (l : List α) (fr len : Nat) (h : fr + len ≤ l.length) :
    ∃ s, subspan l fr len = some s ∧ s.length = len := by
  refine ⟨(l.drop fr).take len, by unfold subspan; rw [if_pos h], ?_⟩
  rw [List.length_take, List.length_drop]
  omega

theorem matchStop_spec {g : Geo} (hg : g.Ok) (sp : Nat → Pos) (shape : List Pos) (stops offs : List Nat) (s start len : Nat)
    (hs : s < stops.length) (ho : offs.length = stops.length) (hl : 1 ≤ len) (h : start + len ≤ shape.length) :
    ∃ o, start ≤ o ∧ o < start + len ∧ matchStop g sp shape stops offs s start len = some (o, offs.set s o) := by
  obtain ⟨sub, h1, h2⟩ := subspan_some shape start len h
  obtain ⟨o, h3, h4⟩ := getClosest_lt hg (sp stops[s]) sub (by omega)
  refine ⟨start + o, by omega, by omega, ?_⟩
  unfold matchStop
  rw [List.getElem?_eq_getElem hs, h1]
  dsimp only
  rw [h3]
  dsimp only
  rw [if_pos (by omega)]

theorem bisect_spec {g : Geo} (hg : g.Ok) (sp : Nat → Pos) (shape : List Pos) (stops : List Nat) (segStart segEnd : Int)
    (shapeStart shapeEnd : Nat) (offs : List Nat) (h1 : 1 ≤ segStart) (h2 : segEnd < stops.length)
    (hss : 1 ≤ shapeStart) (hroom : (shapeStart : Int) + (segEnd + 1 - segStart) ≤ shapeEnd + 1)
    (hse : shapeEnd < shape.length) (hlen : offs.length = stops.length) :
    ∃ os, bisect g sp shape stops segStart segEnd shapeStart shapeEnd offs = some os ∧ os.length = stops.length ∧
      (∀ j : Nat, ((j : Int) < segStart ∨ segEnd < j) → os[j]? = offs[j]?) ∧
      (∀ (j o : Nat), segStart ≤ j → (j : Int) ≤ segEnd → os[j]? = some o → shapeStart ≤ o ∧ o ≤ shapeEnd) ∧
      (∀ i j a b : Nat, segStart ≤ i → i < j → (j : Int) ≤ segEnd → os[i]? = some a → os[j]? = some b → a < b) := by
  rw [bisect]
  by_cases h : segStart > segEnd
  · rw [if_pos h]
    exact ⟨offs, rfl, hlen, fun _ _ => rfl, fun j o a b => by omega, fun i j a b c d e => by omega⟩
  · rw [if_neg h]
    dsimp only
    obtain ⟨center, e1⟩ : ∃ c, c = (segStart + segEnd) / 2 := ⟨_, rfl⟩
    rw [← e1]
    obtain ⟨subStart, e2⟩ : ∃ c, c = shapeStart + (center - segStart).toNat := ⟨_, rfl⟩
    obtain ⟨subLen, e3⟩ : ∃ c, c = shapeEnd + 1 - shapeStart - (segEnd - segStart).toNat := ⟨_, rfl⟩
    rw [← e2, ← e3]
    obtain ⟨o, ho1, ho2, ho⟩ := matchStop_spec hg sp shape stops offs center.toNat subStart subLen (by omega) hlen (by omega) (by omega)
    rw [ho]
    dsimp only
    obtain ⟨os1, hos1, l1, f1, r1, m1⟩ := bisect_spec hg sp shape stops segStart (center - 1) shapeStart (o - 1)
      (offs.set center.toNat o) h1 (by omega) hss (by omega) (by omega) (by rw [List.length_set]; exact hlen)
    rw [hos1]
    dsimp only
    obtain ⟨os, hos, l2, f2, r2, m2⟩ := bisect_spec hg sp shape stops (center + 1) segEnd (o + 1) shapeEnd os1
      (by omega) h2 (by omega) (by omega) hse l1
    have hc : os[center.toNat]? = some o := by
      rw [f2 _ (by omega), f1 _ (by omega), List.getElem?_set_self (by omega)]
    have hL : ∀ j : Nat, (j : Int) < center → os[j]? = os1[j]? := fun j hj => f2 j (by omega)
    refine ⟨os, hos, l2, ?_, ?_, ?_⟩
    · intro j hj
      rw [f2 j (by omega), f1 j (by omega), List.getElem?_set_ne (by omega)]
    · intro j p hj1 hj2 hp
      by_cases hlt : (j : Int) < center
      · have := r1 j p hj1 (by omega) (by rw [← hL j hlt]; exact hp)
        omega
      · by_cases hgt : center < (j : Int)
        · have := r2 j p (by omega) hj2 hp
          omega
        · have : j = center.toNat := by omega
          subst this
          rw [hc] at hp
          cases hp
          omega
    · intro i j a b hi hij hj ha hb
      have key1 : ∀ (i a : Nat), segStart ≤ i → (i : Int) < center → os[i]? = some a → a < o := by
        intro i a h1 h2 h3
        have := r1 i a h1 (by omega) (by rw [← hL i h2]; exact h3)
        omega
      have key2 : ∀ (j b : Nat), center < (j : Int) → (j : Int) ≤ segEnd → os[j]? = some b → o < b := by
        intro j b h1 h2 h3
        have := r2 j b (by omega) h2 h3
        omega
      by_cases hjc : (j : Int) < center
      · exact m1 i j a b hi hij (by omega) (by rw [← hL i (by omega)]; exact ha) (by rw [← hL j hjc]; exact hb)
      · by_cases hic : center < (i : Int)
        · exact m2 i j a b (by omega) hij hj ha hb
        · by_cases hi2 : (i : Int) < center
          · have ha' := key1 i a hi hi2 ha
            by_cases hj2 : center < (j : Int)
            · have := key2 j b hj2 hj hb; omega
            · have : j = center.toNat := by omega
              subst this
              rw [hc] at hb
              cases hb
              exact ha'
          · have : i = center.toNat := by omega
            subst this
            rw [hc] at ha
            cases ha
            exact key2 j b (by omega) hj hb
termination_by (segEnd + 1 - segStart).toNat
decreasing_by all_goals omega

/-- Position of a value in a list, as a relation. -/
theorem pairwise_of_idx {l : List Nat} {R : Nat → Nat → Prop}
    (h : ∀ i j a b : Nat, i < j → l[i]? = some a → l[j]? = some b → R a b) : l.Pairwise R := by
  rw [List.pairwise_iff_getElem]
  intro i j hi hj hij
  exact h i j _ _ hij (List.getElem?_eq_getElem hi) (List.getElem?_eq_getElem hj)

/-- C78 (by position): for any shape with at least as many points as the trip has stops and any distance
function, no access outside of the shape happens and every stop gets a point: the first stop the first
point, the last stop the last point, different points in driving order. -/
theorem C78_by_stops {g : Geo} (hg : g.Ok) (sp : Nat → Pos) (shape : List Pos) (stops : List Nat)
    (h2 : 2 ≤ stops.length) (hn : stops.length ≤ shape.length) :
    ∃ os, offsetsByStops g sp shape stops = some os ∧ Strict shape.length stops.length os := by
  unfold offsetsByStops
  rw [if_neg (by omega)]
  dsimp only
  generalize hofs : ((List.replicate stops.length 0).set 0 0).set (stops.length - 1) (shape.length - 1) = ofs
  have hl : ofs.length = stops.length := by rw [← hofs]; simp
  have h0 : ofs[0]? = some 0 := by
    rw [← hofs, List.getElem?_set_ne (by omega), List.getElem?_set_self (by simp; omega)]
  have hlast : ofs[stops.length - 1]? = some (shape.length - 1) := by
    rw [← hofs, List.getElem?_set_self (by simp; omega)]
  obtain ⟨os, hos, l1, f1, r1, m1⟩ := bisect_spec hg sp shape stops 1 ((stops.length : Int) - 2) 1 (shape.length - 2) ofs
    (by omega) (by omega) (by omega) (by omega) (by omega) hl
  have hO0 : os[0]? = some 0 := by rw [f1 0 (by omega)]; exact h0
  have hOl : os[stops.length - 1]? = some (shape.length - 1) := by rw [f1 _ (by omega)]; exact hlast
  have hmid : ∀ (j o : Nat), 1 ≤ j → j + 1 < stops.length → os[j]? = some o → 1 ≤ o ∧ o ≤ shape.length - 2 :=
    fun j o a b c => r1 j o (by omega) (by omega) c
  have hall : ∀ i j a b : Nat, i < j → os[i]? = some a → os[j]? = some b → a < b := by
    intro i j a b hij ha hb
    have hjl : j < os.length := (List.getElem?_eq_some_iff.1 hb).1
    by_cases hi : i = 0
    · subst hi
      rw [hO0] at ha
      cases ha
      by_cases hj : j = stops.length - 1
      · subst hj; rw [hOl] at hb; cases hb; omega
      · have := hmid j b (by omega) (by omega) hb; omega
    · by_cases hj : j = stops.length - 1
      · subst hj; rw [hOl] at hb; cases hb
        have := hmid i a (by omega) (by omega) ha; omega
      · exact m1 i j a b (by omega) hij (by omega) ha hb
  refine ⟨os, hos, ⟨⟨l1, ?_, ?_⟩, pairwise_of_idx hall, hO0, hOl⟩⟩
  · intro o ho
    obtain ⟨j, hj⟩ := List.mem_iff_getElem?.1 ho
    have hjl : j < os.length := (List.getElem?_eq_some_iff.1 hj).1
    by_cases h0 : j = 0
    · subst h0; rw [hO0] at hj; cases hj; omega
    · by_cases hl : j = stops.length - 1
      · subst hl; rw [hOl] at hj; cases hj; omega
      · have := hmid j o (by omega) (by omega) hj; omega
  · exact pairwise_of_idx fun i j a b hij ha hb => Nat.le_of_lt (hall i j a b hij ha hb)

/-- C78 (closest point): the stop in the middle of the trip gets the closest of all points that leave
at least one point for each other stop. -/
theorem C78_middle_stop {g : Geo} (hg : g.Ok) (sp : Nat → Pos) (shape : List Pos) (stops : List Nat)
    (h3 : 3 ≤ stops.length) (hn : stops.length ≤ shape.length) (os : List Nat)
    (h : offsetsByStops g sp shape stops = some os) :
    ∃ (c : Nat) (hc : c < stops.length) (o : Nat), c = (stops.length - 1) / 2 ∧
      getClosest g (sp stops[c]) ((shape.drop c).take (shape.length - stops.length + 1)) = some o ∧
      os[c]? = some (c + o) := by
  refine ⟨(stops.length - 1) / 2, by omega, ?_⟩
  unfold offsetsByStops at h
  rw [if_neg (by omega)] at h
  dsimp only at h
  generalize hofs : ((List.replicate stops.length 0).set 0 0).set (stops.length - 1) (shape.length - 1) = ofs at h
  have hl : ofs.length = stops.length := by rw [← hofs]; simp
  rw [bisect, if_neg (by omega)] at h
  dsimp only at h
  have hcen : (((1 : Int) + ((stops.length : Int) - 2)) / 2).toNat = (stops.length - 1) / 2 := by omega
  have hst : 1 + (((1 : Int) + ((stops.length : Int) - 2)) / 2 - 1).toNat = (stops.length - 1) / 2 := by omega
  have hln : shape.length - 2 + 1 - 1 - (((stops.length : Int) - 2) - 1).toNat = shape.length - stops.length + 1 := by omega
  rw [hcen, hst, hln] at h
  have hclt : (stops.length - 1) / 2 < stops.length := by omega
  have hsub : subspan shape ((stops.length - 1) / 2) (shape.length - stops.length + 1) =
      some ((shape.drop ((stops.length - 1) / 2)).take (shape.length - stops.length + 1)) := by
    unfold subspan
    rw [if_pos (by omega)]
  obtain ⟨o, ho1, ho2⟩ := getClosest_lt hg (sp stops[(stops.length - 1) / 2])
    ((shape.drop ((stops.length - 1) / 2)).take (shape.length - stops.length + 1)) (by
      rw [List.length_take, List.length_drop]; omega)
  rw [List.length_take, List.length_drop] at ho2
  refine ⟨o, rfl, ho1, ?_⟩
  unfold matchStop at h
  rw [List.getElem?_eq_getElem hclt, hsub] at h
  dsimp only at h
  rw [ho1] at h
  dsimp only at h
  rw [if_pos (by omega)] at h
  dsimp only at h
  obtain ⟨os1, e1, l1, f1, -, -⟩ := bisect_spec hg sp shape stops 1 (((1 : Int) + ((stops.length : Int) - 2)) / 2 - 1) 1
    ((stops.length - 1) / 2 + o - 1) (ofs.set ((stops.length - 1) / 2) ((stops.length - 1) / 2 + o))
    (by omega) (by omega) (by omega) (by omega) (by omega) (by rw [List.length_set]; exact hl)
  rw [e1] at h
  dsimp only at h
  obtain ⟨os2, e2, l2, f2, -, -⟩ := bisect_spec hg sp shape stops (((1 : Int) + ((stops.length : Int) - 2)) / 2 + 1)
    ((stops.length : Int) - 2) ((stops.length - 1) / 2 + o + 1) (shape.length - 2) os1
    (by omega) (by omega) (by omega) (by omega) (by omega) l1
  rw [e2] at h
  cases h
  rw [f2 _ (by omega), f1 _ (by omega), List.getElem?_set_self (by omega)]

/-! ### By distance -/

theorem lowerBound_bounds (p : Nat → Bool) (first len : Nat) :
    first ≤ Resolve.lowerBound p first len ∧ Resolve.lowerBound p first len ≤ first + len := by
  fun_induction Resolve.lowerBound p first len with
  | case1 first => omega
  | case2 first len h half hm ih =>
    have hhalf : half < len := by show len / 2 < len; omega
    omega
  | case3 first len h half hm ih =>
    have hhalf : half < len := by show len / 2 < len; omega
    omega

theorem byDist_bounds (sd : List Int) (hn : 1 ≤ sd.length) : ∀ (ds : List Int) (fr : Nat), fr < sd.length →
    (offsetsByDist sd fr ds).length = ds.length ∧ (∀ o ∈ offsetsByDist sd fr ds, fr ≤ o ∧ o < sd.length) ∧
    (offsetsByDist sd fr ds).Pairwise (· ≤ ·)
  | [], _, _ => ⟨rfl, by simp [offsetsByDist], .nil⟩
  | d :: ds, fr, hfr => by
    have hb := lowerBound_bounds (fun i => decide ((sd[i]?).getD 0 < d)) fr (sd.length - 1 - fr)
    have hb' : fr ≤ lowerBoundDist sd d fr (sd.length - 1 - fr) ∧ lowerBoundDist sd d fr (sd.length - 1 - fr) < sd.length := by
      unfold lowerBoundDist; omega
    obtain ⟨h1, h2, h3⟩ := byDist_bounds sd hn ds (lowerBoundDist sd d fr (sd.length - 1 - fr)) hb'.2
    refine ⟨by simp [offsetsByDist, h1], ?_, ?_⟩
    · intro o ho
      unfold offsetsByDist at ho
      rcases List.mem_cons.1 ho with rfl | ho
      · exact hb'
      · have := h2 o ho; omega
    · unfold offsetsByDist
      rw [List.pairwise_cons]
      exact ⟨fun o ho => (h2 o ho).1, h3⟩

/-- C78 (by distance, any input): whatever the distances are, every stop gets a point of the shape, in
driving order. -/
theorem C78_by_dist (sd ds : List Int) (hn : 1 ≤ sd.length) : Valid sd.length ds.length (offsetsByDist sd 0 ds) := by
  obtain ⟨h1, h2, h3⟩ := byDist_bounds sd hn ds 0 (by omega)
  exact ⟨h1, fun o ho => (h2 o ho).2, h3⟩

/-- Specification: the first point at a distance of at least `d`, or the last point. -/
def FirstAt (sd : List Int) (d : Int) (o : Nat) : Prop :=
  (∀ (i : Nat) (e : Int), i < o → sd[i]? = some e → e < d) ∧
  (o + 1 = sd.length ∨ ∃ e, sd[o]? = some e ∧ d ≤ e) ∧ o < sd.length

/-- C78 (by distance, sorted): if the distances grow along the shape and along the trip, every stop gets
the first point that is at least as far, the last point if there is none. -/
theorem C78_by_dist_first (sd ds : List Int) (hn : 1 ≤ sd.length) (hs : sd.Pairwise (· ≤ ·)) (hd : ds.Pairwise (· ≤ ·)) :
    ∀ (k : Nat) (d : Int), ds[k]? = some d → ∃ o, (offsetsByDist sd 0 ds)[k]? = some o ∧ FirstAt sd d o := by
  suffices h : ∀ (ds : List Int) (fr : Nat), fr < sd.length → ds.Pairwise (· ≤ ·) →
      (∀ d ∈ ds, ∀ (i : Nat) (e : Int), i < fr → sd[i]? = some e → e < d) →
      ∀ (k : Nat) (d : Int), ds[k]? = some d → ∃ o, (offsetsByDist sd fr ds)[k]? = some o ∧ FirstAt sd d o from
    h ds 0 (by omega) hd (fun _ _ i _ hi => absurd hi (Nat.not_lt_zero _))
  intro ds
  induction ds with
  | nil => intro fr _ _ _ k d hk; simp at hk
  | cons d ds ih =>
    intro fr hfr hd hpre k e hk
    rw [List.pairwise_cons] at hd
    have hget : ∀ i (hi : i < sd.length), sd[i]? = some sd[i] := fun i hi => List.getElem?_eq_getElem hi
    have hpw := List.pairwise_iff_getElem.1 hs
    obtain ⟨h1, h2, h3, h4⟩ := Resolve.lowerBound_spec (fun i => decide ((sd[i]?).getD 0 < d)) fr (sd.length - 1 - fr) (by
      intro i j hi hij hj hp
      rw [decide_eq_true_eq] at *
      rw [hget j (by omega)] at hp
      rw [hget i (by omega)]
      by_cases he : i = j
      · subst he; exact hp
      · have := hpw i j (by omega) (by omega) (by omega)
        simp only [Option.getD_some] at *
        omega)
    have hfirst : FirstAt sd d (lowerBoundDist sd d fr (sd.length - 1 - fr)) := by
      unfold lowerBoundDist
      refine ⟨?_, ?_, by omega⟩
      · intro i e hi he
        by_cases hif : i < fr
        · exact hpre d (by simp) i e hif he
        · have := h3 i (by omega) hi
          rw [he] at this
          simpa using this
      · by_cases hl : Resolve.lowerBound (fun i => decide ((sd[i]?).getD 0 < d)) fr (sd.length - 1 - fr) + 1 = sd.length
        · exact .inl hl
        · right
          have h5 := h4 _ (Nat.le_refl _) (by omega)
          refine ⟨_, hget _ (by omega), ?_⟩
          rw [hget _ (by omega)] at h5
          simpa using h5
    cases k with
    | zero =>
      have : d = e := by simpa using hk
      subst this
      exact ⟨_, by simp [offsetsByDist], hfirst⟩
    | succ k =>
      have hk' : ds[k]? = some e := by simpa using hk
      obtain ⟨o, ho, hf⟩ := ih (lowerBoundDist sd d fr (sd.length - 1 - fr)) hfirst.2.2 hd.2 (by
        intro d' hd' i e' hi he'
        have := hfirst.1 i e' hi he'
        have := hd.1 d' hd'
        omega) k e hk'
      exact ⟨o, by simpa [offsetsByDist] using ho, hf⟩

/-- A concrete case: 4 stops on a shape with 6 points, by position and by distance. -/
def demoGeo : Geo where
  dist := fun a b => (a.1 - b.1) * (a.1 - b.1) + (a.2 - b.2) * (a.2 - b.2)
  segment := fun p l =>
    let ds := l.map fun q => (p.1 - q.1) * (p.1 - q.1) + (p.2 - q.2) * (p.2 - q.2)
    min (l.length - 2) ((List.range (l.length - 1)).foldl (fun b i =>
      if (ds[i]?).getD 0 + (ds[i + 1]?).getD 0 < (ds[b]?).getD 0 + (ds[b + 1]?).getD 0 then i else b) 0)

theorem demoGeo_ok : demoGeo.Ok := by
  intro p l hl
  show min (l.length - 2) _ + 1 < l.length
  have := Nat.min_le_left (l.length - 2) ((List.range (l.length - 1)).foldl (fun b i =>
      if ((l.map fun q => (p.1 - q.1) * (p.1 - q.1) + (p.2 - q.2) * (p.2 - q.2))[i]?).getD 0 +
        ((l.map fun q => (p.1 - q.1) * (p.1 - q.1) + (p.2 - q.2) * (p.2 - q.2))[i + 1]?).getD 0 <
        ((l.map fun q => (p.1 - q.1) * (p.1 - q.1) + (p.2 - q.2) * (p.2 - q.2))[b]?).getD 0 +
        ((l.map fun q => (p.1 - q.1) * (p.1 - q.1) + (p.2 - q.2) * (p.2 - q.2))[b + 1]?).getD 0 then i else b) 0)
  omega

def demoShape : List Pos := [(0, 0), (2, 0), (4, 0), (6, 0), (8, 0), (10, 0)]

example : offsetsByStops demoGeo (fun s => ((s : Int), 1)) demoShape [0, 6, 7, 10] = some [0, 3, 4, 5] ∧
    offsetsByDist [0, 2, 4, 6, 8, 10] 0 [0, 3, 6, 12] = [0, 2, 3, 5] := by decide +kernel

end Nigiri.Shapes
