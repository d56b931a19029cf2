import Verif.Props.ShapeBoxes
/-!
# Property C81: the polyline of a leg

For every part of a run, `for_each_shape_point` passes on a polyline from its first to its last stop.
-/

namespace Nigiri.Shapes
open Resolve (Transport tripAt tripLoop forEachTrip EvType)

/-! ### Specification -/

/-- Points without immediate repetitions. -/
def squeeze : List Pos → List Pos
  | a :: b :: l => if a = b then squeeze (b :: l) else a :: squeeze (b :: l)
  | l => l

/-- What one trip of the run (serving the stops `[x.2.1, x.2.2)`) contributes to the polyline of the
stops `[a, b)`: its part of the shape between the two stop positions, or the stop positions if there is
no shape; nothing if it does not connect two of the stops. -/
def Part (st : Store) (pos : Nat → Pos) (a b : Nat) (x : Option Nat × Nat × Nat) (part : List Pos) : Prop :=
  let i := max x.2.1 a
  let j := min x.2.2 b
  (j ≤ i + 1 ∧ part = []) ∨
  (i + 1 < j ∧
    ((∃ trip p, x.1 = some trip ∧ getShape st trip (i - x.2.1) (j - x.2.1) = some (some (p, .timetable)) ∧
        part = pos i :: p ++ [pos (j - 1)]) ∨
      ((∀ trip, x.1 = some trip → getShape st trip (i - x.2.1) (j - x.2.1) = some none) ∧
        part = (List.range' i (j - i)).map pos)))

/-- The trips of a run follow each other and share a stop. -/
def Covers : Nat → Nat → List (Option Nat × Nat × Nat) → Prop
  | _, _, [] => False
  | p, to, [x] => x.2.1 = p ∧ x.2.2 = to ∧ p + 1 < to
  | p, to, x :: y :: l => x.2.1 = p ∧ p + 1 < x.2.2 ∧ Covers (x.2.2 - 1) to (y :: l)

/-- The shapes of the trips are available: no access out of bounds, and from the timetable. -/
def ShapesThere (st : Store) (trips : List (Option Nat × Nat × Nat)) : Prop :=
  ∀ x ∈ trips, ∀ trip, x.1 = some trip → ∀ i j, i + 1 < j → x.2.1 + j ≤ x.2.2 →
    getShape st trip i j = some none ∨ ∃ p, p ≠ [] ∧ getShape st trip i j = some (some (p, .timetable))

/-! ### Removing repetitions -/

theorem consume_snoc (acc : List Pos) (a b : Pos) :
    consume (acc ++ [a]) b = if a = b then acc ++ [a] else acc ++ [a] ++ [b] := by
  unfold consume
  rw [List.getLast?_append]
  by_cases h : a = b
  · rw [if_pos (by simp [h]), if_pos h]
  · rw [if_neg (by simpa using h), if_neg h]

theorem foldl_consume : ∀ (ps : List Pos) (acc : List Pos) (a : Pos),
    ps.foldl consume (acc ++ [a]) = acc ++ squeeze (a :: ps)
  | [], acc, a => rfl
  | b :: ps, acc, a => by
    rw [List.foldl_cons, consume_snoc]
    unfold squeeze
    by_cases h : a = b
    · subst h
      rw [if_pos rfl, if_pos rfl]
      exact foldl_consume ps acc a
    · rw [if_neg h, if_neg h]
      rw [foldl_consume ps (acc ++ [a]) b, List.append_assoc]
      rfl

theorem consume_squeeze (ps : List Pos) : ps.foldl consume [] = squeeze ps := by
  match ps with
  | [] => rfl
  | a :: ps =>
    have := foldl_consume ps [] a
    rw [List.foldl_cons]
    exact this

theorem squeeze_head : ∀ ps : List Pos, (squeeze ps).head? = ps.head?
  | [] => rfl
  | [a] => rfl
  | a :: b :: l => by
    unfold squeeze
    by_cases h : a = b
    · rw [if_pos h, squeeze_head (b :: l), h]; rfl
    · rw [if_neg h]; rfl

theorem squeeze_last : ∀ ps : List Pos, (squeeze ps).getLast? = ps.getLast?
  | [] => rfl
  | [a] => rfl
  | a :: b :: l => by
    unfold squeeze
    have ih := squeeze_last (b :: l)
    by_cases h : a = b
    · rw [if_pos h, ih]; simp [List.getLast?_cons]
    · rw [if_neg h, List.getLast?_cons, ih]; simp [List.getLast?_cons]

/-- No two neighbours are equal. -/
def NoRepeat : List Pos → Prop
  | a :: b :: l => a ≠ b ∧ NoRepeat (b :: l)
  | _ => True

theorem squeeze_noRepeat : ∀ ps : List Pos, NoRepeat (squeeze ps)
  | [] => trivial
  | [a] => trivial
  | a :: b :: l => by
    unfold squeeze
    have ih := squeeze_noRepeat (b :: l)
    by_cases h : a = b
    · rw [if_pos h]; exact ih
    · rw [if_neg h]
      have hh := squeeze_head (b :: l)
      match hs : squeeze (b :: l), hh with
      | [], hh => simp at hh
      | c :: cs, hh =>
        rw [hs] at ih
        have : c = b := by simpa using hh
        subst this
        exact ⟨h, ih⟩

/-! ### The parts -/

theorem tripPoints_part {st : Store} {pos : Nat → Pos} {a b : Nat} {x : Option Nat × Nat × Nat}
    (hs : ∀ trip, x.1 = some trip → ∀ i j, i + 1 < j → x.2.1 + j ≤ x.2.2 →
      getShape st trip i j = some none ∨ ∃ p, p ≠ [] ∧ getShape st trip i j = some (some (p, .timetable))) :
    ∃ part, tripPoints st pos a b x = some part ∧ Part st pos a b x part := by
  obtain ⟨x1, fr, to⟩ := x
  unfold tripPoints Part
  dsimp only at *
  by_cases hij : max fr a + 1 < min to b
  · rw [if_pos hij]
    cases x1 with
    | none => exact ⟨_, rfl, .inr ⟨hij, .inr ⟨by simp, rfl⟩⟩⟩
    | some trip =>
      dsimp only
      rcases hs trip rfl (max fr a - fr) (min to b - fr) (by omega) (by omega) with h | ⟨p, hp, h⟩
      · rw [h]
        exact ⟨_, rfl, .inr ⟨hij, .inr ⟨fun t ht => by cases ht; exact h, rfl⟩⟩⟩
      · rw [h]
        dsimp only
        rw [if_neg (by simpa using hp), if_pos rfl]
        exact ⟨_, rfl, .inr ⟨hij, .inl ⟨trip, p, rfl, h, rfl⟩⟩⟩
  · rw [if_neg hij]
    exact ⟨_, rfl, .inl ⟨by omega, rfl⟩⟩

theorem part_ends {st : Store} {pos : Nat → Pos} {a b : Nat} {x : Option Nat × Nat × Nat} {part : List Pos}
    (h : Part st pos a b x part) :
    if max x.2.1 a + 1 < min x.2.2 b then
      part.head? = some (pos (max x.2.1 a)) ∧ part.getLast? = some (pos (min x.2.2 b - 1)) else part = [] := by
  unfold Part at h
  dsimp only at h
  rcases h with ⟨h1, h2⟩ | ⟨h1, h2⟩
  · rw [if_neg (by omega)]; exact h2
  · rw [if_pos h1]
    rcases h2 with ⟨trip, p, -, -, rfl⟩ | ⟨-, rfl⟩
    · exact ⟨rfl, List.getLast?_concat⟩
    · obtain ⟨n, hn⟩ : ∃ n, min x.2.2 b - max x.2.1 a = n + 1 := ⟨min x.2.2 b - max x.2.1 a - 1, by omega⟩
      rw [hn]
      constructor
      · rw [List.range'_succ]; rfl
      · rw [List.range'_concat]
        simp only [List.map_append, List.map_cons, List.map_nil, List.getLast?_append, List.getLast?_singleton]
        simp only [Option.some_or, Nat.one_mul]
        congr 2
        omega

theorem runPoints_spec {st : Store} {pos : Nat → Pos} {a b : Nat} (hab : a + 2 ≤ b) : ∀ (trips : List (Option Nat × Nat × Nat)) (p to : Nat),
    Covers p to trips → ShapesThere st trips →
    ∃ parts, All2 (Part st pos a b) trips parts ∧ runPoints st pos a b trips = some parts.flatten ∧
      if max p a + 1 < min to b then
        parts.flatten.head? = some (pos (max p a)) ∧ parts.flatten.getLast? = some (pos (min to b - 1))
      else parts.flatten = []
  | [], _, _, h, _ => h.elim
  | [x], p, to, h, hs => by
    obtain ⟨rfl, rfl, h3⟩ := h
    obtain ⟨part, e1, e2⟩ := tripPoints_part (pos := pos) (a := a) (b := b) (hs x (by simp))
    refine ⟨[part], .cons e2 .nil, ?_, ?_⟩
    · simp [runPoints, e1]
    · have := part_ends e2
      simpa using this
  | x :: y :: l, p, to, h, hs => by
    obtain ⟨rfl, h2, h3⟩ := h
    obtain ⟨part, e1, e2⟩ := tripPoints_part (pos := pos) (a := a) (b := b) (hs x (by simp))
    obtain ⟨parts, f1, f2, f3⟩ := runPoints_spec hab (y :: l) (x.2.2 - 1) to h3 (fun z hz => hs z (List.mem_cons_of_mem _ hz))
    have hto : x.2.2 < to := by
      have key : ∀ (l : List (Option Nat × Nat × Nat)) p to, Covers p to l → p + 1 < to := by
        intro l
        induction l with
        | nil => intro p to h; exact h.elim
        | cons z l ih =>
          intro p to h
          cases l with
          | nil => exact h.2.2
          | cons w l => have := ih _ _ h.2.2; have := h.2.1; omega
      have := key _ _ _ h3
      omega
    refine ⟨part :: parts, .cons e2 f1, ?_, ?_⟩
    · rw [runPoints, e1, f2]; rfl
    · have he := part_ends e2
      rw [List.flatten_cons]
      by_cases hc : max x.2.1 a + 1 < min to b
      · rw [if_pos hc]
        by_cases hp : max x.2.1 a + 1 < min x.2.2 b
        · rw [if_pos hp] at he
          refine ⟨by rw [List.head?_append, he.1]; rfl, ?_⟩
          by_cases hr : max (x.2.2 - 1) a + 1 < min to b
          · rw [if_pos hr] at f3
            rw [List.getLast?_append, f3.2]; rfl
          · rw [if_neg hr] at f3
            rw [f3, List.append_nil, he.2]
            congr 2
            omega
        · rw [if_neg hp] at he
          rw [he, List.nil_append]
          have hr : max (x.2.2 - 1) a + 1 < min to b := by omega
          rw [if_pos hr] at f3
          refine ⟨?_, f3.2⟩
          rw [f3.1]
          congr 2
          omega
      · rw [if_neg hc]
        rw [if_neg (by omega)] at he f3
        rw [he, f3]; rfl

/-- C81: for any run and any part of it with at least two stops, the points passed on form a polyline
with at least two points from the position of the first stop to the position of the last stop. It is the
concatenation of what the trips contribute without immediate repetitions (two equal points only if the
polyline would otherwise be a single point). -/
theorem C81_polyline (st : Store) (pos : Nat → Pos) (trips : List (Option Nat × Nat × Nat)) (runTo a b : Nat)
    (hc : Covers 0 runTo trips) (hs : ShapesThere st trips) (hab : a + 2 ≤ b) (hb : b ≤ runTo) :
    ∃ out parts, shapePoints st pos trips a b = some out ∧ 2 ≤ out.length ∧
      out.head? = some (pos a) ∧ out.getLast? = some (pos (b - 1)) ∧
      All2 (Part st pos a b) trips parts ∧
      ((out = squeeze parts.flatten ∧ NoRepeat out) ∨
        (squeeze parts.flatten = [pos a] ∧ pos a = pos (b - 1) ∧ out = [pos a, pos a])) := by
  obtain ⟨parts, h1, h2, h3⟩ := runPoints_spec (pos := pos) hab trips 0 runTo hc hs
  rw [if_pos (by omega)] at h3
  have e1 : max 0 a = a := by omega
  have e2 : min runTo b = b := by omega
  rw [e1, e2] at h3
  have hh := squeeze_head parts.flatten
  have hl := squeeze_last parts.flatten
  rw [h3.1] at hh
  rw [h3.2] at hl
  have hnr := squeeze_noRepeat parts.flatten
  unfold shapePoints
  rw [if_neg (by omega), h2]
  dsimp only
  rw [consume_squeeze]
  match hsq : squeeze parts.flatten, hh, hl, hnr with
  | [], hh, _, _ => simp at hh
  | [p], hh, hl, _ =>
    have hp : p = pos a := by simpa using hh
    have hp2 : p = pos (b - 1) := by simpa using hl
    refine ⟨_, parts, rfl, by simp, by simp [hp], by simp, h1, .inr ⟨by rw [hsq, hp], hp.symm.trans hp2, by rw [← hp2, hp]⟩⟩
  | p :: q :: l, hh, hl, hnr => exact ⟨_, parts, rfl, by simp, hh, hl, h1, .inl ⟨by rw [hsq], hnr⟩⟩

/-! ### Trips of a run -/

/-- Every section of the transport has a trip. -/
def Sectioned (tr : Transport) (n : Nat) : Prop := ∀ i, i + 1 < n → tripAt tr i .dep ≠ none

theorem tripLoop_covers (tr : Transport) (to : Nat) : ∀ (m n : Nat) (cur : Option Nat) (cf : Nat), n + m + 1 = to → cf < n →
    Covers cf to (tripLoop tr to cur cf (List.range' n m))
  | 0, n, cur, cf, h, hcf => by
    show Covers cf to [(cur, cf, to)]
    exact ⟨rfl, rfl, by omega⟩
  | m + 1, n, cur, cf, h, hcf => by
    rw [List.range'_succ]
    unfold tripLoop
    dsimp only
    by_cases ht : tripAt tr n .dep = cur
    · rw [if_pos ht]
      exact tripLoop_covers tr to m (n + 1) cur cf (by omega) (by omega)
    · rw [if_neg ht, if_pos (by omega)]
      have ih := tripLoop_covers tr to m (n + 1) (tripAt tr n .dep) n (by omega) (by omega)
      match hl : tripLoop tr to (tripAt tr n .dep) n (List.range' (n + 1) m), ih with
      | [], ih => exact ih.elim
      | y :: l, ih => exact ⟨rfl, by show cf + 1 < n + 1; omega, by simpa using ih⟩

theorem forEachTrip_covers (tr : Transport) (to : Nat) (h2 : 2 ≤ to) (hs : Sectioned tr to) : Covers 0 to (forEachTrip tr to) := by
  unfold forEachTrip
  obtain ⟨m, rfl⟩ : ∃ m, to = m + 2 := ⟨to - 2, by omega⟩
  rw [List.range_eq_range', show m + 2 - 1 = m + 1 by omega, List.range'_succ]
  unfold tripLoop
  dsimp only
  rw [if_neg (hs 0 (by omega)), if_neg (by simp)]
  exact tripLoop_covers tr (m + 2) m (0 + 1) _ 0 (by omega) (by omega)

theorem tripLoop_first (tr : Transport) (to : Nat) : ∀ (m n : Nat) (cur : Option Nat) (cf : Nat), n + m + 1 = to → 0 < n →
    ∃ x ∈ tripLoop tr to cur cf (List.range' n m), x.1 = cur ∧ x.2.1 = cf ∧ n + 1 ≤ x.2.2
  | 0, n, cur, cf, h, _ => ⟨(cur, cf, to), by simp [tripLoop], rfl, rfl, by show n + 1 ≤ to; omega⟩
  | m + 1, n, cur, cf, h, hn => by
    rw [List.range'_succ]
    unfold tripLoop
    dsimp only
    by_cases ht : tripAt tr n .dep = cur
    · rw [if_pos ht]
      obtain ⟨x, h1, h2, h3, h4⟩ := tripLoop_first tr to m (n + 1) cur cf (by omega) (by omega)
      exact ⟨x, h1, h2, h3, by omega⟩
    · rw [if_neg ht, if_pos (by omega)]
      exact ⟨(cur, cf, n + 1), by simp, rfl, rfl, Nat.le_refl _⟩

/-- A run that ends earlier serves the same trips, clipped. -/
theorem tripLoop_clip (tr : Transport) (to to' : Nat) (hle : to ≤ to') : ∀ (m n : Nat) (cur : Option Nat) (cf : Nat), n + m + 1 = to → 0 < n →
    ∀ x ∈ tripLoop tr to cur cf (List.range' n m), ∃ y ∈ tripLoop tr to' cur cf (List.range' n (to' - 1 - n)),
      x.1 = y.1 ∧ x.2.1 = y.2.1 ∧ x.2.2 ≤ y.2.2
  | 0, n, cur, cf, h, hn, x, hx => by
    have : x = (cur, cf, to) := by simpa [tripLoop] using hx
    subst this
    obtain ⟨y, h1, h2, h3, h4⟩ := tripLoop_first tr to' (to' - 1 - n) n cur cf (by omega) hn
    exact ⟨y, h1, h2.symm, h3.symm, by show to ≤ _; omega⟩
  | m + 1, n, cur, cf, h, hn, x, hx => by
    rw [show to' - 1 - n = (to' - 1 - (n + 1)) + 1 by omega, List.range'_succ]
    rw [List.range'_succ] at hx
    unfold tripLoop at hx ⊢
    dsimp only at hx ⊢
    by_cases ht : tripAt tr n .dep = cur
    · rw [if_pos ht] at hx ⊢
      exact tripLoop_clip tr to to' hle m (n + 1) cur cf (by omega) (by omega) x hx
    · rw [if_neg ht, if_pos (by omega)] at hx ⊢
      rcases List.mem_cons.1 hx with rfl | hx
      · exact ⟨_, by simp, rfl, rfl, Nat.le_refl _⟩
      · obtain ⟨y, h1, h2⟩ := tripLoop_clip tr to to' hle m (n + 1) _ n (by omega) (by omega) x hx
        exact ⟨y, List.mem_cons_of_mem _ h1, h2⟩

theorem forEachTrip_clip (tr : Transport) (to to' : Nat) (h2 : 2 ≤ to) (hle : to ≤ to') (hs : Sectioned tr to) :
    ∀ x ∈ forEachTrip tr to, ∃ y ∈ forEachTrip tr to', x.1 = y.1 ∧ x.2.1 = y.2.1 ∧ x.2.2 ≤ y.2.2 := by
  intro x hx
  unfold forEachTrip at *
  obtain ⟨m, rfl⟩ : ∃ m, to = m + 2 := ⟨to - 2, by omega⟩
  obtain ⟨m', rfl⟩ : ∃ m', to' = m' + 2 := ⟨to' - 2, by omega⟩
  rw [List.range_eq_range', show m + 2 - 1 = m + 1 by omega, List.range'_succ] at hx
  rw [List.range_eq_range', show m' + 2 - 1 = m' + 1 by omega, List.range'_succ]
  unfold tripLoop at hx ⊢
  dsimp only at hx ⊢
  rw [if_neg (hs 0 (by omega)), if_neg (by simp)] at hx ⊢
  have := tripLoop_clip tr (m + 2) (m' + 2) hle m 1 _ 0 (by omega) (by omega) x hx
  simpa using this

/-! ### Runs of a loaded feed -/

theorem shapesThere {g : Geo} (hg : g.Ok) (sp : Nat → Pos) (rows : List Row) (trips : List Trip) (routes : List Route)
    (st st' : Store) (h : loadFeed g sp rows trips routes st = some st') (hdist : ∀ t ∈ trips, TripOk t)
    (hso : ShapesOk rows st trips) (r : Route) (hr : RouteFits sp st trips r) (tr : Transport) (htr : tr ∈ r.transports)
    (runTo : Nat) (h2 : 2 ≤ runTo) (hto : runTo ≤ r.stops.length) (hsec : Sectioned tr runTo) :
    ShapesThere st' (forEachTrip tr runTo) := by
  intro x hx trip ht i j hij hj
  obtain ⟨y, hy, e1, e2, e3⟩ := forEachTrip_clip tr runTo r.stops.length h2 hto hsec x hx
  obtain ⟨k, t, f1, f2, f3, -⟩ := hr.1 tr htr y hy
  have f4 := hr.2 tr htr y hy k t f1 f2
  have htk : trip = st.trips.length + k := by
    rw [e1, f1] at ht; exact (Option.some.inj ht).symm
  subst htk
  have hjl : j ≤ t.stops.length := by omega
  cases hsh : t.shape with
  | none => exact .inl (C79_no_shape sp rows trips routes st st' h k t f2 (.inl hsh) i j)
  | some s =>
    obtain ⟨pts, dists, hSI⟩ := hso t (List.mem_of_getElem? f2) s hsh
    by_cases hlt : pts.length < t.stops.length
    · exact .inl (C79_no_shape sp rows trips routes st st' h k t f2 (.inr ⟨s, pts, dists, hsh, hSI, hlt⟩) i j)
    · obtain ⟨os, -, -, hget⟩ := C79_part_of_shape hg sp rows trips routes st st' h hdist k t f2 s hsh pts dists hSI (by omega) (by omega)
      obtain ⟨a, b, -, -, h5, h6, h7⟩ := hget i j (by omega) hjl
      refine .inr ⟨_, ?_, h7⟩
      intro he
      have := congrArg List.length he
      simp only [slice, List.length_take, List.length_drop, List.length_nil] at this
      omega

/-- C81 (loaded feed): for every run of a feed with shapes, also one that ends before the last stop of
the transport, and every part of it with at least two stops, nothing is accessed out of bounds and the
polyline leads from the first to the last stop. -/
theorem C81_loaded {g : Geo} (hg : g.Ok) (sp : Nat → Pos) (rows : List Row) (trips : List Trip) (routes : List Route)
    (st st' : Store) (h : loadFeed g sp rows trips routes st = some st') (hdist : ∀ t ∈ trips, TripOk t)
    (hso : ShapesOk rows st trips) (r : Route) (hr : RouteFits sp st trips r) (tr : Transport) (htr : tr ∈ r.transports)
    (pos : Nat → Pos) (runTo a b : Nat) (hab : a + 2 ≤ b) (hb : b ≤ runTo) (hto : runTo ≤ r.stops.length)
    (hsec : Sectioned tr runTo) :
    ∃ out, shapePoints st' pos (forEachTrip tr runTo) a b = some out ∧ 2 ≤ out.length ∧
      out.head? = some (pos a) ∧ out.getLast? = some (pos (b - 1)) := by
  obtain ⟨out, parts, h1, h2, h3, h4, -⟩ := C81_polyline st' pos (forEachTrip tr runTo) runTo a b
    (forEachTrip_covers tr runTo (by omega) hsec)
    (shapesThere hg sp rows trips routes st st' h hdist hso r hr tr htr runTo (by omega) hto hsec) hab hb
  exact ⟨out, h1, h2, h3, h4⟩

/-! ### A concrete feed -/

namespace Demo

/-- Two shapes, the first with distances, rows out of order. -/
def rows : List Row := [⟨7, (0, 0), 0, 0⟩, ⟨7, (20, 0), 2, 20⟩, ⟨7, (10, 1), 1, 10⟩, ⟨7, (30, 0), 3, 30⟩, ⟨8, (30, 0), 0, 0⟩,
  ⟨8, (40, 5), 1, 0⟩, ⟨8, (50, 0), 2, 0⟩]

/-- Stops are identified with their x coordinate. -/
def sp : Nat → Pos := fun s => ((s : Int), 0)

/-- Trip 0 by distance, trip 1 by position; trip 2 has the stops and shape of trip 0 but other distances. -/
def trips : List Trip := [⟨[0, 10, 30], [0, 10, 30], some 0⟩, ⟨[30, 50], [], some 1⟩, ⟨[0, 10, 30], [0, 20, 30], some 0⟩, ⟨[0, 30], [], none⟩]

/-- Trips 0 and 1 are served by one transport. -/
def tr : Transport := Resolve.transportOf ⟨[(0, 3), (1, 2)], ⟨0, 0, [0, 5, 6, 10, 11, 20], fun _ => true⟩⟩
def route : Route := ⟨[0, 10, 30, 50], [tr]⟩

def store : Store := (loadFeed demoGeo sp rows trips [route] {}).getD {}

theorem loads : loadFeed demoGeo sp rows trips [route] {} = some store := by decide +kernel

theorem walk : forEachTrip tr 4 = [(some 0, 0, 3), (some 1, 2, 4)] := by decide +kernel

theorem fits : RouteFits sp {} trips route := by
  constructor
  · intro tr' htr x hx
    have : tr' = tr := by simpa [route] using htr
    subst this
    rw [show route.stops.length = 4 from rfl, walk] at hx
    rcases List.mem_cons.1 hx with rfl | hx
    · refine ⟨0, _, rfl, rfl, by decide, ?_⟩
      intro i s s' h1 h2
      match i with
      | 0 | 1 | 2 => simp [route] at h1 h2; rw [← h1, ← h2]
      | i + 3 => simp at h1
    · have : x = (some 1, 2, 4) := by simpa using hx
      subst this
      refine ⟨1, _, rfl, rfl, by decide, ?_⟩
      intro i s s' h1 h2
      match i with
      | 0 | 1 => simp [route] at h1 h2; rw [← h1, ← h2]
      | i + 2 => simp at h1
  · intro tr' htr x hx k t hk ht
    have : tr' = tr := by simpa [route] using htr
    subst this
    rw [show route.stops.length = 4 from rfl, walk] at hx
    rcases List.mem_cons.1 hx with rfl | hx
    · have : k = 0 := by simp at hk; exact hk.symm
      subst this
      cases ht
      rfl
    · have : x = (some 1, 2, 4) := by simpa using hx
      subst this
      have : k = 1 := by simp at hk; exact hk.symm
      subst this
      cases ht
      rfl

theorem tripOk : ∀ t ∈ trips, TripOk t := by
  intro t ht
  simp only [trips, List.mem_cons, List.not_mem_nil, or_false] at ht
  rcases ht with rfl | rfl | rfl | rfl
  · exact .inr rfl
  · exact .inl rfl
  · exact .inr rfl
  · exact .inl rfl

theorem shapesOk : ShapesOk rows {} trips := by
  intro t ht s hs
  simp only [trips, List.mem_cons, List.not_mem_nil, or_false] at ht
  have h0 : ∃ pts dists, ShapeIs rows {} 0 pts dists :=
    ⟨_, _, 0, (7, ⟨[(0, 0), (10, 1), (20, 0), (30, 0)], [0, 1, 2, 3], [0, 10, 20, 30]⟩), rfl, by decide +kernel, rfl, rfl⟩
  have h1 : ∃ pts dists, ShapeIs rows {} 1 pts dists :=
    ⟨_, _, 1, (8, ⟨[(30, 0), (40, 5), (50, 0)], [0, 1, 2], []⟩), rfl, by decide +kernel, rfl, rfl⟩
  rcases ht with rfl | rfl | rfl | rfl
  · cases hs; exact h0
  · cases hs; exact h1
  · cases hs; exact h0
  · simp at hs

example : getShape store 0 1 3 = some (some ([(10, 1), (20, 0), (30, 0)], .timetable)) := by decide +kernel
example : getShape store 1 0 2 = some (some ([(30, 0), (40, 5), (50, 0)], .timetable)) := by decide +kernel
example : getShape store 3 0 2 = some none := by decide +kernel
example : shapePoints store (fun i => sp ((route.stops[i]?).getD 0)) (forEachTrip tr 4) 1 4 =
      some [(10, 0), (10, 1), (20, 0), (30, 0), (40, 5), (50, 0)] := by decide +kernel
example : store.boxes = [some ((0, 0), (50, 5))] := by decide +kernel
example : store.segBoxes = [[some ((0, 0), (10, 1)), some ((10, 0), (30, 1)), some ((30, 0), (50, 5))]] := by decide +kernel

/-- Counterexample: a trip with the same stops and shape as an earlier one but other distances gets the
points of the earlier trip: its own distances would put the second stop at (20, 0). -/
theorem C79_shared_distances :
    offsetsFor demoGeo sp [(0, 0), (10, 1), (20, 0), (30, 0)] [0, 10, 20, 30] [0, 10, 30] [0, 20, 30] = some [0, 2, 3] ∧
    getShape store 2 0 2 = some (some ([(0, 0), (10, 1)], .timetable)) := by decide +kernel

/-- Counterexample: the entries are found by trip index, but only the loaders for GTFS and NeTEx add
entries. If another timetable with one trip (index 0) was loaded before, the trips of this feed have the
indices 1, 2, ...: trip 1 (stops 0, 10, 30 of the first shape) gets the shape of the trip after it. -/
theorem C79_unaligned :
    getShape store 1 0 2 = some (some ([(30, 0), (40, 5), (50, 0)], .timetable)) ∧
    trips[0]? = some ⟨[0, 10, 30], [0, 10, 30], some 0⟩ := by decide +kernel

end Demo

end Nigiri.Shapes
