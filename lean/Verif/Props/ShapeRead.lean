import Verif.Model.Shapes
/-!
# Property C77: reading shapes

For any order of the rows of shapes.txt, each shape consists of its rows ordered by sequence number;
distances stay next to their points.
-/

namespace Nigiri.Shapes

/-- Specification: the rows of one shape. -/
def rowsOf (rows : List Row) (id : Nat) : List Row := rows.filter fun r => r.id == id

/-- Specification: distances of points (or stops): either next to the points or, if all are zero, absent. -/
def Parallel (vals ds : List Int) : Prop := ds = vals ∨ (ds = [] ∧ ∀ d ∈ vals, d = 0)

/-! ### Distances -/

theorem replicate_of_zero : ∀ l : List Int, (∀ d ∈ l, d = 0) → l = List.replicate l.length 0
  | [], _ => rfl
  | x :: xs, h => by
    rw [List.length_cons, List.replicate_succ, ← replicate_of_zero xs (fun d hd => h d (List.mem_cons_of_mem _ hd)),
      h x (by simp)]

theorem parallel_push (vals ds : List Int) (d : Int) (h : Parallel vals ds) :
    Parallel (vals ++ [d]) (pushDist (vals.length + 1) ds d) := by
  unfold pushDist
  rcases h with rfl | ⟨rfl, h⟩
  · match ds with
    | [] =>
      by_cases hd : d = 0
      · subst hd; exact .inr ⟨by simp, by simp⟩
      · exact .inl (by simp [hd])
    | x :: xs => exact .inl (by simp)
  · by_cases hd : d = 0
    · subst hd
      refine .inr ⟨by simp, ?_⟩
      intro e he
      rcases List.mem_append.1 he with he | he
      · exact h e he
      · simpa using he
    · refine .inl ?_
      simp only [List.isEmpty_nil, if_true, hd, ne_eq, not_false_eq_true, Nat.add_sub_cancel]
      rw [← replicate_of_zero vals h]

/-- C77 (distances of a trip): reading the stop times of a trip one after the other, the distances are
next to the stops, or absent if all are zero. -/
theorem C77_trip_distances (vals : List Int) :
    Parallel vals ((vals.zipIdx).foldl (fun ds x => pushDist (x.2 + 1) ds x.1) []) := by
  suffices h : ∀ (l pre : List Int) (ds : List Int), Parallel pre ds →
      Parallel (pre ++ l) ((l.zipIdx pre.length).foldl (fun ds x => pushDist (x.2 + 1) ds x.1) ds) by
    simpa using h vals [] [] (.inl rfl)
  intro l
  induction l with
  | nil => intro pre ds h; simpa using h
  | cons x xs ih =>
    intro pre ds h
    have := ih (pre ++ [x]) _ (parallel_push pre ds x h)
    simpa [List.zipIdx_cons] using this

/-! ### The raw shapes -/

/-- What is known about the shape of an id after some rows. -/
def RawOk (rs : List Row) (s : Raw) : Prop :=
  s.pts = rs.map (·.pos) ∧ s.seqs = rs.map (·.seq) ∧ Parallel (rs.map (·.dist)) s.dists

theorem rawOk_push (rs : List Row) (s : Raw) (r : Row) (h : RawOk rs s) : RawOk (rs ++ [r]) (s.push r) := by
  obtain ⟨h1, h2, h3⟩ := h
  refine ⟨?_, ?_, ?_⟩
  · simp [Raw.push, h1]
  · simp [Raw.push, h2]
  · have := parallel_push _ _ r.dist h3
    simpa [Raw.push, h1] using this

/-- Invariant of the reading loop. -/
structure ReadInv (rows : List Row) (shapes : List (Nat × Raw)) : Prop where
  nodup : (shapes.map (·.1)).Nodup
  ids : ∀ id, id ∈ shapes.map (·.1) ↔ ∃ r ∈ rows, r.id = id
  raw : ∀ x ∈ shapes, RawOk (rowsOf rows x.1) x.2

theorem readRow_inv (rows : List Row) (shapes : List (Nat × Raw)) (r : Row) (h : ReadInv rows shapes) :
    ReadInv (rows ++ [r]) (readRow shapes r) := by
  unfold readRow
  by_cases hany : shapes.any (fun x => x.1 == r.id) = true
  · rw [if_pos hany]
    have hmap : (shapes.map fun x => if x.1 = r.id then (x.1, x.2.push r) else x).map (·.1) = shapes.map (·.1) := by
      rw [List.map_map]
      apply List.map_congr_left
      intro x _
      by_cases hx : x.1 = r.id <;> simp [hx]
    have hin : r.id ∈ shapes.map (·.1) := by
      rw [List.any_eq_true] at hany
      obtain ⟨x, hx, he⟩ := hany
      exact List.mem_map.2 ⟨x, hx, by simpa using he⟩
    refine ⟨by rw [hmap]; exact h.nodup, ?_, ?_⟩
    · intro id
      rw [hmap, h.ids]
      constructor
      · rintro ⟨r', hr', rfl⟩; exact ⟨r', by simp [hr'], rfl⟩
      · rintro ⟨r', hr', rfl⟩
        rcases List.mem_append.1 hr' with hr' | hr'
        · exact ⟨r', hr', rfl⟩
        · have : r' = r := by simpa using hr'
          subst this
          exact (h.ids _).1 hin
    · intro x hx
      obtain ⟨y, hy, rfl⟩ := List.mem_map.1 hx
      by_cases hyr : y.1 = r.id
      · rw [if_pos hyr]
        have := rawOk_push _ _ r (h.raw y hy)
        dsimp only
        unfold rowsOf at *
        rw [List.filter_append, List.filter_cons, if_pos (by simp [hyr])]
        exact this
      · rw [if_neg hyr]
        have := h.raw y hy
        unfold rowsOf at *
        rw [List.filter_append, List.filter_cons, if_neg (by simp only [beq_iff_eq]; exact fun e => hyr e.symm)]
        simpa using this
  · rw [if_neg hany]
    have hnin : r.id ∉ shapes.map (·.1) := by
      intro hin
      apply hany
      obtain ⟨x, hx, he⟩ := List.mem_map.1 hin
      rw [List.any_eq_true]
      exact ⟨x, hx, by simpa using he⟩
    refine ⟨?_, ?_, ?_⟩
    · rw [List.map_append, List.nodup_append]
      refine ⟨h.nodup, by simp, ?_⟩
      intro a ha b hb
      have : b = r.id := by simpa using hb
      subst this
      intro he
      subst he
      exact hnin ha
    · intro id
      rw [List.map_append, List.mem_append, h.ids]
      constructor
      · rintro (⟨r', hr', rfl⟩ | hid)
        · exact ⟨r', by simp [hr'], rfl⟩
        · exact ⟨r, by simp, (by simpa using hid : id = r.id).symm⟩
      · rintro ⟨r', hr', rfl⟩
        rcases List.mem_append.1 hr' with hr' | hr'
        · exact .inl ⟨r', hr', rfl⟩
        · have : r' = r := by simpa using hr'
          subst this
          exact .inr (by simp)
    · intro x hx
      rcases List.mem_append.1 hx with hx | hx
      · have hxr : x.1 ≠ r.id := fun e => hnin (e ▸ List.mem_map.2 ⟨x, hx, rfl⟩)
        have := h.raw x hx
        unfold rowsOf at *
        rw [List.filter_append, List.filter_cons, if_neg (by simp only [beq_iff_eq]; exact fun e => hxr e.symm)]
        simpa using this
      · have : x = (r.id, Raw.push ⟨[], [], []⟩ r) := by simpa using hx
        subst this
        have hnil : rowsOf rows r.id = [] := by
          unfold rowsOf
          rw [List.filter_eq_nil_iff]
          intro r' hr' he
          exact hnin ((h.ids _).2 ⟨r', hr', by simpa using he⟩)
        have h0 : RawOk (rowsOf rows r.id) ⟨[], [], []⟩ := by
          rw [hnil]; exact ⟨rfl, rfl, .inl rfl⟩
        have := rawOk_push _ _ r h0
        dsimp only
        unfold rowsOf at *
        rw [List.filter_append, List.filter_cons, if_pos (by simp)]
        exact this

theorem read_inv (rows : List Row) : ReadInv rows (rows.foldl readRow []) := by
  suffices h : ∀ (l pre : List Row) (sh : List (Nat × Raw)), ReadInv pre sh →
      ReadInv (pre ++ l) (l.foldl readRow sh) by
    simpa using h rows [] [] ⟨by simp, by simp, by simp⟩
  intro l
  induction l with
  | nil => intro pre sh h; simpa using h
  | cons r rs ih =>
    intro pre sh h
    have := ih (pre ++ [r]) _ (readRow_inv pre sh r h)
    simpa using this

/-! ### Sorting -/

/-- Insertion of a row. -/
def insertRow (e : Row) : List Row → List Row
  | [] => [e]
  | x :: xs => if x.seq ≤ e.seq then x :: insertRow e xs else e :: x :: xs

def sortRows (rs : List Row) : List Row := rs.foldl (fun l e => insertRow e l) []

theorem insertRow_perm (e : Row) : ∀ l, (insertRow e l).Perm (e :: l)
  | [] => .refl _
  | x :: xs => by
    unfold insertRow
    by_cases h : x.seq ≤ e.seq
    · rw [if_pos h]; exact ((insertRow_perm e xs).cons x).trans (.swap e x xs)
    · rw [if_neg h]

theorem insertRow_sorted (e : Row) : ∀ l : List Row, l.Pairwise (fun a b => a.seq ≤ b.seq) →
    (insertRow e l).Pairwise (fun a b => a.seq ≤ b.seq)
  | [], _ => by simp [insertRow]
  | x :: xs, h => by
    rw [List.pairwise_cons] at h
    unfold insertRow
    by_cases hx : x.seq ≤ e.seq
    · rw [if_pos hx, List.pairwise_cons]
      refine ⟨?_, insertRow_sorted e xs h.2⟩
      intro b hb
      rcases List.mem_cons.1 ((insertRow_perm e xs).mem_iff.1 hb) with rfl | hb
      · exact hx
      · exact h.1 b hb
    · rw [if_neg hx, List.pairwise_cons, List.pairwise_cons]
      refine ⟨?_, h.1, h.2⟩
      intro b hb
      rcases List.mem_cons.1 hb with rfl | hb
      · omega
      · have := h.1 b hb; omega

theorem sortRows_spec (rs : List Row) : (sortRows rs).Perm rs ∧ (sortRows rs).Pairwise (fun a b => a.seq ≤ b.seq) := by
  suffices h : ∀ (l acc : List Row), acc.Pairwise (fun a b => a.seq ≤ b.seq) →
      (l.foldl (fun l e => insertRow e l) acc).Perm (acc ++ l) ∧
      (l.foldl (fun l e => insertRow e l) acc).Pairwise (fun a b => a.seq ≤ b.seq) by
    have := h rs [] .nil
    rwa [List.nil_append] at this
  intro l
  induction l with
  | nil => intro acc h; simpa using h
  | cons r rs ih =>
    intro acc h
    obtain ⟨h1, h2⟩ := ih _ (insertRow_sorted r acc h)
    refine ⟨h1.trans ?_, h2⟩
    exact ((insertRow_perm r acc).append_right rs).trans List.perm_middle.symm

theorem insertSeq_map {α : Type} (f : Row → α) (e : Row) : ∀ l : List Row,
    insertSeq (e.seq, f e) (l.map fun r => (r.seq, f r)) = (insertRow e l).map fun r => (r.seq, f r)
  | [] => rfl
  | x :: xs => by
    simp only [List.map_cons, insertSeq, insertRow]
    by_cases h : x.seq ≤ e.seq
    · rw [if_pos h, if_pos h, insertSeq_map f e xs]; rfl
    · rw [if_neg h, if_neg h]; rfl

theorem sortBy_map {α : Type} (f : Row → α) (rs : List Row) :
    sortBy (rs.map (·.seq)) (rs.map f) = (sortRows rs).map f := by
  have hz : (rs.map (·.seq)).zip (rs.map f) = rs.map fun r => (r.seq, f r) := by
    induction rs with
    | nil => rfl
    | cons r rs ih => simp [ih]
  have hfold : ∀ (l acc : List Row),
      (l.map fun r => (r.seq, f r)).foldl (fun l e => insertSeq e l) (acc.map fun r => (r.seq, f r)) =
        (l.foldl (fun l e => insertRow e l) acc).map fun r => (r.seq, f r) := by
    intro l
    induction l with
    | nil => intro acc; rfl
    | cons r rs ih =>
      intro acc
      rw [List.map_cons, List.foldl_cons, List.foldl_cons, insertSeq_map, ih]
  unfold sortBy
  by_cases he : (rs.map f).isEmpty = true
  · rw [if_pos he]
    have : rs = [] := by simpa using he
    subst this
    rfl
  · rw [if_neg he, hz]
    have := hfold rs []
    rw [List.map_nil] at this
    rw [this, List.map_map]
    rfl

theorem isSorted_pairwise : ∀ l : List Nat, isSorted l = true → l.Pairwise (· ≤ ·)
  | [], _ => .nil
  | [a], _ => by simp
  | a :: b :: l, h => by
    unfold isSorted at h
    rw [Bool.and_eq_true, decide_eq_true_eq] at h
    have ih := isSorted_pairwise (b :: l) h.2
    rw [List.pairwise_cons]
    refine ⟨?_, ih⟩
    intro c hc
    rw [List.pairwise_cons] at ih
    rcases List.mem_cons.1 hc with rfl | hc
    · exact h.1
    · have := ih.1 c hc; omega

/-- Specification: the points and distances of a shape, given its rows in file order. -/
structure ShapeOf (rs : List Row) (s : Raw) : Prop where
  intro ::
  ex : ∃ sorted : List Row, sorted.Perm rs ∧ sorted.Pairwise (fun a b => a.seq ≤ b.seq) ∧
    s.pts = sorted.map (·.pos) ∧ Parallel (sorted.map (·.dist)) s.dists

theorem finish_spec (rs : List Row) (s : Raw) (h : RawOk rs s) : ShapeOf rs (finishShape s) := by
  obtain ⟨h1, h2, h3⟩ := h
  unfold finishShape
  by_cases hs : isSorted s.seqs = true
  · rw [if_pos hs]
    refine ⟨rs, .refl _, ?_, h1, h3⟩
    have := isSorted_pairwise _ hs
    rw [h2, List.pairwise_map] at this
    exact this
  · rw [if_neg hs]
    obtain ⟨hp, hso⟩ := sortRows_spec rs
    refine ⟨sortRows rs, hp, hso, ?_, ?_⟩
    · dsimp only
      rw [h1, h2, sortBy_map]
    · dsimp only
      rcases h3 with h3 | ⟨h3, hz⟩
      · rw [h3, h2, sortBy_map]; exact .inl rfl
      · refine .inr ⟨by rw [h3]; rfl, ?_⟩
        intro d hd
        apply hz
        obtain ⟨r, hr, rfl⟩ := List.mem_map.1 hd
        exact List.mem_map.2 ⟨r, hp.mem_iff.1 hr, rfl⟩

/-- C77: every shape id of the file gets exactly one shape; its points are the rows with this id (in any
order in the file, mixed with rows of other shapes), each exactly once, by ascending sequence number;
distances stay next to their points. -/
theorem C77_shapes (rows : List Row) :
    ((parseShapes rows).map (·.1)).Nodup ∧
    (∀ id, id ∈ (parseShapes rows).map (·.1) ↔ ∃ r ∈ rows, r.id = id) ∧
    ∀ x ∈ parseShapes rows, ShapeOf (rowsOf rows x.1) x.2 := by
  have h := read_inv rows
  have hm : (parseShapes rows).map (·.1) = (rows.foldl readRow []).map (·.1) := by
    unfold parseShapes
    rw [List.map_map]
    rfl
  rw [hm]
  refine ⟨h.nodup, h.ids, ?_⟩
  intro x hx
  unfold parseShapes at hx
  obtain ⟨y, hy, rfl⟩ := List.mem_map.1 hx
  exact finish_spec _ _ (h.raw y hy)

/-- With distinct sequence numbers the result does not depend on the order of the rows. -/
theorem C77_order_free (rs rs' : List Row) (s s' : Raw) (hp : rs.Perm rs') (hd : (rs.map (·.seq)).Nodup)
    (h : ShapeOf rs s) (h' : ShapeOf rs' s') : s.pts = s'.pts := by
  obtain ⟨l, p1, s1, e1, -⟩ := h.ex
  obtain ⟨l', p2, s2, e2, -⟩ := h'.ex
  rw [e1, e2]
  congr 1
  have hll : l.Perm l' := p1.trans (hp.trans p2.symm)
  have hnd : (l.map (·.seq)).Nodup := (p1.map _).nodup_iff.2 hd
  refine hll.eq_of_pairwise (le := fun a b => a.seq ≤ b.seq) ?_ s1 s2
  intro a b ha hb hab hba
  have he : a.seq = b.seq := Nat.le_antisymm hab hba
  clear e1 e2 s1 s2 p1 p2 hd hp hab hba
  have hb' : b ∈ l := hll.mem_iff.2 hb
  clear hb hll
  induction l with
  | nil => simp at ha
  | cons x xs ih =>
    rw [List.map_cons, List.nodup_cons] at hnd
    rcases List.mem_cons.1 ha with rfl | ha'
    · rcases List.mem_cons.1 hb' with rfl | hb
      · rfl
      · exact absurd (List.mem_map.2 ⟨b, hb, he.symm⟩ : a.seq ∈ xs.map (·.seq)) hnd.1
    · rcases List.mem_cons.1 hb' with rfl | hb
      · exact absurd (List.mem_map.2 ⟨a, ha', he⟩ : b.seq ∈ xs.map (·.seq)) hnd.1
      · exact ih hnd.2 ha' hb

/-- A file with two shapes, mixed and out of order. -/
example : parseShapes [⟨7, (0, 0), 2, 5⟩, ⟨8, (9, 9), 0, 0⟩, ⟨7, (1, 1), 1, 0⟩, ⟨8, (8, 8), 1, 0⟩] =
    [(7, ⟨[(1, 1), (0, 0)], [1, 2], [0, 5]⟩), (8, ⟨[(9, 9), (8, 8)], [0, 1], []⟩)] := by decide +kernel

end Nigiri.Shapes
