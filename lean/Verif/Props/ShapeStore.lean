import Verif.Props.ShapeMatch
/-!
# Property C79: the part of the shape a trip drives

After loading a feed, the shape returned for a trip and a range of its stops is a contiguous, non-empty
part of the trip's shape; parts of consecutive ranges fit together.
-/

namespace Nigiri.Shapes
open Resolve (lexLt lexLt_irrefl lexLt_trans lexLt_total)

/-! ### Tasks -/

def freshTask (t : Trip) : Task := ⟨t.stops, t.dist, [], none, [], none⟩

def TSorted (ts : List Task) : Prop := ts.Pairwise fun a b => lexLt a.stops b.stops = true

theorem mem_insertTask (t y : Task) : ∀ ts, y ∈ insertTask t ts → y = t ∨ y ∈ ts
  | [], h => by simpa [insertTask] using h
  | x :: xs, h => by
    unfold insertTask at h
    by_cases h1 : lexLt x.stops t.stops = true
    · rw [if_pos h1] at h
      rcases List.mem_cons.1 h with rfl | h
      · exact .inr (by simp)
      · rcases mem_insertTask t y xs h with rfl | h
        · exact .inl rfl
        · exact .inr (List.mem_cons_of_mem _ h)
    · rw [if_neg h1] at h
      by_cases h2 : x.stops = t.stops
      · rw [if_pos h2] at h; exact .inr h
      · rw [if_neg h2] at h
        rcases List.mem_cons.1 h with rfl | h
        · exact .inl rfl
        · exact .inr h

theorem insertTask_old (t y : Task) : ∀ ts, y ∈ ts → y ∈ insertTask t ts
  | [], h => by simp at h
  | x :: xs, h => by
    unfold insertTask
    by_cases h1 : lexLt x.stops t.stops = true
    · rw [if_pos h1]
      rcases List.mem_cons.1 h with rfl | h
      · simp
      · exact List.mem_cons_of_mem _ (insertTask_old t y xs h)
    · rw [if_neg h1]
      by_cases h2 : x.stops = t.stops
      · rw [if_pos h2]; exact h
      · rw [if_neg h2]; exact List.mem_cons_of_mem _ h

theorem insertTask_new (t : Task) : ∀ ts, ∃ y ∈ insertTask t ts, y.stops = t.stops
  | [] => ⟨t, by simp [insertTask], rfl⟩
  | x :: xs => by
    unfold insertTask
    by_cases h1 : lexLt x.stops t.stops = true
    · rw [if_pos h1]
      obtain ⟨y, hy, he⟩ := insertTask_new t xs
      exact ⟨y, List.mem_cons_of_mem _ hy, he⟩
    · rw [if_neg h1]
      by_cases h2 : x.stops = t.stops
      · rw [if_pos h2]; exact ⟨x, by simp, h2⟩
      · rw [if_neg h2]; exact ⟨t, by simp, rfl⟩

theorem insertTask_sorted (t : Task) : ∀ ts, TSorted ts → TSorted (insertTask t ts)
  | [], _ => by simp [insertTask, TSorted]
  | x :: xs, h => by
    unfold TSorted at *
    rw [List.pairwise_cons] at h
    unfold insertTask
    by_cases h1 : lexLt x.stops t.stops = true
    · rw [if_pos h1, List.pairwise_cons]
      refine ⟨?_, insertTask_sorted t xs h.2⟩
      intro y hy
      rcases mem_insertTask t y xs hy with rfl | hy
      · exact h1
      · exact h.1 y hy
    · rw [if_neg h1]
      by_cases h2 : x.stops = t.stops
      · rw [if_pos h2, List.pairwise_cons]; exact h
      · rw [if_neg h2, List.pairwise_cons, List.pairwise_cons]
        have htx : lexLt t.stops x.stops = true := by
          rcases lexLt_total x.stops t.stops with h3 | h3 | h3
          · exact absurd h3 h1
          · exact absurd h3 h2
          · exact h3
        refine ⟨?_, h.1, h.2⟩
        intro y hy
        rcases List.mem_cons.1 hy with rfl | hy
        · exact htx
        · exact lexLt_trans _ _ _ htx (h.1 y hy)

theorem tasksOf_spec (trips : List Trip) (s : Nat) :
    TSorted (tasksOf trips s) ∧
    (∀ x ∈ tasksOf trips s, ∃ t ∈ trips, t.shape = some s ∧ x = freshTask t) ∧
    (∀ t ∈ trips, t.shape = some s → ∃ x ∈ tasksOf trips s, x.stops = t.stops) := by
  suffices h : ∀ (l pre : List Trip) (ts : List Task),
      (TSorted ts ∧ (∀ x ∈ ts, ∃ t ∈ pre, t.shape = some s ∧ x = freshTask t) ∧
        (∀ t ∈ pre, t.shape = some s → ∃ x ∈ ts, x.stops = t.stops)) →
      (TSorted (l.foldl (fun ts t => if t.shape = some s then insertTask (freshTask t) ts else ts) ts) ∧
        (∀ x ∈ l.foldl (fun ts t => if t.shape = some s then insertTask (freshTask t) ts else ts) ts,
          ∃ t ∈ pre ++ l, t.shape = some s ∧ x = freshTask t) ∧
        (∀ t ∈ pre ++ l, t.shape = some s →
          ∃ x ∈ l.foldl (fun ts t => if t.shape = some s then insertTask (freshTask t) ts else ts) ts, x.stops = t.stops)) by
    have := h trips [] [] ⟨.nil, by simp, by simp⟩
    rw [List.nil_append] at this
    exact this
  intro l
  induction l with
  | nil => intro pre ts h; simpa using h
  | cons t l ih =>
    intro pre ts h
    have hstep : TSorted (if t.shape = some s then insertTask (freshTask t) ts else ts) ∧
        (∀ x ∈ (if t.shape = some s then insertTask (freshTask t) ts else ts),
          ∃ t' ∈ pre ++ [t], t'.shape = some s ∧ x = freshTask t') ∧
        (∀ t' ∈ pre ++ [t], t'.shape = some s →
          ∃ x ∈ (if t.shape = some s then insertTask (freshTask t) ts else ts), x.stops = t'.stops) := by
      obtain ⟨h1, h2, h3⟩ := h
      by_cases hs : t.shape = some s
      · simp only [if_pos hs]
        refine ⟨insertTask_sorted _ _ h1, ?_, ?_⟩
        · intro x hx
          rcases mem_insertTask _ _ _ hx with rfl | hx
          · exact ⟨t, by simp, hs, rfl⟩
          · obtain ⟨t', ht', a, b⟩ := h2 x hx
            exact ⟨t', by simp [ht'], a, b⟩
        · intro t' ht' hts
          rcases List.mem_append.1 ht' with ht' | ht'
          · obtain ⟨x, hx, he⟩ := h3 t' ht' hts
            exact ⟨x, insertTask_old _ _ _ hx, he⟩
          · have : t' = t := by simpa using ht'
            subst this
            obtain ⟨y, hy, he⟩ := insertTask_new (freshTask t') ts
            exact ⟨y, hy, he⟩
      · simp only [if_neg hs]
        refine ⟨h1, ?_, ?_⟩
        · intro x hx
          obtain ⟨t', ht', a, b⟩ := h2 x hx
          exact ⟨t', by simp [ht'], a, b⟩
        · intro t' ht' hts
          rcases List.mem_append.1 ht' with ht' | ht'
          · exact h3 t' ht' hts
          · have : t' = t := by simpa using ht'
            subst this
            exact absurd hts hs
    have := ih (pre ++ [t]) _ hstep
    rw [List.append_assoc] at this
    exact this

theorem findTask_eq (ts : List Task) (h : TSorted ts) (x : Task) (hx : x ∈ ts) : findTask x.stops ts = some x := by
  unfold findTask
  induction ts with
  | nil => simp at hx
  | cons y ys ih =>
    unfold TSorted at h
    rw [List.pairwise_cons] at h
    rcases List.mem_cons.1 hx with rfl | hx
    · rw [List.find?_cons_of_pos (by simp [lexLt_irrefl])]
    · rw [List.find?_cons_of_neg (by simp [h.1 x hx])]
      exact ih h.2 hx

/-! ### Processing -/

/-- Two lists of the same length with related entries. -/
inductive All2 {α β : Type} (R : α → β → Prop) : List α → List β → Prop
  | nil : All2 R [] []
  | cons {x : α} {y : β} {xs : List α} {ys : List β} : R x y → All2 R xs ys → All2 R (x :: xs) (y :: ys)

theorem All2.length_eq {α β : Type} {R : α → β → Prop} {xs : List α} {ys : List β} (h : All2 R xs ys) :
    xs.length = ys.length := by
  induction h with
  | nil => rfl
  | cons _ _ ih => simp [ih]


theorem processTask_frame {g : Geo} {sp : Nat → Pos} {pts : List Pos} {ds : List Int} {x y : Task}
    (h : processTask g sp pts ds x = some y) :
    y.stops = x.stops ∧ y.idx = x.idx ∧ offsetsFor g sp pts ds x.stops x.dist = some y.offsets := by
  unfold processTask at h
  split at h
  · simp at h
  · next offs ho =>
    by_cases he : offs.isEmpty = true
    · rw [if_pos he] at h
      cases h
      have : offs = [] := by simpa using he
      subst this
      exact ⟨rfl, rfl, ho⟩
    · rw [if_neg he] at h
      split at h
      · cases h; exact ⟨rfl, rfl, ho⟩
      · simp at h

theorem processAll_spec {g : Geo} {sp : Nat → Pos} {pts : List Pos} {ds : List Int} : ∀ {xs ys : List Task},
    processAll g sp pts ds xs = some ys → All2 (fun x y => processTask g sp pts ds x = some y) xs ys
  | [], ys, h => by simp [processAll] at h; subst h; exact .nil
  | x :: xs, ys, h => by
    unfold processAll at h
    split at h
    · next y ys' h1 h2 =>
      cases h
      exact .cons h1 (processAll_spec h2)
    · simp at h

theorem forall₂_mem_left {α β : Type} {R : α → β → Prop} {xs : List α} {ys : List β} (h : All2 R xs ys) :
    ∀ x ∈ xs, ∃ y ∈ ys, R x y := by
  induction h with
  | nil => simp
  | cons h1 _ ih =>
    intro x hx
    rcases List.mem_cons.1 hx with rfl | hx
    · exact ⟨_, by simp, h1⟩
    · obtain ⟨y, hy, hr⟩ := ih x hx
      exact ⟨y, List.mem_cons_of_mem _ hy, hr⟩

theorem forall₂_mem_right {α β : Type} {R : α → β → Prop} {xs : List α} {ys : List β} (h : All2 R xs ys) :
    ∀ y ∈ ys, ∃ x ∈ xs, R x y := by
  induction h with
  | nil => simp
  | cons h1 _ ih =>
    intro x hx
    rcases List.mem_cons.1 hx with rfl | hx
    · exact ⟨_, by simp, h1⟩
    · obtain ⟨y, hy, hr⟩ := ih x hx
      exact ⟨y, List.mem_cons_of_mem _ hy, hr⟩

theorem forall₂_map_eq {α β γ : Type} {R : α → β → Prop} {f : α → γ} {f' : β → γ} {xs : List α} {ys : List β}
    (h : All2 R xs ys) (hr : ∀ x y, R x y → f' y = f x) : ys.map f' = xs.map f := by
  induction h with
  | nil => rfl
  | cons h1 _ ih => rw [List.map_cons, List.map_cons, hr _ _ h1, ih]

theorem tsorted_of_map {xs ys : List Task} (h : ys.map (·.stops) = xs.map (·.stops)) (hs : TSorted xs) : TSorted ys := by
  have h1 : (xs.map (·.stops)).Pairwise fun a b => lexLt a b = true := by rw [List.pairwise_map]; exact hs
  rw [← h, List.pairwise_map] at h1
  exact h1

theorem processShapes_spec {g : Geo} {sp : Nat → Pos} {trips : List Trip} : ∀ {i : Nat} {shapes : List (Nat × Raw)}
    {tasks : List (List Task)}, processShapes g sp trips i shapes = some tasks →
    tasks.length = shapes.length ∧ ∀ (j : Nat) (x : Nat × Raw), shapes[j]? = some x →
      ∃ ts, tasks[j]? = some ts ∧ processAll g sp x.2.pts x.2.dists (tasksOf trips (i + j)) = some ts
  | i, [], tasks, h => by simp [processShapes] at h; subst h; simp
  | i, x :: xs, tasks, h => by
    unfold processShapes at h
    split at h
    · next y ys h1 h2 =>
      cases h
      obtain ⟨a, b⟩ := processShapes_spec h2
      refine ⟨by simp [a], ?_⟩
      intro j z hz
      cases j with
      | zero =>
        have : x = z := by simpa using hz
        subst this
        exact ⟨y, by simp, by simpa using h1⟩
      | succ j =>
        obtain ⟨ts, c, d⟩ := b j z (by simpa using hz)
        exact ⟨ts, by simpa using c, by rw [show i + (j + 1) = i + 1 + j by omega]; exact d⟩
    · simp at h

/-! ### Assigning offset indices -/

/-- Relation between an entry before and after the assignment. -/
def Assigned (st : Store) (lo : Nat) (x y : Task) : Prop :=
  y = { x with idx := y.idx } ∧
  ((x.offsets = [] ∧ y.idx = x.idx) ∨
    (x.offsets ≠ [] ∧ ∃ i, y.idx = some i ∧ lo ≤ i ∧ st.offsets[i]? = some x.offsets))

theorem getElem?_prefix {α : Type} {a b : List α} (h : a <+: b) {i : Nat} {x : α} (hx : a[i]? = some x) : b[i]? = some x := by
  obtain ⟨c, rfl⟩ := h
  rw [List.getElem?_append_left (List.getElem?_eq_some_iff.1 hx).1]
  exact hx

theorem assigned_mono {st st' : Store} {lo lo' : Nat} {x y : Task} (hp : st.offsets <+: st'.offsets) (hl : lo' ≤ lo)
    (h : Assigned st lo x y) : Assigned st' lo' x y := by
  refine ⟨h.1, ?_⟩
  rcases h.2 with h | ⟨h1, i, h2, h3, h4⟩
  · exact .inl h
  · exact .inr ⟨h1, i, h2, by omega, getElem?_prefix hp h4⟩

theorem forall₂_imp {α β : Type} {R S : α → β → Prop} {xs : List α} {ys : List β} (h : All2 R xs ys)
    (hrs : ∀ x y, R x y → S x y) : All2 S xs ys := by
  induction h with
  | nil => exact .nil
  | cons h1 _ ih => exact .cons (hrs _ _ h1) ih

/-- The indices of different entries differ. -/
def Distinct (ts : List Task) : Prop := ts.Pairwise fun a b => ∀ i, a.idx = some i → b.idx ≠ some i

theorem addOffsets_spec : ∀ (ts : List Task) (st : Store), (∀ x ∈ ts, x.idx = none) →
    (addOffsets st ts).1 = { st with offsets := (addOffsets st ts).1.offsets } ∧
    st.offsets <+: (addOffsets st ts).1.offsets ∧
    All2 (Assigned (addOffsets st ts).1 st.offsets.length) ts (addOffsets st ts).2 ∧
    Distinct (addOffsets st ts).2
  | [], st, _ => ⟨rfl, List.prefix_refl _, .nil, .nil⟩
  | x :: xs, st, hn => by
    have hn' : ∀ y ∈ xs, y.idx = none := fun y hy => hn y (List.mem_cons_of_mem _ hy)
    unfold addOffsets
    by_cases he : x.offsets.isEmpty = true
    · rw [if_pos he]
      dsimp only
      obtain ⟨h1, h2, h3, h4⟩ := addOffsets_spec xs st hn'
      have hx : x.offsets = [] := by simpa using he
      refine ⟨h1, h2, .cons ⟨rfl, .inl ⟨hx, rfl⟩⟩ h3, ?_⟩
      unfold Distinct
      rw [List.pairwise_cons]
      refine ⟨?_, h4⟩
      intro y _ i hi
      rw [hn x (by simp)] at hi
      simp at hi
    · rw [if_neg he]
      dsimp only
      obtain ⟨h1, h2, h3, h4⟩ := addOffsets_spec xs { st with offsets := st.offsets ++ [x.offsets] } hn'
      have hx : x.offsets ≠ [] := by simpa using he
      dsimp only at h1 h2 h3
      refine ⟨h1, (List.prefix_append _ _).trans h2, ?_, ?_⟩
      · refine .cons ⟨rfl, .inr ⟨hx, st.offsets.length, rfl, Nat.le_refl _, ?_⟩⟩ ?_
        · refine getElem?_prefix h2 ?_
          rw [List.getElem?_append_right (Nat.le_refl _), Nat.sub_self]
          rfl
        · exact forall₂_imp h3 fun a b h => assigned_mono (List.prefix_refl _) (by simp) h
      · unfold Distinct
        rw [List.pairwise_cons]
        refine ⟨?_, h4⟩
        intro y hy i hi hyi
        have hi' : st.offsets.length = i := by simpa using hi
        obtain ⟨z, hz, hr⟩ := forall₂_mem_right h3 y hy
        rcases hr.2 with ⟨-, h5⟩ | ⟨-, j, h5, h6, -⟩
        · rw [h5, hn' z hz] at hyi
          simp at hyi
        · rw [h5] at hyi
          cases hyi
          simp at h6
          omega

theorem addAllOffsets_spec : ∀ (tss : List (List Task)) (st : Store), (∀ ts ∈ tss, ∀ x ∈ ts, x.idx = none) →
    (addAllOffsets st tss).1 = { st with offsets := (addAllOffsets st tss).1.offsets } ∧
    st.offsets <+: (addAllOffsets st tss).1.offsets ∧
    All2 (fun a b => All2 (Assigned (addAllOffsets st tss).1 0) a b ∧ Distinct b) tss (addAllOffsets st tss).2
  | [], st, _ => ⟨rfl, List.prefix_refl _, .nil⟩
  | t :: ts, st, hn => by
    unfold addAllOffsets
    dsimp only
    obtain ⟨h1, h2, h3, h4⟩ := addOffsets_spec t st (hn t (by simp))
    obtain ⟨h5, h6, h7⟩ := addAllOffsets_spec ts (addOffsets st t).1 (fun x hx => hn x (List.mem_cons_of_mem _ hx))
    refine ⟨?_, h2.trans h6, .cons ⟨forall₂_imp h3 fun a b h => assigned_mono h6 (Nat.zero_le _) h, h4⟩ h7⟩
    rw [h5, h1]

theorem forall₂_getElem? {α β : Type} {R : α → β → Prop} {xs : List α} {ys : List β} (h : All2 R xs ys) :
    ∀ (j : Nat) (x : α), xs[j]? = some x → ∃ y, ys[j]? = some y ∧ R x y := by
  induction h with
  | nil => simp
  | cons h1 _ ih =>
    intro j x hx
    cases j with
    | zero =>
      have := Option.some.inj (by simpa using hx : some _ = some x)
      subst this
      exact ⟨_, by simp, h1⟩
    | succ j =>
      obtain ⟨y, hy, hr⟩ := ih j x (by simpa using hx)
      exact ⟨y, by simpa using hy, hr⟩

theorem assignBoxes_frame (sp : Nat → Pos) (off : Nat) (tasks : List (List Task)) : ∀ (rs : List Route) (st st' : Store),
    assignBoxes sp off tasks st rs = some st' →
    st' = { st with boxes := st'.boxes, segBoxes := st'.segBoxes }
  | [], st, st', h => by simp [assignBoxes] at h; subst h; rfl
  | r :: rs, st, st', h => by
    unfold assignBoxes at h
    split at h
    · simp at h
    · next b s hb =>
      have := assignBoxes_frame sp off tasks rs _ st' h
      rw [this]

/-! ### The loaded feed -/

/-- Everything known about a successfully loaded feed. -/
structure Loaded (g : Geo) (sp : Nat → Pos) (rows : List Row) (trips : List Trip) (routes : List Route) (st st' : Store)
    (tasks : List (List Task)) : Prop where
  data : st'.data = st.data ++ (parseShapes rows).map (·.2.pts)
  routed : st'.routed = st.routed
  tripsEq : st'.trips = st.trips ++ trips.map (tripEntry st.data.length tasks)
  offs : st.offsets <+: st'.offsets
  tlen : tasks.length = (parseShapes rows).length
  task : ∀ (j : Nat) (x : Nat × Raw), (parseShapes rows)[j]? = some x → ∃ ts, tasks[j]? = some ts ∧ TSorted ts ∧ Distinct ts ∧
    (∀ y ∈ ts, ∃ t z, t ∈ trips ∧ t.shape = some (st.data.length + j) ∧
      processTask g sp x.2.pts x.2.dists (freshTask t) = some z ∧ Assigned st' 0 z y) ∧
    (∀ t ∈ trips, t.shape = some (st.data.length + j) → ∃ y ∈ ts, y.stops = t.stops)
  boxes : ∃ mid : Store, mid.data = st'.data ∧ mid.trips = st'.trips ∧ mid.offsets = st'.offsets ∧ mid.boxes = st.boxes ∧
    mid.segBoxes = st.segBoxes ∧ assignBoxes sp st.data.length tasks mid routes = some st'

theorem loaded_tasks {g : Geo} {sp : Nat → Pos} {rows : List Row} {trips : List Trip} {routes : List Route} {st st' : Store}
    (h : loadFeed g sp rows trips routes st = some st') :
    ∃ tasks, processShapes g sp trips st.data.length (parseShapes rows) = some tasks ∧
      Loaded g sp rows trips routes st st' (assignOffsets { st with data := st.data ++ (parseShapes rows).map (·.2.pts) }
        st.data.length trips tasks).2 := by
  unfold loadFeed at h
  dsimp only at h
  cases ht : processShapes g sp trips st.data.length (parseShapes rows) with
  | none => rw [ht] at h; simp at h
  | some tasks =>
    rw [ht] at h
    dsimp only at h
    obtain ⟨hl, htask⟩ := processShapes_spec ht
    have hproc : ∀ ts ∈ tasks, ∃ (j : Nat) (x : Nat × Raw), (parseShapes rows)[j]? = some x ∧
        processAll g sp x.2.pts x.2.dists (tasksOf trips (st.data.length + j)) = some ts := by
      intro ts hts
      obtain ⟨j, hj⟩ := List.mem_iff_getElem?.1 hts
      have hjl : j < (parseShapes rows).length := by rw [← hl]; exact (List.getElem?_eq_some_iff.1 hj).1
      obtain ⟨ts', h1, h2⟩ := htask j _ (List.getElem?_eq_getElem hjl)
      rw [hj] at h1
      cases h1
      exact ⟨j, _, List.getElem?_eq_getElem hjl, h2⟩
    have hnone : ∀ ts ∈ tasks, ∀ x ∈ ts, x.idx = none := by
      intro ts hts x hx
      obtain ⟨j, r, -, hp⟩ := hproc ts hts
      obtain ⟨z, hz, hr⟩ := forall₂_mem_right (processAll_spec hp) x hx
      rw [(processTask_frame hr).2.1]
      obtain ⟨t, -, -, rfl⟩ := (tasksOf_spec trips _).2.1 z hz
      rfl
    obtain ⟨h1, h2, h3⟩ := addAllOffsets_spec tasks { st with data := st.data ++ (parseShapes rows).map (·.2.pts) } hnone
    unfold assignOffsets at h
    dsimp only at h
    have hfr := assignBoxes_frame _ _ _ _ _ _ h
    generalize hr : addAllOffsets { st with data := st.data ++ (parseShapes rows).map (·.2.pts) } tasks = r at *
    dsimp only at h2
    have hoffs : st'.offsets = r.1.offsets := by rw [hfr]
    have hr2 : (assignOffsets { st with data := st.data ++ (parseShapes rows).map (·.2.pts) } st.data.length trips tasks).2 = r.2 := by
      unfold assignOffsets; rw [hr]
    refine ⟨tasks, rfl, ?_⟩
    rw [hr2]
    refine ⟨?_, ?_, ?_, ?_, ?_, ?_, ?_⟩
    · rw [hfr]; dsimp only; rw [h1]
    · rw [hfr]; dsimp only; rw [h1]
    · rw [hfr]; dsimp only; rw [h1]
    · rw [hoffs]; exact h2
    · rw [← hl]
      clear h hfr hr h1
      exact (h3.length_eq).symm
    · intro j x hx
      obtain ⟨ts, e1, e2⟩ := htask j x hx
      obtain ⟨ts', e3, e4, e5⟩ := forall₂_getElem? h3 j ts e1
      have hsp := tasksOf_spec trips (st.data.length + j)
      have hst1 : ts.map (·.stops) = (tasksOf trips (st.data.length + j)).map (·.stops) :=
        forall₂_map_eq (processAll_spec e2) fun a b hab => (processTask_frame hab).1
      have hst2 : ts'.map (·.stops) = ts.map (·.stops) :=
        forall₂_map_eq e4 fun a b hab => by rw [hab.1]
      refine ⟨ts', e3, tsorted_of_map (hst2.trans hst1) hsp.1, e5, ?_, ?_⟩
      · intro y hy
        obtain ⟨z, hz, hzy⟩ := forall₂_mem_right e4 y hy
        obtain ⟨w, hw, hwz⟩ := forall₂_mem_right (processAll_spec e2) z hz
        obtain ⟨t, ht, hts, rfl⟩ := hsp.2.1 w hw
        exact ⟨t, z, ht, hts, hwz, assigned_mono (by rw [hoffs]; exact List.prefix_refl _) (Nat.le_refl _) hzy⟩
      · intro t ht hts
        obtain ⟨w, hw, he⟩ := hsp.2.2 t ht hts
        have : w.stops ∈ ts'.map (·.stops) := by
          rw [hst2, hst1]; exact List.mem_map.2 ⟨w, hw, rfl⟩
        obtain ⟨y, hy, hye⟩ := List.mem_map.1 this
        exact ⟨y, hy, hye.trans he⟩
    · refine ⟨_, ?_, ?_, ?_, ?_, ?_, h⟩
      · rw [hfr]
      · rw [hfr]
      · rw [hfr]
      · dsimp only; rw [h1]
      · dsimp only; rw [h1]

theorem loaded_of {g : Geo} {sp : Nat → Pos} {rows : List Row} {trips : List Trip} {routes : List Route} {st st' : Store}
    (h : loadFeed g sp rows trips routes st = some st') : ∃ tasks, Loaded g sp rows trips routes st st' tasks := by
  obtain ⟨tasks, -, hL⟩ := loaded_tasks h
  exact ⟨_, hL⟩

/-- Specification: the points from `a` to `b`, both included. -/
def slice (pts : List Pos) (a b : Nat) : List Pos := (pts.drop a).take (b + 1 - a)

/-- Specification: the shape with this id, and its distances, in the feed loaded on top of `st`. -/
def ShapeIs (rows : List Row) (st : Store) (s : Nat) (pts : List Pos) (dists : List Int) : Prop :=
  ∃ (j : Nat) (x : Nat × Raw), s = st.data.length + j ∧ (parseShapes rows)[j]? = some x ∧ pts = x.2.pts ∧ dists = x.2.dists

/-- The entry of a trip. -/
theorem trip_entry {g : Geo} {sp : Nat → Pos} {rows : List Row} {trips : List Trip} {routes : List Route} {st st' : Store}
    {tasks : List (List Task)} (hL : Loaded g sp rows trips routes st st' tasks) (k : Nat) (t : Trip) (hk : trips[k]? = some t)
    (s : Nat) (hs : t.shape = some s) (pts : List Pos) (dists : List Int) (hsh : ShapeIs rows st s pts dists) :
    ∃ (ts : List Task) (y z : Task) (t' : Trip), tasks[s - st.data.length]? = some ts ∧ Distinct ts ∧ y ∈ ts ∧
      t' ∈ trips ∧ t'.shape = t.shape ∧ t'.stops = t.stops ∧
      processTask g sp pts dists (freshTask t') = some z ∧ Assigned st' 0 z y ∧
      st'.data[s]? = some pts ∧
      (st'.trips[st.trips.length + k]?).join = y.idx.map fun i => (Source.timetable, s, i) := by
  obtain ⟨j, x, rfl, hx, rfl, rfl⟩ := hsh
  obtain ⟨ts, h1, h2, h3, h4, h5⟩ := hL.task j x hx
  obtain ⟨y, hy, hye⟩ := h5 t (List.mem_of_getElem? hk) hs
  obtain ⟨t', z, ht', hts', hz, hzy⟩ := h4 y hy
  have hsub : st.data.length + j - st.data.length = j := by omega
  refine ⟨ts, y, z, t', by rw [hsub]; exact h1, h3, hy, ht', by rw [hts', hs], ?_, hz, hzy, ?_, ?_⟩
  · rw [← hye, hzy.1]
    exact ((processTask_frame hz).1).symm
  · rw [hL.data, List.getElem?_append_right (by omega), hsub, List.getElem?_map, hx]
    rfl
  · rw [hL.tripsEq, List.getElem?_append_right (by omega), Nat.add_sub_cancel_left, List.getElem?_map, hk]
    show tripEntry st.data.length tasks t = _
    unfold tripEntry
    rw [hs]
    dsimp only
    rw [hsub, h1]
    dsimp only [Option.getD_some]
    rw [← hye, findTask_eq ts h2 y hy]

theorem offsetsFor_valid {g : Geo} (hg : g.Ok) (sp : Nat → Pos) (pts : List Pos) (ds : List Int) (stops : List Nat) (dist : List Int)
    (hd : ds = [] ∨ ds.length = pts.length) (hdt : dist = [] ∨ dist.length = stops.length)
    (h2 : 2 ≤ stops.length) (hn : stops.length ≤ pts.length) :
    ∃ os, offsetsFor g sp pts ds stops dist = some os ∧ Valid pts.length stops.length os ∧
      (ds = [] ∨ dist = [] → Strict pts.length stops.length os) := by
  unfold offsetsFor
  rw [if_neg (by omega)]
  by_cases hc : (!ds.isEmpty && !dist.isEmpty) = true
  · rw [if_pos hc]
    simp only [Bool.and_eq_true, Bool.not_eq_true', List.isEmpty_eq_false_iff] at hc
    rcases hd with hd | hd
    · exact absurd hd hc.1
    · rcases hdt with hdt | hdt
      · exact absurd hdt hc.2
      · refine ⟨_, rfl, ?_, ?_⟩
        · have := C78_by_dist ds dist (by omega)
          rw [hd, hdt] at this
          exact this
        · rintro (h | h)
          · exact absurd h hc.1
          · exact absurd h hc.2
  · rw [if_neg hc]
    obtain ⟨os, h1, h2⟩ := C78_by_stops hg sp pts stops h2 hn
    exact ⟨os, h1, h2.toValid, fun _ => h2⟩

theorem shape_dists (rows : List Row) (st : Store) (s : Nat) (pts : List Pos) (dists : List Int)
    (h : ShapeIs rows st s pts dists) : dists = [] ∨ dists.length = pts.length := by
  obtain ⟨j, x, -, hx, rfl, rfl⟩ := h
  obtain ⟨so, -, -, h1, h2⟩ := ((C77_shapes rows).2.2 x (List.mem_of_getElem? hx)).ex
  rcases h2 with h2 | ⟨h2, -⟩
  · right; rw [h1, h2]; simp
  · exact .inl h2

theorem getShape_slice {st : Store} {trip s i : Nat} {pts : List Pos} {os : List Nat}
    (h1 : (st.trips[trip]?).join = some (Source.timetable, s, i)) (h2 : st.data[s]? = some pts) (h3 : st.offsets[i]? = some os)
    {m : Nat} (hv : Valid pts.length m os) (fr to : Nat) (hf : fr < to) (ht : to ≤ m) :
    ∃ a b, os[fr]? = some a ∧ os[to - 1]? = some b ∧ a ≤ b ∧ b < pts.length ∧
      getShape st trip fr to = some (some (slice pts a b, .timetable)) := by
  have hl := hv.len
  have ha : os[fr]? = some os[fr] := List.getElem?_eq_getElem (by omega)
  have hb : os[to - 1]? = some os[to - 1] := List.getElem?_eq_getElem (by omega)
  have hab : os[fr] ≤ os[to - 1] := by
    by_cases he : fr = to - 1
    · simp only [he]; omega
    · exact List.pairwise_iff_getElem.1 hv.mono fr (to - 1) (by omega) (by omega) (by omega)
  have hbn : os[to - 1] < pts.length := hv.lt _ (List.getElem_mem _)
  refine ⟨_, _, ha, hb, hab, hbn, ?_⟩
  unfold getShape getTripShape
  rw [h1]
  dsimp only [shapeAt]
  rw [h2]
  dsimp only [Option.getD_some]
  rw [if_neg (by intro he; rw [List.isEmpty_iff] at he; rw [he] at hbn; simp at hbn), h3]
  dsimp only
  rw [ha, if_neg (by omega), hb]
  dsimp only
  unfold subspanTo subspan
  rw [if_pos (by omega), if_pos (by omega)]
  rfl

/-- Specification: the distances given for a trip are next to its stops, or absent. -/
def TripOk (t : Trip) : Prop := t.dist = [] ∨ t.dist.length = t.stops.length

/-- C79: after loading a feed, for every trip with a shape that has at least as many points as the trip
has stops, there are points of the shape for its stops, in driving order (different points, from the
first to the last, if there are no distances), so that the shape of any range of stops is the part of
the shape between the points of its first and its last stop. The points are those computed for a trip
with the same shape and stops. -/
theorem C79_part_of_shape {g : Geo} (hg : g.Ok) (sp : Nat → Pos) (rows : List Row) (trips : List Trip) (routes : List Route)
    (st st' : Store) (h : loadFeed g sp rows trips routes st = some st') (hdist : ∀ t ∈ trips, TripOk t)
    (k : Nat) (t : Trip) (hk : trips[k]? = some t) (s : Nat) (hs : t.shape = some s) (pts : List Pos) (dists : List Int)
    (hsh : ShapeIs rows st s pts dists) (h2 : 2 ≤ t.stops.length) (hn : t.stops.length ≤ pts.length) :
    ∃ os, Valid pts.length t.stops.length os ∧
      (∃ t' ∈ trips, t'.shape = t.shape ∧ t'.stops = t.stops ∧ offsetsFor g sp pts dists t.stops t'.dist = some os ∧
        (dists = [] ∨ t'.dist = [] → Strict pts.length t.stops.length os)) ∧
      ∀ fr to, fr < to → to ≤ t.stops.length → ∃ a b, os[fr]? = some a ∧ os[to - 1]? = some b ∧ a ≤ b ∧ b < pts.length ∧
        getShape st' (st.trips.length + k) fr to = some (some (slice pts a b, .timetable)) := by
  obtain ⟨tasks, hL⟩ := loaded_of h
  obtain ⟨ts, y, z, t', -, -, -, e1, e2, e3, e4, e5, e6, e7⟩ := trip_entry hL k t hk s hs pts dists hsh
  have hd := shape_dists rows st s pts dists hsh
  have hdt := hdist t' e1
  obtain ⟨os, f1, f2, f3⟩ := offsetsFor_valid hg sp pts dists t'.stops t'.dist hd hdt (by rw [e3]; exact h2) (by rw [e3]; exact hn)
  have hzo : z.offsets = os := by
    have := (processTask_frame e4).2.2
    rw [show (freshTask t').stops = t'.stops from rfl, show (freshTask t').dist = t'.dist from rfl, f1] at this
    exact (Option.some.inj this).symm
  rw [e3] at f1 f2 f3
  refine ⟨os, f2, ⟨t', e1, e2, e3, f1, f3⟩, ?_⟩
  have hne : z.offsets ≠ [] := by
    intro he; rw [hzo] at he; have := f2.len; rw [he] at this; simp at this; omega
  rcases e5.2 with ⟨h3, -⟩ | ⟨-, i, h3, -, h4⟩
  · exact absurd h3 hne
  · rw [h3] at e7
    rw [hzo] at h4
    exact fun fr to hf ht => getShape_slice e7 e6 h4 f2 fr to hf ht

/-- C79 (no shape): trips without a shape, or with fewer points than stops, have none. -/
theorem C79_no_shape {g : Geo} (sp : Nat → Pos) (rows : List Row) (trips : List Trip) (routes : List Route)
    (st st' : Store) (h : loadFeed g sp rows trips routes st = some st')
    (k : Nat) (t : Trip) (hk : trips[k]? = some t)
    (hno : t.shape = none ∨ ∃ s pts dists, t.shape = some s ∧ ShapeIs rows st s pts dists ∧ pts.length < t.stops.length)
    (fr to : Nat) : getShape st' (st.trips.length + k) fr to = some none := by
  obtain ⟨tasks, hL⟩ := loaded_of h
  have key : (st'.trips[st.trips.length + k]?).join = none := by
    rcases hno with hno | ⟨s, pts, dists, hs, hsh, hlt⟩
    · rw [hL.tripsEq, List.getElem?_append_right (by omega), Nat.add_sub_cancel_left, List.getElem?_map, hk]
      show tripEntry _ _ _ = _
      unfold tripEntry
      rw [hno]
    · obtain ⟨ts, y, z, t', -, -, -, e1, e2, e3, e4, e5, e6, e7⟩ := trip_entry hL k t hk s hs pts dists hsh
      have hz : z.offsets = [] := by
        have := (processTask_frame e4).2.2
        unfold offsetsFor at this
        rw [if_pos (by rw [show (freshTask t').stops = t'.stops from rfl, e3]; exact hlt)] at this
        exact (Option.some.inj this).symm
      have hzi : z.idx = none := (processTask_frame e4).2.1
      rcases e5.2 with ⟨-, h3⟩ | ⟨h3, -⟩
      · rw [e7, h3, hzi]; rfl
      · exact absurd hz h3
  unfold getShape getTripShape
  rw [key]

/-! ### Parts fit together -/

theorem slice_append (pts : List Pos) (a b c : Nat) (hab : a ≤ b) (hbc : b ≤ c) (hc : c < pts.length) :
    slice pts a c = slice pts a b ++ (slice pts b c).tail ∧ (slice pts a b).getLast? = (slice pts b c).head? := by
  have hb : b < pts.length := by omega
  have h1 : slice pts b c = pts[b] :: (pts.drop (b + 1)).take (c - b) := by
    unfold slice
    rw [List.drop_eq_getElem_cons hb, show c + 1 - b = c - b + 1 by omega, List.take_succ_cons]
  have h2 : slice pts a b = (pts.drop a).take (b - a) ++ [pts[b]] := by
    unfold slice
    rw [show b + 1 - a = (b - a) + 1 by omega, List.take_add_one, List.getElem?_drop, show a + (b - a) = b by omega,
      List.getElem?_eq_getElem hb]
    rfl
  constructor
  · rw [h1, List.tail_cons]
    unfold slice
    rw [show c + 1 - a = (b + 1 - a) + (c - b) by omega, List.take_add, List.drop_drop, show a + (b + 1 - a) = b + 1 by omega]
  · rw [h1, h2]; simp

/-- C79 (legs fit together): the shape of a range of stops is the shape of its first part followed by the
shape of the second part, which starts where the first ends; no part is empty; the shape of the whole
trip without distances is the whole shape. -/
theorem C79_legs_fit {g : Geo} (hg : g.Ok) (sp : Nat → Pos) (rows : List Row) (trips : List Trip) (routes : List Route)
    (st st' : Store) (h : loadFeed g sp rows trips routes st = some st') (hdist : ∀ t ∈ trips, TripOk t)
    (k : Nat) (t : Trip) (hk : trips[k]? = some t) (s : Nat) (hs : t.shape = some s) (pts : List Pos) (dists : List Int)
    (hsh : ShapeIs rows st s pts dists) (h2 : 2 ≤ t.stops.length) (hn : t.stops.length ≤ pts.length) :
    (∀ fr mid to, fr ≤ mid → mid < to → to ≤ t.stops.length → ∃ p q r,
      getShape st' (st.trips.length + k) fr to = some (some (r, .timetable)) ∧
      getShape st' (st.trips.length + k) fr (mid + 1) = some (some (p, .timetable)) ∧
      getShape st' (st.trips.length + k) mid to = some (some (q, .timetable)) ∧
      r = p ++ q.tail ∧ p.getLast? = q.head? ∧ p ≠ [] ∧ q ≠ []) ∧
    (dists = [] → getShape st' (st.trips.length + k) 0 t.stops.length = some (some (pts, .timetable))) := by
  obtain ⟨os, hv, ⟨t', -, -, -, -, hst⟩, hget⟩ := C79_part_of_shape hg sp rows trips routes st st' h hdist k t hk s hs pts dists hsh h2 hn
  constructor
  · intro fr mid to h3 h4 h5
    obtain ⟨a, c, a1, a2, a3, a4, a5⟩ := hget fr to (by omega) h5
    obtain ⟨a', b, b1, b2, b3, b4, b5⟩ := hget fr (mid + 1) (by omega) (by omega)
    obtain ⟨b', c', c1, c2, c3, c4, c5⟩ := hget mid to h4 h5
    rw [a1] at b1; cases b1
    rw [a2] at c2; cases c2
    rw [Nat.add_sub_cancel] at b2
    rw [b2] at c1; cases c1
    obtain ⟨d1, d2⟩ := slice_append pts a b c b3 c3 a4
    refine ⟨_, _, _, a5, b5, c5, d1, d2, ?_, ?_⟩
    · intro he
      have := congrArg List.length he
      simp only [slice, List.length_take, List.length_drop, List.length_nil] at this
      omega
    · intro he
      have := congrArg List.length he
      simp only [slice, List.length_take, List.length_drop, List.length_nil] at this
      omega
  · intro hd
    obtain ⟨a, b, a1, a2, -, -, a5⟩ := hget 0 t.stops.length (by omega) (Nat.le_refl _)
    have hS := hst (.inl hd)
    rw [hS.first] at a1; cases a1
    rw [hS.last] at a2; cases a2
    rw [a5]
    congr 3
    unfold slice
    rw [List.drop_zero, List.take_of_length_le (by omega)]

/-- C79 (own distances): if all trips with the same shape and stops have the same distances, the points
are those computed from the trip's own distances. Missing in full generality: see
`C79_shared_distances`. -/
theorem C79_own_distances_partial {g : Geo} (hg : g.Ok) (sp : Nat → Pos) (rows : List Row) (trips : List Trip)
    (routes : List Route) (st st' : Store) (h : loadFeed g sp rows trips routes st = some st') (hdist : ∀ t ∈ trips, TripOk t)
    (k : Nat) (t : Trip) (hk : trips[k]? = some t) (s : Nat) (hs : t.shape = some s) (pts : List Pos) (dists : List Int)
    (hsh : ShapeIs rows st s pts dists) (h2 : 2 ≤ t.stops.length) (hn : t.stops.length ≤ pts.length)
    (hsame : ∀ t' ∈ trips, t'.shape = t.shape → t'.stops = t.stops → t'.dist = t.dist) :
    ∃ os, offsetsFor g sp pts dists t.stops t.dist = some os ∧
      ∀ fr to, fr < to → to ≤ t.stops.length → ∃ a b, os[fr]? = some a ∧ os[to - 1]? = some b ∧
        getShape st' (st.trips.length + k) fr to = some (some (slice pts a b, .timetable)) := by
  obtain ⟨os, -, ⟨t', e1, e2, e3, e4, -⟩, hget⟩ :=
    C79_part_of_shape hg sp rows trips routes st st' h hdist k t hk s hs pts dists hsh h2 hn
  rw [hsame t' e1 e2 e3] at e4
  refine ⟨os, e4, ?_⟩
  intro fr to hf ht
  obtain ⟨a, b, h1, h2, -, -, h3⟩ := hget fr to hf ht
  exact ⟨a, b, h1, h2, h3⟩

end Nigiri.Shapes
