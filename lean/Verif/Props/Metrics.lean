import Verif.Spec.Metrics
/-!
# C145: metrics of the feeds
-/

namespace Nigiri.Metrics

/-- What a feed shows after the day sets `bs` were added. -/
def DaysInv (f0 : Feed) (bs : List Bitfield) (f : Feed) : Prop :=
  f.first = (bs.map fun b => (dayMetric b).1).foldl min f0.first ∧
  f.last = (bs.map fun b => (dayMetric b).2.1).foldl max f0.last ∧
  f.transportDays = f0.transportDays + (bs.map fun b => (dayMetric b).2.2).sum

theorem fold_metric (l : List Nat) (a b c : Nat) :
    l.foldl (fun m d => (min m.1 d, max m.2.1 d, m.2.2 + 1)) (a, b, c) = (l.foldl min a, l.foldl max b, c + l.length) := by
  induction l generalizing a b c with
  | nil => rfl
  | cons x l ih => rw [List.foldl_cons, ih]; simp only [List.foldl_cons, List.length_cons]; congr 2; omega

theorem foldl_min_le (l : List Nat) (a : Nat) : l.foldl min a ≤ a ∧ (∀ x ∈ l, l.foldl min a ≤ x) ∧
    (l.foldl min a = a ∨ l.foldl min a ∈ l) := by
  induction l generalizing a with
  | nil => exact ⟨Nat.le_refl _, by simp, Or.inl rfl⟩
  | cons x l ih =>
    obtain ⟨h1, h2, h3⟩ := ih (min a x)
    rw [List.foldl_cons]
    refine ⟨by omega, ?_, ?_⟩
    · intro y hy
      rcases List.mem_cons.1 hy with rfl | hy
      · omega
      · exact h2 y hy
    · rcases h3 with h3 | h3
      · rcases Nat.le_total a x with h | h
        · left; rw [h3]; omega
        · right; rw [h3, Nat.min_eq_right h]; exact List.mem_cons_self ..
      · exact Or.inr (List.mem_cons_of_mem _ h3)

theorem foldl_max_le (l : List Nat) (a : Nat) : a ≤ l.foldl max a ∧ (∀ x ∈ l, x ≤ l.foldl max a) ∧
    (l.foldl max a = a ∨ l.foldl max a ∈ l) := by
  induction l generalizing a with
  | nil => exact ⟨Nat.le_refl _, by simp, Or.inl rfl⟩
  | cons x l ih =>
    obtain ⟨h1, h2, h3⟩ := ih (max a x)
    rw [List.foldl_cons]
    refine ⟨by omega, ?_, ?_⟩
    · intro y hy
      rcases List.mem_cons.1 hy with rfl | hy
      · omega
      · exact h2 y hy
    · rcases h3 with h3 | h3
      · rcases Nat.le_total a x with h | h
        · right; rw [h3, Nat.max_eq_right h]; exact List.mem_cons_self ..
        · left; rw [h3]; omega
      · exact Or.inr (List.mem_cons_of_mem _ h3)

theorem dayMetric_eq (b : Bitfield) : dayMetric b =
    (((List.range 512).filter b).foldl min 65535, ((List.range 512).filter b).foldl max 0, ((List.range 512).filter b).length) := by
  unfold dayMetric
  rw [fold_metric]
  simp [kMaxDays]

theorem tripDays_iff (x : Input) (t d : Nat) : tripDays x t d = true ↔ ∃ tr ∈ x.ranges t, x.days tr d = true := by
  unfold tripDays
  have key : ∀ (l : List Nat) (b : Bitfield), (l.foldl (fun b t d => b d || x.days t d) b) d = true ↔
      b d = true ∨ ∃ tr ∈ l, x.days tr d = true := by
    intro l
    induction l with
    | nil => intro b; simp
    | cons a l ih =>
      intro b
      rw [List.foldl_cons, ih]
      simp only [Bool.or_eq_true, List.mem_cons, exists_eq_or_imp, or_assoc]
  rw [key]
  simp [Bitfield.empty]

/-- The day sets of feed `src` in the order in which they are added. -/
def tripSets (x : Input) (src : Nat) (l : List (Nat × Nat)) : List Bitfield :=
  (l.filter fun e => decide (e.1 = src)).map fun e => tripDays x e.2

def flexSets (x : Input) (src : Nat) (l : List (Nat × Bitfield)) : List Bitfield :=
  l.flatMap fun e => ((x.tripIds e.1).filter fun s => decide (s = src)).map fun _ => e.2

theorem inv_add {f0 f : Feed} {bs : List Bitfield} (h : DaysInv f0 bs f) (b : Bitfield) (f' : Feed)
    (e1 : f'.first = f.first) (e2 : f'.last = f.last) (e3 : f'.transportDays = f.transportDays) :
    DaysInv f0 (bs ++ [b]) (addDays (dayMetric b) f') := by
  obtain ⟨h1, h2, h3⟩ := h
  refine ⟨?_, ?_, ?_⟩
  · show min f'.first _ = _
    rw [e1, h1]; simp [List.foldl_append]
  · show max f'.last _ = _
    rw [e2, h2]; simp [List.foldl_append]
  · show f'.transportDays + _ = _
    rw [e3, h3]; simp; omega

theorem tripLoop_inv (x : Input) (src : Nat) (l : List (Nat × Nat)) : ∀ (f0 : Feed) (bs : List Bitfield) (m : Nat → Feed),
    DaysInv f0 bs (m src) → DaysInv f0 (bs ++ tripSets x src l) (tripLoop x m l src) ∧
      (tripLoop x m l src).trips = (m src).trips + (l.filter fun e => decide (e.1 = src)).length ∧
      (tripLoop x m l src).locations = (m src).locations := by
  induction l with
  | nil => intro f0 bs m h; simpa [tripSets, tripLoop] using h
  | cons e l ih =>
    intro f0 bs m h
    unfold tripLoop
    rw [List.foldl_cons]
    by_cases he : e.1 = src
    · have hu : (upd m e.1 fun f => addDays (dayMetric (tripDays x e.2)) { f with trips := f.trips + 1 }) src =
          addDays (dayMetric (tripDays x e.2)) { m src with trips := (m src).trips + 1 } := by
        unfold upd; rw [if_pos he.symm]
      obtain ⟨a1, a2, a3⟩ := ih f0 (bs ++ [tripDays x e.2]) (upd m e.1 fun f => addDays (dayMetric (tripDays x e.2)) { f with trips := f.trips + 1 }) (by
        rw [hu]; exact inv_add h _ _ rfl rfl rfl)
      unfold tripLoop at a1 a2 a3
      refine ⟨?_, ?_, ?_⟩
      · have : bs ++ tripSets x src (e :: l) = bs ++ [tripDays x e.2] ++ tripSets x src l := by
          unfold tripSets
          rw [List.filter_cons_of_pos (by simpa using he)]; simp
        rw [this]; exact a1
      · rw [a2, hu, List.filter_cons_of_pos (by simpa using he), List.length_cons]
        show (m src).trips + 1 + _ = _
        omega
      · rw [a3, hu]; rfl
    · have hu : (upd m e.1 fun f => addDays (dayMetric (tripDays x e.2)) { f with trips := f.trips + 1 }) src = m src := by
        unfold upd; rw [if_neg (fun hc => he hc.symm)]
      obtain ⟨a1, a2, a3⟩ := ih f0 bs (upd m e.1 fun f => addDays (dayMetric (tripDays x e.2)) { f with trips := f.trips + 1 }) (by rw [hu]; exact h)
      unfold tripLoop at a1 a2 a3
      refine ⟨?_, ?_, ?_⟩
      · have : tripSets x src (e :: l) = tripSets x src l := by
          unfold tripSets
          rw [List.filter_cons_of_neg (by simpa using he)]
        rw [this]; exact a1
      · rw [a2, hu, List.filter_cons_of_neg (by simpa using he)]
      · rw [a3, hu]

theorem flexIds_inv (b : Bitfield) (src : Nat) (ids : List Nat) : ∀ (f0 : Feed) (bs : List Bitfield) (m : Nat → Feed),
    DaysInv f0 bs (m src) →
      DaysInv f0 (bs ++ (ids.filter fun s => decide (s = src)).map fun _ => b)
        (ids.foldl (fun m src => upd m src (addDays (dayMetric b))) m src) ∧
      (ids.foldl (fun m src => upd m src (addDays (dayMetric b))) m src).trips = (m src).trips ∧
      (ids.foldl (fun m src => upd m src (addDays (dayMetric b))) m src).locations = (m src).locations := by
  induction ids with
  | nil => intro f0 bs m h; simpa using h
  | cons i ids ih =>
    intro f0 bs m h
    rw [List.foldl_cons]
    by_cases he : i = src
    · have hu : upd m i (addDays (dayMetric b)) src = addDays (dayMetric b) (m src) := by
        unfold upd; rw [if_pos he.symm]
      obtain ⟨a1, a2, a3⟩ := ih f0 (bs ++ [b]) (upd m i (addDays (dayMetric b))) (by
        rw [hu]; exact inv_add h _ _ rfl rfl rfl)
      refine ⟨?_, ?_, ?_⟩
      · rw [List.filter_cons_of_pos (by simpa using he), List.map_cons]
        simpa using a1
      · rw [a2, hu]; rfl
      · rw [a3, hu]; rfl
    · have hu : upd m i (addDays (dayMetric b)) src = m src := by
        unfold upd; rw [if_neg (fun hc => he hc.symm)]
      obtain ⟨a1, a2, a3⟩ := ih f0 bs (upd m i (addDays (dayMetric b))) (by rw [hu]; exact h)
      refine ⟨?_, ?_, ?_⟩
      · rw [List.filter_cons_of_neg (by simpa using he)]; exact a1
      · rw [a2, hu]
      · rw [a3, hu]

theorem flexLoop_inv (x : Input) (src : Nat) (l : List (Nat × Bitfield)) : ∀ (f0 : Feed) (bs : List Bitfield) (m : Nat → Feed),
    DaysInv f0 bs (m src) → DaysInv f0 (bs ++ flexSets x src l) (flexLoop x m l src) ∧
      (flexLoop x m l src).trips = (m src).trips ∧ (flexLoop x m l src).locations = (m src).locations := by
  induction l with
  | nil => intro f0 bs m h; simpa [flexSets, flexLoop] using h
  | cons e l ih =>
    intro f0 bs m h
    obtain ⟨b1, b2, b3⟩ := flexIds_inv e.2 src (x.tripIds e.1) f0 bs m h
    obtain ⟨a1, a2, a3⟩ := ih f0 _ _ b1
    unfold flexLoop at a1 a2 a3 ⊢
    rw [List.foldl_cons]
    refine ⟨?_, a2.trans b2, a3.trans b3⟩
    unfold flexSets
    rw [List.flatMap_cons, ← List.append_assoc]
    exact a1

theorem locLoop_spec (src : Nat) (l : List (Option Nat)) : ∀ m : Nat → Feed,
    locLoop m l src = { m src with locations := (m src).locations + (l.filter fun s => decide (s = some src)).length } := by
  induction l with
  | nil => intro m; rfl
  | cons s l ih =>
    intro m
    unfold locLoop
    rw [List.foldl_cons]
    have ih' := ih
    unfold locLoop at ih'
    rw [ih']
    cases s with
    | none => simp
    | some s =>
      by_cases hs : s = src
      · subst hs
        simp only [upd, if_true, decide_true, List.filter_cons_of_pos, List.length_cons]
        congr 1
        omega
      · have hs' : ¬ src = s := fun hc => hs hc.symm
        simp only [upd]
        rw [if_neg hs', List.filter_cons_of_neg (by simpa using hs)]

/-- The day sets of a feed. -/
def sets (x : Input) (src : Nat) : List Bitfield := tripSets x src x.ids ++ flexSets x src x.flex

theorem metrics_inv (x : Input) (src : Nat) : DaysInv {} (sets x src) (getMetrics x src) ∧
    (getMetrics x src).trips = (x.ids.filter fun e => decide (e.1 = src)).length ∧
    (getMetrics x src).locations = (x.locSrc.filter fun s => decide (s = some src)).length := by
  unfold getMetrics
  have hl := locLoop_spec src x.locSrc (fun _ => {})
  have h0 : DaysInv {} [] (locLoop (fun _ => {}) x.locSrc src) := by
    rw [hl]; exact ⟨rfl, rfl, rfl⟩
  obtain ⟨a1, a2, a3⟩ := tripLoop_inv x src x.ids {} [] _ h0
  obtain ⟨b1, b2, b3⟩ := flexLoop_inv x src x.flex {} _ _ a1
  refine ⟨by simpa [sets] using b1, ?_, ?_⟩
  · rw [b2, a2, hl]; simp
  · rw [b3, a3, hl]; simp

theorem mem_sets (x : Input) (src d : Nat) : (d < 512 ∧ ∃ b ∈ sets x src, b d = true) ↔ FeedDay x src d := by
  unfold FeedDay RunsOn sets tripSets flexSets
  constructor
  · rintro ⟨hd, b, hb, hbd⟩
    rcases List.mem_append.1 hb with hb | hb
    · obtain ⟨e, he, rfl⟩ := List.mem_map.1 hb
      obtain ⟨h1, h2⟩ := List.mem_filter.1 he
      exact Or.inl ⟨e, h1, of_decide_eq_true h2, hd, (tripDays_iff x e.2 d).1 hbd⟩
    · obtain ⟨e, he, hb⟩ := List.mem_flatMap.1 hb
      obtain ⟨s, hs, rfl⟩ := List.mem_map.1 hb
      obtain ⟨h1, h2⟩ := List.mem_filter.1 hs
      have h2 : s = src := of_decide_eq_true h2
      subst h2
      exact Or.inr ⟨e, he, h1, hd, hbd⟩
  · rintro (⟨e, he, h1, hd, h2⟩ | ⟨e, he, h1, hd, h2⟩)
    · exact ⟨hd, _, List.mem_append_left _ (List.mem_map.2 ⟨e, List.mem_filter.2 ⟨he, by simpa using h1⟩, rfl⟩),
        (tripDays_iff x e.2 d).2 h2⟩
    · exact ⟨hd, e.2, List.mem_append_right _ (List.mem_flatMap.2 ⟨e, he, List.mem_map.2
        ⟨src, List.mem_filter.2 ⟨h1, by simp⟩, rfl⟩⟩), h2⟩

/-- **C145** (first day).  `firstDay` of a feed is the first day on which one of its trips runs (65535 if
there is none). -/
theorem C145_first (x : Input) (src : Nat) :
    (∀ d, FeedDay x src d → (getMetrics x src).first ≤ d) ∧
    (FeedDay x src (getMetrics x src).first ∨ ((getMetrics x src).first = 65535 ∧ ∀ d, ¬ FeedDay x src d)) := by
  have h1 := (metrics_inv x src).1.1
  obtain ⟨c1, c2, c3⟩ := foldl_min_le ((sets x src).map fun b => (dayMetric b).1) 65535
  rw [show (({} : Feed).first) = 65535 from rfl] at h1
  rw [← h1] at c1 c2 c3
  have hle : ∀ d, FeedDay x src d → (getMetrics x src).first ≤ d := by
    intro d hd
    obtain ⟨hd5, b, hb, hbd⟩ := (mem_sets x src d).2 hd
    have := c2 _ (List.mem_map.2 ⟨b, hb, rfl⟩)
    rw [dayMetric_eq] at this
    have h2 := (foldl_min_le ((List.range 512).filter b) 65535).2.1 d (List.mem_filter.2 ⟨List.mem_range.2 hd5, hbd⟩)
    simp only at this
    omega
  refine ⟨hle, ?_⟩
  by_cases h5 : (getMetrics x src).first = 65535
  · refine Or.inr ⟨h5, fun d hd => ?_⟩
    have := hle d hd
    have hd5 := ((mem_sets x src d).2 hd).1
    omega
  · left
    obtain ⟨b, hb, he⟩ := List.mem_map.1 (c3.resolve_left h5)
    rw [dayMetric_eq] at he
    simp only at he
    rw [← mem_sets]
    rcases (foldl_min_le ((List.range 512).filter b) 65535).2.2 with h2 | h2
    · rw [h2] at he; exact absurd he.symm h5
    · rw [he] at h2
      obtain ⟨h3, h4⟩ := List.mem_filter.1 h2
      exact ⟨List.mem_range.1 h3, b, hb, h4⟩

/-- **C145** (last day). -/
theorem C145_last (x : Input) (src : Nat) :
    (∀ d, FeedDay x src d → d ≤ (getMetrics x src).last) ∧
    (FeedDay x src (getMetrics x src).last ∨ ((getMetrics x src).last = 0 ∧ ∀ d, FeedDay x src d → d = 0)) := by
  have h1 := (metrics_inv x src).1.2.1
  obtain ⟨c1, c2, c3⟩ := foldl_max_le ((sets x src).map fun b => (dayMetric b).2.1) 0
  rw [show (({} : Feed).last) = 0 from rfl] at h1
  rw [← h1] at c1 c2 c3
  have hle : ∀ d, FeedDay x src d → d ≤ (getMetrics x src).last := by
    intro d hd
    obtain ⟨hd5, b, hb, hbd⟩ := (mem_sets x src d).2 hd
    have := c2 _ (List.mem_map.2 ⟨b, hb, rfl⟩)
    rw [dayMetric_eq] at this
    have h2 := (foldl_max_le ((List.range 512).filter b) 0).2.1 d (List.mem_filter.2 ⟨List.mem_range.2 hd5, hbd⟩)
    simp only at this
    omega
  refine ⟨hle, ?_⟩
  by_cases h5 : (getMetrics x src).last = 0
  · refine Or.inr ⟨h5, fun d hd => ?_⟩
    have := hle d hd
    omega
  · left
    obtain ⟨b, hb, he⟩ := List.mem_map.1 (c3.resolve_left h5)
    rw [dayMetric_eq] at he
    simp only at he
    rw [← mem_sets]
    rcases (foldl_max_le ((List.range 512).filter b) 0).2.2 with h2 | h2
    · rw [h2] at he; exact absurd he.symm h5
    · rw [he] at h2
      obtain ⟨h3, h4⟩ := List.mem_filter.1 h2
      exact ⟨List.mem_range.1 h3, b, hb, h4⟩

/-- **C145** (numbers).  The number of locations and of trips of a feed, and the number of its transport
days: the sum over its trips of the days on which the trip runs, and likewise of the flex trips (once for
each of their ids in the feed). -/
theorem C145_counts (x : Input) (src : Nat) (trip : Nat → Nat) (flexDays : Bitfield → Nat)
    (ht : ∀ t, NumDays (RunsOn x t) (trip t)) (hf : ∀ b : Bitfield, NumDays (fun d => b d = true) (flexDays b)) :
    (getMetrics x src).locations = (x.locSrc.filter fun s => decide (s = some src)).length ∧
    (getMetrics x src).trips = (x.ids.filter fun e => decide (e.1 = src)).length ∧
    (getMetrics x src).transportDays =
      ((x.ids.filter fun e => decide (e.1 = src)).map fun e => trip e.2).sum +
      (x.flex.map fun e => ((x.tripIds e.1).filter fun s => decide (s = src)).length * flexDays e.2).sum := by
  obtain ⟨h1, h2, h3⟩ := metrics_inv x src
  refine ⟨h3, h2, ?_⟩
  rw [h1.2.2]
  have hb : ∀ b : Bitfield, (dayMetric b).2.2 = flexDays b := by
    intro b
    have h5 := hf b b (fun _ _ => Iff.rfl)
    rw [h5, dayMetric_eq]
  have htrip : ∀ t, (dayMetric (tripDays x t)).2.2 = trip t := by
    intro t
    have h5 := ht t (tripDays x t) (fun d hd => by
      rw [tripDays_iff]
      exact ⟨fun h => ⟨hd, h⟩, fun h => h.2⟩)
    rw [h5, dayMetric_eq]
  show 0 + _ = _
  unfold sets
  rw [List.map_append, List.sum_append]
  have e1 : ((tripSets x src x.ids).map fun b => (dayMetric b).2.2) =
      (x.ids.filter fun e => decide (e.1 = src)).map fun e => trip e.2 := by
    unfold tripSets
    rw [List.map_map]
    simp only [Function.comp_def, htrip]
  have e2 : ((flexSets x src x.flex).map fun b => (dayMetric b).2.2).sum =
      (x.flex.map fun e => ((x.tripIds e.1).filter fun s => decide (s = src)).length * flexDays e.2).sum := by
    unfold flexSets
    induction x.flex with
    | nil => rfl
    | cons e l ih =>
      rw [List.flatMap_cons, List.map_append, List.sum_append, ih, List.map_cons, List.sum_cons]
      congr 1
      generalize ((x.tripIds e.1).filter fun s => decide (s = src)) = ids
      induction ids with
      | nil => simp
      | cons i ids ih =>
        simp only [List.map_cons, List.sum_cons, List.length_cons] at ih ⊢
        rw [ih, hb, Nat.add_mul, Nat.one_mul, Nat.add_comm]
  rw [e1, e2]
  omega

/-! ## Examples -/

/-- Two feeds; trip 0 of feed 0 runs with two transports on the days 5 and 6, trip 1 of feed 1 on no day, a
flex trip of feed 0 on day 9. -/
def ex : Input :=
  { locSrc := [none, some 0, some 1, some 0], ids := [(0, 0), (1, 1)]
    ranges := fun t => if t = 0 then [0, 1] else [2]
    days := fun t d => if t = 0 then d == 5 else if t = 1 then d == 5 || d == 6 else false
    flex := [(2, fun d => d == 9)], tripIds := fun t => if t = 2 then [0] else [] }

example : getMetrics ex 0 = ⟨5, 9, 2, 1, 3⟩ ∧ getMetrics ex 1 = ⟨65535, 0, 1, 1, 0⟩ := by decide +kernel
example : FeedDay ex 0 6 := Or.inl ⟨(0, 0), by decide, rfl, by decide, 1, by decide, by decide⟩
/-- The numbers of `C145_counts` exist. -/
theorem ex_num (P : Nat → Prop) [DecidablePred P] : NumDays P ((List.range 512).filter fun d => decide (P d)).length := by
  intro p hp
  have h : (List.range 512).filter (fun d => decide (P d)) = (List.range 512).filter p := by
    refine List.filter_congr fun d hd => ?_
    rw [Bool.eq_iff_iff, decide_eq_true_eq, hp d (List.mem_range.1 hd)]
  rw [h]

/-- A feed in which nothing runs on any day reports its first day after its last one. -/
theorem C145_no_days (x : Input) (src : Nat) (h : ∀ d, ¬ FeedDay x src d) :
    (getMetrics x src).first = 65535 ∧ (getMetrics x src).last = 0 := by
  refine ⟨((C145_first x src).2.resolve_left (h _)).1, ((C145_last x src).2.resolve_left (h _)).1⟩

end Nigiri.Metrics
