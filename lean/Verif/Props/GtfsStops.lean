import Verif.Model.GtfsStops
import Verif.Proofs.VdvHistory
/-!
# C116, C118: `stops.txt`, `transfers.txt` and the hierarchy of stops
-/
namespace Nigiri.GtfsStops
open Nigiri

/-! ## Specification -/

/-- The row is read: it is neither an entrance nor a generic node. -/
def Row.used (r : Row) : Bool := r.typ != 2 && r.typ != 3

/-- The row is about a transfer between two known stops (neither impossible nor stay seated). -/
def Transfer.general (t : Transfer) (keys : List Nat) : Bool :=
  t.typ % 256 != 3 && t.typ % 256 != 4 && keys.contains t.frm && keys.contains t.to

/-! ## The hierarchy -/

theorem readStops_snoc (rows : List Row) (r : Row) : readStops (rows ++ [r]) = readRow (readStops rows) r := by
  unfold readStops
  rw [List.foldl_append]
  rfl

theorem readRow_unused {s : Stops} {r : Row} (h : r.used = false) : readRow s r = s := by
  unfold readRow
  rw [if_pos]
  unfold Row.used at h
  rw [Bool.and_eq_false_iff] at h
  simpa using h

theorem not_skipped {r : Row} (h : r.used = true) : ¬ (r.typ = 2 ∨ r.typ = 3) := by
  unfold Row.used at h
  rw [Bool.and_eq_true] at h
  intro hc
  rcases hc with hc | hc <;> simp [hc] at h

theorem put_keys (s : Stops) (x : Nat) (f : Rec → Rec) : (put s x f).keys = s.keys := rfl

theorem put_info (s : Stops) (x y : Nat) (f : Rec → Rec) :
    (put s x f).info y = if y = x then f (s.info y) else s.info y := rfl

theorem getOrCreate_info (s : Stops) (x : Nat) : (getOrCreate s x).info = s.info := by
  unfold getOrCreate
  split <;> rfl

theorem getOrCreate_keys (s : Stops) (x y : Nat) : y ∈ (getOrCreate s x).keys ↔ y ∈ s.keys ∨ y = x := by
  unfold getOrCreate
  split
  · rename_i h
    exact ⟨Or.inl, fun h' => h'.elim id (fun e => e ▸ h)⟩
  · simp

theorem getOrCreate_nodup {s : Stops} (x : Nat) (h : s.keys.Nodup) : (getOrCreate s x).keys.Nodup := by
  unfold getOrCreate
  split
  · exact h
  · rename_i hx
    show (s.keys ++ [x]).Nodup
    rw [List.nodup_append]
    refine ⟨h, by simp, ?_⟩
    intro a ha b hb hab
    rw [List.mem_singleton] at hb
    exact hx (by rw [← hb, ← hab]; exact ha)

theorem noteName_keys (s : Stops) (r : Row) : (noteName s r).keys = s.keys := by
  unfold noteName
  split <;> rfl

theorem noteName_info (s : Stops) (r : Row) : (noteName s r).info = s.info := by
  unfold noteName
  split <;> rfl

/-- The keys after a row which is read. -/
theorem readRow_keys {s : Stops} {r : Row} (h : r.used = true) (x : Nat) :
    x ∈ (readRow s r).keys ↔ x ∈ s.keys ∨ r.id = x ∨ r.parent = some x := by
  unfold readRow
  rw [if_neg (not_skipped h), noteName_keys]
  unfold linkRow setName
  cases hp : r.parent with
  | none =>
    simp only [put_keys, getOrCreate_keys, reduceCtorEq, or_false, eq_comm]
  | some p =>
    simp only [link, put_keys, getOrCreate_keys, Option.some.injEq, or_assoc, eq_comm]

theorem readRow_nodup {s : Stops} (r : Row) (hs : s.keys.Nodup) : (readRow s r).keys.Nodup := by
  cases h : r.used with
  | false => rw [readRow_unused h]; exact hs
  | true =>
    unfold readRow
    rw [if_neg (not_skipped h), noteName_keys]
    unfold linkRow setName
    cases hp : r.parent with
    | none => exact getOrCreate_nodup _ hs
    | some p => exact getOrCreate_nodup p (s := put (getOrCreate s r.id) r.id _) (getOrCreate_nodup _ hs)

/-- The stops after a row which is read. -/
theorem readRow_info {s : Stops} {r : Row} (h : r.used = true) (x : Nat) :
    (readRow s r).info x =
      { s.info x with
        name := if x = r.id then r.name else (s.info x).name
        parent := if x = r.id then (if r.parent = none then (s.info x).parent else r.parent) else (s.info x).parent
        children := if r.parent = some x ∧ r.id ∉ (s.info x).children then (s.info x).children ++ [r.id]
          else (s.info x).children } := by
  unfold readRow
  rw [if_neg (not_skipped h), noteName_info]
  unfold linkRow setName
  cases hp : r.parent with
  | none =>
    simp only [put_info, getOrCreate_info, reduceCtorEq, false_and, if_false, if_true]
    by_cases hx : x = r.id
    · simp only [if_pos hx]
    · simp only [if_neg hx]
  | some p =>
    simp only [link, put_info, getOrCreate_info, reduceCtorEq, if_false, Option.some.injEq]
    by_cases hx : x = r.id
    · by_cases hxp : x = p
      · simp only [if_pos hx, if_pos hxp, hxp.symm, true_and]
        split <;> simp_all
      · simp only [if_pos hx, if_neg hxp, if_neg (fun hh : p = x ∧ r.id ∉ (s.info x).children => hxp hh.1.symm)]
    · by_cases hxp : x = p
      · simp only [if_neg hx, if_pos hxp, hxp.symm, true_and]
        split <;> simp_all
      · simp only [if_neg hx, if_neg hxp, if_neg (fun hh : p = x ∧ r.id ∉ (s.info x).children => hxp hh.1.symm)]

theorem readRow_names {s : Stops} {r : Row} (h : r.used = true) :
    (readRow s r).names = s.names ++ r.name.toList.map (fun n => (n, r.id)) := by
  unfold readRow
  rw [if_neg (not_skipped h)]
  have h3 : ∀ (t : Stops) (y : Nat), (getOrCreate t y).names = t.names := by
    intro t y
    unfold getOrCreate
    split <;> rfl
  have h2 : (linkRow (setName s r) r).names = s.names := by
    unfold linkRow setName
    cases r.parent with
    | none => exact h3 s r.id
    | some p => exact (h3 _ p).trans (h3 s r.id)
  unfold noteName
  cases r.name with
  | none => simp [h2]
  | some n => simp [h2]

/-- **C118 (stops).** The stops are those with a row (which is neither an entrance nor a generic node) and the parents named
there, each once. -/
theorem C118_known (rows : List Row) :
    (readStops rows).keys.Nodup ∧
    ∀ x, x ∈ (readStops rows).keys ↔ ∃ r ∈ rows, r.used = true ∧ (r.id = x ∨ r.parent = some x) := by
  induction rows using Vdv.snoc_ind with
  | h0 => exact ⟨List.nodup_nil, fun x => by simp [readStops]⟩
  | h rows r ih =>
    rw [readStops_snoc]
    refine ⟨readRow_nodup r ih.1, fun x => ?_⟩
    cases hu : r.used with
    | false =>
      rw [readRow_unused hu, ih.2 x]
      simp only [List.mem_append, List.mem_singleton]
      constructor
      · rintro ⟨y, hy, h⟩
        exact ⟨y, Or.inl hy, h⟩
      · rintro ⟨y, hy | hy, h⟩
        · exact ⟨y, hy, h⟩
        · rw [hy, hu] at h
          cases h.1
    | true =>
      rw [readRow_keys hu, ih.2 x]
      simp only [List.mem_append, List.mem_singleton]
      constructor
      · rintro (⟨y, hy, h⟩ | h)
        · exact ⟨y, Or.inl hy, h⟩
        · exact ⟨r, Or.inr rfl, hu, h⟩
      · rintro ⟨y, hy | hy, h⟩
        · exact Or.inl ⟨y, hy, h⟩
        · exact Or.inr (hy ▸ h.2)

/-- **C118 (children).** The children of a stop are the stops which name it as parent in some row, each once. -/
theorem C118_children (rows : List Row) (p : Nat) :
    ((readStops rows).info p).children.Nodup ∧
    ∀ c, c ∈ ((readStops rows).info p).children ↔ ∃ r ∈ rows, r.used = true ∧ r.id = c ∧ r.parent = some p := by
  induction rows using Vdv.snoc_ind with
  | h0 => exact ⟨List.nodup_nil, fun c => by simp [readStops]⟩
  | h rows r ih =>
    rw [readStops_snoc]
    cases hu : r.used with
    | false =>
      rw [readRow_unused hu]
      refine ⟨ih.1, fun c => ?_⟩
      rw [ih.2 c]
      simp only [List.mem_append, List.mem_singleton]
      constructor
      · rintro ⟨y, hy, h⟩
        exact ⟨y, Or.inl hy, h⟩
      · rintro ⟨y, hy | hy, h⟩
        · exact ⟨y, hy, h⟩
        · rw [hy, hu] at h
          cases h.1
    | true =>
      rw [readRow_info hu]
      simp only
      constructor
      · split
        · rename_i hc
          rw [List.nodup_append]
          refine ⟨ih.1, by simp, ?_⟩
          intro a ha b hb hab
          rw [List.mem_singleton] at hb
          exact hc.2 (by rw [← hb, ← hab]; exact ha)
        · exact ih.1
      · intro c
        have hm : (c ∈ if r.parent = some p ∧ r.id ∉ ((readStops rows).info p).children
              then ((readStops rows).info p).children ++ [r.id] else ((readStops rows).info p).children) ↔
            c ∈ ((readStops rows).info p).children ∨ (r.id = c ∧ r.parent = some p) := by
          split
          · rename_i hc
            simp only [List.mem_append, List.mem_singleton, hc.1, and_true, eq_comm]
          · rename_i hc
            constructor
            · exact Or.inl
            · rintro (h | ⟨h1, h2⟩)
              · exact h
              · exact Classical.byContradiction fun hn => hc ⟨h2, h1 ▸ hn⟩
        rw [hm, ih.2 c]
        simp only [List.mem_append, List.mem_singleton]
        constructor
        · rintro (⟨y, hy, h⟩ | h)
          · exact ⟨y, Or.inl hy, h⟩
          · exact ⟨r, Or.inr rfl, hu, h⟩
        · rintro ⟨y, hy | hy, h⟩
          · exact Or.inl ⟨y, hy, h⟩
          · exact Or.inr (hy ▸ h.2)

/-- **C118 (parent, name).** The parent of a stop is the one named in its last row which names a parent; its name is
the one of its last row. -/
theorem C118_parent (rows : List Row) (c : Nat) :
    ((readStops rows).info c).parent =
      ((rows.filter fun r => r.used && r.id == c && r.parent.isSome).getLast?).bind (fun r => r.parent) ∧
    ((readStops rows).info c).name = ((rows.filter fun r => r.used && r.id == c).getLast?).bind (fun r => r.name) := by
  induction rows using Vdv.snoc_ind with
  | h0 => exact ⟨rfl, rfl⟩
  | h rows r ih =>
    rw [readStops_snoc]
    cases hu : r.used with
    | false =>
      rw [readRow_unused hu, ih.1, ih.2]
      simp only [List.filter_append, List.filter_cons, hu, Bool.false_and, Bool.false_eq_true, if_false, List.filter_nil,
        List.append_nil, and_self]
    | true =>
      rw [readRow_info hu]
      simp only [List.filter_append, List.filter_cons, hu, Bool.true_and, List.filter_nil]
      by_cases hc : c = r.id
      · have hc' : (r.id == c) = true := by simp [hc]
        simp only [if_pos hc, hc', Bool.true_and, if_true]
        constructor
        · cases hp : r.parent with
          | none => simp [ih.1]
          | some p => simp [hp]
        · simp
      · have hc' : (r.id == c) = false := by
          rw [beq_eq_false_iff_ne]
          exact fun h => hc h.symm
        simp only [if_neg hc, hc', Bool.false_and, Bool.false_eq_true, if_false, List.append_nil]
        exact ih

/-- No stop has two rows. -/
def UniqueIds (rows : List Row) : Prop :=
  ∀ (i j : Nat) (a b : Row), rows[i]? = some a → rows[j]? = some b → a.used = true → b.used = true → a.id = b.id → i = j

theorem UniqueIds.mem {rows : List Row} (h : UniqueIds rows) {a b : Row} (ha : a ∈ rows) (hb : b ∈ rows)
    (hua : a.used = true) (hub : b.used = true) (hab : a.id = b.id) : a = b := by
  obtain ⟨i, hi⟩ := List.mem_iff_getElem?.mp ha
  obtain ⟨j, hj⟩ := List.mem_iff_getElem?.mp hb
  have := h i j a b hi hj hua hub hab
  rw [this, hj] at hi
  cases hi
  rfl

/-- **C118 (tree).** If no stop has two rows, children and parents are the two sides of the same relation. -/
theorem C118_tree_partial (rows : List Row) (h : UniqueIds rows) (c p : Nat) :
    c ∈ ((readStops rows).info p).children ↔ ((readStops rows).info c).parent = some p := by
  rw [(C118_children rows p).2 c, (C118_parent rows c).1]
  constructor
  · rintro ⟨r, hr, hu, hc, hp⟩
    have hm : r ∈ rows.filter (fun r => r.used && r.id == c && r.parent.isSome) := by
      rw [List.mem_filter]
      exact ⟨hr, by simp [hu, hc, hp]⟩
    cases hl : (rows.filter fun r => r.used && r.id == c && r.parent.isSome).getLast? with
    | none =>
      rw [List.getLast?_eq_none_iff] at hl
      rw [hl] at hm
      cases hm
    | some y =>
      have hy := List.mem_of_getLast? hl
      rw [List.mem_filter] at hy
      obtain ⟨hy1, hy2⟩ := hy
      simp only [Bool.and_eq_true, beq_iff_eq] at hy2
      have := h.mem hr hy1 hu hy2.1.1 (hc.trans hy2.1.2.symm)
      rw [← this]
      exact hp
  · intro hb
    cases hl : (rows.filter fun r => r.used && r.id == c && r.parent.isSome).getLast? with
    | none => rw [hl] at hb; cases hb
    | some y =>
      rw [hl] at hb
      have hy := List.mem_of_getLast? hl
      rw [List.mem_filter] at hy
      obtain ⟨hy1, hy2⟩ := hy
      simp only [Bool.and_eq_true, beq_iff_eq] at hy2
      exact ⟨y, hy1, hy2.1.1, hy2.1.2, hb⟩

/-- **C118 (limitation).** A second row of a stop with another parent leaves it a child of the first one, too. -/
theorem C118_repeated_counterexample :
    let s := readStops [⟨1, none, some 10, 0⟩, ⟨1, none, some 11, 0⟩]
    1 ∈ (s.info 10).children ∧ 1 ∈ (s.info 11).children ∧ (s.info 1).parent = some 11 := by decide

/-- **C118 (same name).** Without repeated rows, the stops of the same name are the other stops with the same, nonempty
name. -/
theorem C118_same_name (rows : List Row) (h : UniqueIds rows) (x y : Nat) :
    y ∈ sameName (readStops rows) x ↔
      x ≠ y ∧ ((readStops rows).info x).name ≠ none ∧ ((readStops rows).info y).name = ((readStops rows).info x).name := by
  have hnames : ∀ rows : List Row, ∀ n z, (n, z) ∈ (readStops rows).names ↔
      ∃ r ∈ rows, r.used = true ∧ r.id = z ∧ r.name = some n := by
    intro rows
    induction rows using Vdv.snoc_ind with
    | h0 => intro n z; simp [readStops]
    | h rows r ih =>
      intro n z
      rw [readStops_snoc]
      cases hu : r.used with
      | false =>
        rw [readRow_unused hu, ih n z]
        simp only [List.mem_append, List.mem_singleton]
        constructor
        · rintro ⟨y, hy, h⟩
          exact ⟨y, Or.inl hy, h⟩
        · rintro ⟨y, hy | hy, h⟩
          · exact ⟨y, hy, h⟩
          · rw [hy, hu] at h
            cases h.1
      | true =>
        rw [readRow_names hu, List.mem_append, ih n z]
        simp only [List.mem_append, List.mem_singleton, List.mem_map, Option.mem_toList, Prod.mk.injEq]
        constructor
        · rintro (⟨y, hy, h⟩ | ⟨m, h1, h2, h3⟩)
          · exact ⟨y, Or.inl hy, h⟩
          · exact ⟨r, Or.inr rfl, hu, h3, h2 ▸ h1⟩
        · rintro ⟨y, hy | hy, h⟩
          · exact Or.inl ⟨y, hy, h⟩
          · subst hy
            exact Or.inr ⟨n, h.2.2, rfl, h.2.1⟩
  have hname : ∀ n z, (n, z) ∈ (readStops rows).names ↔ ((readStops rows).info z).name = some n := by
    intro n z
    rw [hnames rows n z, (C118_parent rows z).2]
    constructor
    · rintro ⟨r, hr, hu, hc, hp⟩
      have hm : r ∈ rows.filter (fun r => r.used && r.id == z) := by
        rw [List.mem_filter]
        exact ⟨hr, by simp [hu, hc]⟩
      cases hl : (rows.filter fun r => r.used && r.id == z).getLast? with
      | none =>
        rw [List.getLast?_eq_none_iff] at hl
        rw [hl] at hm
        cases hm
      | some y =>
        have hy := List.mem_of_getLast? hl
        rw [List.mem_filter] at hy
        obtain ⟨hy1, hy2⟩ := hy
        simp only [Bool.and_eq_true, beq_iff_eq] at hy2
        have := h.mem hr hy1 hu hy2.1 (hc.trans hy2.2.symm)
        rw [← this]
        exact hp
    · intro hb
      cases hl : (rows.filter fun r => r.used && r.id == z).getLast? with
      | none => rw [hl] at hb; cases hb
      | some y =>
        rw [hl] at hb
        have hy := List.mem_of_getLast? hl
        rw [List.mem_filter] at hy
        obtain ⟨hy1, hy2⟩ := hy
        simp only [Bool.and_eq_true, beq_iff_eq] at hy2
        exact ⟨y, hy1, hy2.1, hy2.2, hb⟩
  unfold sameName
  cases hx : ((readStops rows).info x).name with
  | none => simp
  | some n =>
    simp only [List.mem_filterMap, ne_eq, reduceCtorEq, not_false_eq_true, true_and]
    constructor
    · rintro ⟨⟨m, z⟩, h1, h2⟩
      simp only at h2
      split at h2
      · rename_i hc
        cases h2
        exact ⟨fun he => hc.2 he.symm, by rw [← hc.1]; exact (hname m y).mp h1⟩
      · cases h2
    · rintro ⟨h1, h2⟩
      refine ⟨(n, y), (hname n y).mpr h2, ?_⟩
      simp only
      rw [if_pos ⟨trivial, fun he => h1 he.symm⟩]

/-! ## Transfers -/

theorem readTransfers_snoc (s : Stops) (ts : List Transfer) (t : Transfer) :
    readTransfers s (ts ++ [t]) = readTransfer (readTransfers s ts) t := by
  unfold readTransfers
  rw [List.foldl_append]
  rfl

theorem readTransfer_keys (s : Stops × (Nat → List Nat)) (t : Transfer) : (readTransfer s t).1.keys = s.1.keys := by
  unfold readTransfer
  repeat' split
  all_goals rfl

theorem readTransfers_keys (s : Stops) (ts : List Transfer) : (readTransfers s ts).1.keys = s.keys := by
  induction ts using Vdv.snoc_ind with
  | h0 => rfl
  | h ts t ih => rw [readTransfers_snoc, readTransfer_keys, ih]

theorem general_iff (t : Transfer) (keys : List Nat) :
    t.general keys = true ↔ t.kind ≠ 3 ∧ t.kind ≠ 4 ∧ t.frm ∈ keys ∧ t.to ∈ keys := by
  unfold Transfer.general Transfer.kind
  simp [and_assoc]

/-- The effect of a row on a stop. -/
theorem readTransfer_info (s : Stops × (Nat → List Nat)) (t : Transfer) (x : Nat) :
    (readTransfer s t).1.info x =
      if t.general s.1.keys = true ∧ t.frm = x then
        (if t.to = x then addTransferTime t.minutes (s.1.info x) else addFootpath t.to t.minutes (s.1.info x))
      else s.1.info x := by
  by_cases hg : t.general s.1.keys = true
  · obtain ⟨h3, h4, hf, ht⟩ := (general_iff t _).mp hg
    have he : readTransfer s t = if t.frm = t.to then (put s.1 t.frm (addTransferTime t.minutes), s.2)
        else (put s.1 t.frm (addFootpath t.to t.minutes), s.2) := by
      unfold readTransfer
      simp only [if_neg h3, if_neg h4, if_pos hf, if_pos ht]
    rw [he]
    by_cases hx : t.frm = x
    · by_cases hh : t.frm = t.to
      · rw [if_pos hh, if_pos ⟨hg, hx⟩, if_pos (hh.symm.trans hx)]
        show (if x = t.frm then _ else _) = _
        rw [if_pos hx.symm]
      · rw [if_neg hh, if_pos ⟨hg, hx⟩, if_neg (fun hc => hh (hx.trans hc.symm))]
        show (if x = t.frm then _ else _) = _
        rw [if_pos hx.symm]
    · by_cases hh : t.frm = t.to
      · rw [if_pos hh, if_neg (fun hc : t.general s.1.keys = true ∧ t.frm = x => hx hc.2)]
        show (if x = t.frm then _ else _) = _
        rw [if_neg (fun hc => hx hc.symm)]
      · rw [if_neg hh, if_neg (fun hc : t.general s.1.keys = true ∧ t.frm = x => hx hc.2)]
        show (if x = t.frm then _ else _) = _
        rw [if_neg (fun hc => hx hc.symm)]
  · rw [if_neg (fun hc => hg hc.1)]
    rw [general_iff] at hg
    unfold readTransfer
    split
    · rfl
    · rename_i h3
      split
      · split <;> rfl
      · rename_i h4
        split
        · rename_i hf
          split
          · rename_i ht
            exact absurd ⟨h3, h4, hf, ht⟩ hg
          · rfl
        · rfl

/-- **C116 (footpaths).** Between two stops, the duration is the one of the first row of the file for this pair (in this
direction); there is at most one entry per target, and no entry without row. -/
theorem C116_footpaths (s : Stops) (hs : ∀ x, (s.info x).footpaths = []) (ts : List Transfer) (a : Nat) :
    (((readTransfers s ts).1.info a).footpaths.map (·.1)).Nodup ∧
    ∀ b, ((readTransfers s ts).1.info a).footpaths.lookup b =
      (ts.find? fun t => t.general s.keys && t.frm == a && t.to == b && a != b).map (·.minutes) := by
  have lk : ∀ (l : List (Nat × Int)) (b : Nat), l.any (fun f => f.1 == b) = (l.lookup b).isSome := by
    intro l b
    induction l with
    | nil => rfl
    | cons e l ih =>
      rw [List.any_cons, List.lookup_cons, ih]
      by_cases he : e.1 = b
      · simp [he]
      · have h1 : (e.1 == b) = false := by simp [he]
        have h2 : (b == e.1) = false := by rw [beq_eq_false_iff_ne]; exact fun h => he h.symm
        rw [h1, h2]
        rfl
  have la : ∀ (l : List (Nat × Int)) (e : Nat × Int) (b : Nat),
      (l ++ [e]).lookup b = (l.lookup b).or (if e.1 = b then some e.2 else none) := by
    intro l e b
    induction l with
    | nil =>
      rw [List.nil_append, List.lookup_cons]
      by_cases he : e.1 = b
      · simp [he]
      · have h2 : (b == e.1) = false := by rw [beq_eq_false_iff_ne]; exact fun h => he h.symm
        simp [he, h2]
    | cons x l ih =>
      rw [List.cons_append, List.lookup_cons, List.lookup_cons, ih]
      cases b == x.1 <;> rfl
  induction ts using Vdv.snoc_ind with
  | h0 =>
    show ((s.info a).footpaths.map (·.1)).Nodup ∧ _
    rw [hs a]
    refine ⟨List.nodup_nil, fun b => ?_⟩
    show (s.info a).footpaths.lookup b = none
    rw [hs a]
    rfl
  | h ts t ih =>
    rw [readTransfers_snoc, readTransfer_info, readTransfers_keys]
    by_cases hg : t.general s.keys = true ∧ t.frm = a
    · rw [if_pos hg]
      by_cases hta : t.to = a
      · rw [if_pos hta]
        refine ⟨ih.1, fun b => ?_⟩
        show ((readTransfers s ts).1.info a).footpaths.lookup b = _
        rw [ih.2 b, List.find?_append]
        have : (t.general s.keys && t.frm == a && t.to == b && a != b) = false := by
          simp only [hta]
          by_cases hab : a = b <;> simp [hab]
        rw [List.find?_singleton, this]
        simp
      · rw [if_neg hta]
        unfold addFootpath
        cases hany : ((readTransfers s ts).1.info a).footpaths.any (fun f => f.1 == t.to) with
        | true =>
          rw [if_pos rfl]
          refine ⟨ih.1, fun b => ?_⟩
          rw [ih.2 b, List.find?_append]
          by_cases htb : t.to = b
          · rw [lk, htb, ih.2 b] at hany
            cases hf : ts.find? (fun t => t.general s.keys && t.frm == a && t.to == b && a != b) with
            | none => rw [hf] at hany; cases hany
            | some y => rfl
          · rw [List.find?_singleton]
            have : (t.to == b) = false := by simp [htb]
            simp [this]
        | false =>
          simp only [Bool.false_eq_true, if_false]
          constructor
          · rw [List.map_append, List.nodup_append]
            refine ⟨ih.1, by simp, ?_⟩
            intro u hu v hv huv
            simp only [List.map_cons, List.map_nil, List.mem_singleton] at hv
            rw [List.mem_map] at hu
            obtain ⟨e, he, hee⟩ := hu
            have : ((readTransfers s ts).1.info a).footpaths.any (fun f => f.1 == t.to) = true := by
              rw [List.any_eq_true]
              exact ⟨e, he, by simp [hee, huv, hv]⟩
            rw [hany] at this
            cases this
          · intro b
            rw [la, ih.2 b, List.find?_append, List.find?_singleton]
            by_cases htb : t.to = b
            · have h1 : (t.general s.keys && t.frm == a && t.to == b && a != b) = true := by
                simp [hg.1, hg.2, htb]
                exact fun h => hta (htb.trans h.symm)
              rw [if_pos h1, if_pos htb]
              cases ts.find? (fun t => t.general s.keys && t.frm == a && t.to == b && a != b) <;> rfl
            · have h1 : (t.general s.keys && t.frm == a && t.to == b && a != b) = false := by simp [htb]
              rw [h1, if_neg htb]
              simp
    · rw [if_neg hg]
      refine ⟨ih.1, fun b => ?_⟩
      rw [ih.2 b, List.find?_append, List.find?_singleton]
      have h1 : (t.general s.keys && t.frm == a && t.to == b && a != b) = false := by
        cases hh : t.general s.keys with
        | false => simp
        | true =>
          have : (t.frm == a) = false := by
            rw [beq_eq_false_iff_ne]
            exact fun hc => hg ⟨hh, hc⟩
          simp [this]
      rw [h1]
      simp

/-- The rows about transfers within a stop. -/
def within (s : Stops) (ts : List Transfer) (x : Nat) : List Transfer :=
  ts.filter fun t => t.general s.keys && t.frm == x && t.to == x

/-- **C116 (transfer time).** The transfer time of a stop is the smallest one of its rows from the stop to itself; there is
none without such a row (and the default is taken). -/
theorem C116_transfer_time (s : Stops) (hs : ∀ x, (s.info x).transferTime = none) (ts : List Transfer) (x : Nat) :
    (((readTransfers s ts).1.info x).transferTime = none ↔ within s ts x = []) ∧
    ∀ d, ((readTransfers s ts).1.info x).transferTime = some d →
      (∃ t ∈ within s ts x, t.minutes = d) ∧ ∀ t ∈ within s ts x, d ≤ t.minutes := by
  induction ts using Vdv.snoc_ind with
  | h0 =>
    show ((s.info x).transferTime = none ↔ _) ∧ ∀ d, (s.info x).transferTime = some d → _
    rw [hs x]
    exact ⟨⟨fun _ => rfl, fun _ => rfl⟩, fun d hd => by cases hd⟩
  | h ts t ih =>
    rw [readTransfers_snoc, readTransfer_info, readTransfers_keys]
    have hw : within s (ts ++ [t]) x = within s ts x ++
        (if (t.general s.keys && t.frm == x && t.to == x) = true then [t] else []) := by
      unfold within
      rw [List.filter_append, List.filter_cons, List.filter_nil]
    by_cases hg : t.general s.keys = true ∧ t.frm = x
    · rw [if_pos hg]
      by_cases hx : t.to = x
      · rw [if_pos hx]
        rw [if_pos (by simp [hg.1, hg.2, hx])] at hw
        rw [hw]
        unfold addTransferTime
        cases ho : ((readTransfers s ts).1.info x).transferTime with
        | none =>
          rw [ho] at ih
          have he := ih.1.mp rfl
          rw [he]
          simp only [reduceCtorEq, List.nil_append, List.cons_ne_nil, Option.some.injEq, List.mem_singleton, false_iff]
          refine ⟨trivial, fun d hd => ?_⟩
          subst hd
          exact ⟨⟨t, rfl, rfl⟩, fun y hy => by rw [hy]; exact Int.le_refl _⟩
        | some e =>
          obtain ⟨⟨y, hy, hye⟩, hmin⟩ := ih.2 e ho
          simp only [reduceCtorEq, Option.some.injEq, List.append_eq_nil_iff, List.cons_ne_nil, and_false]
          refine ⟨trivial, fun d hd => ?_⟩
          subst hd
          constructor
          · by_cases hle : t.minutes ≤ e
            · exact ⟨t, by simp, by omega⟩
            · exact ⟨y, by simp [hy], by omega⟩
          · intro z hz
            rw [List.mem_append, List.mem_singleton] at hz
            rcases hz with hz | hz
            · have := hmin z hz
              omega
            · subst hz
              omega
      · rw [if_neg hx]
        have h0 : (t.general s.keys && t.frm == x && t.to == x) = false := by simp [hx]
        rw [h0] at hw
        simp only [Bool.false_eq_true, if_false, List.append_nil] at hw
        rw [hw]
        have : (addFootpath t.to t.minutes ((readTransfers s ts).1.info x)).transferTime =
            ((readTransfers s ts).1.info x).transferTime := by
          unfold addFootpath
          split <;> rfl
        rw [this]
        exact ih
    · rw [if_neg hg]
      have h0 : (t.general s.keys && t.frm == x && t.to == x) = false := by
        cases hh : t.general s.keys with
        | false => simp
        | true =>
          have : (t.frm == x) = false := by
            rw [beq_eq_false_iff_ne]
            exact fun hc => hg ⟨hh, hc⟩
          simp [this]
      rw [h0] at hw
      simp only [Bool.false_eq_true, if_false, List.append_nil] at hw
      rw [hw]
      exact ih

/-- **C116 (stay seated).** The stay-seated transfers of a trip are those of the rows of type 4 with two trips, in the order of
the file - whatever their stops. -/
theorem C116_seated (s : Stops) (ts : List Transfer) (a : Nat) :
    (readTransfers s ts).2 a =
      (ts.filter fun t => t.typ % 256 == 4 && t.fromTrip == some a).filterMap (fun t => t.toTrip) := by
  induction ts using Vdv.snoc_ind with
  | h0 => rfl
  | h ts t ih =>
    rw [readTransfers_snoc, List.filter_append, List.filterMap_append, ← ih]
    have hcons : ([t].filter fun t => t.typ % 256 == 4 && t.fromTrip == some a).filterMap (fun t => t.toTrip) =
        if t.kind = 4 ∧ t.fromTrip = some a then t.toTrip.toList else [] := by
      rw [List.filter_cons, List.filter_nil]
      by_cases hc : t.kind = 4 ∧ t.fromTrip = some a
      · have : (t.typ % 256 == 4 && t.fromTrip == some a) = true := by
          rw [Bool.and_eq_true, beq_iff_eq, beq_iff_eq]
          exact hc
        rw [if_pos this, if_pos hc]
        cases ht : t.toTrip <;> simp [ht]
      · have : ¬ (t.typ % 256 == 4 && t.fromTrip == some a) = true := by
          rw [Bool.and_eq_true, beq_iff_eq, beq_iff_eq]
          exact hc
        rw [if_neg this, if_neg hc]
        rfl
    rw [hcons]
    unfold readTransfer
    by_cases h3 : t.kind = 3
    · rw [if_pos h3, if_neg (fun hc => by rw [h3] at hc; exact absurd hc.1 (by decide)), List.append_nil]
    · rw [if_neg h3]
      by_cases h4 : t.kind = 4
      · rw [if_pos h4]
        cases hf : t.fromTrip with
        | none => simp
        | some f =>
          cases ht : t.toTrip with
          | none => simp
          | some b =>
            simp only [Option.some.injEq, h4, true_and]
            by_cases hfa : a = f
            · simp [hfa]
            · have : ¬ f = a := fun h => hfa h.symm
              simp [hfa, this]
      · simp only [if_neg h4, if_neg (fun hc : t.kind = 4 ∧ t.fromTrip = some a => h4 hc.1), List.append_nil]
        repeat' split
        all_goals rfl

/-- The hypotheses of the theorems on transfers hold after reading stops. -/
theorem readStops_plain (rows : List Row) (x : Nat) :
    ((readStops rows).info x).footpaths = [] ∧ ((readStops rows).info x).transferTime = none := by
  induction rows using Vdv.snoc_ind with
  | h0 => exact ⟨rfl, rfl⟩
  | h rows r ih =>
    rw [readStops_snoc]
    cases hu : r.used with
    | false => rw [readRow_unused hu]; exact ih
    | true => rw [readRow_info hu]; exact ih

/-- **C116 (other data).** Transfers do not change the hierarchy. -/
theorem C116_hierarchy (s : Stops) (ts : List Transfer) (x : Nat) :
    ((readTransfers s ts).1.info x).parent = (s.info x).parent ∧
    ((readTransfers s ts).1.info x).children = (s.info x).children ∧
    ((readTransfers s ts).1.info x).name = (s.info x).name := by
  induction ts using Vdv.snoc_ind with
  | h0 => exact ⟨rfl, rfl, rfl⟩
  | h ts t ih =>
    rw [readTransfers_snoc, readTransfer_info]
    repeat' split
    · exact ih
    · unfold addFootpath
      split <;> exact ih
    · exact ih

/-- Three stops; the second row for (1, 2) is ignored, the smaller time within stop 1 wins, a row of type 3 and one with
an unknown stop have no effect, one stay-seated transfer. -/
example :
    let s := readStops [{ id := 1 }, { id := 2, parent := some 3 }]
    let r := readTransfers s [⟨1, 2, 2, 180, none, none⟩, ⟨1, 2, 2, 60, none, none⟩, ⟨1, 1, 2, 300, none, none⟩,
      ⟨1, 1, 2, 120, none, none⟩, ⟨2, 1, 3, 60, none, none⟩, ⟨2, 9, 2, 60, none, none⟩, ⟨1, 2, 4, 0, some 7, some 8⟩]
    s.keys = [1, 2, 3] ∧ (r.1.info 1).footpaths = [(2, 3)] ∧ (r.1.info 1).transferTime = some 2 ∧
      (r.1.info 2).footpaths = [] ∧ r.2 7 = [8] ∧ (s.info 3).children = [2] := by decide

/-- **C116 (limitations).** A row of type 5 (not seated) or for a single pair of trips becomes a footpath for everybody; a row
without time gives a footpath of no duration, a negative time a long one; types are taken modulo 256. -/
theorem C116_types_counterexample :
    let s := readStops [{ id := 1 }, { id := 2 }]
    ((readTransfers s [⟨1, 2, 5, 0, some 7, some 8⟩]).1.info 1).footpaths = [(2, 0)] ∧
    ((readTransfers s [⟨1, 2, 0, 0, none, none⟩]).1.info 1).footpaths = [(2, 0)] ∧
    ((readTransfers s [⟨1, 2, 259, 60, none, none⟩]).1.info 1).footpaths = [] ∧
    fpDur (({ frm := 1, to := 2, time := -60 } : Transfer).minutes) = 511 := by decide

end Nigiri.GtfsStops
