import Verif.Proofs.HrdParse
/-!
# C139–C141: reading the services of an HRD file
-/

namespace Nigiri.HrdParse
open Hrd (Event Stop)
open Spec

/-! ## C139: the lines of a service and its sections -/

/-- **C139** (ranges).  The columns of a line designate the stops that the specification names. -/
theorem C139_range {stops : List Stop} (h0 : NoZero stops) (r : RangeSpec) (f t : Nat) :
    rangeOf stops r = some (f, t) ↔ Range stops r f t := range_iff h0 r f t

theorem lastWith_congr {P Q : Line → Prop} {lines : List Line} {l : Line}
    (h : ∀ q ∈ lines, P q ↔ Q q) : LastWith P lines l ↔ LastWith Q lines l := by
  constructor
  · rintro ⟨pre, post, rfl, h1, h2⟩
    exact ⟨pre, post, rfl, (h _ (by simp)).1 h1, fun q hq hc => h2 q hq ((h _ (by simp [hq])).2 hc)⟩
  · rintro ⟨pre, post, rfl, h1, h2⟩
    exact ⟨pre, post, rfl, (h _ (by simp)).2 h1, fun q hq hc => h2 q hq ((h _ (by simp [hq])).1 hc)⟩

theorem isWhole_iff {stops : List Stop} (h0 : NoZero stops) (rng : Line → RangeSpec) (l : Line) :
    isWhole stops rng l = true ↔ Whole stops (rng l) := by
  unfold isWhole Whole
  rw [decide_eq_true_eq, range_iff h0]

theorem range_unique {stops : List Stop} (h0 : NoZero stops) {r : RangeSpec} {f t f' t' : Nat}
    (h : Range stops r f t) (h' : Range stops r f' t') : f = f' ∧ t = t' := by
  have h1 := (range_iff h0 r f t).2 h
  have h2 := (range_iff h0 r f' t').2 h'
  rw [h1] at h2
  cases h2
  exact ⟨rfl, rfl⟩

theorem isIn_iff {stops : List Stop} (h0 : NoZero stops) (rng : Line → RangeSpec) (k : Nat) (l : Line)
    (hr : ∃ r, rangeOf stops (rng l) = some r) :
    isIn stops rng k l = true ↔ ¬ Whole stops (rng l) ∧ Covers stops (rng l) k := by
  obtain ⟨⟨f, t⟩, hr⟩ := hr
  have hrd : rangeD stops rng l = (f, t) := by unfold rangeD; rw [hr]; rfl
  unfold isIn
  rw [hrd, Bool.and_eq_true, Bool.and_eq_true, decide_eq_true_eq, decide_eq_true_eq,
    Bool.not_eq_true', ← Bool.not_eq_true, isWhole_iff h0]
  refine and_congr_right fun _ => ?_
  constructor
  · rintro ⟨h1, h2⟩
    exact ⟨f, t, (range_iff h0 _ _ _).1 hr, h1, h2⟩
  · rintro ⟨f', t', h, h1, h2⟩
    obtain ⟨rfl, rfl⟩ := range_unique h0 ((range_iff h0 _ _ _).1 hr) h
    exact ⟨h1, h2⟩

/-- Values with one value per section. -/
theorem scalar {α : Type} {m : Member α} (hm : LawfulM m) {stops : List Stop} (h0 : NoZero stops)
    {rng : Line → RangeSpec} {val : Line → Nat × Nat → α} {bad : Line → Nat × Nat → Bool}
    {lines : List Line} {st st' : SecState}
    (h : parseRange m stops rng (fun l r _ => some (val l r)) bad st lines = some st')
    (hl : st.sections.length ≤ stops.length - 1) (hw : m.get st.whole = none)
    (hs : ∀ k : Nat, (st.sections[k]?).bind m.get = none) (k : Nat) (hk : k < stops.length - 1) (v : α) :
    (m.get st'.whole = some v ∨ (m.get st'.whole = none ∧ (st'.sections[k]?).bind m.get = some v)) ↔
      ∃ l, InForce stops rng lines k l ∧ v = val l (rangeD stops rng l) := by
  obtain ⟨h1, h2⟩ := parseRange_own m stops rng _ bad hm lines st st' h hl
  have hrs := parseRange_ranges m stops rng _ bad lines st st' h
  rw [hw] at h1
  have h2 := h2 k hk
  rw [hs k] at h2
  obtain ⟨a1, a2⟩ := foldl_last (isWhole stops rng) (fun l => val l (rangeD stops rng l)) lines
  obtain ⟨b1, b2⟩ := foldl_last (isIn stops rng k) (fun l => val l (rangeD stops rng l)) lines
  rw [h1, h2, a2, b2, a1]
  have hwh : ∀ q ∈ lines, (isWhole stops rng q = true ↔ Whole stops (rng q)) :=
    fun q _ => isWhole_iff h0 rng q
  have hall : (∀ q ∈ lines, ¬ isWhole stops rng q = true) ↔ ∀ q ∈ lines, ¬ Whole stops (rng q) :=
    ⟨fun h q hq hc => h q hq ((hwh q hq).2 hc), fun h q hq hc => h q hq ((hwh q hq).1 hc)⟩
  constructor
  · rintro (⟨l, hL, rfl⟩ | ⟨hn, l, hL, rfl⟩)
    · exact ⟨l, Or.inl ((lastWith_congr hwh).1 hL), rfl⟩
    · have hn' := hall.1 hn
      refine ⟨l, Or.inr ⟨hn', (lastWith_congr ?_).1 hL⟩, rfl⟩
      intro q hq
      rw [isIn_iff h0 rng k q (hrs q hq)]
      exact ⟨fun h => h.2, fun h => ⟨hn' q hq, h⟩⟩
  · rintro ⟨l, hL | ⟨hn, hL⟩, rfl⟩
    · exact Or.inl ⟨l, (lastWith_congr hwh).2 hL, rfl⟩
    · refine Or.inr ⟨hall.2 hn, l, (lastWith_congr ?_).2 hL, rfl⟩
      intro q hq
      rw [isIn_iff h0 rng k q (hrs q hq)]
      exact ⟨fun h => h.2, fun h => ⟨hn q hq, h⟩⟩

theorem has_iff {α : Type} (get : Sec → Option α) (b : Built) (k : Nat) (v : α) :
    Has get b k v ↔ (get b.secs.whole = some v ∨
      (get b.secs.whole = none ∧ (b.secs.sections[k]?).bind get = some v)) := by
  unfold Has
  rw [Option.bind_eq_some_iff]

/-! ### Train number and administration -/

/-- The value after one more stop. -/
def carry {α : Type} (val : Line → Option α) (start : α) (l : Line) : α := (val l).getD start

theorem carried_zero {α : Type} (val : Line → Option α) (start : α) (l : Line) (ls : List Line) (v : α) :
    CarriedOn val start (l :: ls) 0 v ↔ v = carry val start l := by
  unfold CarriedOn carry
  constructor
  · rintro (⟨j, q, hj, hq, hv, _⟩ | ⟨rfl, h⟩)
    · obtain rfl : j = 0 := by omega
      cases hq
      rw [hv]; rfl
    · rw [h 0 l (Nat.le_refl 0) rfl]; rfl
  · intro h
    cases hv : val l with
    | none =>
      rw [hv] at h
      refine Or.inr ⟨h, ?_⟩
      intro i q hi hq
      obtain rfl : i = 0 := by omega
      cases hq
      exact hv
    | some w =>
      rw [hv] at h
      refine Or.inl ⟨0, l, Nat.le_refl 0, rfl, by rw [hv, h]; rfl, ?_⟩
      intro i q h1 h2
      omega

theorem carried_succ {α : Type} (val : Line → Option α) (start : α) (l : Line) (ls : List Line) (k : Nat)
    (v : α) : CarriedOn val start (l :: ls) (k + 1) v ↔ CarriedOn val (carry val start l) ls k v := by
  unfold CarriedOn
  constructor
  · rintro (⟨j, q, hj, hq, hv, h⟩ | ⟨rfl, h⟩)
    · cases j with
      | zero =>
        cases hq
        refine Or.inr ⟨by unfold carry; rw [hv]; rfl, ?_⟩
        intro i q hi hq
        exact h (i + 1) q (by omega) (by omega) hq
      | succ j =>
        refine Or.inl ⟨j, q, by omega, hq, hv, ?_⟩
        intro i q hi hi' hq
        exact h (i + 1) q (by omega) (by omega) hq
    · refine Or.inr ⟨by unfold carry; rw [h 0 l (by omega) rfl]; rfl, ?_⟩
      intro i q hi hq
      exact h (i + 1) q (by omega) hq
  · rintro (⟨j, q, hj, hq, hv, h⟩ | ⟨rfl, h⟩)
    · refine Or.inl ⟨j + 1, q, by omega, hq, hv, ?_⟩
      intro i q hi hi' hq
      cases i with
      | zero => omega
      | succ i => exact h i q (by omega) (by omega) hq
    · unfold carry
      cases hv : val l with
      | none =>
        refine Or.inr ⟨rfl, ?_⟩
        intro i q hi hq
        cases i with
        | zero => cases hq; exact hv
        | succ i => exact h i q (by omega) hq
      | some w =>
        refine Or.inl ⟨0, l, by omega, rfl, hv, ?_⟩
        intro i q hi hi' hq
        cases i with
        | zero => omega
        | succ i => exact h i q (by omega) hq

theorem sectionLoop_spec (c : Cols) (num : Nat) (admin : Line) (ls : List Line) (k : Nat)
    (hk : k < ls.length) :
    ∃ s, (sectionLoop c num admin ls)[k]? = some s ∧
      (∀ n, s.trainNum = some n ↔ CarriedOn c.stopNum num ls k n) ∧
      (∀ a, s.admin = some a ↔ CarriedOn c.stopAdmin admin ls k a) := by
  induction ls generalizing num admin k with
  | nil => exact absurd hk (Nat.not_lt_zero _)
  | cons l ls ih =>
    unfold sectionLoop
    cases k with
    | zero =>
      refine ⟨_, rfl, fun n => ?_, fun a => ?_⟩
      · rw [carried_zero]
        unfold carry
        exact ⟨fun h => (Option.some.inj h).symm, fun h => by rw [h]⟩
      · rw [carried_zero]
        unfold carry
        exact ⟨fun h => (Option.some.inj h).symm, fun h => by rw [h]⟩
    | succ k =>
      obtain ⟨s, hs, h1, h2⟩ := ih (carry c.stopNum num l) (carry c.stopAdmin admin l) k
        (by simpa using hk)
      refine ⟨s, hs, fun n => ?_, fun a => ?_⟩
      · rw [carried_succ]; exact h1 n
      · rw [carried_succ]; exact h2 a

theorem carried_none {α : Type} (val : Line → Option α) (start : α) (ls : List Line) (k : Nat) (v : α)
    (h : ∀ l ∈ ls, val l = none) : CarriedOn val start ls k v ↔ v = start := by
  constructor
  · rintro (⟨j, q, _, hq, hv, _⟩ | ⟨rfl, _⟩)
    · rw [h q (List.mem_of_getElem? hq)] at hv; cases hv
    · rfl
  · intro he
    exact Or.inr ⟨he, fun i q _ hq => h q (List.mem_of_getElem? hq)⟩

theorem carried_dropLast {α : Type} (val : Line → Option α) (start : α) (ls : List Line) (k : Nat) (v : α)
    (hk : k < ls.length - 1) : CarriedOn val start ls.dropLast k v ↔ CarriedOn val start ls k v := by
  have key : ∀ i, i ≤ k → ls.dropLast[i]? = ls[i]? := by
    intro i hi
    rw [List.getElem?_dropLast, if_pos (by omega)]
  unfold CarriedOn
  constructor
  · rintro (⟨j, q, hj, hq, hv, h⟩ | ⟨rfl, h⟩)
    · exact Or.inl ⟨j, q, hj, by rw [← key j hj]; exact hq, hv,
        fun i q hi hi' hq => h i q hi hi' (by rw [key i hi']; exact hq)⟩
    · exact Or.inr ⟨rfl, fun i q hi hq => h i q hi (by rw [key i hi]; exact hq)⟩
  · rintro (⟨j, q, hj, hq, hv, h⟩ | ⟨rfl, h⟩)
    · exact Or.inl ⟨j, q, hj, by rw [key j hj]; exact hq, hv,
        fun i q hi hi' hq => h i q hi hi' (by rw [← key i hi']; exact hq)⟩
    · exact Or.inr ⟨rfl, fun i q hi hq => h i q hi (by rw [← key i hi]; exact hq)⟩

theorem sectionLoop_length (c : Cols) (num : Nat) (admin : Line) (ls : List Line) :
    (sectionLoop c num admin ls).length = ls.length := by
  induction ls generalizing num admin with
  | nil => rfl
  | cons l ls ih => unfold sectionLoop; rw [List.length_cons, ih, List.length_cons]

theorem sectionLoop_blank {α : Type} (g : Sec → Option α)
    (hg : ∀ n a, g { trainNum := n, admin := a } = none) (c : Cols) (num : Nat) (admin : Line)
    (ls : List Line) (k : Nat) : ((sectionLoop c num admin ls)[k]?).bind g = none := by
  induction ls generalizing num admin k with
  | nil => rfl
  | cons l ls ih =>
    unfold sectionLoop
    cases k with
    | zero => exact hg _ _
    | succ k => exact ih _ _ k

/-- Members that `parse_sections` leaves empty. -/
theorem parseSections_blank {α : Type} (g : Sec → Option α)
    (hg : ∀ n a, g { trainNum := n, admin := a } = none) (c : Cols) (head : Line) (stops : List Line) :
    g (parseSections c head stops).whole = none ∧
      ∀ k : Nat, ((parseSections c head stops).sections[k]?).bind g = none := by
  unfold parseSections
  split
  · exact ⟨hg _ _, fun k => rfl⟩
  · exact ⟨hg none none, fun k => sectionLoop_blank g hg _ _ _ _ _⟩

theorem parseSections_length (c : Cols) (head : Line) (stops : List Line) :
    (parseSections c head stops).sections.length ≤ stops.length - 1 := by
  unfold parseSections
  split
  · exact Nat.zero_le _
  · simp only [sectionLoop_length, List.length_dropLast]
    exact Nat.le_refl _

theorem parseSections_num (c : Cols) (head : Line) (stops : List Line) (k : Nat)
    (hk : k < stops.length - 1) (v : Nat) :
    ((parseSections c head stops).whole.trainNum = some v ∨
      ((parseSections c head stops).whole.trainNum = none ∧
        ((parseSections c head stops).sections[k]?).bind (·.trainNum) = some v)) ↔
      CarriedOn c.stopNum (c.headNum head) stops k v := by
  unfold parseSections
  split
  · rename_i hall
    rw [carried_none _ _ _ _ _ (fun l hl => by
      have := List.all_eq_true.1 hall l hl
      rw [Bool.and_eq_true] at this
      exact Option.isNone_iff_eq_none.1 this.1)]
    constructor
    · rintro (h | ⟨h, _⟩)
      · exact (Option.some.inj h).symm
      · cases h
    · intro h; exact Or.inl (by rw [h])
  · obtain ⟨s, hs, h1, _⟩ := sectionLoop_spec c (c.headNum head) (c.headAdmin head) stops.dropLast k
      (by rw [List.length_dropLast]; exact hk)
    rw [← carried_dropLast _ _ _ _ _ hk, ← h1]
    simp only [hs, Option.bind_some, true_and]
    constructor
    · rintro (h | h)
      · cases h
      · exact h
    · intro h; exact Or.inr h

theorem parseSections_admin (c : Cols) (head : Line) (stops : List Line) (k : Nat)
    (hk : k < stops.length - 1) (v : Line) :
    ((parseSections c head stops).whole.admin = some v ∨
      ((parseSections c head stops).whole.admin = none ∧
        ((parseSections c head stops).sections[k]?).bind (·.admin) = some v)) ↔
      CarriedOn c.stopAdmin (c.headAdmin head) stops k v := by
  unfold parseSections
  split
  · rename_i hall
    rw [carried_none _ _ _ _ _ (fun l hl => by
      have := List.all_eq_true.1 hall l hl
      rw [Bool.and_eq_true] at this
      exact Option.isNone_iff_eq_none.1 this.2)]
    constructor
    · rintro (h | ⟨h, _⟩)
      · exact (Option.some.inj h).symm
      · cases h
    · intro h; exact Or.inl (by rw [h])
  · obtain ⟨s, hs, _, h1⟩ := sectionLoop_spec c (c.headNum head) (c.headAdmin head) stops.dropLast k
      (by rw [List.length_dropLast]; exact hk)
    rw [← carried_dropLast _ _ _ _ _ hk, ← h1]
    simp only [hs, Option.bind_some, true_and]
    constructor
    · rintro (h | h)
      · cases h
      · exact h
    · intro h; exact Or.inr h

/-! ### The whole constructor -/

/-- The states of `service::service`. -/
structure Chain (c : Cols) (s : Specif) (b : Built) (head : Line) (s1 s2 s3 s4 : SecState) : Prop where
  headEq : s.head = some head
  stops : s.stops.mapM c.stop = some b.stops
  two : 2 ≤ b.stops.length
  nums : b.numRepetitions = c.repetitions head ∧ b.interval = c.interval head ∧
    b.initialNum = c.headNum head ∧ b.initialAdmin = c.headAdmin head
  c1 : parseRange attributesM b.stops c.attrRange (fun l _ o => some (o.getD [] ++ [c.attr l]))
    (fun _ _ => false) (parseSections c head s.stops) s.attributes = some s1
  c2 : parseRange categoryM b.stops c.catRange (fun l _ _ => some (c.cat l))
    (fun _ _ => false) s1 s.categories = some s2
  c3 : parseRange lineM b.stops c.lineRange (fun l _ _ => some (c.lineOf l))
    (fun _ _ => false) s2 s.lineInfos = some s3
  c4 : parseRange trafficDaysM b.stops c.daysRange (fun l _ _ => some (c.days l))
    (fun _ _ => false) s3 s.trafficDays = some s4
  c5 : parseRange directionM b.stops c.dirRange (fun l r _ => some (dirOf c b.stops l r))
    (fun l r => (c.dirCode l).isNone && decide (b.stops.length ≤ r.2)) s4 s.directions = some b.secs

theorem build_chain {c : Cols} {s : Specif} {b : Built} (h : build c s = some b) :
    ∃ head s1 s2 s3 s4, Chain c s b head s1 s2 s3 s4 := by
  unfold build at h
  split at h
  · rename_i head stops hh hs
    split at h
    · cases h
    · rename_i h2
      split at h
      · cases h
      · rename_i s1 e1
        split at h
        · cases h
        · rename_i s2 e2
          split at h
          · cases h
          · rename_i s3 e3
            split at h
            · cases h
            · rename_i s4 e4
              split at h
              · cases h
              · rename_i s5 e5
                cases h
                exact ⟨head, s1, s2, s3, s4, hh, hs, by simp only; omega, ⟨rfl, rfl, rfl, rfl⟩,
                  e1, e2, e3, e4, e5⟩
  · cases h

theorem mapM_length {α β : Type} (f : α → Option β) (l : List α) (r : List β) (h : l.mapM f = some r) :
    r.length = l.length := by
  induction l generalizing r with
  | nil => cases h; rfl
  | cons a l ih =>
    rw [List.mapM_cons] at h
    obtain ⟨x, _, h⟩ := Option.bind_eq_some_iff.1 h
    obtain ⟨y, hy, h⟩ := Option.bind_eq_some_iff.1 h
    cases h
    rw [List.length_cons, List.length_cons, ih y hy]

theorem lawful_attributes : LawfulM attributesM := ⟨fun _ _ => rfl, rfl⟩
theorem lawful_category : LawfulM categoryM := ⟨fun _ _ => rfl, rfl⟩
theorem lawful_line : LawfulM lineM := ⟨fun _ _ => rfl, rfl⟩
theorem lawful_days : LawfulM trafficDaysM := ⟨fun _ _ => rfl, rfl⟩
theorem lawful_direction : LawfulM directionM := ⟨fun _ _ => rfl, rfl⟩

section
variable {c : Cols} {s : Specif} {b : Built} {head : Line} {s1 s2 s3 s4 : SecState}
  (C : Chain c s b head s1 s2 s3 s4)
include C

theorem Chain.l0 : (parseSections c head s.stops).sections.length ≤ b.stops.length - 1 := by
  rw [mapM_length _ _ _ C.stops]; exact parseSections_length _ _ _
theorem Chain.l1 : s1.sections.length ≤ b.stops.length - 1 := parseRange_length _ _ _ _ _ _ _ _ C.c1 C.l0
theorem Chain.l2 : s2.sections.length ≤ b.stops.length - 1 := parseRange_length _ _ _ _ _ _ _ _ C.c2 C.l1
theorem Chain.l3 : s3.sections.length ≤ b.stops.length - 1 := parseRange_length _ _ _ _ _ _ _ _ C.c3 C.l2
theorem Chain.l4 : s4.sections.length ≤ b.stops.length - 1 := parseRange_length _ _ _ _ _ _ _ _ C.c4 C.l3

/-- Same value of the whole service and of all sections. -/
def Same {α : Type} (g : Sec → Option α) (a b : SecState) : Prop :=
  g b.whole = g a.whole ∧ ∀ k : Nat, (b.sections[k]?).bind g = (a.sections[k]?).bind g

omit C in
theorem Same.trans {α : Type} {g : Sec → Option α} {x y z : SecState} (h : Same g x y) (h' : Same g y z) :
    Same g x z := ⟨h'.1.trans h.1, fun k => (h'.2 k).trans (h.2 k)⟩

theorem Chain.k1 {α : Type} (g : Sec → Option α) (h : OtherM attributesM g) :
    Same g (parseSections c head s.stops) s1 := parseRange_keep _ _ _ _ _ g h _ _ _ C.c1 C.l0
theorem Chain.k2 {α : Type} (g : Sec → Option α) (h : OtherM categoryM g) : Same g s1 s2 :=
  parseRange_keep _ _ _ _ _ g h _ _ _ C.c2 C.l1
theorem Chain.k3 {α : Type} (g : Sec → Option α) (h : OtherM lineM g) : Same g s2 s3 :=
  parseRange_keep _ _ _ _ _ g h _ _ _ C.c3 C.l2
theorem Chain.k4 {α : Type} (g : Sec → Option α) (h : OtherM trafficDaysM g) : Same g s3 s4 :=
  parseRange_keep _ _ _ _ _ g h _ _ _ C.c4 C.l3
theorem Chain.k5 {α : Type} (g : Sec → Option α) (h : OtherM directionM g) : Same g s4 b.secs :=
  parseRange_keep _ _ _ _ _ g h _ _ _ C.c5 C.l4

end

/-- A value per section, given the states before and after the member is parsed. -/
theorem has_of {α : Type} {m : Member α} (hm : LawfulM m) {b : Built} (h0 : NoZero b.stops)
    {rng : Line → RangeSpec} {val : Line → Nat × Nat → α} {bad : Line → Nat × Nat → Bool}
    {lines : List Line} {st0 st st' : SecState}
    (hb : m.get st0.whole = none ∧ ∀ k : Nat, (st0.sections[k]?).bind m.get = none)
    (h1 : Same m.get st0 st)
    (h : parseRange m b.stops rng (fun l r _ => some (val l r)) bad st lines = some st')
    (h2 : Same m.get st' b.secs) (hl : st.sections.length ≤ b.stops.length - 1)
    (k : Nat) (hk : k + 1 < b.stops.length) (v : α) :
    Has m.get b k v ↔ ∃ l, InForce b.stops rng lines k l ∧ v = val l (rangeD b.stops rng l) := by
  rw [has_iff, h2.1, h2.2 k]
  exact scalar hm h0 h hl (h1.1.trans hb.1) (fun k => (h1.2 k).trans (hb.2 k)) k (by omega) v

/-- **C139** (category).  The category of section `k` of a loaded service is that of the line in force
there, among the `*G` lines of the service. -/
theorem C139_category {c : Cols} {s : Specif} {b : Built} (h : build c s = some b) (h0 : NoZero b.stops)
    (k : Nat) (hk : k + 1 < b.stops.length) (v : Line) :
    Has (·.category) b k v ↔ ∃ l, InForce b.stops c.catRange s.categories k l ∧ v = c.cat l := by
  obtain ⟨head, s1, s2, s3, s4, C⟩ := build_chain h
  exact has_of lawful_category h0 (parseSections_blank _ (fun _ _ => rfl) _ _ _)
    (C.k1 _ ⟨fun _ _ => rfl, rfl⟩) C.c2
    (((C.k3 _ ⟨fun _ _ => rfl, rfl⟩).trans (C.k4 _ ⟨fun _ _ => rfl, rfl⟩)).trans
      (C.k5 _ ⟨fun _ _ => rfl, rfl⟩)) C.l1 k hk v

/-- **C139** (line). -/
theorem C139_line {c : Cols} {s : Specif} {b : Built} (h : build c s = some b) (h0 : NoZero b.stops)
    (k : Nat) (hk : k + 1 < b.stops.length) (v : Line) :
    Has (·.line) b k v ↔ ∃ l, InForce b.stops c.lineRange s.lineInfos k l ∧ v = c.lineOf l := by
  obtain ⟨head, s1, s2, s3, s4, C⟩ := build_chain h
  exact has_of lawful_line h0 (parseSections_blank _ (fun _ _ => rfl) _ _ _)
    ((C.k1 _ ⟨fun _ _ => rfl, rfl⟩).trans (C.k2 _ ⟨fun _ _ => rfl, rfl⟩)) C.c3
    ((C.k4 _ ⟨fun _ _ => rfl, rfl⟩).trans (C.k5 _ ⟨fun _ _ => rfl, rfl⟩)) C.l2 k hk v

/-- **C139** (traffic days): the number of the bitfield. -/
theorem C139_days {c : Cols} {s : Specif} {b : Built} (h : build c s = some b) (h0 : NoZero b.stops)
    (k : Nat) (hk : k + 1 < b.stops.length) (v : Nat) :
    Has (·.trafficDays) b k v ↔ ∃ l, InForce b.stops c.daysRange s.trafficDays k l ∧ v = c.days l := by
  obtain ⟨head, s1, s2, s3, s4, C⟩ := build_chain h
  exact has_of lawful_days h0 (parseSections_blank _ (fun _ _ => rfl) _ _ _)
    (((C.k1 _ ⟨fun _ _ => rfl, rfl⟩).trans (C.k2 _ ⟨fun _ _ => rfl, rfl⟩)).trans
      (C.k3 _ ⟨fun _ _ => rfl, rfl⟩)) C.c4 (C.k5 _ ⟨fun _ _ => rfl, rfl⟩) C.l3 k hk v

/-- The direction of a line: its code, or the station where its range ends. -/
def DirectionOf (c : Cols) (stops : List Stop) (l : Line) (v : Dir) : Prop :=
  (∃ d, c.dirCode l = some d ∧ v = .code d) ∨
  (c.dirCode l = none ∧ ∃ f t st, Range stops (c.dirRange l) f t ∧ stops[t]? = some st ∧ v = .station st.eva)

/-- **C139** (direction), for services without an index that is too large. -/
theorem C139_direction_partial {c : Cols} {s : Specif} {b : Built} (h : build c s = some b)
    (h0 : NoZero b.stops) (hoob : b.secs.oob = false) (k : Nat) (hk : k + 1 < b.stops.length) (v : Dir) :
    Has (·.direction) b k v ↔
      ∃ l, InForce b.stops c.dirRange s.directions k l ∧ DirectionOf c b.stops l v := by
  obtain ⟨head, s1, s2, s3, s4, C⟩ := build_chain h
  have hb := (parseRange_oob _ _ _ _ _ _ _ _ C.c5 hoob).2
  have hr := parseRange_ranges _ _ _ _ _ _ _ _ C.c5
  have hm : ∀ l, InForce b.stops c.dirRange s.directions k l → l ∈ s.directions := by
    rintro l (⟨pre, post, he, _⟩ | ⟨_, pre, post, he, _⟩) <;> rw [he] <;> simp
  have hd : ∀ l ∈ s.directions, ∀ v, v = dirOf c b.stops l (rangeD b.stops c.dirRange l) ↔
      DirectionOf c b.stops l v := by
    intro l hl v
    obtain ⟨⟨f, t⟩, hft⟩ := hr l hl
    have hrd : rangeD b.stops c.dirRange l = (f, t) := by unfold rangeD; rw [hft]; rfl
    have hbl := hb l hl
    rw [hrd] at hbl ⊢
    unfold dirOf DirectionOf
    cases hc : c.dirCode l with
    | some d =>
      constructor
      · intro hv; exact Or.inl ⟨d, rfl, hv⟩
      · rintro (⟨d', hd', rfl⟩ | ⟨hn, _⟩)
        · cases hd'; rfl
        · cases hn
    | none =>
      rw [hc] at hbl
      simp at hbl
      have hst : b.stops[t]? = some (b.stops[t]'hbl) := List.getElem?_eq_getElem hbl
      simp only [hst]
      constructor
      · intro hv
        exact Or.inr ⟨trivial, f, t, _, (range_iff h0 _ _ _).1 hft, hst, hv⟩
      · rintro (⟨d', hd', _⟩ | ⟨_, f', t', st, hR, hs', rfl⟩)
        · cases hd'
        · obtain ⟨rfl, rfl⟩ := range_unique h0 ((range_iff h0 _ _ _).1 hft) hR
          rw [hst] at hs'
          cases hs'
          rfl
  have key := has_of lawful_direction h0 (parseSections_blank _ (fun _ _ => rfl) _ _ _)
    ((((C.k1 _ ⟨fun _ _ => rfl, rfl⟩).trans (C.k2 _ ⟨fun _ _ => rfl, rfl⟩)).trans
      (C.k3 _ ⟨fun _ _ => rfl, rfl⟩)).trans (C.k4 _ ⟨fun _ _ => rfl, rfl⟩)) C.c5
      ⟨rfl, fun _ => rfl⟩ C.l4 k hk v
  refine key.trans ?_
  constructor
  · rintro ⟨l, hl, hv⟩
    exact ⟨l, hl, (hd l (hm l hl) v).1 hv⟩
  · rintro ⟨l, hl, hv⟩
    exact ⟨l, hl, (hd l (hm l hl) v).2 hv⟩

/-- **C139** (attributes).  The attributes of section `k` — those of the whole service and those of the
section — are exactly those of the `*A` lines that cover it. -/
theorem C139_attributes {c : Cols} {s : Specif} {b : Built} (h : build c s = some b) (h0 : NoZero b.stops)
    (k : Nat) (hk : k + 1 < b.stops.length) (a : Nat × Line) :
    ((∃ as, b.secs.whole.attributes = some as ∧ a ∈ as) ∨
      ∃ sec as, b.secs.sections[k]? = some sec ∧ sec.attributes = some as ∧ a ∈ as) ↔
      ∃ l ∈ s.attributes, Covers b.stops (c.attrRange l) k ∧ a = c.attr l := by
  obtain ⟨head, s1, s2, s3, s4, C⟩ := build_chain h
  have hsame : Same attributesM.get s1 b.secs :=
    (((C.k2 _ ⟨fun _ _ => rfl, rfl⟩).trans (C.k3 _ ⟨fun _ _ => rfl, rfl⟩)).trans
      (C.k4 _ ⟨fun _ _ => rfl, rfl⟩)).trans (C.k5 _ ⟨fun _ _ => rfl, rfl⟩)
  obtain ⟨p1, p2⟩ := parseRange_own _ _ _ _ _ lawful_attributes _ _ _ C.c1 C.l0
  have hblank := parseSections_blank attributesM.get (fun _ _ => rfl) c head s.stops
  have p2 := p2 k (by omega)
  rw [hblank.1] at p1
  rw [hblank.2 k] at p2
  have hr := parseRange_ranges _ _ _ _ _ _ _ _ C.c1
  have f1 := foldl_all (isWhole b.stops c.attrRange) c.attr s.attributes none
  have f2 := foldl_all (isIn b.stops c.attrRange k) c.attr s.attributes none
  rw [← p1, ← hsame.1] at f1
  rw [← p2, ← hsame.2 k] at f2
  have g1 : (∃ as, b.secs.whole.attributes = some as ∧ a ∈ as) ↔
      a ∈ (attributesM.get b.secs.whole).getD [] := by
    show _ ↔ a ∈ b.secs.whole.attributes.getD []
    cases b.secs.whole.attributes <;> simp
  have g2 : (∃ sec as, b.secs.sections[k]? = some sec ∧ sec.attributes = some as ∧ a ∈ as) ↔
      a ∈ ((b.secs.sections[k]?).bind attributesM.get).getD [] := by
    show _ ↔ a ∈ ((b.secs.sections[k]?).bind (·.attributes)).getD []
    cases b.secs.sections[k]? with
    | none => simp
    | some q => cases hq : q.attributes <;> simp [hq]
  rw [g1, g2, f1, f2]
  simp only [Option.getD_none, List.nil_append, List.mem_map, List.mem_filter]
  constructor
  · rintro (⟨l, ⟨hl, hw⟩, rfl⟩ | ⟨l, ⟨hl, hi⟩, rfl⟩)
    · have := (isWhole_iff h0 _ _).1 hw
      exact ⟨l, hl, ⟨0, _, this, Nat.zero_le _, by omega⟩, rfl⟩
    · exact ⟨l, hl, ((isIn_iff h0 _ _ _ (hr l hl)).1 hi).2, rfl⟩
  · rintro ⟨l, hl, hc, rfl⟩
    by_cases hw : Whole b.stops (c.attrRange l)
    · exact Or.inl ⟨l, ⟨hl, (isWhole_iff h0 _ _).2 hw⟩, rfl⟩
    · exact Or.inr ⟨l, ⟨hl, (isIn_iff h0 _ _ _ (hr l hl)).2 ⟨hw, hc⟩⟩, rfl⟩

/-- **C139** (train number): the last one given at a stop up to the section, else that of the head
line. -/
theorem C139_number {c : Cols} {s : Specif} {b : Built} (h : build c s = some b) (k : Nat)
    (hk : k + 1 < b.stops.length) (v : Nat) :
    Has (·.trainNum) b k v ↔ ∃ head, s.head = some head ∧
      CarriedOn c.stopNum (c.headNum head) s.stops k v := by
  obtain ⟨head, s1, s2, s3, s4, C⟩ := build_chain h
  have hs : Same (·.trainNum) (parseSections c head s.stops) b.secs :=
    ((((C.k1 _ ⟨fun _ _ => rfl, rfl⟩).trans (C.k2 _ ⟨fun _ _ => rfl, rfl⟩)).trans
      (C.k3 _ ⟨fun _ _ => rfl, rfl⟩)).trans (C.k4 _ ⟨fun _ _ => rfl, rfl⟩)).trans
      (C.k5 _ ⟨fun _ _ => rfl, rfl⟩)
  have e1 : b.secs.whole.trainNum = (parseSections c head s.stops).whole.trainNum := hs.1
  rw [has_iff, e1, hs.2 k, parseSections_num c head s.stops k
    (by have := mapM_length _ _ _ C.stops; omega) v]
  constructor
  · intro h; exact ⟨head, C.headEq, h⟩
  · rintro ⟨head', hh, h⟩
    rw [C.headEq] at hh
    cases hh
    exact h

/-- **C139** (administration). -/
theorem C139_admin {c : Cols} {s : Specif} {b : Built} (h : build c s = some b) (k : Nat)
    (hk : k + 1 < b.stops.length) (v : Line) :
    Has (·.admin) b k v ↔ ∃ head, s.head = some head ∧
      CarriedOn c.stopAdmin (c.headAdmin head) s.stops k v := by
  obtain ⟨head, s1, s2, s3, s4, C⟩ := build_chain h
  have hs : Same (·.admin) (parseSections c head s.stops) b.secs :=
    ((((C.k1 _ ⟨fun _ _ => rfl, rfl⟩).trans (C.k2 _ ⟨fun _ _ => rfl, rfl⟩)).trans
      (C.k3 _ ⟨fun _ _ => rfl, rfl⟩)).trans (C.k4 _ ⟨fun _ _ => rfl, rfl⟩)).trans
      (C.k5 _ ⟨fun _ _ => rfl, rfl⟩)
  have e1 : b.secs.whole.admin = (parseSections c head s.stops).whole.admin := hs.1
  rw [has_iff, e1, hs.2 k, parseSections_admin c head s.stops k
    (by have := mapM_length _ _ _ C.stops; omega) v]
  constructor
  · intro h; exact ⟨head, C.headEq, h⟩
  · rintro ⟨head', hh, h⟩
    rw [C.headEq] at hh
    cases hh
    exact h

/-- **C139** (rejection).  A service with a range that designates no stop is not loaded. -/
theorem C139_rejected {c : Cols} {s : Specif} {b : Built} (h : build c s = some b) (h0 : NoZero b.stops) :
    (∀ l ∈ s.attributes, ∃ f t, Range b.stops (c.attrRange l) f t) ∧
    (∀ l ∈ s.categories, ∃ f t, Range b.stops (c.catRange l) f t) ∧
    (∀ l ∈ s.lineInfos, ∃ f t, Range b.stops (c.lineRange l) f t) ∧
    (∀ l ∈ s.trafficDays, ∃ f t, Range b.stops (c.daysRange l) f t) ∧
    (∀ l ∈ s.directions, ∃ f t, Range b.stops (c.dirRange l) f t) := by
  obtain ⟨head, s1, s2, s3, s4, C⟩ := build_chain h
  have key : ∀ (rng : Line → RangeSpec) (l : Line), (∃ r, rangeOf b.stops (rng l) = some r) →
      ∃ f t, Range b.stops (rng l) f t := by
    rintro rng l ⟨⟨f, t⟩, hr⟩
    exact ⟨f, t, (range_iff h0 _ _ _).1 hr⟩
  exact ⟨fun l hl => key _ l (parseRange_ranges _ _ _ _ _ _ _ _ C.c1 l hl),
    fun l hl => key _ l (parseRange_ranges _ _ _ _ _ _ _ _ C.c2 l hl),
    fun l hl => key _ l (parseRange_ranges _ _ _ _ _ _ _ _ C.c3 l hl),
    fun l hl => key _ l (parseRange_ranges _ _ _ _ _ _ _ _ C.c4 l hl),
    fun l hl => key _ l (parseRange_ranges _ _ _ _ _ _ _ _ C.c5 l hl)⟩

/-- **C139** (stops, repetitions). -/
theorem C139_stops {c : Cols} {s : Specif} {b : Built} (h : build c s = some b) :
    2 ≤ b.stops.length ∧ s.stops.map c.stop = b.stops.map some ∧
    ∃ head, s.head = some head ∧ b.numRepetitions = c.repetitions head ∧ b.interval = c.interval head ∧
      b.initialNum = c.headNum head ∧ b.initialAdmin = c.headAdmin head := by
  obtain ⟨head, s1, s2, s3, s4, C⟩ := build_chain h
  refine ⟨C.two, ?_, head, C.headEq, C.nums⟩
  have key : ∀ (l : List Line) (r : List Stop), l.mapM c.stop = some r → l.map c.stop = r.map some := by
    intro l
    induction l with
    | nil => intro r h; cases h; rfl
    | cons a l ih =>
      intro r h
      rw [List.mapM_cons] at h
      obtain ⟨x, hx, h⟩ := Option.bind_eq_some_iff.1 h
      obtain ⟨y, hy, h⟩ := Option.bind_eq_some_iff.1 h
      cases h
      rw [List.map_cons, List.map_cons, ih y hy, hx]
  exact key _ _ C.stops

end Nigiri.HrdParse
