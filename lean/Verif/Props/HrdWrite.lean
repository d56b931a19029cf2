import Verif.Model.HrdWrite
import Verif.Props.HrdFile
/-!
# C143: what a section of an imported HRD service shows
-/

namespace Nigiri.HrdWrite
open Nigiri.HrdParse
open Nigiri.HrdParse.Spec

/-- No section has data of its own, or all sections are stored. -/
def Full (n : Nat) (st : SecState) : Prop := st.sections = [] ∨ st.sections.length = n - 1

theorem full_apply {α : Type} (m : Member α) (n : Nat) (f : Option α → Option α) (r : Nat × Nat)
    (st : SecState) (h : Full n st) : Full n (applyRange m n f r st) := by
  unfold applyRange
  split
  · exact h
  · right
    show ((resize st.sections (n - 1)).mapIdx _).length = _
    rw [List.length_mapIdx]
    unfold resize
    rcases h with h | h
    · rw [h]; simp
    · simp [h]

theorem full_parse {α : Type} (m : Member α) (stops : List Hrd.Stop) (rng : Line → RangeSpec)
    (upd : Line → Nat × Nat → Option α → Option α) (bad : Line → Nat × Nat → Bool) (lines : List Line)
    (st st' : SecState) (h : parseRange m stops rng upd bad st lines = some st')
    (hl : Full stops.length st) : Full stops.length st' := by
  induction lines generalizing st with
  | nil => cases h; exact hl
  | cons l ls ih =>
    unfold parseRange at h
    split at h
    · cases h
    · exact ih _ h (full_apply m _ _ _ _ hl)

theorem sectionLoop_len (c : Cols) (l : List Line) : ∀ (n : Nat) (a : Line), (sectionLoop c n a l).length = l.length := by
  induction l with
  | nil => intro n a; rfl
  | cons x l ih => intro n a; simp only [sectionLoop, List.length_cons, ih]

theorem full_build {c : Cols} {s : Specif} {b : Built} (h : build c s = some b) : Full b.stops.length b.secs := by
  obtain ⟨head, s1, s2, s3, s4, C⟩ := build_chain h
  have hlen : s.stops.length = b.stops.length := (mapM_length _ _ _ C.stops).symm
  have h0 : Full b.stops.length (parseSections c head s.stops) := by
    unfold parseSections
    split
    · exact Or.inl rfl
    · right
      show (sectionLoop c _ _ s.stops.dropLast).length = _
      rw [sectionLoop_len, List.length_dropLast, hlen]
  exact full_parse _ _ _ _ _ _ _ _ C.c5 (full_parse _ _ _ _ _ _ _ _ C.c4 (full_parse _ _ _ _ _ _ _ _ C.c3
    (full_parse _ _ _ _ _ _ _ _ C.c2 (full_parse _ _ _ _ _ _ _ _ C.c1 h0))))

theorem part_get (b : Built) (f t i : Nat) (hi : i < t - f) :
    (partSections b f t)[i]? = b.secs.sections[f + i]? := by
  unfold partSections
  rw [List.getElem?_take_of_lt hi, List.getElem?_drop]

theorem part_len (b : Built) (f t : Nat) (ht : t ≤ b.secs.sections.length) :
    (partSections b f t).length = t - f := by
  unfold partSections
  rw [List.length_take, List.length_drop]
  omega

/-- The entry of section `i` of a list with one entry for each section of the part. -/
theorem section_map {α : Type} (g : Sec → α) (b : Built) (f t i : Nat) (ht : t ≤ b.secs.sections.length)
    (hi : i < t - f) (s : Sec) (hs : b.secs.sections[f + i]? = some s) :
    WriteTrips.section_ ((partSections b f t).map g) i = some (g s) := by
  have hg : ((partSections b f t).map g)[i]? = some (g s) := by
    rw [List.getElem?_map, part_get b f t i hi, hs]; rfl
  unfold WriteTrips.section_
  split
  · rename_i h1
    rw [List.length_map, part_len b f t ht] at h1
    rw [show i = 0 by omega] at hg
    exact hg
  · exact hg

theorem section_one {α : Type} (x : α) (i : Nat) : WriteTrips.section_ [x] i = some x := rfl

theorem mem_combination (num : Line → Nat) (a c : Option (List (Nat × Line))) (x : Nat) :
    x ∈ combination num a c ↔ (∃ y, ((∃ l, a = some l ∧ y ∈ l) ∨ ∃ l, c = some l ∧ y ∈ l) ∧ x = num y.2) := by
  unfold combination
  rw [List.mem_eraseDups, List.mem_map]
  constructor
  · rintro ⟨y, hy, rfl⟩
    refine ⟨y, ?_, rfl⟩
    rw [List.mem_append] at hy
    rcases hy with hy | hy
    · left; cases a with
      | none => cases hy
      | some l => exact ⟨l, rfl, hy⟩
    · right; cases c with
      | none => cases hy
      | some l => exact ⟨l, rfl, hy⟩
  · rintro ⟨y, (⟨l, rfl, hy⟩ | ⟨l, rfl, hy⟩), rfl⟩
    · exact ⟨y, List.mem_append_left _ hy, rfl⟩
    · exact ⟨y, List.mem_append_right _ hy, rfl⟩

section
variable {c : Cols} {s : Specif} {b : Built} (h : build c s = some b) (h0 : NoZero b.stops)
  (f t i : Nat) (ht : t + 1 ≤ b.stops.length) (hi : i < t - f)
include h h0 ht hi

/-- **C143** (attributes).  Section `i` of the vehicle that is imported for the sections `f, …, t - 1` of
a service shows exactly the attributes of the `*A` lines that cover section `f + i` of the service.
Partial: only if the service has data of its own for some section; otherwise all attributes are lost
(`C143_attributes_lost`, `C143_lost_false`). -/
theorem C143_attributes_partial (num : Line → Nat) (hne : b.secs.sections ≠ []) :
    ∃ l, shownAttributes (sectionAttributes num b f t) i = some l ∧
      ∀ x, x ∈ l ↔ ∃ q ∈ s.attributes, Covers b.stops (c.attrRange q) (f + i) ∧ x = num (c.attr q).2 := by
  have hlen : b.secs.sections.length = b.stops.length - 1 := (full_build h).resolve_left hne
  obtain ⟨sec, hsec⟩ : ∃ sec, b.secs.sections[f + i]? = some sec :=
    ⟨_, List.getElem?_eq_getElem (by omega)⟩
  have hA := fun a => C139_attributes h h0 (f + i) (by omega) a
  have fin : ∀ l : List Nat, l = combination num b.secs.whole.attributes sec.attributes →
      ∀ x, x ∈ l ↔ ∃ q ∈ s.attributes, Covers b.stops (c.attrRange q) (f + i) ∧ x = num (c.attr q).2 := by
    rintro l rfl x
    rw [mem_combination]
    constructor
    · rintro ⟨y, hy, rfl⟩
      have : (∃ as, b.secs.whole.attributes = some as ∧ y ∈ as) ∨
          ∃ sec as, b.secs.sections[f + i]? = some sec ∧ sec.attributes = some as ∧ y ∈ as := by
        rcases hy with hy | ⟨l, h1, h2⟩
        · exact Or.inl hy
        · exact Or.inr ⟨sec, l, hsec, h1, h2⟩
      obtain ⟨q, hq, h1, rfl⟩ := (hA y).1 this
      exact ⟨q, hq, h1, rfl⟩
    · rintro ⟨q, hq, h1, rfl⟩
      refine ⟨c.attr q, ?_, rfl⟩
      rcases (hA (c.attr q)).2 ⟨q, hq, h1, rfl⟩ with h2 | ⟨sec', l, h2, h3⟩
      · exact Or.inl h2
      · rw [hsec] at h2; cases h2
        exact Or.inr ⟨l, h3⟩
  unfold sectionAttributes
  by_cases hall : b.secs.sections ≠ [] ∧ (b.secs.sections.all (fun s => s.attributes.isNone)) = true
  · have hnone : sec.attributes = none := by
      have := List.all_eq_true.1 hall.2 sec (List.mem_of_getElem? hsec)
      exact Option.isNone_iff_eq_none.1 this
    rw [if_pos hall]
    cases hw : b.secs.whole.attributes with
    | none =>
      refine ⟨[], rfl, fin [] ?_⟩
      rw [hw, hnone]; rfl
    | some a =>
      refine ⟨_, rfl, fin _ ?_⟩
      rw [hw, hnone]
  · rw [if_neg hall, if_pos hne]
    refine ⟨combination num b.secs.whole.attributes sec.attributes, ?_, fin _ rfl⟩
    unfold shownAttributes
    have hm := section_map (fun s => combination num b.secs.whole.attributes s.attributes) b f t i (by omega) hi sec hsec
    rw [if_neg]
    · exact hm
    · intro he
      have : ((partSections b f t).map fun s => combination num b.secs.whole.attributes s.attributes).length = t - f := by
        rw [List.length_map, part_len b f t (by omega)]
      rw [he] at this
      simp at this
      omega

/-- **C143** (direction).  Section `i` shows the direction of the `*R` line in force on section `f + i`
of the service (the name of the last stop if its text is unknown or empty) … -/
theorem C143_direction_partial (tr : Dir → Nat) (hoob : b.secs.oob = false) (q : Line) (v : Dir)
    (hq : InForce b.stops c.dirRange s.directions (f + i) q) (hv : DirectionOf c b.stops q v) :
    WriteTrips.direction (sectionDirections tr b f t) i = some (if tr v = 0 then none else some (tr v)) := by
  have hhas := (C139_direction_partial h h0 hoob (f + i) (by omega) v).2 ⟨q, hq, hv⟩
  unfold sectionDirections
  rcases hhas with hw | ⟨hw, sec, hsec, hd⟩
  · simp only at hw
    rw [hw]
    show (if [tr v] = [] then some none else _) = _
    rw [if_neg (by simp)]
    rfl
  · simp only at hw hd
    rw [hw]
    have hne : b.secs.sections ≠ [] := by intro he; rw [he] at hsec; cases hsec
    have hlen : b.secs.sections.length = b.stops.length - 1 := (full_build h).resolve_left hne
    have hmem : sec ∈ partSections b f t := by
      rw [← part_get b f t i hi] at hsec
      exact List.mem_of_getElem? hsec
    have hc : b.secs.sections ≠ [] ∧ ((partSections b f t).any (fun s => s.direction.isSome)) = true :=
      ⟨hne, List.any_eq_true.2 ⟨sec, hmem, by rw [hd]; rfl⟩⟩
    show WriteTrips.direction (if _ then _ else _) i = _
    rw [if_pos hc]
    have hm := section_map (fun s => (s.direction.map tr).getD 0) b f t i (by omega) hi sec hsec
    unfold WriteTrips.direction
    rw [if_neg, hm]
    · simp only [hd, Option.map_some, Option.getD_some]
    · intro he
      have hz : ((partSections b f t).map fun s => (s.direction.map tr).getD 0).length = t - f := by
        rw [List.length_map, part_len b f t (by omega)]
      rw [he] at hz
      simp at hz
      omega

/-- **C143** … and the name of the last stop if no `*R` line covers it. -/
theorem C143_no_direction_partial (tr : Dir → Nat) (hoob : b.secs.oob = false)
    (hno : ∀ q v, InForce b.stops c.dirRange s.directions (f + i) q → ¬ DirectionOf c b.stops q v) :
    WriteTrips.direction (sectionDirections tr b f t) i = some none := by
  have hhas : ∀ v, ¬ Has (·.direction) b (f + i) v := by
    intro v hv
    obtain ⟨q, h1, h2⟩ := (C139_direction_partial h h0 hoob (f + i) (by omega) v).1 hv
    exact hno q v h1 h2
  unfold sectionDirections
  cases hw : b.secs.whole.direction with
  | some d => exact absurd (Or.inl hw) (hhas d)
  | none =>
    show WriteTrips.direction (if _ then _ else _) i = _
    by_cases hc : b.secs.sections ≠ [] ∧ ((partSections b f t).any (fun s => s.direction.isSome)) = true
    · rw [if_pos hc]
      have hlen : b.secs.sections.length = b.stops.length - 1 := (full_build h).resolve_left hc.1
      obtain ⟨sec, hsec⟩ : ∃ sec, b.secs.sections[f + i]? = some sec :=
        ⟨_, List.getElem?_eq_getElem (by omega)⟩
      have hd : sec.direction = none := by
        cases hx : sec.direction with
        | none => rfl
        | some d => exact absurd (Or.inr ⟨hw, sec, hsec, hx⟩) (hhas d)
      have hm := section_map (fun s => (s.direction.map tr).getD 0) b f t i (by omega) hi sec hsec
      unfold WriteTrips.direction
      rw [hm]
      split
      · rfl
      · simp [hd]
    · rw [if_neg hc]; rfl

/-- **C143** (class).  The class shown for section `i` is that of the category of the `*G` line in force
on section `f + i`, kOther for a category that is not in the category file. -/
theorem C143_class (nm : Names) (q : Line) (hq : InForce b.stops c.catRange s.categories (f + i) q) :
    shownClasz (sectionsClasz nm b f t) i = some (match nm.category (c.cat q) with | none => 15 | some x => x.clasz) := by
  have hhas := (C139_category h h0 (f + i) (by omega) _).2 ⟨q, hq, rfl⟩
  unfold sectionsClasz shownClasz
  rcases hhas with hw | ⟨hw, sec, hsec, hd⟩
  · simp only at hw
    rw [hw]
    rfl
  · simp only at hw hd
    rw [hw]
    have hne : b.secs.sections ≠ [] := by intro he; rw [he] at hsec; cases hsec
    have hlen : b.secs.sections.length = b.stops.length - 1 := (full_build h).resolve_left hne
    have hm := section_map (fun s => (s.category.map (classOf nm)).getD 15) b f t i (by omega) hi sec hsec
    refine hm.trans ?_
    rw [hd]
    rfl

end

/-- **C143** (line).  The line in the identifier of the trip of a part (`line_info`) is that of the `*L` line in
force on the first section of the part, and empty if no such line covers it. -/
theorem C143_line {c : Cols} {s : Specif} {b : Built} (h : build c s = some b) (h0 : NoZero b.stops) (f : Nat)
    (hf : f + 1 < b.stops.length) :
    (∀ q, InForce b.stops c.lineRange s.lineInfos f q → lineInfo b f = c.lineOf q) ∧
    ((∀ q, ¬ InForce b.stops c.lineRange s.lineInfos f q) → lineInfo b f = []) := by
  have hL := fun v => C139_line h h0 f hf v
  unfold lineInfo
  constructor
  · intro q hq
    rcases (hL _).2 ⟨q, hq, rfl⟩ with hw | ⟨hw, sec, hsec, hd⟩
    · simp only at hw; rw [hw]
    · simp only at hw hd; rw [hw, hsec]; simp [hd]
  · intro hno
    have hn : ∀ v, ¬ Has (·.line) b f v := fun v hv => by
      obtain ⟨q, hq, _⟩ := (hL v).1 hv
      exact hno q hq
    cases hw : b.secs.whole.line with
    | some l => exact absurd (Or.inl hw) (hn l)
    | none =>
      show ((b.secs.sections[f]?).bind (·.line)).getD [] = []
      cases hx : (b.secs.sections[f]?).bind (·.line) with
      | none => rfl
      | some l =>
        obtain ⟨sec, hsec, hl⟩ := Option.bind_eq_some_iff.1 hx
        exact absurd (Or.inr ⟨hw, sec, hsec, hl⟩) (hn l)

/-- **C143** (operator).  The operator of an imported vehicle is the administration that is in force on
its first section: the last one given at a stop up to it, else that of the head line. -/
theorem C143_operator {c : Cols} {s : Specif} {b : Built} (h : build c s = some b) (f t : Nat)
    (ht : t + 1 ≤ b.stops.length) (hft : f < t) (head v : Line) (hh : s.head = some head)
    (hv : CarriedOn c.stopAdmin (c.headAdmin head) s.stops f v) :
    operator (sectionProviders b f t) = some (some v) := by
  have hhas := (C139_admin h f (by omega) v).2 ⟨head, hh, hv⟩
  unfold sectionProviders operator
  rcases hhas with hw | ⟨hw, sec, hsec, hd⟩
  · simp only at hw
    rw [hw]; rfl
  · simp only at hw hd
    rw [hw]
    have hne : b.secs.sections ≠ [] := by intro he; rw [he] at hsec; cases hsec
    show (if _ then _ else _ : List (Option Line)).head? = _
    rw [if_pos hne, List.head?_eq_getElem?, List.getElem?_map, part_get b f t 0 (by omega)]
    show Option.map _ (b.secs.sections[f]?) = _
    rw [hsec, ← hd]; rfl

/-- **C143** (lost attributes).  If all lines of a service are for the whole service and none of its
stops gives a number or administration — the ordinary case —, no section of it shows any attribute. -/
theorem C143_attributes_lost {b : Built} (hne : b.secs.sections = []) (num : Line → Nat) (f t i : Nat) :
    shownAttributes (sectionAttributes num b f t) i = some [] := by
  unfold sectionAttributes
  rw [if_neg (fun hc => hc.1 hne), if_neg (fun hc => hc hne)]
  rfl

end Nigiri.HrdWrite
