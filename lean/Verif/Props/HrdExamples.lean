import Verif.Props.HrdFile
/-!
# C139–C141: concrete services, and where the loader does otherwise
-/

namespace Nigiri.HrdParse.Ex
open Nigiri.HrdParse
open Hrd (Event Stop)
open Spec

def ln (s : String) : Line := s.toList

/-- Four stops, the stations 1, 2, 1, 3. -/
def stopOf (l : Line) : Option Stop :=
  if l = ln "1a" then some ⟨1, ⟨-1, true⟩, ⟨600, true⟩⟩
  else if l = ln "2b" then some ⟨2, ⟨610, true⟩, ⟨611, true⟩⟩
  else if l = ln "1c" then some ⟨1, ⟨620, true⟩, ⟨621, true⟩⟩
  else if l = ln "3d" then some ⟨3, ⟨630, true⟩, ⟨-1, true⟩⟩
  else none

/-- Ranges by the last letter of a line. -/
def rangeBy (l : Line) : RangeSpec :=
  match l.getLast? with
  | some 'p' => ⟨.num 1, .num 2, .blank, .blank⟩
  | some 'q' => ⟨.num 2, .num 3, .num 1011, .num 1030⟩
  | some 'r' => ⟨.num 1, .num 3, .index 1, .blank⟩
  | some 'x' => ⟨.index 1, .index 9, .blank, .blank⟩
  | some 'z' => ⟨.num 7, .num 3, .blank, .blank⟩
  | _ => {}

def cols : Cols where
  headNum := fun _ => 5
  headAdmin := fun _ => ln "db"
  repetitions := fun _ => 0
  interval := fun _ => 0
  stop := stopOf
  stopNum := fun l => if l = ln "2b" then some 6 else none
  stopAdmin := fun l => if l = ln "1c" then some (ln "sbb") else none
  attrRange := rangeBy
  attr := fun l => (0, (l.drop 3).take 2)
  catRange := rangeBy
  cat := fun l => (l.drop 3).take 3
  lineRange := rangeBy
  lineOf := fun l => (l.drop 3).take 2
  daysRange := rangeBy
  days := fun l => l.length
  dirRange := rangeBy
  dirCode := fun l => if l[3]? = some ' ' then none else some (l.drop 3)

/-- A service with two categories. -/
def spec : Specif where
  head := some (ln "*Z 00005")
  trafficDays := [ln "*A VE"]
  categories := [ln "*G ICEp", ln "*G RE q"]
  attributes := [ln "*A BT ", ln "*A WLr"]
  directions := [ln "*R  q"]
  stops := [ln "1a", ln "2b", ln "1c", ln "3d"]

/-- `C139_*`: the service is built. -/
theorem built : (build cols spec).map (·.secs) = some
    { sections :=
        [{ trainNum := some 5, admin := some (ln "db"), category := some (ln "ICE") },
         { trainNum := some 6, admin := some (ln "db"), category := some (ln "RE "),
           direction := some (.station 3) },
         { trainNum := some 6, admin := some (ln "sbb"), category := some (ln "RE "),
           attributes := some [(0, ln "WL")], direction := some (.station 3) }]
      whole := { attributes := some [(0, ln "BT")], trafficDays := some 5 }
      oob := false } := by decide +kernel

example : ∀ b, build cols spec = some b → NoZero b.stops ∧ b.stops.length = 4 := by
  intro b hb
  have hs : (build cols spec).map (·.stops) =
      some [⟨1, ⟨-1, true⟩, ⟨600, true⟩⟩, ⟨2, ⟨610, true⟩, ⟨611, true⟩⟩,
        ⟨1, ⟨620, true⟩, ⟨621, true⟩⟩, ⟨3, ⟨630, true⟩, ⟨-1, true⟩⟩] := by decide +kernel
  rw [hb] at hs
  have hs : b.stops = _ := Option.some.inj hs
  refine ⟨?_, by rw [hs]; rfl⟩
  unfold NoZero
  rw [hs]
  decide

/-- A line for the whole service counts, although a later line is given for some sections. -/
example : (build cols { spec with categories := [ln "*G ICE ", ln "*G RE q"] }).map
    (fun b => (b.secs.whole.category, b.secs.sections.map (·.category))) =
    some (some (ln "ICE"), [none, some (ln "RE "), some (ln "RE ")]) := by decide +kernel

/-- **C139**: a range that designates nothing: the service is rejected. -/
example : build cols { spec with attributes := [ln "*A WLz"] } = none := by
  have h : (build cols { spec with attributes := [ln "*A WLz"] }).isNone = true := by decide +kernel
  exact Option.isNone_iff_eq_none.1 h

/-- **C139** fails for an index that is too large: it is not checked, memory behind the sections is
written. -/
theorem C139_index_unchecked :
    (build cols { spec with attributes := [ln "*A WLx"] }).map (·.secs.oob) = some true := by
  decide +kernel

/-! ## C140 -/

def file1 : List Line := [ln "% comment", ln "*Z 00005", ln "*A VE", ln "*G ICEp", ln "1a", ln "2b"]
def file2 : List Line := [ln "*KW 00006", ln "1a", ln "3d"]

/-- A file with two services, the second of which is no train. -/
example : parseServices (fun s => ([s.stops.length], false)) (file1 ++ file2) = some [2] := by
  decide +kernel

/-- `C140_services` is applicable. -/
example : (∀ l ∈ [ln "% comment"], Comment l) ∧ Head (ln "*Z 00005") ∧ Head (ln "*KW 00006") ∧
    (∀ l ∈ [ln "*A VE", ln "*G ICEp", ln "1a", ln "*KWZ"], Body l) := by
  refine ⟨?_, ⟨'Z', ln " 00005", rfl, Or.inl rfl⟩, ⟨'K', ln "W 00006", rfl, Or.inr (Or.inr ⟨rfl, by decide⟩)⟩, ?_⟩
  · intro l hl
    obtain rfl := List.mem_singleton.1 hl
    exact Or.inr rfl
  · have nh : ∀ l : Line, l[1]? ≠ some 'Z' → l[1]? ≠ some 'T' → l[1]? ≠ some 'K' → ¬ Head l := by
      rintro l h1 h2 h3 ⟨c, rest, rfl, rfl | rfl | ⟨rfl, _⟩⟩
      · exact h1 rfl
      · exact h2 rfl
      · exact h3 rfl
    intro l hl
    rcases List.mem_cons.1 hl with rfl | hl
    · exact Or.inr (Or.inr ⟨⟨'A', ln " VE", rfl⟩, nh _ (by decide) (by decide) (by decide)⟩)
    rcases List.mem_cons.1 hl with rfl | hl
    · exact Or.inr (Or.inr ⟨⟨'G', ln " ICEp", rfl⟩, nh _ (by decide) (by decide) (by decide)⟩)
    rcases List.mem_cons.1 hl with rfl | hl
    · exact Or.inr (Or.inl ⟨'1', ln "a", rfl, by decide⟩)
    obtain rfl := List.mem_singleton.1 hl
    refine Or.inr (Or.inr ⟨⟨'K', ln "WZ", rfl⟩, ?_⟩)
    rintro ⟨c, rest, he, h⟩
    have : rest = ln "WZ" ∧ c = 'K' := by
      have he' : '*' :: 'K' :: ln "WZ" = '*' :: c :: rest := he
      injection he' with _ he'
      injection he' with h1 h2
      exact ⟨h2.symm, h1.symm⟩
    obtain ⟨rfl, rfl⟩ := this
    rcases h with h | h | ⟨_, h⟩
    · exact absurd h (by decide)
    · exact absurd h (by decide)
    · exact h rfl

/-- **C140**, a difference to a user's expectation: a service that cannot be loaded is skipped, but if it
is the last one of the file the import fails. -/
theorem C140_last_service_false :
    parseServices (α := Nat) (fun _ => ([], true)) (file1 ++ file2) = some [] ∧
    parseServices (α := Nat) (fun _ => ([], true)) file1 = none := by decide +kernel

/-- **C140** fails for lines in front of the first head line: they become lines of the first service. -/
theorem C140_leading_lines_false :
    parseServices (fun s => ([s.stops], false)) (ln "3d" :: file1) =
      some [[ln "3d", ln "1a", ln "2b"]] := by decide +kernel

/-! ## C141 -/

def names : Names where
  category := fun l =>
    if l = ln "ICE" then some ⟨"ICE", 0, 1⟩
    else if l = ln "RE " then some ⟨"RE", 1, 6⟩
    else none
  provider := fun _ => "DB"

def intercity : Built :=
  { numRepetitions := 0, interval := 0, stops := [], initialAdmin := ln "db", initialNum := 5
    secs := { sections := [{ category := some (ln "ICE") }, { category := some (ln "RE ") }]
              whole := { admin := some (ln "db"), line := some (ln "L1") } } }

/-- `C141_name_partial` is applicable. -/
example : Has (·.category) intercity 0 (ln "ICE") ∧ names.category (ln "ICE") = some ⟨"ICE", 0, 1⟩ ∧
    Has (·.admin) intercity 0 (ln "db") ∧ Has (·.line) intercity 0 (ln "L1") ∧
    displayName names intercity = some "ICE 5" :=
  ⟨Or.inr ⟨rfl, _, rfl, rfl⟩, by decide +kernel, Or.inl rfl, Or.inl rfl, by decide +kernel⟩

/-- **C141** fails for the parts of a split service: the part that begins at section 1 is of the class of
its own category, but has the name of the first section of the whole service. -/
theorem C141_part_false : sectionClasz names intercity 1 = some 6 ∧
    displayName names intercity = some "ICE 5" := by decide +kernel

/-- **C141** fails for unknown categories: the route gets the class "other", the name reads a null
pointer. -/
theorem C141_unknown_category_false (b : Built) (c : Line) (h : b.secs.whole.category = some c)
    (hc : names.category c = none) (k : Nat) :
    sectionClasz names b k = some 15 ∧ displayName names b = none := by
  unfold sectionClasz displayName nameCategory
  simp [h, hc]

example : ({ intercity with secs := { whole := { category := some (ln "XYZ") } } } : Built).secs.whole.category =
    some (ln "XYZ") ∧ names.category (ln "XYZ") = none := ⟨rfl, by decide +kernel⟩

def regional : Built :=
  { numRepetitions := 0, interval := 0, stops := [], initialAdmin := ln "db", initialNum := 5
    secs := { whole := { category := some (ln "RE "), admin := some (ln "db"), line := some (ln "L1") } } }

/-- **C141** fails for names without number: they end with a blank. -/
theorem C141_trailing_blank_false : displayName names regional = some "RE " ∧
    ¬ NameSpec ⟨"RE", 1, 6⟩ "DB" 5 "L1" "RE " := by
  refine ⟨by decide +kernel, ?_⟩
  rintro ⟨first, second, rfl, rfl, h | h | h⟩
  · exact absurd h.1 (by decide)
  · exact absurd h.2 (by decide)
  · exact absurd h.2.1 (by decide)

end Nigiri.HrdParse.Ex
