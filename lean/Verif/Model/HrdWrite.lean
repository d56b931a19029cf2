import Verif.Model.HrdParse
import Verif.Model.WriteTrips
/-!
# Data of the sections of an HRD service in the timetable

Model of the part of `service_builder::write_services` that decides what is stored for the sections of a
transport (`src/loader/hrd/service/service_builder.cc:109-186`), of the classes of the sections
(`:14-32`), and of the functions that read it (`src/rt/frun.cc:395-440`).  A transport belongs to a part
of a service: the sections `from', …, to' - 1` (`split_info`).

Simplified: combinations of attributes are the lists themselves (the code stores a number for each
list); `erase_duplicates` sorts them, here only duplicates are removed.
-/

namespace Nigiri.HrdWrite
open Nigiri.HrdParse

/-- `ref_service::sections`, `ref_service.h:81-84`. -/
def partSections (b : Built) (f t : Nat) : List Sec := (b.secs.sections.drop f).take (t - f)

/-- `get_attribute_combination_idx`, `service_builder.cc:109-135`; `num`: `resolve_attribute`. -/
def combination (num : Line → Nat) (a c : Option (List (Nat × Line))) : List Nat :=
  ((a.getD [] ++ c.getD []).map fun x => num x.2).eraseDups

/-- `section_attributes_`, `service_builder.cc:136-158`. -/
def sectionAttributes (num : Line → Nat) (b : Built) (f t : Nat) : List (List Nat) :=
  if b.secs.sections ≠ [] ∧ b.secs.sections.all (fun s => s.attributes.isNone) then
    (match b.secs.whole.attributes with
    | some a => [combination num (some a) none]
    | none => [])
  else if b.secs.sections ≠ [] then
    (partSections b f t).map fun s => combination num b.secs.whole.attributes s.attributes
  else []

/-- `section_providers_`, `service_builder.cc:160-171`; an entry `none`: exception. -/
def sectionProviders (b : Built) (f t : Nat) : List (Option Line) :=
  match b.secs.whole.admin with
  | some a => [some a]
  | none => if b.secs.sections ≠ [] then (partSections b f t).map (·.admin) else []

/-- `section_directions_`, `service_builder.cc:173-190`; `tr`: `resolve_direction`, 0 =
`kEmptyTranslation`. -/
def sectionDirections (tr : Dir → Nat) (b : Built) (f t : Nat) : List Nat :=
  match b.secs.whole.direction with
  | some d => [tr d]
  | none =>
    if b.secs.sections ≠ [] ∧ (partSections b f t).any (fun s => s.direction.isSome) then
      (partSections b f t).map fun s => (s.direction.map tr).getD 0
    else []

/-- The class of a resolved category, `service_builder.cc:19-21` and `:28-30`. -/
def classOf (nm : Names) (c : Line) : Nat :=
  match nm.category c with
  | none => 15
  | some x => x.clasz

/-- The classes in the route key, `service_builder.cc:14-32`; a section without category (an assertion)
gets 15. -/
def sectionsClasz (nm : Names) (b : Built) (f t : Nat) : List Nat :=
  match b.secs.whole.category with
  | some c => [classOf nm c]
  | none => (partSections b f t).map fun s => (s.category.map (classOf nm)).getD 15

/-- `run_stop::get_attribute_combination`, `frun.cc:418-430`: combination 0 is the empty one;
`none`: `at` throws. -/
def shownAttributes (l : List (List Nat)) (i : Nat) : Option (List Nat) :=
  if l = [] then some [] else WriteTrips.section_ l i

/-- `run_stop::get_clasz`, `frun.cc:432-443`. -/
def shownClasz (l : List Nat) (i : Nat) : Option Nat := WriteTrips.section_ l i

/-- What `get_transport` takes the operator (and its time zone) from, `get_transport.cc:38-39`. -/
def operator (l : List (Option Line)) : Option (Option Line) := l.head?

end Nigiri.HrdWrite
