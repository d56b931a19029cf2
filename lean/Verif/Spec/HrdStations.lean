import Verif.Model.HrdStations
/-!
# HRD stations: specification
-/

namespace Nigiri.HrdStations

/-- The files name station `e`. -/
def Known (names : List (Nat × String)) (coords : List (Nat × Int × Int)) (e : Nat) : Prop :=
  (∃ l ∈ names, l.1 = e) ∨ ∃ l ∈ coords, l.1 = e

/-- A line declares `x` to be equivalent to `e`. -/
def Declared (metas : List MetaLine) (e x : Nat) : Prop :=
  x ≠ 0 ∧ ∃ tokens, MetaLine.equiv e tokens ∈ metas ∧ some x ∈ tokens

/-- A line of a footpath from `e` to `x` (with the mark `f`). -/
def FootLine (metas : List MetaLine) (e x d : Nat) (f : Bool) : Prop := MetaLine.foot e x d f ∈ metas

/-- `d` is the shortest duration of the footpath lines from `e` to `x`. -/
def Shortest (metas : List MetaLine) (e x d : Nat) : Prop :=
  (∃ f, FootLine metas e x d f) ∧ ∀ d' f, FootLine metas e x d' f → d ≤ d'

/-- The last of the lines for station `e`. -/
def LastFor {α : Type} (lines : List (Nat × α)) (e : Nat) (a : α) : Prop :=
  ∃ pre post, lines = pre ++ (e, a) :: post ∧ ∀ l ∈ post, l.1 ≠ e

end Nigiri.HrdStations
