import Verif.Props.HrdWrite
import Verif.Props.HrdExamples
/-!
# C143: concrete services
-/

namespace Nigiri.HrdWrite.Ex
open Nigiri.HrdParse
open Nigiri.HrdParse.Ex
open Nigiri.HrdParse.Spec

/-- Codes as numbers. -/
def num (l : Line) : Nat := if l = ln "BT" then 1 else if l = ln "WL" then 2 else 9

/-- The service of the examples of C139 (four stops, stop lines with train numbers): its last section has
the attributes of the whole service and its own. -/
example : (build cols spec).map (fun b =>
    (b.secs.sections.length, [0, 1, 2].map fun i => shownAttributes (sectionAttributes num b 0 3) i)) =
    some (3, [some [1], some [1], some [1, 2]]) := by decide +kernel

/-- The part of the last two sections. -/
example : (build cols spec).map (fun b =>
    (b.secs.oob, [0, 1].map fun i => shownAttributes (sectionAttributes num b 1 3) i,
      [0, 1].map fun i => WriteTrips.direction (sectionDirections (fun _ => 7) b 1 3) i)) =
    some (false, [some [1], some [1, 2]], [some (some 7), some (some 7)]) := by decide +kernel
example : (build cols spec).map (fun b => operator (sectionProviders b 1 3)) =
    some (some (some (ln "db"))) := by decide +kernel
example : (build cols spec).map (fun b => operator (sectionProviders b 2 3)) =
    some (some (some (ln "sbb"))) := by decide +kernel

/-- The first section has no direction: the name of the last stop is shown. -/
example : (build cols spec).map (fun b => WriteTrips.direction (sectionDirections (fun _ => 7) b 0 3) 0) =
    some (some none) := by decide +kernel

/-- A service of two stops without further data, with an attribute line for the whole service. -/
def plain : Specif where
  head := some (ln "*Z 00005")
  trafficDays := [ln "*A VE"]
  categories := [ln "*G ICE "]
  attributes := [ln "*A BT "]
  stops := [ln "1a", ln "3d"]

/-- The full claim is false: the attribute line covers the only section, nothing is shown. -/
theorem C143_lost_false :
    (build cols plain).map (fun b => (b.secs.whole.attributes, shownAttributes (sectionAttributes num b 0 1) 0)) =
      some (some [(0, ln "BT")], some []) ∧
    ∀ b, build cols plain = some b → Covers b.stops (cols.attrRange (ln "*A BT ")) 0 := by
  constructor
  · decide +kernel
  · intro b hb
    have hs : (build cols plain).map (·.stops.length) = some 2 := by decide +kernel
    rw [hb] at hs
    have hs : b.stops.length = 2 := Option.some.inj hs
    have hr : cols.attrRange (ln "*A BT ") = ⟨.blank, .blank, .blank, .blank⟩ := by decide +kernel
    rw [hr]
    exact ⟨0, b.stops.length - 1, .whole, by omega, by omega⟩

/-- The attribute line of `spec` with traffic days: the bitfield number 77. -/
def colsDays : Cols := { cols with attr := fun l => (77, (l.drop 3).take 2) }

/-- The number of the traffic days of an attribute line is read and then not used: the attributes shown
are the same with and without it. -/
theorem C143_attribute_days_false :
    (build colsDays spec).map (fun b => (b.secs.whole.attributes, [0, 1, 2].map fun i => shownAttributes (sectionAttributes num b 0 3) i)) =
      some (some [(77, ln "BT")], [some [1], some [1], some [1, 2]]) := by decide +kernel

end Nigiri.HrdWrite.Ex
