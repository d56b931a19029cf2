import Verif.Model.HrdParse
/-!
# What reading an HRD file means

Written without the functions of the model; the types (`Tok`, `RangeSpec`, `Cols`, …) are those of the
model.
-/

namespace Nigiri.HrdParse.Spec
open Nigiri.HrdParse
open Hrd (Stop)

/-! ## Ranges -/

/-- `i` is the `n`-th (counted from 0) visit of station `e`. -/
def Visit (stops : List Stop) (e n i : Nat) : Prop :=
  (∃ s, stops[i]? = some s ∧ s.eva = e) ∧
    ((stops.take i).filter fun s => decide (s.eva = e)).length = n

/-- `hhmm` as minutes. -/
def IsTime (hhmm : Nat) (min : Int) : Prop := min = 60 * (hhmm / 100 : Nat) + (hhmm % 100 : Nat)

/-- The stop with index `i` is a visit of `e` with a departure at `hhmm`. -/
def DepartsAt (stops : List Stop) (e hhmm i : Nat) : Prop :=
  ∃ s, stops[i]? = some s ∧ s.eva = e ∧ IsTime hhmm s.dep.time

/-- … with an arrival at `hhmm`. -/
def ArrivesAt (stops : List Stop) (e hhmm i : Nat) : Prop :=
  ∃ s, stops[i]? = some s ∧ s.eva = e ∧ IsTime hhmm s.arr.time

/-- The stop where a range begins. -/
inductive Begins (stops : List Stop) : Tok → Tok → Nat → Prop
  /-- the index of the stop is given -/
  | index (i : Nat) (t : Tok) : Begins stops (.index i) t i
  /-- a station only: its first visit -/
  | station {e i : Nat} : Visit stops e 0 i → Begins stops (.num e) .blank i
  /-- a station and a number: its visit with this number -/
  | visit {e n i : Nat} : Visit stops e n i → Begins stops (.num e) (.index n) i
  /-- a station and a time: its first departure at this time -/
  | time {e t i : Nat} : DepartsAt stops e t i → (∀ j, j < i → ¬ DepartsAt stops e t j) →
      Begins stops (.num e) (.num t) i

/-- The stop where a range ends. -/
inductive Ends (stops : List Stop) : Tok → Tok → Nat → Prop
  | index (i : Nat) (t : Tok) : Ends stops (.index i) t i
  | station {e i : Nat} : Visit stops e 0 i → Ends stops (.num e) .blank i
  | visit {e n i : Nat} : Visit stops e n i → Ends stops (.num e) (.index n) i
  /-- a station and a time: its last arrival at this time -/
  | time {e t i : Nat} : ArrivesAt stops e t i → (∀ j, i < j → ¬ ArrivesAt stops e t j) →
      Ends stops (.num e) (.num t) i

/-- The range goes from stop `f` to stop `t`: the whole service if no column is given. -/
inductive Range (stops : List Stop) : RangeSpec → Nat → Nat → Prop
  | whole : Range stops ⟨.blank, .blank, .blank, .blank⟩ 0 (stops.length - 1)
  | part {fe te ft tt f t} : Begins stops fe ft f → Ends stops te tt t → Range stops ⟨fe, te, ft, tt⟩ f t

/-- Section `k` (from stop `k` to stop `k + 1`) is in the range. -/
def Covers (stops : List Stop) (r : RangeSpec) (k : Nat) : Prop :=
  ∃ f t, Range stops r f t ∧ f ≤ k ∧ k < t

/-- The range is that of the whole service. -/
def Whole (stops : List Stop) (r : RangeSpec) : Prop := Range stops r 0 (stops.length - 1)

/-- `l` is the last line with `P`. -/
def LastWith (P : Line → Prop) (lines : List Line) (l : Line) : Prop :=
  ∃ pre post, lines = pre ++ l :: post ∧ P l ∧ ∀ q ∈ post, ¬ P q

/-- The line that counts for section `k`: the last one for the whole service, if there is one, else the
last one that covers the section. -/
def InForce (stops : List Stop) (rng : Line → RangeSpec) (lines : List Line) (k : Nat) (l : Line) : Prop :=
  LastWith (fun q => Whole stops (rng q)) lines l ∨
  ((∀ q ∈ lines, ¬ Whole stops (rng q)) ∧ LastWith (fun q => Covers stops (rng q) k) lines l)

/-- What section `k` of a loaded service is said to have: the value of the whole service, if there is
one, else that of the section. -/
def Has {α : Type} (get : Sec → Option α) (b : Built) (k : Nat) (v : α) : Prop :=
  get b.secs.whole = some v ∨
  (get b.secs.whole = none ∧ ∃ s, b.secs.sections[k]? = some s ∧ get s = some v)

/-- The last value given at the stops `0 … k`, else that of the head line. -/
def CarriedOn {α : Type} (val : Line → Option α) (start : α) (stops : List Line) (k : Nat) (v : α) : Prop :=
  (∃ j l, j ≤ k ∧ stops[j]? = some l ∧ val l = some v ∧
    ∀ i q, j < i → i ≤ k → stops[i]? = some q → val q = none) ∨
  (v = start ∧ ∀ i q, i ≤ k → stops[i]? = some q → val q = none)

/-! ## Files -/

/-- The line begins a service: `*Z…`, `*T…`, `*K…` except `*K?Z…`. -/
def Head (l : Line) : Prop :=
  ∃ c rest, l = '*' :: c :: rest ∧ (c = 'Z' ∨ c = 'T' ∨ (c = 'K' ∧ rest[1]? ≠ some 'Z'))

/-- Empty lines and comments. -/
def Comment (l : Line) : Prop := l = [] ∨ l.head? = some '%'

/-- A line of a stop. -/
def StopLine (l : Line) : Prop := ∃ c rest, l = c :: rest ∧ c.isDigit = true

/-- A line that begins with `*` and a letter of which the loader takes no further notice. -/
def Tagged (tag : List Char) (l : Line) : Prop := ∃ rest, l = tag ++ rest

/-- The lines that are understood within a service. -/
def Body (l : Line) : Prop := Comment l ∨ StopLine l ∨ ((∃ c rest, l = '*' :: c :: rest) ∧ ¬ Head l)

/-- The lines of a service, sorted by their kind. -/
structure Lines (head : Line) (body : List Line) (s : Specif) : Prop where
  head : s.head = some head
  stops : ∀ (p : Line → Bool), (∀ l, p l = true ↔ StopLine l) → s.stops = body.filter p
  days : ∀ (p : Line → Bool), (∀ l, p l = true ↔ Tagged ['*', 'A', ' ', 'V', 'E'] l) →
    s.trafficDays = body.filter p
  attributes : ∀ (p : Line → Bool),
    (∀ l, p l = true ↔ Tagged ['*', 'A'] l ∧ ¬ Tagged ['*', 'A', ' ', 'V', 'E'] l) →
    s.attributes = body.filter p
  categories : ∀ (p : Line → Bool), (∀ l, p l = true ↔ Tagged ['*', 'G'] l ∧ ¬ Tagged ['*', 'G', 'R'] l) →
    s.categories = body.filter p
  lineInfos : ∀ (p : Line → Bool), (∀ l, p l = true ↔ Tagged ['*', 'L'] l) → s.lineInfos = body.filter p
  directions : ∀ (p : Line → Bool), (∀ l, p l = true ↔ Tagged ['*', 'R'] l) → s.directions = body.filter p

/-- A service that is to be loaded: a train (`*Z`) with a category, traffic days and two stops. -/
def Loadable (s : Specif) : Prop :=
  (∃ l, s.head = some l ∧ Tagged ['*', 'Z'] l) ∧ s.categories ≠ [] ∧ s.trafficDays ≠ [] ∧
    2 ≤ s.stops.length

end Nigiri.HrdParse.Spec

namespace Nigiri.HrdParse.Spec
open Nigiri.HrdParse

/-- The parts of a name are separated by one blank. -/
def Joined (first second name : String) : Prop :=
  (first = "" ∧ name = second) ∨ (second = "" ∧ name = first) ∨
  (first ≠ "" ∧ second ≠ "" ∧ name = first ++ " " ++ second)

/-- The name of a train: the output rule (bits: 0 = without number, 1 = without category, 3 = the
provider in place of the category) applied to category, provider, number (0: none) and line. -/
def NameSpec (cat : Category) (provider : String) (num : Nat) (line : String) (name : String) : Prop :=
  ∃ first second,
    first = (if cat.outputRule.testBit 1 then "" else if cat.outputRule.testBit 3 then provider else cat.name) ∧
    second = (if cat.outputRule.testBit 0 then "" else if num = 0 then line else toString num) ∧
    Joined first second name

end Nigiri.HrdParse.Spec
