import Verif.Model.Calendar
/-!
# Block trips (in-seat transfers)

Model of `block::rule_services`, `src/loader/gtfs/trip.cc:30-107`.

The input is the list of the block's trips after removal of trips without stop times and after the
sort by first departure (lines 33-53; the sort is not stable, so any order of equal departures is
allowed: the theorems hold for every order).  Trips are addressed by their position in this list,
`rule_trips[i].traffic_days_` is `rem i`.
-/

namespace Nigiri.Blocks

/-- What is read of a trip: first and last stop location, traffic days. -/
structure Trip where
  first : Nat
  last : Nat
  days : Bitfield

def Trip.default : Trip := ⟨0, 0, fun _ => false⟩

/-- `bitfield::any()`. -/
def any (b : Bitfield) : Bool := (List.range kMaxDays).any b

/-- `queue_entry`, `trip.cc:63-67`: current trip, collected trips, traffic days. -/
structure Entry where
  cur : Nat
  collected : List Nat
  days : Bitfield

/-- A combination: trips (positions) and days. -/
structure Combo where
  trips : List Nat
  days : Bitfield

def trip (ts : List Trip) (i : Nat) : Trip := ts.getD i Trip.default

/-- The loop over the successors, `trip.cc:80-94`: pushed entries (in push order) and the remaining
traffic days.  `coll` are the collected trips including the current one. -/
def succLoop (ts : List Trip) (rem : Nat → Bitfield) (cur : Nat) (coll : List Nat) :
    List Nat → Bitfield → List Entry × Bitfield
  | [], td => ([], td)
  | j :: js, td =>
    if (trip ts cur).last ≠ (trip ts j).first then succLoop ts rem cur coll js td
    else
      let inter : Bitfield := fun d => td d && rem j d
      let td' : Bitfield := fun d => td d && !rem j d
      let r := succLoop ts rem cur coll js td'
      (if any inter then { cur := j, collected := coll, days := inter } :: r.1 else r.1, r.2)

/-- State of the algorithm: remaining days per trip, combinations found so far. -/
structure St where
  rem : Nat → Bitfield
  combos : List Combo

/-- `trip.cc:96-104`: emit the combination if days remain. -/
def emit (st : St) (coll : List Nat) (td : Bitfield) : St :=
  if any td then
    { rem := fun i => if i ∈ coll then fun d => st.rem i d && !td d else st.rem i
      combos := st.combos ++ [{ trips := coll, days := td }] }
  else st

def stackMeasure (n : Nat) (s : List Entry) : Nat := (s.map fun e => 2 ^ (n - e.cur)).sum

theorem sum_reverse (l : List Nat) : l.reverse.sum = l.sum := by
  induction l with
  | nil => rfl
  | cons a l ih => simp [List.sum_append, ih]; omega

theorem succLoop_measure (ts : List Trip) (rem : Nat → Bitfield) (cur : Nat) (coll : List Nat) (n : Nat) :
    ∀ (k c : Nat) (td : Bitfield), c + k = n →
    stackMeasure n (succLoop ts rem cur coll (List.range' c k) td).1 + 2 ≤ 2 ^ (k + 1) := by
  intro k
  induction k with
  | zero => intro c td h; simp [succLoop, stackMeasure]
  | succ k ih =>
    intro c td h
    have hp : 2 ^ (k + 1 + 1) = 2 ^ (k + 1) + 2 ^ (k + 1) := by rw [Nat.pow_succ (n := 2) (m := k + 1)]; omega
    rw [List.range'_succ]
    unfold succLoop
    split
    · have := ih (c + 1) td (by omega); omega
    · have := ih (c + 1) (fun d => td d && !rem c d) (by omega)
      simp only
      split
      · simp only [stackMeasure, List.map_cons, List.sum_cons] at this ⊢
        have e : n - c = k + 1 := by omega
        rw [e]; omega
      · omega

/-- The inner `while` loop over the stack (head = top), `trip.cc:74-105`. -/
def runStack (ts : List Trip) (st : St) : List Entry → St
  | [] => st
  | e :: rest =>
    let coll := e.collected ++ [e.cur]
    let r := succLoop ts st.rem e.cur coll (List.range' (e.cur + 1) (ts.length - (e.cur + 1))) e.days
    runStack ts (emit st coll r.2) (r.1.reverse ++ rest)
termination_by s => stackMeasure ts.length s
decreasing_by
  simp only [stackMeasure, List.map_append, List.map_reverse, List.sum_append, sum_reverse, List.map_cons,
    List.sum_cons]
  have hpos : 0 < 2 ^ (ts.length - e.cur) := Nat.two_pow_pos _
  by_cases h : e.cur + 1 ≤ ts.length
  · have := succLoop_measure ts st.rem e.cur (e.collected ++ [e.cur]) ts.length (ts.length - (e.cur + 1)) (e.cur + 1)
      e.days (by omega)
    simp only [stackMeasure] at this
    have e1 : ts.length - (e.cur + 1) + 1 = ts.length - e.cur := by omega
    rw [e1] at this
    omega
  · have e1 : ts.length - (e.cur + 1) = 0 := by omega
    rw [e1]
    simp [succLoop]; exact Nat.two_pow_pos _

/-- The outer loop, `trip.cc:70-106`. -/
def outer (ts : List Trip) : List Nat → St → St
  | [], st => st
  | s :: ss, st => outer ts ss (runStack ts st [{ cur := s, collected := [], days := st.rem s }])

/-- `block::rule_services`, `trip.cc:30-109` after removal and sort. -/
def ruleServices (ts : List Trip) : List Combo :=
  if ts.length = 1 then [{ trips := [0], days := (trip ts 0).days }]
  else (outer ts (List.range ts.length) { rem := fun i => (trip ts i).days, combos := [] }).combos

end Nigiri.Blocks
