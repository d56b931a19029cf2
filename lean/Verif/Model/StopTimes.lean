import Verif.Model.Shapes
/-!
# Reading stop_times.txt

Model of `src/loader/gtfs/stop_time.cc` (`read_stop_times`) and of the part of
`src/loader/gtfs/load_timetable.cc` that puts the calls of a trip in order.

Simplifications: rows are given as parsed values (times with `hhmm_to_min`, C42; `stop_sequence` is a number);
translations of headsigns (`i18n.get`, C123) are a parameter; the lines for debugging (`from_line_`, `to_line_`)
and the logging are left out; distances are integers.
-/

namespace Nigiri.StopTimes

/-- A row of stop_times.txt, `stop_time.cc:48-72`. -/
structure Row where
  trip : String
  arr : Int
  dep : Int
  stop : String
  group : String
  area : String
  seq : Nat
  headsign : String
  pickup : Int
  dropOff : Int
  dist : Int
  winStart : Int
  winEnd : Int
  pickupRule : String
  dropOffRule : String
  ticketing : Nat
deriving DecidableEq, Repr

/-- `kInterpolate`, `parse_time.h:9-10`: a missing time. -/
abbrev kInterpolate : Int := -32768

/-- `kMaxStopSequenceNum`, `stop_time.cc:25`. -/
abbrev kMaxSeq : Nat := 65535

/-- `stop{l, in, out, in_wheelchair, out_wheelchair}`, `stop.h`. -/
structure Stop where
  loc : Nat
  inAllowed : Bool
  outAllowed : Bool
  inWheelchair : Bool
  outWheelchair : Bool
deriving DecidableEq, Repr

/-- `flex_stop_t`, `types.h:199`. -/
inductive FlexStop
  | area (a : Nat)
  | group (g : Nat)
deriving DecidableEq, Repr

/-- `stop_time_window`, `trip.h`; `none` = `booking_rule_idx_t::invalid()`. -/
structure Window where
  pickupRule : Option Nat
  dropOffRule : Option Nat
  start : Int
  stop : Int
deriving DecidableEq, Repr

/-- The members of `trip` (`trip.h:100-132`) which are read or written. -/
structure Trip where
  id : String
  /-- `headsign_` -/
  headsign : Nat
  stopSeq : List Stop
  seqNumbers : List Nat
  /-- arrival and departure -/
  eventTimes : List (Int × Int)
  stopHeadsigns : List Nat
  distances : List Int
  flexStops : List FlexStop
  flexWindows : List Window
  requiresInterpolation : Bool
  requiresSorting : Bool
  stopTicketingUnavailable : List Bool
deriving DecidableEq, Repr

/-- A trip as `read_trips` leaves it. -/
def Trip.init (id : String) (headsign : Nat) : Trip := ⟨id, headsign, [], [], [], [], [], [], [], false, false, []⟩

/-- What the reader looks up: `stops`, `location_groups`, `flex_areas`, `booking_rules`, `stops_accessible`, the
translation of a row's headsign. -/
structure Env where
  stops : String → Option Nat
  groups : String → Option Nat
  areas : String → Option Nat
  rules : String → Option Nat
  accessible : Nat → Bool
  translate : Row → Nat

/-- What a row refers to. -/
inductive Place
  | stop (l : Nat)
  | flex (f : FlexStop)
deriving DecidableEq, Repr

/-- `stop_time.cc:173-209`: `none` = the row is skipped. -/
def place (e : Env) (r : Row) : Option Place :=
  if r.stop ≠ "" then (e.stops r.stop).map .stop
  else if r.group ≠ "" then (e.groups r.group).map fun g => .flex (.group g)
  else if r.area ≠ "" then (e.areas r.area).map fun a => .flex (.area a)
  else none

/-- The number that is stored, `stop_time.cc:221-225`. -/
def clampSeq (seq : Nat) (before : List Nat) : Nat :=
  if seq < kMaxSeq then seq
  else match before.getLast? with
  | none => 0
  | some b => if b ≠ kMaxSeq then b + 1 else kMaxSeq

/-- `!empty() && back() > seq`, `stop_time.cc:219-220`. -/
def lastAbove (before : List Nat) (seq : Nat) : Bool := match before.getLast? with
  | some b => decide (b > seq)
  | none => false

/-- `vec.resize(n, x)`. -/
def resize {α : Type} (n : Nat) (x : α) (l : List α) : List α := l.take n ++ List.replicate (n - l.length) x

/-- `stop_time.cc:226-231`: `n` = number of rows including this one. -/
def pushHeadsign (e : Env) (r : Row) (dflt : Nat) (n : Nat) (l : List Nat) : List Nat :=
  if r.headsign ≠ "" then (resize n dflt l).dropLast ++ [e.translate r] else l

/-- The attributes common to regular and flex stops, `stop_time.cc:218-231`. -/
def common (e : Env) (t : Trip) (r : Row) : Trip :=
  { t with
    requiresSorting := t.requiresSorting || lastAbove t.seqNumbers r.seq
    seqNumbers := t.seqNumbers ++ [clampSeq r.seq t.seqNumbers]
    stopHeadsigns := pushHeadsign e r t.headsign (t.seqNumbers.length + 1) t.stopHeadsigns }

/-- `parse_regular_trip`, `stop_time.cc:115-135`; `t` has the number of the row already. -/
def regular (e : Env) (t : Trip) (r : Row) (l : Nat) : Trip :=
  { t with
    stopSeq := t.stopSeq ++ [⟨l, decide (r.pickup ≠ 1), decide (r.dropOff ≠ 1), e.accessible l && decide (r.pickup ≠ 1),
      e.accessible l && decide (r.dropOff ≠ 1)⟩]
    requiresInterpolation := t.requiresInterpolation || decide (r.arr = kInterpolate) || decide (r.dep = kInterpolate)
    eventTimes := t.eventTimes ++ [(r.arr, r.dep)]
    distances := Shapes.pushDist t.seqNumbers.length t.distances r.dist
    stopTicketingUnavailable := t.stopTicketingUnavailable ++ [decide (r.ticketing = 1)] }

/-- `stop_time.cc:79-101`: the booking rule of a row. -/
def rule (e : Env) (id : String) : Option Nat := if id = "" then none else e.rules id

/-- `parse_flex_trip`, `stop_time.cc:76-112`. -/
def flexible (e : Env) (t : Trip) (r : Row) (f : FlexStop) : Trip :=
  { t with
    flexStops := t.flexStops ++ [f]
    flexWindows := t.flexWindows ++ [⟨rule e r.pickupRule, rule e r.dropOffRule, r.winStart, r.winEnd⟩] }

/-- The row is added to its trip, `stop_time.cc:173-238`. -/
def addRow (e : Env) (t : Trip) (r : Row) : Trip := match place e r with
  | none => t
  | some (.stop l) => regular e (common e t r) r l
  | some (.flex f) => flexible e (common e t r) r f

/-- The state of the loop: all trips, `last_trip` with `last_trip_id`. -/
structure State where
  trips : List Trip
  last : Option (Nat × String)

/-- `trips.trips_.find`: the first trip with this id (`trips_.emplace`, `trip.cc`). -/
def findTrip (trips : List Trip) (id : String) : Option Nat := trips.findIdx? (fun t => t.id == id)

/-- Lookup of the trip, `stop_time.cc:151-171`. -/
def lookup (s : State) (id : String) : Option Nat := match s.last with
  | some (i, lid) => if id = lid then some i else findTrip s.trips id
  | none => findTrip s.trips id

/-- One row, `stop_time.cc:147-239`. -/
def readRow (e : Env) (s : State) (r : Row) : State := match lookup s r.trip with
  | none => s
  | some i => ⟨s.trips.modify i (fun t => addRow e t r), some (i, r.trip)⟩

/-- `read_stop_times`, `stop_time.cc:39-245`. -/
def readAll (e : Env) (trips : List Trip) (rows : List Row) : List Trip := (rows.foldl (readRow e) ⟨trips, none⟩).trips

/-- The stops at which tickets are marked as unavailable, `ticketing.cc:113-131`; called before the calls are put in
order (`load_timetable.cc:144`). -/
def ticketless (t : Trip) : List Nat :=
  (t.stopSeq.zip t.stopTicketingUnavailable).filterMap fun x => if x.2 then some x.1.loc else none

/-! ### Order of the calls -/

/-- `apply_permutation`, `sort_by.h:9-19`. -/
def permute {α : Type} (p : List Nat) (v : List α) : List α := if v.isEmpty then v else p.filterMap (fun i => v[i]?)

/-- `load_timetable.cc:159-165`. -/
def fillHeadsigns (t : Trip) : Trip :=
  if t.stopHeadsigns.all (fun x => x == t.headsign) then { t with stopHeadsigns := [] }
  else { t with stopHeadsigns := resize t.seqNumbers.length t.headsign t.stopHeadsigns }

/-- `load_timetable.cc:166-183`; `p` = the permutation that `std::sort` (not stable) finds for the numbers. -/
def sortTrip (p : List Nat → List Nat) (t : Trip) : Trip :=
  if t.requiresSorting = true ∧ (t.eventTimes = [] ∨ t.flexWindows = []) then
    { t with
      seqNumbers := permute (p t.seqNumbers) t.seqNumbers
      stopSeq := permute (p t.seqNumbers) t.stopSeq
      eventTimes := permute (p t.seqNumbers) t.eventTimes
      flexWindows := permute (p t.seqNumbers) t.flexWindows
      stopHeadsigns := permute (p t.seqNumbers) t.stopHeadsigns
      distances := permute (p t.seqNumbers) t.distances }
  else t

/-- `load_timetable.cc:185-187`: one headsign per section. -/
def cutHeadsigns (t : Trip) : Trip :=
  if t.stopHeadsigns = [] then t else { t with stopHeadsigns := resize (t.seqNumbers.length - 1) t.headsign t.stopHeadsigns }

/-- The loop body, `load_timetable.cc:158-188`. -/
def finish (p : List Nat → List Nat) (t : Trip) : Trip := cutHeadsigns (sortTrip p (fillHeadsigns t))

end Nigiri.StopTimes
