import Verif.Model.Calendar
/-!
# NeTEx import: calendars, time zones, service journeys

Model of `src/loader/netex/load_timetable.cc`.  XML access (pugixml), dates (`date` library) and
translations are not modelled: the model starts from the values that the elements contain.
References are numbers, `0` is the empty string.  Times and durations are unbounded integers
(`int16` minutes in the code), days are day numbers since 1970-01-01.  `none` is an exception: a file
whose conversion throws is skipped (`get_intermediate`, `load_timetable.cc:1183-1255`) or memory
outside of the object is accessed, as said at each definition.
-/

namespace Nigiri.Netex

/-! ### Maps -/

/-- `hash_map::emplace`: an existing entry stays. -/
def emplace {α : Type} (m : List (Nat × α)) (k : Nat) (v : α) : List (Nat × α) :=
  if m.any (fun x => decide (x.1 = k)) then m else m ++ [(k, v)]

/-- `hash_map::operator[](k) = v`: an existing entry is overwritten. -/
def assign {α : Type} (m : List (Nat × α)) (k : Nat) (v : α) : List (Nat × α) :=
  if m.any (fun x => decide (x.1 = k)) then m.map (fun x => if x.1 = k then (k, v) else x) else m ++ [(k, v)]

/-- `hash_map::find`. -/
def find {α : Type} (m : List (Nat × α)) (k : Nat) : Option α :=
  (m.find? fun x => decide (x.1 = k)).map (·.2)

/-- `lookup::at`, `load_timetable.cc:95-115`: the maps of the file, then those of the base files,
otherwise an exception. -/
def lookupAt {α : Type} (base file : List (Nat × α)) (k : Nat) : Option α :=
  match find file k with
  | some v => some v
  | none => find base k

/-! ### Operating periods -/

/-- `UicOperatingPeriod` or `AvailabilityCondition`: `FromDate`, `ToDate`, `ValidDayBits`
(a character is `true` iff it is not `'0'`). -/
structure Period where
  id : Nat
  first : Int
  last : Int
  bits : List Bool

/-- `always.one_out()`, `load_timetable.cc:646-648`. -/
def always : Bitfield := fun d => decide (d < kMaxDays)

/-- One iteration of the day loop, `load_timetable.cc:663-669`; `none` = `bits.at` throws. -/
def periodStep (iv : Interval) (p : Period) (bf : Option Bitfield) (day : Int) : Option Bitfield :=
  bf.bind fun b =>
    let idx := day - iv.from'
    if 0 ≤ idx ∧ idx < 512 then
      (p.bits[(day - p.first).toNat]?).map fun v => fun j => if j = idx.toNat then v else b j
    else some b

/-- The body of the loop over the periods, `load_timetable.cc:653-671`; `iv` is
`tt.internal_interval_days()`.  `none` = the check of the number of bits throws. -/
def operatingPeriod (iv : Interval) (p : Period) : Option Bitfield :=
  if p.last - p.first + 1 ≤ p.bits.length then
    let day := max p.first iv.from'
    ((List.range (min (p.last + 1) iv.to' - day).toNat).map fun i : Nat => day + (i : Int)).foldl (periodStep iv p)
      (some fun _ => false)
  else none

/-- `get_operating_periods`, `load_timetable.cc:642-675`. -/
def operatingPeriods (iv : Interval) (ps : List Period) : Option (List (Nat × Bitfield)) :=
  ps.foldl (fun m p => m.bind fun m => (operatingPeriod iv p).map fun b => emplace m p.id b) (some [(0, always)])

/-- `DayTypeAssignment`: the day type and the operating period it refers to (`0` if there is no
`OperatingPeriodRef`, for example because it has a `Date`). -/
structure DayTypeAssignment where
  dayType : Nat
  period : Nat

/-- `get_day_type_assignments`, `load_timetable.cc:681-693`. -/
def dayTypes (basePeriods periods : List (Nat × Bitfield)) (as : List DayTypeAssignment) :
    Option (List (Nat × Bitfield)) :=
  as.foldl (fun m a => m.bind fun m => (lookupAt basePeriods periods a.period).map fun b => emplace m a.dayType b)
    (some [])

/-- The calendar of a `ServiceJourney`: the reference below `validityConditions` if it has this
element, and the references of its day types. -/
structure Cal where
  validity : Option Nat
  dayTypes : List Nat

/-- `.traffic_days_`, `load_timetable.cc:960-968`: the first day type if there are no
`validityConditions`. -/
def trafficDays (basePeriods periods baseTypes types : List (Nat × Bitfield)) (c : Cal) : Option Bitfield :=
  match c.validity with
  | some r => lookupAt basePeriods periods r
  | none => lookupAt baseTypes types (c.dayTypes.headD 0)

/-- What a file contains about calendars. -/
structure CalFile where
  periods : List Period
  assignments : List DayTypeAssignment

/-- The days of a service journey of a file without base files: `get_operating_periods`,
`get_day_type_assignments`, `get_service_journeys` as called in `load_timetable.cc:1229-1248`. -/
def fileDays (iv : Interval) (f : CalFile) (c : Cal) : Option Bitfield :=
  (operatingPeriods iv f.periods).bind fun ps =>
    (dayTypes [] ps f.assignments).bind fun ts => trafficDays [] ps [] ts c

/-! ### Stops -/

/-- `PassengerStopAssignment`: references of the scheduled stop point, the quay and the stop place. -/
structure StopAssignment where
  point : Nat
  quay : Nat
  place : Nat

/-- The stop of an assignment, `load_timetable.cc:615-625`. `base` and `file` are the stops (quays and stop places)
of the base files and of this file. -/
def assignedStop {α : Type} (base file : List (Nat × α)) (a : StopAssignment) : Option α :=
  (((find file a.quay).or (find file a.place)).or (find base a.quay)).or (find base a.place)

/-- One iteration of the loop, `load_timetable.cc:606-631`. -/
def assignStep {α : Type} (base file : List (Nat × α)) (m : List (Nat × α)) (a : StopAssignment) : List (Nat × α) :=
  if a.point ≠ 0 ∧ (a.quay ≠ 0 ∨ a.place ≠ 0) then
    match assignedStop base file a with
    | some s => assign m a.point s
    | none => m
  else m

/-- `get_stop_assignments`, `load_timetable.cc:602-634`. -/
def stopAssignments {α : Type} (base file : List (Nat × α)) (as : List StopAssignment) : List (Nat × α) :=
  as.foldl (assignStep base file) []

/-- `is_true_or_empty`, `load_timetable.cc:84` (`none` = the element is missing or empty, `some true` = `true`). -/
def trueOrEmpty (v : Option Bool) : Bool := v.getD true

/-- `StopPointInJourneyPattern` or `Call`: `ScheduledStopPointRef`, `ForBoarding`, `ForAlighting`. -/
structure PatternPoint where
  point : Nat
  forBoarding : Option Bool
  forAlighting : Option Bool

/-- `get_stop` of `get_journey_patterns`, `load_timetable.cc:787-816`: the assignment of the file, then of the base
files, otherwise a stop made of the scheduled stop point (`own`). -/
def patternStop {α : Type} (base file : List (Nat × α)) (own : Nat → α) (r : Nat) : α :=
  match find file r with
  | some s => s
  | none => (find base r).getD (own r)

/-- One element of `stop_seq`, `load_timetable.cc:917-925`, for a stop point of a journey pattern,
`load_timetable.cc:824-833`: stop, boarding, alighting, boarding and alighting with a wheelchair. -/
def seqStop {α : Type} (base file : List (Nat × α)) (own : Nat → α) (p : PatternPoint) : α × Bool × Bool × Bool × Bool :=
  (patternStop base file own p.point, trueOrEmpty p.forBoarding, trueOrEmpty p.forAlighting,
    trueOrEmpty p.forBoarding, trueOrEmpty p.forAlighting)

/-! ### Times -/

/-- `parse_time`, `load_timetable.cc:329-336`: `none` is a text of less than five characters (in
particular a missing element); the offset is `0` if its element is missing. -/
def parseTime (hm : Option (Nat × Nat)) (dayOffset : Int) : Int :=
  match hm with
  | none => 0
  | some (h, m) => dayOffset * 1440 + 60 * h + m

/-! ### Time zones -/

/-- `date::sys_info`: the offset from UTC during `[lo, hi)`, in minutes (`none` = unbounded). -/
structure Info where
  lo : Option Int
  hi : Option Int
  off : Int
deriving DecidableEq, Repr

/-- A time zone: the offset before the first change and the changes (time in UTC, offset from then
on). -/
structure Tz where
  first : Int
  changes : List (Int × Int)

/-- The intervals of constant offset. -/
def segs (lo : Option Int) (off : Int) : List (Int × Int) → List Info
  | [] => [⟨lo, none, off⟩]
  | (t, o) :: r => ⟨lo, some t, off⟩ :: segs (some t) o r

def Tz.segments (tz : Tz) : List Info := segs none tz.first tz.changes

/-- `lo ≤ t`. -/
def Info.after (i : Info) (t : Int) : Bool := match i.lo with | none => true | some l => decide (l ≤ t)
/-- `t < hi`. -/
def Info.before (i : Info) (t : Int) : Bool := match i.hi with | none => true | some h => decide (t < h)

/-- `interval{info->first.begin, info->first.end}.contains(t)`. -/
def Info.contains (i : Info) (t : Int) : Bool := i.after t && i.before t

/-- `tz->get_info(local)` as specified by the C++ standard ([time.zone.members]), `.first`: the
interval in which the local time occurs first; if it is skipped by a change, the interval before the
change. -/
def getInfo (l : Int) (prev : Info) : List Info → Info
  | [] => prev
  | s :: r => if s.before (l - s.off) then (if s.after (l - s.off) then s else prev) else getInfo l s r

def Tz.info (tz : Tz) (l : Int) : Info := getInfo l ⟨none, none, tz.first⟩ tz.segments

/-- `to_utc`, `load_timetable.cc:1065-1076`: the cached interval is used as long as it contains the
converted time. `day` is the first minute of the local day, `x` minutes after it. The result is in
minutes after the first minute of the UTC day of the same date. -/
def toUtc (tz : Tz) (cache : Option Info) (day x : Int) : Int × Option Info :=
  let i := match cache with
    | none => tz.info (day + x)
    | some i => if i.contains (day + x - i.off) then i else tz.info (day + x)
  (x - i.off, some i)

/-- `to_utc` for a list of times. -/
def toUtcs (tz : Tz) (day : Int) : Option Info → List Int → List Int × Option Info
  | c, [] => ([], c)
  | c, x :: r =>
    let a := toUtc tz c day x
    let b := toUtcs tz day a.2 r
    (a.1 :: b.1, b.2)

/-! ### Expansion of service journeys -/

/-- `service_journey::stop_times`, `load_timetable.cc:894-896`. -/
structure StopTime where
  arr : Int
  dep : Int
deriving DecidableEq, Repr

/-- The times between which sections run, in the order of the loop `load_timetable.cc:1093-1100`:
departure at each stop and arrival at the next one. -/
def eventTimes : List StopTime → List Int
  | a :: b :: r => a.dep :: b.arr :: eventTimes (b :: r)
  | _ => []

/-- Every time is at least the one before, `load_timetable.cc:1102-1106`. -/
def runMax : Int → List Int → List Int
  | _, [] => []
  | p, x :: r => max p x :: runMax (max p x) r

/-- `key`, `load_timetable.cc:1050-1054`. -/
structure Key where
  times : List Int
  dayOffset : Int
  tzOffset : Int
deriving DecidableEq, Repr

/-- What `expand_local_to_utc` reads: `internal_interval_days()`, `date_range_`, the time zone, the
days and the stop times of the service journey. -/
structure Job where
  iv : Interval
  sel : Interval
  tz : Tz
  days : Bitfield
  stops : List StopTime

/-- `first_day_offset`, `load_timetable.cc:1060-1061`. -/
def Job.firstDay (j : Job) : Int := ((j.stops.head?.map fun s : StopTime => s.dep).getD 0).tdiv 1440
/-- `last_day_offset`, `load_timetable.cc:1062-1063`. -/
def Job.lastDay (j : Job) : Int := ((j.stops.getLast?.map fun s : StopTime => s.arr).getD 0).tdiv 1440

/-- The negation of the condition of `continue`, `load_timetable.cc:1080-1087`. -/
def Job.served (j : Job) (g : Nat) : Bool :=
  let day := j.iv.from' + g
  decide (j.sel.from' < day + j.lastDay + 1) && decide (day + j.firstDay < j.sel.to') && j.days g

/-- The key of day `g`, `load_timetable.cc:1089-1106`. -/
def Job.key (j : Job) (c : Option Info) (g : Nat) : Key × Option Info :=
  let day := (j.iv.from' + g) * 1440
  let dep := (j.stops.head?.map fun s : StopTime => s.dep).getD 0
  let f := toUtc j.tz c day dep
  let off := f.1 / 1440
  let ts := toUtcs j.tz day f.2 (eventTimes j.stops)
  (⟨runMax 0 (ts.1.map (· - off * 1440)), off, dep - f.1⟩, ts.2)

/-- `utc_time_traffic_days[k].set(u)`, `load_timetable.cc:1112`. -/
def setIn (m : List (Key × Bitfield)) (k : Key) (u : Nat) : List (Key × Bitfield) :=
  if m.any (fun x => decide (x.1 = k)) then
    m.map (fun x => if x.1 = k then (x.1, fun d => if d = u then true else x.2 d) else x)
  else m ++ [(k, fun d => decide (d = u))]

/-- One day, `load_timetable.cc:1078-1113`. `none` = a bit outside of the bitfield is set
(`static_cast<unsigned>` of a negative number or at least 512). -/
def Job.step (j : Job) (st : Option Info × List (Key × Bitfield)) (g : Nat) :
    Option (Option Info × List (Key × Bitfield)) :=
  if j.served g then
    let k := j.key st.1 g
    let u := (g : Int) + k.1.dayOffset
    if 0 ≤ u ∧ u < 512 then some (k.2, setIn st.2 k.1 u.toNat) else none
  else some st

def Job.loop (j : Job) : Option Info × List (Key × Bitfield) → List Nat → Option (Option Info × List (Key × Bitfield))
  | st, [] => some st
  | st, g :: r => (j.step st g).bind fun st' => j.loop st' r

/-- `expand_local_to_utc`, `load_timetable.cc:1056-1115`. -/
def Job.expand (j : Job) : Option (List (Key × Bitfield)) :=
  (j.loop (none, []) (List.range (j.iv.to' - j.iv.from').toNat)).map (·.2)

end Nigiri.Netex
