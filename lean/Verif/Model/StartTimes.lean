import Verif.Model.Interval
import Verif.Model.TdFootpath
import Verif.Model.LbGraph
/-!
# Start times of a query

Model of `get_starts` and `collect_destinations`, `src/routing/start_times.cc`.

Times are minutes since the begin of the timetable (`internal_interval().from_`), so that an event of a
transport is `day * 1440 + minute of the day`; integers are unbounded.  The iteration order of the hash
maps (`shortest_start`, `td_start`) is a parameter: the functions take the entries as a list, and the
theorems hold for every order.
-/

namespace Nigiri.StartTimes
open Nigiri.Raptor Nigiri.Lb

/-- `struct start`, `start_times.h:19-24`. -/
structure Ev where
  timeAtStart : Int
  timeAtStop : Int
  stop : Loc
deriving DecidableEq, Repr

/-- `location_offset_t`, `start_times.cc:17`. -/
inductive Off
  | const (d : Int)
  | td (entries : List TdEntry)

/-- `flip`, `types.h`. -/
def flip : Dir → Dir
  | .fwd => .bwd
  | .bwd => .fwd

/-- `get_td_duration(dir, ...)`, `td_footpath.h:69-76`. -/
def tdDuration (d : Dir) (td : List TdEntry) (t : Int) : Option Int := match d with
  | .fwd => (TdFootpath.fwd t td).map (·.1)
  | .bwd => (TdFootpath.bwd t td).map (·.1)

/-- `get_duration`, `start_times.cc:19-32`. -/
def getDuration (d : Dir) (t : Int) (o : Off) (invert : Bool) : Int := match o with
  | .const x => x
  | .td td => (tdDuration (if invert then flip d else d) td t).getD 511

/-- `is_better_or_eq`, `start_times.cc:51-53`. -/
def betterOrEq (d : Dir) (a b : Int) : Bool := match d with
  | .fwd => decide (a ≤ b)
  | .bwd => decide (b ≤ a)

/-- Leaving the origin `x` minutes before a departure, or reaching it `x` minutes after an arrival. -/
def atStart (d : Dir) (ev x : Int) : Int := match d with
  | .fwd => ev - x
  | .bwd => ev + x

/-- The event at the `i`-th stop of a transport at which a journey starts, `start_times.cc:69-72`. -/
def evAt (d : Dir) (r : RouteData) (t i : Nat) : Nat := match d with
  | .fwd => r.dep t i
  | .bwd => r.arr t i

/-- Appending unless the last entry is as good, `start_times.cc:99-109`. -/
def pushStart (d : Dir) (starts : List Ev) (e : Ev) : List Ev := match starts.getLast? with
  | some b => if b.timeAtStart = e.timeAtStart ∧ betterOrEq d b.timeAtStop e.timeAtStop = true then starts else starts ++ [e]
  | none => starts ++ [e]

/-- The body of the loop over the days, `start_times.cc:84-121`. -/
def addDay (d : Dir) (r : RouteData) (l : Loc) (ivStart ivStop : Interval) (off : Off) (t i : Nat) (starts : List Ev) (day : Int) : List Ev :=
  let ev := evAt d r t i
  let time := day * 1440 + ((ev % 1440 : Nat) : Int)
  if r.days t (day - ((ev / 1440 : Nat) : Int)) && ivStop.contains time then
    let x := getDuration d time off true
    if x = 511 then starts
    else
      let tas := atStart d time x
      if !ivStart.contains tas then starts
      else pushStart d starts ⟨tas, time, l⟩
  else starts

/-- The days `first_day_idx, ..., last_day_idx`, `start_times.cc:55-56, 84`. -/
def dayRange (iv : Interval) : List Int := (List.range (iv.to' / 1440 - iv.from' / 1440 + 1).toNat).map fun n : Nat => iv.from' / 1440 + (n : Int)

/-- `add_start_times_at_stop`, `start_times.cc:41-126`. -/
def addAtStop (d : Dir) (r : RouteData) (i : Nat) (l : Loc) (ivStart ivStop : Interval) (off : Off) (starts : List Ev) : List Ev :=
  (List.range r.nTr).foldl (fun st t => (dayRange ivStop).foldl (addDay d r l ivStart ivStop off t i) st) starts

/-- May a journey start at the `i`-th of `n` stops, `start_times.cc:159-167, 192-198`? -/
def startable (d : Dir) (wheelchair : Bool) (s : StopData) (i n : Nat) : Bool := match d with
  | .fwd => decide (i + 1 ≠ n) && s.canStart .fwd wheelchair
  | .bwd => decide (i ≠ 0) && s.canStart .bwd wheelchair

/-- `iv_at_stop`, `start_times.cc:174-176`. -/
def ivAtStop (d : Dir) (iv : Interval) (maxOff : Int) : Interval := match d with
  | .fwd => ⟨iv.from', iv.to' + maxOff⟩
  | .bwd => ⟨iv.from' - maxOff, iv.to'⟩

/-- The route part of `add_starts_in_interval`, `start_times.cc:145-179`, for one position. -/
def addRouteStop (d : Dir) (w : Bool) (iv : Interval) (l : Loc) (off : Off) (maxOff : Int) (r : RouteData) (starts : List Ev) (i : Nat) : List Ev :=
  match r.stops[i]? with
  | some s => if s.loc = l ∧ startable d w s i r.stops.length = true then addAtStop d r i l iv (ivAtStop d iv maxOff) off starts else starts
  | none => starts

/-- Event of a real-time transport, `start_times.cc:204-207` (`unix_event_time`); times of real-time
transports are relative to the base day. -/
def rtEvAt (d : Dir) (base : Int) (r : RtData) (i : Nat) : Int := match d with
  | .fwd => base * 1440 + r.dep i
  | .bwd => base * 1440 + r.arr i

/-- The real-time part of `add_starts_in_interval`, `start_times.cc:181-224`, for one position. -/
def addRtStop (d : Dir) (w : Bool) (base : Int) (iv : Interval) (l : Loc) (off : Off) (r : RtData) (starts : List Ev) (i : Nat) : List Ev :=
  match r.stops[i]? with
  | some s =>
    if s.loc = l ∧ startable d w s i r.stops.length = true then
      let time := rtEvAt d base r i
      let tas := atStart d time (getDuration d time off true)
      if iv.contains tas then starts ++ [⟨tas, time, l⟩] else starts
    else starts
  | none => starts

/-- Start of the query at the end of the interval, `start_times.cc:231-246`. -/
def ontripStart (d : Dir) (iv : Interval) : Int := match d with
  | .fwd => iv.to'
  | .bwd => iv.from' - 1

/-- Time at the stop when leaving at `t`. -/
def atStop (d : Dir) (t x : Int) : Int := match d with
  | .fwd => t + x
  | .bwd => t - x

def addOntrip (d : Dir) (iv : Interval) (l : Loc) (off : Off) (starts : List Ev) : List Ev :=
  let t := ontripStart d iv
  let x := getDuration d t off false
  if x ≠ 511 then starts ++ [⟨t, atStop d t x, l⟩] else starts

/-- `add_starts_in_interval`, `start_times.cc:128-247`. -/
def addInInterval (d : Dir) (N : Net) (iv : Interval) (l : Loc) (off : Off) (maxOff : Int) (ontrip : Bool) (starts : List Ev) : List Ev :=
  let s1 := (N.routes.filter fun r => r.stops.any fun s => s.loc == l).foldl
    (fun st r => (List.range r.stops.length).foldl (addRouteStop d N.wheelchair iv l off maxOff r) st) starts
  let s2 := (N.rts.filter fun r => r.stops.any fun s => s.loc == l).foldl
    (fun st r => (List.range r.stops.length).foldl (addRtStop d N.wheelchair N.base iv l off r) st) s1
  if ontrip then addOntrip d iv l off s2 else s2

/-- `start_time_t`. -/
inductive StartTime
  | interval (iv : Interval)
  | point (t : Int)

/-- One entry of `shortest_start`, `start_times.cc:288-307`. -/
def addEntry (d : Dir) (N : Net) (st : StartTime) (maxOff : Int) (ontrip : Bool) (starts : List Ev) (e : Loc × Int) : List Ev := match st with
  | .interval iv => addInInterval d N iv e.1 (.const e.2) maxOff ontrip starts
  | .point t => starts ++ [⟨t, atStop d t e.2, e.1⟩]

/-- One entry of `start_td_offsets`, `start_times.cc:309-330`. -/
def addTdEntry (d : Dir) (N : Net) (st : StartTime) (maxOff : Int) (ontrip : Bool) (starts : List Ev) (e : Loc × List TdEntry) : List Ev := match st with
  | .interval iv => addInInterval d N iv e.1 (.td e.2) maxOff ontrip starts
  | .point t =>
    let x := getDuration d t (.td e.2) false
    if x ≠ 511 then starts ++ [⟨t, atStop d t x, e.1⟩] else starts

/-- `update` on the map `shortest_start`, `start_times.cc:265-273`. -/
def updateShortest : List (Loc × Int) → Loc → Int → List (Loc × Int)
  | [], l, d => [(l, d)]
  | (l', m) :: r, l, d => if l' = l then (l', min m d) :: r else (l', m) :: updateShortest r l d

/-- Additional time at the first via stop, `start_times.cc:267-270`. -/
def viaStay (via : List (Loc × Int)) (l : Loc) : Int := match via with
  | [] => 0
  | v :: _ => if v.1 = l then v.2 else 0

/-- The part of the query that is read. -/
structure SQry where
  mode : Mode
  start : List (Loc × Int)
  tdStart : List (Loc × List TdEntry)
  via : List (Loc × Int)
  maxOff : Int
  useFootpaths : Bool

/-- The map `shortest_start`, `start_times.cc:263-286`; `fps` are the adjusted footpaths in search
direction. -/
def shortestStart (T : Tt) (fps : Loc → List (Loc × Int)) (q : SQry) : List (Loc × Int) :=
  q.start.foldl (fun m o => (forEachMeta T q.mode o.1).foldl (fun m l =>
    let m := updateShortest m l (o.2 + viaStay q.via l)
    if q.useFootpaths then (fps l).foldl (fun m fp => updateShortest m fp.1 (o.2 + fp.2 + viaStay q.via fp.1)) m else m) m) []

/-- `get_starts`, `start_times.cc:249-331`: `entries`, `tds` are the entries of the two hash maps in their
iteration order. -/
def getStarts (d : Dir) (N : Net) (st : StartTime) (entries : List (Loc × Int)) (tds : List (Loc × List TdEntry)) (maxOff : Int) (ontrip : Bool)
    (starts : List Ev) : List Ev :=
  tds.foldl (addTdEntry d N st maxOff ontrip) (entries.foldl (addEntry d N st maxOff ontrip) starts)

/-- The shorter of two distances. -/
def minDist (a : Option Nat) (b : Nat) : Nat := match a with
  | none => b
  | some x => min x b

/-- `collect_destinations`, `start_times.cc:333-367`: `is_dest` and (for intermodal destinations)
`dist_to_dest` (`none` = 65535). -/
def collectDest (T : Tt) (m : Mode) (endLoc : Loc) (dest : List (Loc × Nat)) : (Loc → Bool) × (Loc → Option Nat) :=
  if m = .intermodal then
    (fun l => l == endLoc,
     dest.foldl (fun f o => (forEachMeta T m o.1).foldl (fun f l => upd f l (some (minDist (f l) o.2))) f) (fun _ => none))
  else
    (dest.foldl (fun f o => (forEachMeta T m o.1).foldl (fun f l => upd f l true) f) (fun _ => false), fun _ => none)

end Nigiri.StartTimes
