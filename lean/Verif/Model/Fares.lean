import Verif.Model.Calendar
/-!
# Fares

Model of `get_fares` (`src/fares.cc:205-745`) and of the parts of the loader that prepare its tables
(`src/loader/gtfs/fares.cc:232-271`, `515-545`).

A transit leg carries what the code reads of it: whether its run is scheduled, its source and network
(`get_network`, fares.cc:211-219), the locations of its stops, its times. `invalid()` indices are `none`.
Simplifications: the fields of a fare product used for sorting (rider category, amount, name) are one
number `rank`; rules whose product is unknown do not exist (the loader drops them); amounts are not
interpreted; times are unbounded integers; the counter of remaining transfers (`int8`) is an integer that
does not wrap (it would after 255 legs).
-/

namespace Nigiri.Fares

/-- `journey::leg` with a `run_enter_exit`. `id` is the identity of the leg (its address). -/
structure Leg where
  id : Nat
  scheduled : Bool
  src : Nat
  network : Option Nat
  stops : List Nat
  dep : Int
  arr : Int
deriving DecidableEq, Repr

/-- First stop, `first_trip[first_stop_range.from_]`. -/
def Leg.fromStop (l : Leg) : Nat := l.stops.headD 0
/-- Last stop, `last_trip[last_stop_range.to_ - 1]`. -/
def Leg.toStop (l : Leg) : Nat := l.stops.getLastD 0

/-- `fare_leg_join_rule`, fares.h:82-88. -/
structure JoinRule where
  fromNet : Nat
  toNet : Nat
  fromStop : Option Nat
  toStop : Option Nat
deriving DecidableEq, Repr

/-- `fare_leg_rule`, fares.h:63-80; area sets are written out. -/
structure Rule where
  prio : Int
  network : Option Nat
  fromArea : Option Nat
  toArea : Option Nat
  fromTf : Option Nat
  toTf : Option Nat
  legGroup : Option Nat
  exactly : Option (List Nat)
  contains : Option (List Nat)
  rank : Nat
deriving DecidableEq, Repr

/-- `duration_limit_type`, fares.h:94-99. -/
inductive LimitType | depArr | depDep | arrDep | arrArr
deriving DecidableEq, Repr

/-- `fare_transfer_rule`, fares.h:90-127. `count` = -1: unlimited; `limit` = none: `kNoDurationLimit`. -/
structure TransferRule where
  fromGroup : Option Nat
  toGroup : Option Nat
  count : Int
  limit : Option Int
  limitType : LimitType
deriving DecidableEq, Repr

/-- `fares::timeframe`, fares.h:133-138. -/
structure Timeframe where
  start : Int
  stop : Int
  service : Bitfield

/-- `fares` of one source. `concrete*` as computed by the loader, see `concreteOf`. -/
structure Data where
  joinRules : List JoinRule
  rules : List Rule
  transferRules : List TransferRule
  timeframes : List (List Timeframe)
  concreteNets : List Nat
  concreteFrom : List Nat
  concreteTo : List Nat

/-- The timetable: parents, areas of a location, fares of a source. -/
structure TT where
  parent : Nat → Option Nat
  areas : Nat → List Nat
  fares : Nat → Data

/-- `parent`, fares.cc:205-209. -/
def station (tt : TT) (l : Nat) : Nat := (tt.parent l).getD l

/-- `get_areas`, fares.cc:221-225. -/
def getAreas (tt : TT) (l : Nat) : List Nat :=
  if (tt.areas l).isEmpty then tt.areas (station tt l) else tt.areas l

/-- The concrete values of a rule field, loader/gtfs/fares.cc:254-264: none if the feed has priorities. -/
def concreteOf (hasPriority : Bool) (rules : List Rule) (field : Rule → Option Nat) : List Nat :=
  if hasPriority then [] else rules.filterMap field

/-! ## Joining legs -/

/-- `join`, fares.cc:227-268. -/
def join (tt : TT) (a b : Leg) : Bool :=
  if !a.scheduled || !b.scheduled then false
  else match a.network, b.network with
    | some na, some nb => (tt.fares a.src).joinRules.any fun jr =>
        (decide (jr.fromNet = na) && decide (jr.toNet = nb)) &&
        ((decide (jr.fromStop = none) && decide (jr.toStop = none)) ||
          ((decide (jr.fromStop = some (station tt a.toStop)) || decide (jr.fromStop = some a.toStop)) &&
           (decide (jr.toStop = some (station tt b.fromStop)) || decide (jr.toStop = some b.fromStop))))
    | _, _ => false

/-- `has_equal_src`, fares.cc:284-298. -/
def equalSrc (a b : Leg) : Bool :=
  if !a.scheduled || !b.scheduled then decide (a.id = b.id) else decide (a.src = b.src)

/-- `utl::equal_ranges_linear`: maximal ranges whose elements all equal the first one. -/
def equalRanges {α : Type} (eq : α → α → Bool) : List α → List (List α)
  | [] => []
  | x :: xs => (x :: xs.takeWhile (eq x)) :: equalRanges eq (xs.dropWhile (eq x))
termination_by l => l.length
decreasing_by
  have := (List.dropWhile_sublist (eq x) (l := xs)).length_le
  simp only [List.length_cons]; omega

/-- The inner loop of `join_legs`, fares.cc:308-317: `cur` is `[join_from, it)`, `pred` its last leg. -/
def joinLoop (tt : TT) : List Leg → Leg → List Leg → List (List Leg)
  | cur, _, [] => [cur]
  | cur, pred, x :: xs =>
    if join tt pred x then joinLoop tt (cur ++ [x]) x xs
    else cur :: joinLoop tt [x] x xs

/-- One range of `join_legs`. -/
def joinRange (tt : TT) : List Leg → List (List Leg)
  | [] => []
  | x :: xs => joinLoop tt [x] x xs

/-- `join_legs`, fares.cc:282-321. -/
def joinLegs (tt : TT) (legs : List Leg) : List (List Leg) :=
  (equalRanges equalSrc legs).flatMap (joinRange tt)

/-! ## Matching leg rules -/

/-- `match_timeframe`, fares.cc:323-361. Minutes count from the UTC midnight of the first timetable day,
`tz t` is the UTC offset of the timezone at instant `t`. `to_local_time` of the first midnight gives
`base_day`. The conversion of a negative day difference to `size_t` is out of range. -/
def matchTimeframe (f : Data) (tz : Int → Int) (t : Int) : Option Nat :=
  let baseDay := (0 + tz 0) / 1440
  let lt := t + tz t
  let day := lt / 1440
  let dayIdx := day - baseDay
  f.timeframes.findIdx? fun g => g.any fun tf =>
    decide (day * 1440 + tf.start ≤ lt) && decide (lt < day * 1440 + tf.stop) &&
    decide (0 ≤ dayIdx) && decide (dayIdx < kMaxDays) && tf.service dayIdx.toNat

/-- What `match_leg_rule` knows of an effective leg, fares.cc:374-403. -/
structure LegKey where
  network : Option Nat
  fromStop : Nat
  toStop : Nat
  fromTf : Option Nat
  toTf : Option Nat
  stops : List Nat
deriving DecidableEq, Repr

/-- `has_area`, fares.cc:405-418. -/
def hasArea (tt : TT) (stops : List Nat) (x : Nat) : Bool := stops.any fun s => (getAreas tt s).contains x

/-- `has_other_area`, fares.cc:420-444. -/
def hasOtherArea (tt : TT) (stops exact : List Nat) : Bool :=
  stops.any fun s => (getAreas tt s).any fun x => !exact.contains x

/-- `area_set_matches`, fares.cc:457-464. -/
def areaSetMatches (tt : TT) (stops : List Nat) (r : Rule) : Bool :=
  (match r.contains with
    | none => true
    | some s => s.all (hasArea tt stops)) &&
  (match r.exactly with
    | none => true
    | some s => s.all (hasArea tt stops) && !hasOtherArea tt stops s)

/-- `for_each_area`, fares.cc:446-455. -/
def eachArea (tt : TT) (l : Nat) : List (Option Nat) :=
  if (getAreas tt l).isEmpty then [none] else (getAreas tt l).map some

/-- The values tried for a field, fares.cc:466-480 and 493-506. -/
def opts (v : Option Nat) (concrete : List Nat) : List (Option Nat) :=
  match v with
  | none => [none]
  | some x => if concrete.contains x then [some x] else [some x, none]

/-- The rules with a given key in the order of the loader (by priority), loader/gtfs/fares.cc:236-271,
`fare_leg_rule_keys_.find`. -/
def rulesOf (f : Data) (nw fa ta ftg ttg : Option Nat) : List Rule :=
  f.rules.filter fun r => decide (r.network = nw) && decide (r.fromArea = fa) && decide (r.toArea = ta) &&
    decide (r.fromTf = ftg) && decide (r.toTf = ttg)

/-- The loops of `match_leg_rule`, fares.cc:482-537. -/
def candidates (tt : TT) (f : Data) (k : LegKey) : List Rule :=
  (eachArea tt k.fromStop).flatMap fun fromArea => (eachArea tt k.toStop).flatMap fun toArea =>
    (opts k.network f.concreteNets).flatMap fun nw => (opts fromArea f.concreteFrom).flatMap fun fa =>
      (opts toArea f.concreteTo).flatMap fun ta => (opts k.fromTf []).flatMap fun ftg =>
        (opts k.toTf []).flatMap fun ttg => (rulesOf f nw fa ta ftg ttg).filter (areaSetMatches tt k.stops)

/-- The comparison of fares.cc:538-559. -/
def ruleLt (a b : Rule) : Bool :=
  decide (a.prio > b.prio) || (decide (a.prio = b.prio) && decide (a.rank < b.rank))

/-- Insert a rule behind the rules that are not greater. -/
def insertRule (r : Rule) : List Rule → List Rule
  | [] => [r]
  | x :: xs => if ruleLt r x then r :: x :: xs else x :: insertRule r xs

/-- `utl::sort(matching_rules, ...)` (the order of equivalent rules is unspecified in the code). -/
def sortRules (l : List Rule) : List Rule := l.foldr insertRule []

/-- `match_leg_rule`, fares.cc:482-568. -/
def matchRules (tt : TT) (f : Data) (k : LegKey) : List Rule :=
  match sortRules (candidates tt f k) with
  | [] => []
  | r :: rs => (r :: rs).filter fun x => !decide (x.prio < r.prio)

/-- `fare_leg`, fares.h:163-167. -/
structure FareLeg where
  src : Nat
  joined : List Leg
  rules : List Rule
deriving DecidableEq, Repr

/-- Network, stops and timeframes of an effective leg, fares.cc:374-403. `tz` is the timezone at a stop
for a leg. -/
def legKey (f : Data) (tz : Leg → Nat → Int → Int) (first last : Leg) (joined : List Leg) : LegKey :=
  { network := if first.network = last.network then first.network else none
    fromStop := first.fromStop
    toStop := last.toStop
    fromTf := matchTimeframe f (tz first first.fromStop) first.dep
    toTf := matchTimeframe f (tz last last.toStop) last.arr
    stops := joined.flatMap (·.stops) }

/-- `match_leg_rule` of an effective leg, fares.cc:363-568, as `fare_leg`. -/
def fareLeg (tt : TT) (tz : Leg → Nat → Int → Int) (joined : List Leg) : FareLeg :=
  match joined.head?, joined.getLast? with
  | some first, some last =>
    if !first.scheduled || !last.scheduled then ⟨first.src, joined, []⟩
    else ⟨first.src, joined, matchRules tt (tt.fares first.src) (legKey (tt.fares first.src) tz first last joined)⟩
  | _, _ => ⟨0, joined, []⟩

/-! ## Joining transfers -/

/-- `get_start_time`, fares.cc:591-602. -/
def startTime (r : TransferRule) (frm : FareLeg) : Int :=
  match r.limitType with
  | .depDep | .depArr => (frm.joined.head?.map (·.dep)).getD 0
  | .arrArr | .arrDep => (frm.joined.getLast?.map (·.arr)).getD 0

/-- `get_end_time`, fares.cc:604-615. -/
def endTime (r : TransferRule) (b : FareLeg) : Int :=
  match r.limitType with
  | .depDep | .arrDep => (b.joined.head?.map (·.dep)).getD 0
  | .arrArr | .depArr => (b.joined.getLast?.map (·.arr)).getD 0

/-- `transfer_limit_ok`, fares.cc:617-619. -/
def limitOk (r : TransferRule) (frm b : FareLeg) : Bool :=
  match r.limit with
  | none => true
  | some l => decide (l ≥ endTime r b - startTime r frm)

/-- `!contains(concrete, group)`; the concrete groups are the valid ones, fares.cc:675-683. -/
def notNamed (concrete : List Nat) : Option Nat → Bool
  | none => true
  | some x => !concrete.contains x

/-- `from_leg_group_matches`, `to_leg_group_matches`, fares.cc:620-627. -/
def groupOk (x v : Option Nat) (concrete : List Nat) : Bool :=
  (decide (x = none) && notNamed concrete v) || decide (x = v)

/-- `matches`, fares.cc:570-650. -/
def tMatches (f : Data) (r : TransferRule) (frm a b : FareLeg) : Bool :=
  match a.rules.head?, b.rules.head? with
  | some cur, some next =>
    limitOk r frm b && groupOk r.fromGroup cur.legGroup (f.transferRules.filterMap (·.fromGroup)) &&
      groupOk r.toGroup next.legGroup (f.transferRules.filterMap (·.toGroup))
  | _, _ => false

/-- `fare_transfer`, fares.h:169-172. -/
structure Transfer where
  rule : Option TransferRule
  legs : List FareLeg
deriving DecidableEq, Repr

/-- The inner loop of `join_transfers`, fares.cc:711-719: the legs appended to `matched`; `it` is the last
one so far. -/
def extend (f : Data) (r : TransferRule) (frm : FareLeg) : Int → FareLeg → List FareLeg → List FareLeg
  | _, _, [] => []
  | rem, it, x :: xs =>
    if rem ≠ 0 ∧ tMatches f r frm it x = true then x :: extend f r frm (rem - 1) x xs else []

/-- The outer loop of `join_transfers`, fares.cc:688-733: `it` is the current leg, the list the legs after
it. `none` = the loop does not end within `fuel` iterations. -/
def transferLoop (f : Data) : Nat → FareLeg → List FareLeg → Bool → Option (List Transfer)
  | _, it, [], lastMatched => some (if lastMatched then [] else [⟨none, [it]⟩])
  | 0, _, _ :: _, _ => none
  | fuel + 1, it, x :: xs, _ =>
    match f.transferRules.find? fun r => tMatches f r it it x with
    | none => (transferLoop f fuel x xs false).map (⟨none, [it]⟩ :: ·)
    | some r =>
      let ext := extend f r it r.count it (x :: xs)
      let last := ext.getLastD it
      (transferLoop f fuel last ((x :: xs).drop ext.length) true).map (⟨some r, it :: ext⟩ :: ·)

/-- One range of `join_transfers`, fares.cc:667-737. -/
def transferRange (tt : TT) (fuel : Nat) : List FareLeg → Option (List Transfer)
  | [] => some []
  | [x] => some [⟨none, [x]⟩]
  | x :: y :: xs => transferLoop (tt.fares x.src) fuel x (y :: xs) false

/-- `join_transfers`, fares.cc:652-738. -/
def joinTransfers (tt : TT) (fuel : Nat) (legs : List FareLeg) : Option (List Transfer) :=
  ((equalRanges (fun a b => decide (a.src = b.src)) legs).mapM (transferRange tt fuel)).map List.flatten

/-- `get_fares`, fares.cc:740-745. -/
def getFares (tt : TT) (tz : Leg → Nat → Int → Int) (fuel : Nat) (legs : List Leg) : Option (List Transfer) :=
  joinTransfers tt fuel ((joinLegs tt legs).map (fareLeg tt tz))

/-- `transfer_count_` as loaded, loader/gtfs/fares.cc:517-534: 0 is rejected, then the value is cast to
`int8`; `none` = no rule is created. -/
def loadCount (v : Int) : Option Int :=
  if v = 0 then none else some ((v + 128) % 256 - 128)

end Nigiri.Fares
