import Verif.Model.Seated
/-!
# The HRD loader: traffic days, splitting, time zones, tracks

Model of `src/loader/hrd/stamm/bitfield.cc`, `stamm.cc`, `include/nigiri/loader/hrd/service/*.h`,
`include/nigiri/loader/hrd/stamm/timezone.h` and of `to_local_time_offsets` (`types.h`).
The column positions of the text files (`parser_config.h`) and the conversion of decimal numbers and
dates are not modelled.  Times and day numbers are unbounded integers (the code: 16 / 32 bit).
-/

namespace Nigiri.Hrd

/-! ## Traffic day bitfields -/

/-- `ascii_hex_to_int`, `bitfield.cc:10-35`; `none` = a negative entry, for which
`hex_str_to_bitset` throws (`:64`).  The argument is the byte value. -/
def hexDigit (c : Nat) : Option Nat :=
  if 48 ≤ c ∧ c ≤ 57 then some (c - 48)
  else if 65 ≤ c ∧ c ≤ 70 then some (c - 55)
  else if 97 ≤ c ∧ c ≤ 102 then some (c - 87)
  else none

/-- The variables captured by `consume_bit`, `bitfield.cc:38-43` (`consumed` is never read). -/
structure HexState where
  b : Bitfield := Bitfield.empty
  started : Bool := false
  prevWasSet : Bool := false
  i : Nat := 0

/-- `consume_bit`, `bitfield.cc:43-58`; `none` = a bit index outside the bitset. -/
def consumeBit (s : HexState) (bit : Bool) : Option HexState :=
  if !s.started then
    some { s with started := s.prevWasSet && bit, prevWasSet := bit }
  else if bit then
    match s.b.set s.i true with
    | none => none
    | some b => some { s with b := b, i := s.i + 1 }
  else some { s with i := s.i + 1 }

/-- The four `consume_bit` calls of one character, `bitfield.cc:60-71`. -/
def consumeChar (s : HexState) (c : Nat) : Option HexState :=
  match hexDigit c with
  | none => none
  | some d =>
    match consumeBit s (d.testBit 3) with
    | none => none
    | some s1 =>
      match consumeBit s1 (d.testBit 2) with
      | none => none
      | some s2 =>
        match consumeBit s2 (d.testBit 1) with
        | none => none
        | some s3 => consumeBit s3 (d.testBit 0)

/-- The character loop, `bitfield.cc:60-71`. -/
def consumeAll : HexState → List Nat → Option HexState
  | s, [] => some s
  | s, c :: cs =>
    match consumeChar s c with
    | none => none
    | some s' => consumeAll s' cs

/-- The loop from the last bit downwards, `bitfield.cc:76-86`, `n` = number of bits still to visit;
`none` = exception "no end (11) found". -/
def trimEnd : Nat → Bool → Bitfield → Option Bitfield
  | 0, _, _ => none
  | n + 1, prevSet, b =>
    let currSet := b n
    let b' : Bitfield := fun k => if k = n then false else b k
    if prevSet && currSet then some b' else trimEnd n currSet b'

/-- `hex_str_to_bitset`, `bitfield.cc:37-90`; `none` = exception or a bit outside of the bitset. -/
def hexStrToBitset (s : List Nat) : Option Bitfield :=
  match consumeAll {} s with
  | none => none
  | some st => if st.started then trimEnd kMaxDays false st.b else none

/-- `bitfield::max()`. -/
def allDays : Bitfield := fun d => decide (d < kMaxDays)

/-- `stamm::resolve_bitfield`, `stamm.cc:88-95`. -/
def resolveBitfield (bitfields : Nat → Option Bitfield) (i : Nat) : Bitfield :=
  if i = 0 then allDays
  else match bitfields i with
    | none => allDays
    | some b => b

/-! ## Services -/

/-- `service::event`, `service.h:50-53`. -/
structure Event where
  time : Int
  inOutAllowed : Bool := true
deriving Repr, DecidableEq

/-- `service::stop`, `service.h:55-58`. -/
structure Stop where
  eva : Nat
  arr : Event
  dep : Event
deriving Repr, DecidableEq

/-- `service::section`, `service.h:70-84` (attributes, line and direction: not modelled). -/
structure Section where
  trainNum : Option Nat := none
  admin : Option Nat := none
  category : Option Nat := none
  trafficDays : Option Nat := none
deriving Repr, DecidableEq

/-- `service`, `service.h:86-97`. -/
structure Service where
  numRepetitions : Nat := 0
  interval : Nat := 0
  stops : List Stop
  sections : List Section := []
  beginToEnd : Section := {}

/-- `section_bitfields`, `expand_traffic_days.h:17-28`; `none` = a section without traffic days
(`bad_optional_access`). -/
def sectionBitfields (bitfields : Nat → Option Bitfield) (s : Service) : Option (List Bitfield) :=
  match s.beginToEnd.trafficDays with
  | some d => some (List.replicate (s.stops.length - 1) (resolveBitfield bitfields d))
  | none => s.sections.mapM fun sec => sec.trafficDays.map (resolveBitfield bitfields)

/-- `split_info`, `ref_service.h:13-27`. -/
structure Part where
  days : Bitfield
  from' : Nat
  to' : Nat

/-- `a & b`. -/
def band (a b : Bitfield) : Bitfield := fun d => a d && b d
/-- `a & ~b`. -/
def bdiff (a b : Bitfield) : Bitfield := fun d => a d && !b d
/-- `a | b`. -/
def bor (a b : Bitfield) : Bitfield := fun d => a d || b d

/-- The loop of `split`, `expand_traffic_days.h:59-68`: `secs` are the bitfields of the sections
`i, i + 1, …`; result: the common days and the end of the run. -/
def splitRun : Bitfield → Nat → List Bitfield → Bitfield × Nat
  | b, i, [] => (b, i)
  | b, i, s :: secs =>
    if !Seated.any (band b s) then (b, i) else splitRun (band b s) (i + 1) secs

/-- State of `expand_traffic_days`: `section_bitfields`, `consumed_traffic_days`, the services given
to the consumer, and whether `utl::verify` threw. -/
structure ExpandState where
  secs : List Bitfield
  consumed : Bitfield := Bitfield.empty
  out : List Part := []
  threw : Bool := false

/-- `consume_and_remove` and `check_and_consume`, `expand_traffic_days.h:31-56`. -/
def consumeAndRemove (st : ExpandState) (start pos : Nat) (current : Bitfield) : ExpandState :=
  if Seated.any current && decide (start < pos) then
    let secs := st.secs.zipIdx.map fun (b, i) =>
      if start ≤ i ∧ i < pos then bdiff b current else b
    if Seated.any (band current st.consumed) then { st with secs := secs, threw := true }
    else { st with secs := secs, consumed := bor st.consumed current
                   out := st.out ++ [⟨current, start, pos⟩] }
  else st

/-- `split`, `expand_traffic_days.h:59-68`. -/
def split (st : ExpandState) (start : Nat) : ExpandState :=
  match st.secs[start]? with
  | none => st
  | some b =>
    let r := splitRun b (start + 1) (st.secs.drop (start + 1))
    consumeAndRemove st start r.2 r.1

/-- The loop `expand_traffic_days.h:71-76`; `n` = number of sections not yet visited. -/
def expandLoop : Nat → ExpandState → ExpandState
  | 0, st => st
  | n + 1, st =>
    let i := st.secs.length - (n + 1)
    match st.secs[i]? with
    | none => st
    | some b =>
      if !Seated.any b then st
      else
        let st' := split st i
        if st'.threw then st' else expandLoop n st'

/-- `expand_traffic_days`, `expand_traffic_days.h:10-77`, on the bitfields of the sections. -/
def expandTrafficDays (secs : List Bitfield) : ExpandState :=
  expandLoop secs.length { secs := secs }

/-- A part service of a repetition, `ref_service.h:29-36` (`ref_`, `split_info_`, `repetition_`). -/
structure RefService where
  part : Part
  repetition : Nat

/-- `expand_repetitions`, `expand_repetitions.h:8-15`. -/
def expandRepetitions (s : Service) (p : Part) : List RefService :=
  (List.range (s.numRepetitions + 1)).map fun r => ⟨p, r⟩

/-- `local_times`, `ref_service.h:49-65`: departure and arrival of every section of the part.
`none` = `stops_.at` throws. -/
def localTimes (s : Service) (r : RefService) : Option (List Int) :=
  ((List.range' r.part.from' (r.part.to' - r.part.from')).mapM fun k =>
    match s.stops[k]?, s.stops[k + 1]? with
    | some a, some b =>
      some [a.dep.time + ((r.repetition * s.interval : Nat) : Int),
            b.arr.time + ((r.repetition * s.interval : Nat) : Int)]
    | _, _ => none).map List.flatten

/-! ## Time zones -/

/-- `tz_offsets::season`, `types.h:383-388` (`begin`/`end` are midnights in minutes). -/
structure Season where
  offset : Int
  begin : Int
  end' : Int
  beginMam : Int
  endMam : Int
deriving Repr, DecidableEq

/-- `tz_offsets`, `types.h:382-391`. -/
structure Tz where
  seasons : List Season := []
  offset : Int
deriving Repr, DecidableEq

/-- `is_local_time_in_season`, `timezone.h:16-24`. -/
def inSeason (s : Season) (day mam : Int) : Bool :=
  decide (s.begin + s.beginMam ≤ day + mam) && decide (day + mam < s.end' + s.endMam)

/-- `local_mam_to_utc_mam`, `timezone.h:26-63`: minutes, day offset in minutes, valid. -/
def localMamToUtcMam (tz : Tz) (day mam : Int) (first : Bool) : Int × Int × Bool :=
  let active := tz.seasons.find? fun s => inSeason s day mam
  let tzOffset := match active with | none => tz.offset | some s => s.offset
  let valid := match active with
    | none => true
    | some s => decide (day + mam > s.begin + s.beginMam + (s.offset - tz.offset))
  let utc := mam - tzOffset + (if valid then 0 else 60)
  if first && decide (utc ≥ 1440) then (Int.tmod utc 1440, Int.tdiv utc 1440 * 1440, valid)
  else if utc < 0 then (utc + 1440, -1440, valid)
  else (utc, 0, valid)

/-- `to_local_time_offsets`, `types.h:646-660`. -/
def toLocalTimeOffsets (tz : Tz) (t : Int) : Int :=
  let active := tz.seasons.find? fun s =>
    decide (t ≥ s.begin + s.beginMam - tz.offset) && decide (t < s.end' + s.endMam - s.offset)
  t + (match active with | none => tz.offset | some s => s.offset)

/-- `stamm::get_tz`, `stamm.cc:117-124`, on the (sorted) entries of the map: `upper_bound`, then the
entry before it.  `none` = exception ("no timezones") or `std::prev(begin())` (undefined). -/
def getTz (m : List (Nat × Tz)) (eva : Nat) : Option Tz :=
  ((m.takeWhile fun e => decide (e.1 ≤ eva)).getLast?).map (·.2)

/-- The loop of `build_utc_time_seq`, `expand_local_to_utc.h:66-80`. -/
def utcLoop (day off : Int) : Int → List (Int × Tz) → Option (List Int)
  | _, [] => some []
  | pred, (t, tz) :: rest =>
    let r := localMamToUtcMam tz (day + off) (t - off) false
    if r.2.1 ≠ 0 ∨ pred > r.1 ∨ r.2.2 = false then none
    else (utcLoop day off r.1 rest).map (r.1 :: ·)

/-- `build_utc_time_seq`, `expand_local_to_utc.h:50-83`: the times and the offset of the first
departure; `none` = `std::nullopt` (or no events).  `day` in minutes. -/
def buildUtcTimeSeq (evs : List (Int × Tz)) (day : Int) : Option (List Int × Int) :=
  match evs with
  | [] => none
  | (t, tz) :: _ =>
    let f := localMamToUtcMam tz day t true
    if f.2.2 = false then none
    else (utcLoop day f.2.1 0 evs).map fun ts => (ts, f.2.1)

/-- An element of `stop_seq`: location, `in_allowed`, `out_allowed` (the packing is C01). -/
structure SeqStop where
  location : Nat
  inAllowed : Bool
  outAllowed : Bool
deriving Repr, DecidableEq

/-- An entry of `utc_time_traffic_days` = a service given to the consumer,
`expand_local_to_utc.h:92-94, 147-150`. -/
structure UtcService where
  times : List Int
  stops : List SeqStop
  days : Bitfield

/-- The map update, `expand_local_to_utc.h:138-145`; the iteration order of the hash map is
unspecified, the model keeps the order of insertion.  `none` = bit outside of the bitset. -/
def addDay (m : List UtcService) (times : List Int) (stops : List SeqStop) (u : Nat) :
    Option (List UtcService) :=
  match m with
  | [] => (Bitfield.empty.set u true).map fun b => [⟨times, stops, b⟩]
  | e :: rest =>
    if e.times = times ∧ e.stops = stops then
      (e.days.set u true).map fun b => { e with days := b } :: rest
    else (addDay rest times stops u).map (e :: ·)

/-- What `to_utc` reads: `hrd_interval`, `selection` (days), the events of the part service with
their time zones, `local_traffic_days`, and the stop sequence of a local day. -/
structure ToUtc where
  hrd : Interval
  selection : Interval
  evs : List (Int × Tz)
  localDays : Bitfield
  stopSeq : Nat → List SeqStop

/-- `local_times.back() / 1_days + 1`, `expand_local_to_utc.h:97-98`. -/
def ToUtc.lastDayOffset (x : ToUtc) : Int := 1 + Int.tdiv ((x.evs.getLast?.map (·.1)).getD 0) 1440

/-- The body of the day loop, `expand_local_to_utc.h:113-146`; `day` is the number of the day. -/
def ToUtc.step (x : ToUtc) (m : List UtcService) (day : Int) : Option (List UtcService) :=
  if !x.selection.overlaps ⟨day, day + x.lastDayOffset⟩ then some m
  else
    let idx := (day - x.hrd.from').toNat
    if !(decide (idx < kMaxDays) && x.localDays idx) then some m
    else
      match buildUtcTimeSeq x.evs (day * 1440) with
      | none => some m
      | some (times, off) =>
        let offset := x.selection.from' - x.hrd.from' - 5
        let u := (idx : Int) - offset + Int.tdiv off 1440
        if u < 0 then some m else addDay m times (x.stopSeq idx) u.toNat

/-- The day loop, `expand_local_to_utc.h:108-110`. -/
def ToUtc.loop (x : ToUtc) : List UtcService → List Int → Option (List UtcService)
  | m, [] => some m
  | m, d :: ds =>
    match x.step m d with
    | none => none
    | some m' => x.loop m' ds

/-- `to_utc`, `expand_local_to_utc.h:85-151`. -/
def ToUtc.run (x : ToUtc) : Option (List UtcService) := x.loop [] x.hrd.points

/-- `parse_interval`, `basic_info.cc:35-39`: the two dates of the file become the half-open interval
of the days. -/
def parseInterval (firstDate lastDate : Int) : Interval := ⟨firstDate, lastDate⟩

/-! ## Tracks -/

/-- `track_rule`, `track.h:22-27`; `mam = -1`: `kTimeNotSet`. -/
structure TrackRule where
  bitfield : Nat
  track : Nat
  mam : Int
deriving Repr, DecidableEq

/-- `track_rule_key`, `track.h:15-20`. -/
structure TrackKey where
  location : Nat
  trainNum : Nat
  admin : Nat
deriving Repr, DecidableEq

/-- `stamm::resolve_track`, `stamm.cc:131-149`. -/
def resolveTrack (bitfields : Nat → Option Bitfield) (rules : TrackKey → List TrackRule)
    (k : TrackKey) (mam : Int) (day : Nat) : Nat :=
  match (rules k).find? fun r =>
      (decide (r.mam = -1) || decide (r.mam = mam)) &&
        (decide (day < kMaxDays) && resolveBitfield bitfields r.bitfield day) with
  | some r => r.track
  | none => k.location

/-- What `build_stop_seq` reads of `stamm`. -/
structure Stamm where
  bitfields : Nat → Option Bitfield
  rules : TrackKey → List TrackRule
  location : Nat → Nat

/-- Train number and admin of a stop, `expand_local_to_utc.h:29-36`: the element `idx` of
`s.sections(store)`, i.e. of the range that begins at section `from'`.  `none` = no such section
(undefined behaviour) or no value. -/
def trainAndAdmin (s : Service) (from' idx : Nat) : Option (Nat × Nat) :=
  match s.beginToEnd.trainNum, s.beginToEnd.admin with
  | some n, some a => some (n, a)
  | some n, none => ((s.sections[from' + idx]?).bind (·.admin)).map fun a => (n, a)
  | none, some a => ((s.sections[from' + idx]?).bind (·.trainNum)).map fun n => (n, a)
  | none, none =>
    match (s.sections[from' + idx]?).bind (·.trainNum), (s.sections[from' + idx]?).bind (·.admin) with
    | some n, some a => some (n, a)
    | _, _ => none

/-- One iteration of `build_stop_seq`, `expand_local_to_utc.h:20-46`; `n` = number of stops. -/
def seqStop (st : Stamm) (s : Service) (r : RefService) (times : List Int) (hrdDay n i : Nat) :
    Option SeqStop :=
  let isLast := decide (i = n - 1)
  let sectionIdx := r.part.from' + i - (if isLast then 1 else 0)
  let timeIdx := i * 2 - (if isLast then 1 else 0)
  match s.stops[r.part.from' + i]?, trainAndAdmin s r.part.from' sectionIdx, times[timeIdx]? with
  | some stop, some (num, admin), some t =>
    some ⟨resolveTrack st.bitfields st.rules ⟨st.location stop.eva, num, admin⟩ (Int.tmod t 1440)
            (hrdDay + (Int.tdiv t 1440).toNat),
          stop.dep.inOutAllowed, stop.arr.inOutAllowed⟩
  | _, _, _ => none

/-- `build_stop_seq`, `expand_local_to_utc.h:12-48`. -/
def buildStopSeq (st : Stamm) (s : Service) (r : RefService) (times : List Int) (hrdDay : Nat) :
    Option (List SeqStop) :=
  (List.range (r.part.to' + 1 - r.part.from')).mapM
    (seqStop st s r times hrdDay (r.part.to' + 1 - r.part.from'))

/-! ## The whole way of a service -/

/-- Time zones of the events, `get_stop_timezones`, `ref_service.h:67-79`; `none` = exception or
undefined. -/
def stopTimezones (tzs : List (Nat × Tz)) (s : Service) (r : RefService) : Option (List Tz) :=
  ((List.range' r.part.from' (r.part.to' - r.part.from')).mapM fun k =>
    match s.stops[k]?, s.stops[k + 1]? with
    | some a, some b =>
      match getTz tzs a.eva, getTz tzs b.eva with
      | some x, some y => some [x, y]
      | _, _ => none
    | _, _ => none).map List.flatten

/-- `to_utc` for a part and a repetition of a service, `expand_local_to_utc.h:85-151`.  The stop
sequence is computed when it is needed (a day that runs); `none` there: undefined behaviour, the
model continues with an empty sequence. -/
def toUtcOf (st : Stamm) (tzs : List (Nat × Tz)) (hrd sel : Interval) (s : Service) (r : RefService) :
    Option ToUtc :=
  match localTimes s r, stopTimezones tzs s r with
  | some ts, some zs =>
    some { hrd := hrd, selection := sel, evs := ts.zip zs, localDays := r.part.days
           stopSeq := fun d => (buildStopSeq st s r ts d).getD [] }
  | _, _ => none

/-- `expand_service`, `read_services.h:30-36`: all services handed to `add_service`.  `none` = an
exception other than the one of the traffic day split, or undefined behaviour. -/
def expandService (st : Stamm) (tzs : List (Nat × Tz)) (hrd sel : Interval) (s : Service) :
    Option (List UtcService) :=
  match sectionBitfields st.bitfields s with
  | none => none
  | some secs =>
    ((((expandTrafficDays secs).out.flatMap (expandRepetitions s)).mapM fun r =>
      (toUtcOf st tzs hrd sel s r).bind (·.run))).map List.flatten

end Nigiri.Hrd
