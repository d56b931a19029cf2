/-!
# Frequency-based trips and time parsing

Model of `struct frequency` (`include/nigiri/loader/gtfs/trip.h:43-59`), `expand_frequencies`
(`include/nigiri/loader/gtfs/local_to_utc.h:75-126`), the headway rounding of `read_frequencies`
(`src/loader/gtfs/trip.cc:429-434`) and `hhmm_to_min` (`src/loader/gtfs/parse_time.cc`).
-/

namespace Nigiri

namespace Frequency

/-- `frequency`, `trip.h:43-59` (minutes after midnight). -/
structure Freq where
  startTime : Int
  endTime : Int
  headway : Int
deriving DecidableEq, Repr

/-- `number_of_iterations`, `trip.h:44-46`: C++ division of 16-bit durations (truncating), then
`static_cast<unsigned>`; `none` = division by zero. -/
def numberOfIterations (f : Freq) : Option Nat :=
  if f.headway = 0 then none
  else some ((Int.tdiv (f.endTime - f.startTime) f.headway) % (2 ^ 32 : Nat)).toNat

/-- `get_iteration_start_time`, `trip.h:47-50`. -/
def iterationStart (f : Freq) (i : Nat) : Int := f.startTime + (i : Int) * f.headway

/-- The headway in minutes stored by `read_frequencies`, `trip.cc:431-434`: rounded to the nearest
minute, at least one.  (Rounding of `secs / 60` half away from zero, exact for the integers that
fit a `float`.) -/
def headwayMinutes (secs : Int) : Int :=
  max (if secs ≥ 0 then Int.tdiv (2 * secs + 60) 120 else -(Int.tdiv (2 * (-secs) + 60) 120)) 1

/-- The offsets handed out by `expand_frequencies` for one trip (`local_to_utc.h:88-115` with
`trips.size() == 1`): one per window and iteration, `first departure of the template - start of the
iteration`. -/
def offsets (firstDep : Int) : List Freq → Option (List Int)
  | [] => some []
  | f :: fs => match numberOfIterations f, offsets firstDep fs with
    | some n, some rest => some ((List.range n).map (fun i => firstDep - iterationStart f i) ++ rest)
    | _, _ => none

/-- The (local) event times of the run with the given offset, `local_to_utc.h:205-212` before the
time zone conversion: every template time minus the offset. -/
def runTimes (template_ : List Int) (offset : Int) : List Int := template_.map (· - offset)

end Frequency

namespace ParseTime

/-- `kInterpolate`, `parse_time.h:9-10`: the most negative 16-bit value. -/
def kInterpolate : Int := -32768

/-- Digit value of a character. -/
def digit (c : Char) : Option Nat := if '0' ≤ c ∧ c ≤ '9' then some (c.toNat - '0'.toNat) else none

/-- `utl::parse_arg(s, int)`: reads the digits at the front, returns the value and the rest.
(External library `utl`; its documented behaviour for unsigned numbers.) -/
def parseArg (acc : Nat) : List Char → Nat × List Char
  | [] => (acc, [])
  | c :: cs => match digit c with
    | none => (acc, c :: cs)
    | some d => parseArg (acc * 10 + d) cs

/-- `hhmm_to_min`, `parse_time.cc:9-27`, for input without leading minus signs.  The conversion of
the result to the 16-bit `duration_t` is not modelled (times below 546 hours). -/
def hhmmToMin (s : List Char) : Int :=
  if s.all (fun c => c == ' ') then kInterpolate
  else
    let (h, rest) := parseArg 0 s
    match rest with
    | [] => kInterpolate
    | _ :: rest' => (h : Int) * 60 + ((parseArg 0 rest').1 : Int)

end ParseTime
end Nigiri
