import Verif.Model.Frequency
/-!
# Frequency expansion of the trips of a block

Model of `headways_match`, `stays_sorted` and `expand_frequencies`
(`include/nigiri/loader/gtfs/local_to_utc.h:37-126`), for one trip or for several trips that are run
one after the other by the same vehicle (`block::rule_services`, C16).
-/

namespace Nigiri.FreqBlock

open Nigiri.Frequency (Freq numberOfIterations iterationStart)

/-- The parts of `struct trip` (`trip.h:74-124`) used here: the departure at the first stop (`none`:
`event_times_` is empty) and `frequency_`. -/
structure Trip where
  firstDep : Option Int
  freqs : Option (List Freq)
deriving DecidableEq, Repr

/-- `frequency_expanded_trip`, `local_to_utc.h:22-26` (`traffic_days_` is passed on unchanged). -/
structure Fet where
  trips : List Nat
  offsets : List Int
deriving DecidableEq, Repr

/-- `trip_data.get(i)`, `trip.h:137-141`. -/
def get (d : List Trip) (i : Nat) : Trip := d.getD i ⟨none, none⟩

/-- The lambda `has_frequency`, `local_to_utc.h:85-88`. -/
def hasFrequency (d : List Trip) (i : Nat) : Bool :=
  (get d i).firstDep.isSome && (get d i).freqs.isSome

/-- The body of the loop over `utl::zip`, `local_to_utc.h:51-54`: it returns for the first pair; the
result for no pair is `true`. -/
def zipLoop : List Freq → List Freq → Bool
  | a :: _, b :: _ => decide (a.headway ≠ b.headway)
  | _, _ => true

/-- `headways_match`, `local_to_utc.h:37-57`. -/
def headwaysMatch (d : List Trip) (trips : List Nat) : Bool :=
  match trips with
  | [] => true
  | [_] => true
  | front :: _ =>
    let first := (get d front).freqs.getD []
    trips.all fun idx =>
      match (get d idx).freqs with
      | none => false
      | some fs => if fs.length ≠ first.length then false else zipLoop first fs

/-- `utl::is_sorted` with the comparison of window `i`, `local_to_utc.h:67-73`: no element is less
than the one before it. -/
def sortedAt (d : List Trip) (i : Nat) : List Nat → Bool
  | a :: b :: r =>
    let start := fun t : Nat => (((get d t).freqs.getD [])[i]?.map Freq.startTime).getD 0
    !(decide (start b < start a)) && sortedAt d i (b :: r)
  | _ => true

/-- `stays_sorted`, `local_to_utc.h:59-79`. -/
def staysSorted (d : List Trip) (trips : List Nat) : Bool :=
  match trips with
  | [] => true
  | [_] => true
  | front :: _ => (List.range ((get d front).freqs.getD []).length).all fun i => sortedAt d i trips

/-- The calls of the consumer for window `index` of the first trip with iterations `0 .. n - 1`,
`local_to_utc.h:97-110`. -/
def windowCalls (d : List Trip) (trips : List Nat) (index n : Nat) : List Fet :=
  (List.range n).map fun it =>
    { trips := trips
      offsets := trips.map fun t =>
        (get d t).firstDep.getD 0 -
          ((((get d t).freqs.getD [])[index]?.map (iterationStart · it)).getD 0) }

/-- The loops of `local_to_utc.h:95-111`: `fs` are the windows of the first trip from `index` on.
`none`: division by zero. -/
def joint (d : List Trip) (trips : List Nat) : Nat → List Freq → Option (List Fet)
  | _, [] => some []
  | index, f :: fs => match numberOfIterations f, joint d trips (index + 1) fs with
    | some n, some rest => some (windowCalls d trips index n ++ rest)
    | _, _ => none

/-- The last branch, `local_to_utc.h:117-121`. -/
def plain (trips : List Nat) : List Fet := [{ trips := trips, offsets := trips.map fun _ => 0 }]

/-- `expand_frequencies` for a single trip (the shortcut of `local_to_utc.h:92`). -/
def expandOne (d : List Trip) (t : Nat) : Option (List Fet) :=
  if hasFrequency d t then joint d [t] 0 ((get d t).freqs.getD []) else some (plain [t])

/-- `expand_frequencies` for each of the trips, `local_to_utc.h:112-114`. -/
def expandEach (d : List Trip) : List Nat → Option (List Fet)
  | [] => some []
  | t :: ts => match expandOne d t, expandEach d ts with
    | some a, some b => some (a ++ b)
    | _, _ => none

/-- `expand_frequencies`, `local_to_utc.h:81-126`: the calls of the consumer. -/
def expand (d : List Trip) (trips : List Nat) : Option (List Fet) :=
  if trips.any (hasFrequency d) then
    match trips with
    | [t] => expandOne d t
    | _ =>
      if trips.all (hasFrequency d) && headwaysMatch d trips && staysSorted d trips then
        joint d trips 0 ((get d (trips.headD 0)).freqs.getD [])
      else expandEach d trips
  else some (plain trips)

end Nigiri.FreqBlock
