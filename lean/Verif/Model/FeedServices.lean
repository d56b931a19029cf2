import Verif.Model.LocalToUtc
import Verif.Model.FreqBlock
import Verif.Model.WriteTrips
/-!
# From the trips of a feed to the services

Model of `expand_trip`, `include/nigiri/loader/gtfs/local_to_utc.h:276-300`, without assistance: for each call of
`add_trip`, `src/loader/gtfs/load_timetable.cc:315-375`, the trips are expanded by their frequencies
(`Verif.Model.FreqBlock`), invalid trips are removed and each run is expanded to services in UTC
(`Verif.Model.LocalToUtc`), which are written to the timetable (`Verif.Model.WriteTrips`).

Simplifications: those of these models; `requires_interpolation_` is false; the calls of `add_trip` are a list of
jobs (trips and days); an exception (`none`) of one call is the result of all.
-/

namespace Nigiri.FeedServices

open LocalToUtc (Ev FTrip)
open FreqBlock (Fet)

/-- `trip_data`, the UTC offsets (`precompute_noon_offsets`), the number of days and the selected days. -/
structure Source where
  feed : WriteTrips.Feed
  nTrips : Nat
  events : Nat → List Ev
  freqs : Nat → Option (List Frequency.Freq)
  noon : Nat → Int
  nDays : Nat
  selFrom : Int
  selTo : Int

/-- A call of `add_trip`. -/
structure Job where
  trips : List Nat
  days : Bitfield

/-- `trip_data_.data_` as the frequency expansion reads it. -/
def freqTrips (F : Source) : List FreqBlock.Trip :=
  (List.range F.nTrips).map fun t => ⟨(F.events t).head?.map Ev.dep, F.freqs t⟩

/-- The trips that are not skipped, `local_to_utc.h:136-148`, with their offsets. -/
def kept (F : Source) (c : Fet) : List (Nat × Int) :=
  (c.trips.zip c.offsets).filter fun x => decide (2 ≤ (F.events x.1).length)

/-- The events of the trips of a run, with the offset of the frequency. -/
def ftrips (F : Source) (l : List (Nat × Int)) : List FTrip := l.map fun x => ⟨F.events x.1, x.2⟩

def envOf (F : Source) (days : Bitfield) : LocalToUtc.Env := ⟨F.nDays, days, F.noon, F.selFrom, F.selTo⟩

/-- The `utc_trip` handed to the consumer, `local_to_utc.h:236-243`. -/
def toService (trips : List Nat) (u : LocalToUtc.UtcTrip) : WriteTrips.UtcTrip Bitfield :=
  ⟨u.firstDepOffset, u.tzOffset, trips, u.utcTimes.map Int.toNat, u.days, []⟩

/-- `expand_local_to_utc` for one run. -/
def ofRun (F : Source) (days : Bitfield) (c : Fet) : Option (List (WriteTrips.UtcTrip Bitfield)) :=
  (LocalToUtc.expand (envOf F days) (ftrips F (kept F c))).map fun us => us.map (toService ((kept F c).map Prod.fst))

/-- Results of all, or none. -/
def collect {α β : Type} (g : α → Option (List β)) : List α → Option (List β)
  | [] => some []
  | a :: as => match g a, collect g as with
    | some x, some y => some (x ++ y)
    | _, _ => none

/-- `expand_trip`, `local_to_utc.h:276-300`. -/
def ofJob (F : Source) (j : Job) : Option (List (WriteTrips.UtcTrip Bitfield)) :=
  (FreqBlock.expand (freqTrips F) j.trips).bind fun cs => collect (ofRun F j.days) cs

/-- All calls. -/
def services (F : Source) (jobs : List Job) : Option (List (WriteTrips.UtcTrip Bitfield)) := collect (ofJob F) jobs

end Nigiri.FeedServices
