import Verif.Model.FeedServices
import Verif.Props.FreqBlock
import Verif.Props.LocalToUtc
import Verif.Spec.FeedNet
/-!
# Specification: riding the trips of a feed at their local times
-/

namespace Nigiri.FeedServices

open Raptor hiding Stop Route FlagData
open WriteTrips
open LocalToUtc (Ev FTrip)
open FeedNet (MayGetOn MayGetOff)

/-- Trips with less than two stop times are left out. -/
abbrev Usable (F : Source) (t : Nat) : Prop := 2 ≤ (F.events t).length

/-- The trip has stop times and frequencies. -/
def Frequent (F : Source) (t : Nat) : Prop := F.events t ≠ [] ∧ F.freqs t ≠ none

/-- The run `ts` of a job, its usable trips one after the other, `off` earlier than in the feed: without frequencies
as they are; otherwise each trip alone, once for each departure in the windows of its frequencies. -/
def Runs (F : Source) (j : Job) (ts : List Nat) (off : Int) : Prop :=
  ((∀ t ∈ j.trips, ¬Frequent F t) ∧ ts = j.trips.filter (fun t => decide (Usable F t)) ∧ ts ≠ [] ∧ off = 0) ∨
  ((∃ t ∈ j.trips, Frequent F t) ∧ ∃ t ∈ j.trips, Usable F t ∧ ts = [t] ∧
    ((F.freqs t = none ∧ off = 0) ∨
     ∃ fs e, F.freqs t = some fs ∧ (F.events t).head? = some e ∧ ∃ f ∈ fs, ∃ n, Frequency.numberOfIterations f = some n ∧
       ∃ i < n, off = e.dep - (f.startTime + (i : Int) * f.headway)))

/-- The events of the trips of a run, one after the other. -/
def runEvents (F : Source) (ts : List Nat) (off : Int) : List FTrip := ts.map fun t => ⟨F.events t, off⟩

/-- The first departure of the run, in local time. -/
def FirstDep (F : Source) (ts : List Nat) (off a : Int) : Prop := ∃ t e, ts.head? = some t ∧ (F.events t).head? = some e ∧ a = e.dep - off

/-- The last arrival of the run, in local time. -/
def LastArr (F : Source) (ts : List Nat) (off b : Int) : Prop := ∃ t e, ts.getLast? = some t ∧ (F.events t).getLast? = some e ∧ b = e.arr - off

/-- The service day `g` is imported: the service runs on it, it is a day of the timetable, the days from the first
departure to the last arrival touch the selected days, and the UTC day of the first departure can be stored. -/
def Day (F : Source) (j : Job) (ts : List Nat) (off : Int) (g : Nat) : Prop :=
  j.days g = true ∧ g < F.nDays ∧ ∃ a b, FirstDep F ts off a ∧ LastArr F ts off b ∧
    F.selFrom ≤ (g : Int) + b.tdiv 1440 ∧ (g : Int) + a.tdiv 1440 < F.selTo ∧
    0 ≤ (g : Int) * 1440 + a - F.noon g ∧ (g : Int) * 1440 + a - F.noon g < 512 * 1440

/-- A ride with the trips of a feed: on service day `g`, from the departure of section `p` of trip `t` to the
arrival of section `p'` of trip `t'`; times are local times, counted from `g`'s noon minus 12 hours, `noon g`
before UTC.  `st` are the stops of the run, the sections count from `i` to `j`. -/
structure TripRide (F : Source) (E : Net) (ts : List Nat) (off : Int) (g : Nat) (x : Loc) (tdep : Int) (y : Loc) (tarr : Int)
    (st : List Stop) (i j : Nat) (si sj : Stop) (t p t' p' : Nat) (e e' : Ev) : Prop where
  stops : getStopSeq F.feed (⟨0, 0, ts, [], (), []⟩ : UtcTrip Unit) = some st
  lt : i < j
  from_ : st[i]? = some si
  to_ : st[j]? = some sj
  board : si.loc = x ∧ MayGetOn E.wheelchair si
  alight : sj.loc = y ∧ MayGetOff E.wheelchair sj
  clasz : E.claszMask.testBit (classOf F.feed (⟨0, 0, ts, [], (), []⟩ : UtcTrip Unit)) = true
  flags : ∀ (k : Nat) (sec : Nat × Nat), i ≤ k → k < j → (sections F.feed ts)[k]? = some sec → ∀ g : Nat, E.required[g]? = some true →
    (F.feed.trip sec.1).flag g = true
  first : (sections F.feed ts)[i]? = some (t, p) ∧ (F.events t)[p]? = some e
  last : (sections F.feed ts)[j - 1]? = some (t', p') ∧ (F.events t')[p' + 1]? = some e'
  dep : tdep = ((g : Int) - E.base) * 1440 - F.noon g + (e.dep - off)
  arr : tarr = ((g : Int) - E.base) * 1440 - F.noon g + (e'.arr - off)

/-- A ride with a trip of the feed (or several, one after the other) on a service day. -/
def GtfsRide (F : Source) (jobs : List Job) (E : Net) (x : Loc) (tdep : Int) (y : Loc) (tarr : Int) : Prop :=
  ∃ job ∈ jobs, ∃ ts off, Runs F job ts off ∧ ∃ g, Day F job ts off g ∧
    ∃ st i j si sj t p t' p' e e', TripRide F E ts off g x tdep y tarr st i j si sj t p t' p' e e'

/-- The feed is consistent: the trips with two or more events have as many events as stops, headsigns for all sections or none,
the local times along a run do not decrease, the windows of frequencies have a headway. -/
structure SourceOk (F : Source) (jobs : List Job) : Prop where
  known : ∀ j ∈ jobs, ∀ t ∈ j.trips, t < F.nTrips
  ne : ∀ j ∈ jobs, j.trips ≠ []
  len : ∀ j ∈ jobs, ∀ t ∈ j.trips, Usable F t → (F.feed.trip t).stops.length = (F.events t).length
  heads : ∀ j ∈ jobs, ∀ t ∈ j.trips, (F.feed.trip t).stopHeadsigns = [] ∨
    (F.feed.trip t).stopHeadsigns.length = (F.feed.trip t).stops.length - 1
  mono : ∀ j ∈ jobs, ∀ ts off, Runs F j ts off → (LocalToUtc.localTimes (runEvents F ts off)).Pairwise (· ≤ ·)
  freqs : ∀ j ∈ jobs, ∀ t ∈ j.trips, ∀ fs, F.freqs t = some fs → fs ≠ [] ∧ ∀ f ∈ fs, f.headway ≠ 0
  noon : ∀ g, g < F.nDays → F.noon g ≠ -1

end Nigiri.FeedServices
