import Verif.Spec.FeedServices
import Verif.Spec.EndToEnd
import Verif.Props.LbGraph
/-!
# Specification: a query on an imported feed

`E` gives the footpaths, the destinations and the parameters of the query, `F` and `jobs` the trips of the feed.
-/

namespace Nigiri.FeedQuery

open Raptor hiding Stop Route FlagData
open FeedServices (Source Job GtfsRide SourceOk)
open FeedNet (JourneyBy)

/-- A trip of the traveller with the trips of the feed: leave the origin at `T`, reach one of the start locations after
its offset, ride `j` vehicles, reach the destination at `A`.  (Backward search: be at the end of the trip at `T`,
having left its beginning at `A`.) -/
def GtfsTrip (d : Dir) (F : Source) (jobs : List Job) (E : Net) (entries : List (Loc × Int)) (T : Int) (j : Nat) (A : Int) : Prop :=
  ∃ l x, (l, x) ∈ entries ∧ JourneyBy d E (GtfsRide F jobs E) j l (EndToEnd.rel d E T + x) (EndToEnd.rel d E A)

/-- The feed, what is known of its surroundings, and the query are consistent; the search `V` works on the network `N`
with RAPTOR and constant start offsets. -/
structure FeedSetup (d : Dir) (F : Source) (jobs : List Job) (E : Net) (N : Net) (n : Nat) (entries : List (Loc × Int)) (maxOff : Int)
    (V : Search.Env Raptor.State) : Prop where
  source : SourceOk F jobs
  /-- services with the same stops pass midnight (in UTC) at the same events -/
  midnights : ∀ ss, FeedServices.services F jobs = some ss → FeedNet.SameMidnights F.feed ss
  required : E.required.length = WriteTrips.numFlags
  env : NetOk E
  fifo : NetFifo E
  /-- the lower bounds are admissible, see `C138_lower_bounds` -/
  lb : ∀ T0 W, W ≤ T0 + 7200 → LbOk d N T0 W
  /-- the algorithm is RAPTOR and the reconstruction of a journey does not fail -/
  algo : ∃ rec, V.algo = EndToEnd.raptorAlgo d N n rec ∧ ∀ s j, rec s j = true
  starts : ∀ st b l, V.starts st b l = StartTimes.getStarts d N st entries [] maxOff b l
  offsets : ∀ e ∈ entries, 0 ≤ e.2 ∧ e.2 ≤ maxOff ∧ e.2 ≠ 511 ∧ E.isDest e.1 = false
  offNonneg : 0 ≤ maxOff
  travel : 0 ≤ V.q.maxTravel ∧ V.q.maxTravel ≤ 7200 ∧ 0 ≤ V.direct
  /-- backward search: no trip takes zero minutes -/
  takes : d = .bwd → ∀ T j A, GtfsTrip d F jobs E entries T j A → T ≠ A
  /-- all times are in the range of the 16 bit times -/
  fits : ∀ T, V.q.startIv.from' - 3601 ≤ T → T ≤ V.q.startIv.to' + 3600 →
    d.lo < EndToEnd.rel d E T ∧ EndToEnd.rel d E T + 7201 + maxOff < d.hi

/-- The part of the timetable that the lower bounds read: the stations and footpaths `S` and the imported routes. -/
def lbTt (S : Lb.Tt) (routes : List RouteData) : Lb.Tt := { S with routes := routes, rts := [] }

end Nigiri.FeedQuery
