import Verif.Model.WriteTrips
import Verif.Model.RaptorConcrete
/-!
# The search on an imported timetable

What `raptor`, `include/nigiri/routing/raptor/raptor.h:860-1130`, reads for a route of the timetable written by
the loader (`Verif.Model.WriteTrips`): `route_location_seq_`, `route_transport_ranges_`, `event_mam`,
`bitfields_[transport_traffic_days_]`, `route_clasz_` and the flags of the sections.

Simplifications: as in `Verif.Model.WriteTrips` and `Verif.Model.RaptorConcrete`; in particular bitfields are
elements of any type, `active` is `bitfield::test`; the flags of a route are given for each section as they are
read there (`readFlag`), not in the compressed form; there are no real-time transports.
-/

namespace Nigiri.FeedNet

open Raptor hiding Stop Route FlagData
open WriteTrips

/-- `stop`, `include/nigiri/stop.h:11-40`. -/
def stopData (s : Stop) : StopData := ⟨s.loc, s.inA, s.outA, s.inW, s.outW⟩

/-- `is_transport_active`, `include/nigiri/timetable.h:147-149`: the bitfield of transport `t`. -/
def isActive {B : Type} (w : Tt B) (active : B → Int → Bool) (t : Nat) (day : Int) : Bool :=
  ((w.transports[t]?.bind fun tr => w.bitfields[tr.bits]?).map fun b => active b day).getD false

/-- Route `r` as the search reads it, `raptor.h:860-1130`. -/
def routeOf {B : Type} (w : Tt B) (active : B → Int → Bool) (r : Nat) (rt : Route) : RouteData where
  stops := rt.seq.map stopData
  nTr := rt.last.getD rt.first - rt.first
  arr := fun t i => (eventMam w r (rt.first + t) i true).getD 0
  dep := fun t i => (eventMam w r (rt.first + t) i false).getD 0
  days := fun t day => isActive w active (rt.first + t) day
  clasz := rt.clasz
  secFlags := (List.range numFlags).map fun g => (List.range (rt.seq.length - 1)).map fun i => (readFlag (w.flags g) r i).getD false

/-- All routes, with the parameters of the search, the footpaths and the destinations from `E`. -/
def netOf {B : Type} (w : Tt B) (active : B → Int → Bool) (E : Net) : Net :=
  { E with routes := w.routes.mapIdx (routeOf w active), rts := [] }

end Nigiri.FeedNet
