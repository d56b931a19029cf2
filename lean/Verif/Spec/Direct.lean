import Verif.Model.Direct
import Verif.Spec.Itinerary
import Verif.Props.TdFootpath
/-!
# Specification: direct connections

A direct connection is a walk (or first mile), a ride with one vehicle and another walk (or last mile).  Nothing here
refers to the search for direct connections; `Usable` is the specification of time-dependent walks
(`Verif.Props.TdFootpath`): being on the way with entry `e` from `dep` on.
-/

namespace Nigiri.Direct
open Nigiri.Raptor Nigiri.Lb Nigiri.StartTimes

/-- A time-dependent walk of `w` minutes, including waiting: it ends in time to be at the stop at `t` (boarding), or
begins when being at the stop at `t` (alighting). -/
def TdWalk (s : Side) (es : List TdEntry) (t w : Int) : Prop := match s with
  | .boarding => ∃ e dep, TdFootpath.Usable es e dep ∧ dep + e.duration ≤ t ∧ w = t - dep
  | .alighting => ∃ e dep, TdFootpath.Usable es e dep ∧ t ≤ dep ∧ w = dep + e.duration - t

/-- A footpath between `l` and the stop `loc`; time-dependent footpaths replace the static ones. -/
def FootWalk (q : Query) (s : Side) (l loc : Loc) (t f : Int) : Prop := match q.tdFps s l with
  | some gs => ∃ es, (loc, es) ∈ gs ∧ TdWalk s es t f
  | none => (loc, f) ∈ q.fps s l

/-- It takes `w` minutes between `place`, given by the query, and the stop `loc` at time `t`. -/
def SideWalk (q : Query) (s : Side) (place loc : Loc) (t w : Int) : Prop :=
  if (q.side s).mode = .intermodal then
    place = q.boundary s ∧
      ((∃ es, (loc, es) ∈ (q.side s).tdOffs ∧ TdWalk s es t w) ∨
       ((∀ es, (loc, es) ∉ (q.side s).tdOffs) ∧ (loc, w) ∈ (q.side s).offs))
  else
    ∃ d, (place, d) ∈ (q.side s).offs ∧ ∃ l ∈ forEachMeta q.T (q.side s).mode place,
      (l = loc ∧ w = d + (if (q.side s).mode = .exact then q.N.transfer l else 0)) ∨
      ((q.side s).useFootpaths = true ∧ ∃ f, FootWalk q s l loc t f ∧ w = d + f)

/-- The leg of such a walk. -/
def WalkUses (q : Query) (s : Side) (w : Int) : Uses := if (q.side s).mode = .intermodal then .offset w else .foot w

/-- A direct connection with vehicle `v` from its stop `i` to its stop `j`, with the legs `legs`, that departs at `dep`
and arrives at `arr`.  First and last miles of zero minutes have no leg. -/
def DirectTrip (q : Query) (v : Vehicle) (i j : Nat) (legs : List Leg) (dep arr : Int) : Prop :=
  ∃ (r : Leg) (p p' : Loc) (w w' : Int) (A B : List Leg),
    r.uses = .ride v i j ∧ RideLeg q.N v i j r ∧
    SideWalk q .boarding p r.fr r.dep w ∧ SideWalk q .alighting p' r.to r.arr w' ∧
    dep = r.dep - w ∧ arr = r.arr + w' ∧ legs = A ++ r :: B ∧
    (A = [⟨p, r.fr, dep, r.dep, WalkUses q .boarding w⟩] ∨ (A = [] ∧ q.start.mode = .intermodal ∧ w = 0)) ∧
    (B = [⟨r.to, p', r.arr, arr, WalkUses q .alighting w'⟩] ∨ (B = [] ∧ q.dest.mode = .intermodal ∧ w' = 0))

/-- Not before the given time (forward) / not after it (backward). -/
def InTime (d : Dir) (time dep arr : Int) : Prop := match d with
  | .fwd => time ≤ dep
  | .bwd => arr ≤ time

/-- Sanity of timetable and query: flag lists as accepted by `register_route`; entries of time-dependent walks in order
of their begin, one list per target. -/
structure Query.Ok (q : Query) : Prop where
  flags : ∀ r ∈ q.N.routes, FlagsOk r.stops.length q.N.required r.secFlags
  rtFlags : ∀ r ∈ q.N.rts, FlagsOk r.stops.length q.N.required r.secFlags
  tdOffs : ∀ s, ∀ e ∈ (q.side s).tdOffs, TdFootpath.Sorted e.2
  tdFps : ∀ s l gs, q.tdFps s l = some gs → ∀ e ∈ gs, TdFootpath.Sorted e.2

/-- No time-dependent walks. -/
structure Query.Static (q : Query) : Prop where
  offs : ∀ s, (q.side s).tdOffs = []
  fps : ∀ s l, q.tdFps s l = none

/-- The stop is near the origin / destination: there is a walk of some length. -/
def Near (q : Query) (s : Side) (loc : Loc) : Prop := ∃ p t w, SideWalk q s p loc t w

/-- Sanity of one end: offsets in order of their duration (as `lookup_offset` assumes), no negative durations, and a
single location for exact matching (as for alternatives of a leg). -/
structure Query.Tidy (q : Query) : Prop where
  sorted : ∀ s, (q.side s).mode = .intermodal → (q.side s).offs.Pairwise fun a b => a.2 ≤ b.2
  offs : ∀ s, ∀ o ∈ (q.side s).offs, 0 ≤ o.2
  fps : ∀ s l, ∀ fp ∈ q.fps s l, 0 ≤ fp.2
  transfer : ∀ l, 0 ≤ q.N.transfer l
  exact : ∀ s, (q.side s).mode = .exact → (q.side s).offs.length ≤ 1

/-- The day of the vehicle is one for which the timetable has data and that the search for direct connections looks
at. -/
def InRange (d : Dir) (q : Query) (v : Vehicle) (r : Leg) : Prop := match v with
  | .trip _ _ day => 0 ≤ day ∧ day < 512 ∧ (match d with
    | .fwd => q.N.base + r.dep / 1440 ≤ q.dayHi
    | .bwd => q.dayLo ≤ q.N.base + r.arr / 1440)
  | .rt _ => True

/-- The stop `i` is the first one at which one can board near the origin, `j` the first one after it at which one can
alight near the destination. -/
structure FirstPair (q : Query) (stops : List StopData) (i j : Nat) : Prop where
  board : ∀ x s, x < i → stops[x]? = some s → MayBoard q.N.wheelchair s → ¬ Near q .boarding s.loc
  alight : ∀ x s, i < x → x < j → stops[x]? = some s → MayAlight q.N.wheelchair s → ¬ Near q .alighting s.loc

end Nigiri.Direct
