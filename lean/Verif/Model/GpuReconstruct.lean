import Verif.Model.GpuPacking
import Verif.Model.Reconstruct
/-!
# Reconstruction on the GPU

Model of `raptor_impl::reconstruct_journey` (`include/nigiri/routing/gpu/raptor_impl.cuh:182-310`) and of the conversion
of the device journeys (`src/routing/gpu/raptor.cu:987-1064`).  The labels are words: oriented time and breadcrumb.
Stop numbers in breadcrumbs are those of the timetable.

Not modelled: the shortening of time-dependent footpaths (raptor.cu:1066-1096), `results.add` (C10).  Simplifications:
reading beyond the stops or transports of the timetable yields `none`; days are integers; the duration of a walk is not
reduced to the 9 bits of `footpath` (static footpaths and transfer times fit); `dest_l_` is set by the first leg only (only the first label can be the one of the end point).
-/

namespace Nigiri.Gpu
open Nigiri.Raptor (Dir Net RouteData RtData Vehicle Uses Leg OUses OLeg evTime stopIdx)

/-- `transport_route_[t]` with the offset of the transport in its route (transports are numbered route by route). -/
def routeOf : List RouteData → Nat → Option (Nat × Nat)
  | [], _ => none
  | r :: rs, t => if t < r.nTr then some (0, t) else (routeOf rs (t - r.nTr)).map fun x => (x.1 + 1, x.2)

/-- `kRecMaxDayShift`, raptor_impl.cuh:230-231: `kMaxTravelTime / 1 day + 1`. -/
def kRecMaxDayShift : Nat := 6

/-- The recovery of the traffic day of a trip from the label, raptor_impl.cuh:230-259: `ev` is the time of the trip at
the stop where it is left, in minutes after the midnight its day begins with, `T` the label. -/
def recoverDay (d : Dir) (base : Int) (days : Int → Bool) (ev : Nat) (T : Int) : Option Int :=
  ((List.range kRecMaxDayShift).map fun (off : Nat) => (base * 1440 + d.sgn * T) / 1440 - ((ev / 1440 : Nat) : Int) - d.sgn * (off : Nat)).find?
    fun D => decide (0 ≤ D) && days D && decide (d.clamp (evTime d base D ev) ≤ T)

/-- `event_mam` of the stop at which the search leaves / boards a trip. -/
def leaveEv (d : Dir) (r : RouteData) (t s : Nat) : Nat := match d with | .fwd => r.arr t s | .bwd => r.dep t s
def enterEv (d : Dir) (r : RouteData) (t s : Nat) : Nat := match d with | .fwd => r.dep t s | .bwd => r.arr t s

/-- `rt_time_at_stop` (oriented, before clamping), raptor_impl.cuh:1051-1056. -/
def rtLeave (d : Dir) (r : RtData) (s : Nat) : Int := match d with | .fwd => r.arr s | .bwd => - r.dep s
def rtEnter (d : Dir) (r : RtData) (s : Nat) : Int := match d with | .fwd => r.dep s | .bwd => - r.arr s

/-- The ride a label's breadcrumb stands for, raptor_impl.cuh:213-272; `none`: no day found. -/
def decodeRide (d : Dir) (N : Net) (w : Word) : Option OLeg :=
  let f := bcTransport w.bc
  let b := bcBoard w.bc
  let a := bcAlight w.bc
  if isRtField f N.rts.length then
    match N.rts[decodeRt f]? with
    | none => none
    | some r => match r.stops[b]?, r.stops[a]? with
      | some sb, some sa => some ⟨sb.loc, sa.loc, d.clamp (rtEnter d r b), d.clamp (rtLeave d r a),
          .ride (.rt (decodeRt f)) r.stops.length (stopIdx d r.stops.length b) (stopIdx d r.stops.length a)⟩
      | _, _ => none
  else match routeOf N.routes f with
    | none => none
    | some (ri, t) => match N.routes[ri]? with
      | none => none
      | some r => match recoverDay d N.base (r.days t) (leaveEv d r t a) w.t with
        | none => none
        | some D => match r.stops[b]?, r.stops[a]? with
          | some sb, some sa => some ⟨sb.loc, sa.loc, d.clamp (evTime d N.base D (enterEv d r t b)), d.clamp (evTime d N.base D (leaveEv d r t a)),
              .ride (.trip ri t D) r.stops.length (stopIdx d r.stops.length b) (stopIdx d r.stops.length a)⟩
          | _, _ => none

/-- `kMaxRecLegs`, journey_pod.h:11. -/
def kMaxRecLegs : Nat := 32

/-- The walk after a ride, raptor_impl.cuh:274-297: none for the last mile of an intermodal query, none if nothing is
walked at the end; `n` legs were written before. -/
def walkAfter (N : Net) (n : Nat) (l : Loc) (t : Int) (ride : OLeg) : List OLeg :=
  if (N.intermodal && l == N.endLoc) || (n == 0 && ride.b == l && ride.tb == t) then []
  else [⟨ride.b, l, ride.tb, t, .foot (t - ride.tb)⟩]

/-- The loop of `reconstruct_journey`, raptor_impl.cuh:203-319, from the label of round `k` at `l`. -/
def recBack (d : Dir) (N : Net) (R : Nat → Loc → Word) : Nat → Loc → Nat → Option (List OLeg)
  | 0, _, _ => some []
  | k + 1, l, n =>
    let w := R (k + 1) l
    if bcIsStart w.bc then some []
    else match decodeRide d N w with
      | none => none
      | some ride =>
        let walk := walkAfter N n l w.t ride
        if kMaxRecLegs ≤ n + walk.length then none
        else (recBack d N R k ride.a (n + walk.length + 1)).map fun rest => walk ++ ride :: rest

/-- Footpaths begin when the leg before has arrived, raptor.cu:1053-1064. -/
def anchor (prev : Leg) (x : Leg) : Leg :=
  match x.uses with
  | .foot w => { x with dep := prev.arr, arr := prev.arr + w }
  | _ => x

def anchorAll : Leg → List Leg → List Leg
  | _, [] => []
  | prev, x :: xs => anchor prev x :: anchorAll (anchor prev x) xs

/-- The legs of the host journey, raptor.cu:1011-1064. -/
def hostLegs (d : Dir) (L : List OLeg) : List Leg :=
  match (match d with | .fwd => (L.map (OLeg.plain d)).reverse | .bwd => L.map (OLeg.plain d)) with
  | [] => []
  | x :: xs => x :: anchorAll x xs

/-- The journey with `K` rides to `dest` that is added to the results: its destination, its arrival and its legs;
`none` if there is none (raptor.cu:991-1003). -/
def gpuJourney (d : Dir) (N : Net) (R : Nat → Loc → Word) (K : Nat) (dest : Loc) : Option (Loc × Int × List Leg) :=
  if (R K dest).t = d.hi then none
  else match recBack d N R K dest 0 with
    | none => none
    | some [] => none
    | some (x :: L) => some (if N.intermodal && dest == N.endLoc then x.b else dest, (R K dest).t, hostLegs d (x :: L))

end Nigiri.Gpu
