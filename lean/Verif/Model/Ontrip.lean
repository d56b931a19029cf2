import Verif.Model.StartTimes
import Verif.Model.Packing
/-!
# Queries from inside a vehicle, refinement of time-dependent walks

Model of `src/routing/ontrip_train.cc` and `src/routing/raptor/specify_td_offsets.cc`.
Times are integers (minutes); conversions to narrower types are modelled.
-/

namespace Nigiri.Ontrip
open Nigiri.Raptor

/-- `struct offset`, `query.h:28-47`. -/
structure Offset where
  target : Loc
  duration : Int
  mode : Nat
deriving DecidableEq, Repr

/-- The two members of the query which are written, `query.h`. -/
structure OQuery where
  start : List Offset
  startTime : Int
deriving DecidableEq, Repr

/-- One stop of the route of the transport: its location, the scheduled arrival of this transport, and whether
passengers may get off (`stop.h`; not read by the function). -/
structure TrainStop where
  loc : Loc
  arr : Int
  outAllowed : Bool
deriving DecidableEq, Repr

/-- The offset for one stop, `ontrip_train.cc:26-31`: the duration is converted to `duration_t` (16 bits), the
position to `uint8_t`. -/
def offsetAt (transferTime : Loc → Nat) (first : Int) (s : TrainStop) (i : Nat) : Offset :=
  ⟨s.loc, toInt16 (s.arr + transferTime s.loc - first), i % 256⟩

/-- The loop, `ontrip_train.cc:25-37`, over the stops from position `i` on. -/
def loop (transferTime : Loc → Nat) (first : Int) : Nat → List TrainStop → List Offset → List Offset
  | _, [], out => out
  | i, s :: r, out => loop transferTime first (i + 1) r (out ++ [offsetAt transferTime first s i])

/-- `generate_ontrip_train_query`, `ontrip_train.cc:13-39`; `none` = `utl::verify` throws. -/
def generate (stops : List TrainStop) (transferTime : Loc → Nat) (stopIdx : Nat) (q : OQuery) : Option OQuery :=
  if stopIdx = 0 then none
  else match stops[stopIdx]? with
  | none => none
  | some s => some ⟨loop transferTime s.arr stopIdx (stops.drop stopIdx) q.start, s.arr⟩

/-! ## `specify_td_offsets` -/

/-- `journey::leg` (`journey.h`): `offset = some o` for a leg which uses an `offset`, else a transport or a
footpath. -/
structure Leg where
  src : Loc
  dst : Loc
  dep : Int
  arr : Int
  offset : Option Offset
deriving DecidableEq, Repr

/-- `specify_td_offsets.cc:13-26` for the first leg; `td` = `td_start_`. -/
def refineFirst (td : Loc → Option (List TdEntry)) (l : Leg) : Leg := match l.offset with
  | none => l
  | some o => match td o.target with
    | none => l
    | some es => match TdFootpath.fwd l.dep es with
      | none => l
      | some r => { l with arr := l.dep + r.2.duration, offset := some { o with duration := r.2.duration } }

/-- `specify_td_offsets.cc:28-40` for the last leg; `td` = `td_dest_`. -/
def refineLast (td : Loc → Option (List TdEntry)) (l : Leg) : Leg := match l.offset with
  | none => l
  | some o => match td o.target with
    | none => l
    | some es => match TdFootpath.bwd l.arr es with
      | none => l
      | some r => { l with dep := l.arr - r.2.duration, offset := some { o with duration := r.2.duration } }

/-- The last element is replaced. -/
def modifyLast (f : Leg → Leg) : List Leg → List Leg
  | [] => []
  | [l] => [f l]
  | l :: m :: r => l :: modifyLast f (m :: r)

/-- `specify_td_offsets`, `specify_td_offsets.cc:9-40`. -/
def specify (tdStart tdDest : Loc → Option (List TdEntry)) (legs : List Leg) : List Leg := match legs with
  | [] => []
  | l :: r => match r with
    | [] => [refineFirst tdStart l]
    | m :: r' => refineFirst tdStart l :: modifyLast (refineLast tdDest) (m :: r')

end Nigiri.Ontrip
