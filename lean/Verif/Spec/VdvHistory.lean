import Verif.Model.VdvAus

/-!
# Which runs a message of a history is about

Uses only the data types of the model; `mr` is the matching of a single message.
-/

namespace Nigiri.Vdv.Spec

open Nigiri.Rt Nigiri.Vdv

/-- The messages for `id` (with at least one stop) since the id was last forgotten, in order. -/
def since (id : String) (es : List Event) : List Msg :=
  es.foldl (fun l e => match e with
    | .run m => if m.id = some id ∧ m.stops ≠ [] then l ++ [m] else l
    | .cleanup drop => if drop id then [] else l) []

/-- The message which decides about the runs of an id: the first complete one, otherwise the first one. -/
def decisive (l : List Msg) : Option Msg :=
  match l.find? (·.complete) with
  | some m => some m
  | none => l.head?

/-- The runs the `k`-th event of a history is about. -/
def runsAt (mr : Msg → List VRun) (es : List Event) (k : Nat) : List VRun :=
  match es[k]? with
  | some (.run m) =>
    match m.id with
    | some id => if m.stops = [] then [] else
      match decisive (since id (es.take (k + 1))) with
      | some d => mr d
      | none => []
    | none => []
  | _ => []

/-- All runs a history is about. -/
def runsOf (mr : Msg → List VRun) (es : List Event) : List VRun :=
  (List.range es.length).flatMap (runsAt mr es)

/-- A history the real-time timetable can hold: existing transports, fewer than 2^31 bitfields (two per run of a
message). -/
def Admissible (tt : Tt) (mr : Msg → List VRun) (es : List Event) : Prop :=
  2 * (runsOf mr es).length < 2 ^ 31 ∧ ∀ x ∈ runsOf mr es, x.t.1 < tt.trafficDays.length

/-- The real-time transport of a static run in the timetable. -/
def Instance (r : Rtt) (k : Nat × Nat) (y : RtTransport) : Prop :=
  y.static = some k ∧ ∃ rt : Nat, r.transports[rt]? = some y

/-- Is there anything of the run a passenger could take: the static run, or a real-time transport which is not
cancelled? -/
def Offered (tt : Tt) (r : Rtt) (k : Nat × Nat) : Prop :=
  isActive tt r k.1 k.2 = true ∨ ∃ y, Instance r k y ∧ y.cancelled = false

end Nigiri.Vdv.Spec
