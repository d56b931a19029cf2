import Verif.Model.RtTimetable
/-!
# Service alerts

Model of `handle_alert` (`src/rt/gtfsrt_alert.cc:77-295`), of the part of the message loop of
`src/rt/gtfsrt_update.cc:653-669` that calls it, and of `alerts::get_alerts`
(`include/nigiri/rt/service_alert.h:97-164`).

Texts, periods, cause, effect and severity are one value `text` per alert (the code appends to parallel
arrays). `gtfsrt_resolve_run` (see `Resolve`) is a result carried by the selector. The statistics are left
out. Assumption on the library: `paged_vecvec::resize` drops the buckets behind the new size.
-/

namespace Nigiri.Alerts
open Nigiri.Rt (Rtt Tt Run addRtTransport resolveRt)

/-- The parts of the static timetable that alerts read. -/
structure Static where
  tt : Tt
  /-- `locations_.parents_` -/
  parent : Nat → Option Nat
  /-- `route_ids_[src].ids_.find` -/
  findRoute : Nat → String → Option Nat
  /-- `get_provider_idx` -/
  findAgency : Nat → String → Option Nat
  /-- `trip_route_id_` -/
  tripRoute : Nat → Nat
  /-- `route_ids_[src].route_id_type_` -/
  routeType : Nat → Nat → Nat
  /-- `route_ids_[src].route_id_provider_` -/
  routeAgency : Nat → Nat → Nat
  /-- `trip_direction_id_` -/
  tripDir : Nat → Bool

/-- `x.trip()` with the result of looking it up: `bad` = the lookup throws (`gtfsrt_resolve_run.h:137`,
unparsable dates), else the static run found and the trip id. -/
inductive TripRef
  | bad
  | found (t : Option (Nat × Nat)) (id : String)
deriving DecidableEq, Repr

/-- `EntitySelector`. -/
structure Selector where
  agency : Option String := none
  routeType : Option Int := none
  route : Option String := none
  dir : Option Nat := none
  trip : Option TripRef := none
  stop : Option String := none
deriving DecidableEq, Repr

/-- `Alert` of a feed of source `src`. -/
structure Alert where
  src : Nat
  entities : List Selector
  text : String
deriving DecidableEq, Repr

/-- `rt_timetable` with its `alerts_`. -/
structure S where
  rtt : Rtt
  /-- `rt_transport_` -/
  rtA : Nat → List (Option Nat × Nat)
  /-- `route_id_` -/
  routeA : Nat → Nat → List (Option Nat × Option Nat × Nat)
  /-- `agency_` -/
  agencyA : Nat → List (Option Nat × Option Nat × Nat)
  /-- `route_type_` -/
  typeA : Nat → List (List (Option Nat × Nat))
  /-- `location_` -/
  locA : Nat → List Nat
  /-- the arrays indexed by `alert_idx_t` -/
  contents : List Alert

/-- No alerts. -/
def S.init (r : Rtt) : S := ⟨r, fun _ => [], fun _ _ => [], fun _ => [], fun _ => [], fun _ => [], []⟩

/-- `direction_id_t{x.direction_id()}`: 8 bits, 255 is `invalid()`. -/
def dirOf (d : Nat) : Option Nat := if d % 256 = 255 then none else some (d % 256)

/-- `route_type_t{x.route_type()}`: 16 bits, 65535 is `invalid()`. -/
def typeOf (v : Int) : Option Nat := if v % 65536 = 65535 then none else some (v % 65536).toNat

/-- `push_back` into bucket `k`. -/
def push {β : Type} (f : Nat → List β) (k : Nat) (x : β) : Nat → List β :=
  fun i => if i = k then f i ++ [x] else f i

/-- The stop of a selector, `gtfsrt_alert.cc:96-98`. -/
def stopOf (st : Static) (src : Nat) (e : Selector) : Option Nat := e.stop.bind (st.tt.lookup src)

/-- Run of a trip reference, `gtfsrt_alert.cc:111`. -/
def runOf (r : Rtt) (src : Nat) (t : Option (Nat × Nat)) (id : String) : Run :=
  resolveRt r ⟨t, none, 0, []⟩ id src

/-- `alerts.rt_transport_[rt].push_back`, with the transport created if necessary,
`gtfsrt_alert.cc:111-122`; the flag: resolved. -/
def tripEntity (st : Static) (s : S) (src i : Nat) (stop : Option Nat) (t : Option (Nat × Nat)) (id : String) : S × Bool :=
  let run := runOf s.rtt src t id
  match run.rt with
  | some rt => ({ s with rtA := push s.rtA rt (stop, i) }, true)
  | none =>
    match run.t with
    | none => (s, false)
    | some td =>
      let (r, rt) := addRtTransport st.tt s.rtt src (some td) [] [] ""
      ({ s with rtt := r, rtA := push s.rtA rt (stop, i) }, true)

/-- One informed entity of alert `i`, `gtfsrt_alert.cc:95-175`; `none` = exception. -/
def entity (st : Static) (s : S) (src i : Nat) (e : Selector) : Option (S × Bool) :=
  let stop := stopOf st src e
  if e.stop.isSome ∧ stop = none then some (s, false)
  else match e.trip with
    | some .bad => none
    | some (.found t id) => some (tripEntity st s src i stop t id)
    | none => match e.route with
      | some r => match st.findRoute src r with
        | none => some (s, false)
        | some k => some ({ s with routeA := fun x => if x = src then push (s.routeA x) k (e.dir.bind dirOf, stop, i) else s.routeA x }, true)
      | none => match e.agency with
        | some a => match st.findAgency src a with
          | none => some (s, false)
          | some k => some ({ s with agencyA := push s.agencyA k (e.routeType.bind typeOf, stop, i) }, true)
        | none => match e.routeType with
          | some v =>
            if v > 1702 ∨ v < 0 then some (s, false)
            else
              let l := ((s.typeA src).take (v.toNat + 1)) ++ List.replicate (v.toNat + 1 - (s.typeA src).length) []
              some ({ s with typeA := fun x => if x = src then l.modify v.toNat (· ++ [(stop, i)]) else s.typeA x }, true)
          | none => match stop with
            | some k => some ({ s with locA := push s.locA k i }, true)
            | none => some (s, false)

/-- The loop over the informed entities: state, `any_resolved`, exception. -/
def entities (st : Static) (src i : Nat) : S → Bool → List Selector → S × Bool × Bool
  | s, any, [] => (s, any, false)
  | s, any, e :: es => match entity st s src i e with
    | none => (s, any, true)
    | some (s, ok) => entities st src i s (any || ok) es

/-- `handle_alert`, `gtfsrt_alert.cc:77-295`; the flag: exception (it leaves `gtfsrt_update_msg`). -/
def handleAlert (st : Static) (s : S) (a : Alert) : S × Bool :=
  match entities st a.src s.contents.length s false a.entities with
  | (s, any, threw) => if any && !threw then ({ s with contents := s.contents ++ [a] }, false) else (s, threw)

/-- A `FeedEntity`: an alert or a trip update (vehicle positions are left out). -/
inductive Item where
  | alert (a : Alert)
  | trip (e : Rt.Entity)

/-- The entities of one message, `gtfsrt_update.cc:653-669`: an exception of `handle_alert` ends the message (it
is thrown outside of the `try` of `gtfsrt_update.cc:737-810`). -/
def message (st : Static) : S → List Item → S
  | s, [] => s
  | s, .trip e :: is => message st { s with rtt := Rt.process st.tt s.rtt e } is
  | s, .alert a :: is => match handleAlert st s a with
    | (s, true) => s
    | (s, false) => message st s is

/-- A sequence of messages. -/
def messages (st : Static) (s : S) (ms : List (List Item)) : S := ms.foldl (message st) s

/-- Arguments of `get_alerts`. -/
structure Query where
  src : Nat
  trip : Nat
  rt : Option Nat
  l : Option Nat
  fuzzy : Bool

/-- `matches_location`, `service_alert.h:107-117`. -/
def matchesLocation (st : Static) (q : Query) (x : Option Nat) : Bool :=
  let parent := q.l.bind st.parent
  let grandparent := parent.bind st.parent
  (if q.fuzzy then decide (x = none) || decide (x = q.l) else decide (x = q.l)) ||
    (decide (parent ≠ none) && decide (parent = x)) || (decide (grandparent ≠ none) && decide (grandparent = x))

/-- `x == invalid() || x == v`. -/
def anyOr (x : Option Nat) (v : Nat) : Bool := decide (x = none) || decide (x = some v)

/-- `get_alerts`, `service_alert.h:97-164`, as a list. -/
def getAlerts (st : Static) (s : S) (q : Query) : List Nat :=
  let route := st.tripRoute q.trip
  let dir := if st.tripDir q.trip then 1 else 0
  (match q.rt with
    | none => []
    | some rt => ((s.rtA rt).filter fun a => matchesLocation st q a.1).map (·.2)) ++
  (((s.routeA q.src route).filter fun a => anyOr a.1 dir && matchesLocation st q a.2.1).map (·.2.2)) ++
  (((s.agencyA (st.routeAgency q.src route)).filter fun a =>
    anyOr a.1 (st.routeType q.src route) && matchesLocation st q a.2.1).map (·.2.2)) ++
  (match q.l with
    | none => []
    | some l => s.locA l ++ (match st.parent l with
      | none => []
      | some p => s.locA p))

end Nigiri.Alerts
