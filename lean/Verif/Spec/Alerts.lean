import Verif.Model.Alerts
/-!
# What a service alert is about (specification of C75)

GTFS Realtime: an alert has informed entities; an entity selects what all its given fields select.
-/

namespace Nigiri.Alerts
open Nigiri.Rt (Rtt Tt)

/-- Does the stop selector cover the stop asked for?  Without a stop selector the alert is about the whole
trip/route/agency: it is wanted if the caller asks without stop, or with `fuzzy`.  A station covers its platforms and
their boarding areas. -/
def StopFits (st : Static) (q : Query) (src : Nat) : Option String → Prop
  | none => q.fuzzy = true ∨ q.l = none
  | some id => ∃ x l, st.tt.lookup src id = some x ∧ q.l = some l ∧
      (x = l ∨ st.parent l = some x ∨ ∃ p, st.parent l = some p ∧ st.parent p = some x)

/-- Is the run asked for the one named by the trip selector (a run of the static timetable, or an
additional trip by its id)? -/
def TripFits (r : Rtt) (q : Query) (src : Nat) : TripRef → Prop
  | .bad => False
  | .found (some k) _ => ∃ rt, q.rt = some rt ∧ r.byStatic.lookup k = some rt
  | .found none id => ∃ rt i, q.rt = some rt ∧ (r.addIds src).find id = some i ∧ (r.addTransports src)[i]? = some rt

/-- Is the trip asked for a trip of the route? -/
def RouteFits (st : Static) (q : Query) (src : Nat) (id : String) : Prop :=
  q.src = src ∧ st.findRoute src id = some (st.tripRoute q.trip)

/-- Has the trip asked for this direction? -/
def DirFits (st : Static) (q : Query) (d : Nat) : Prop := d = if st.tripDir q.trip then 1 else 0

/-- Is its route operated by the agency? -/
def AgencyFits (st : Static) (q : Query) (src : Nat) (id : String) : Prop :=
  st.findAgency src id = some (st.routeAgency q.src (st.tripRoute q.trip))

/-- Is its route of this type? -/
def TypeFits (st : Static) (q : Query) (v : Int) : Prop := v = st.routeType q.src (st.tripRoute q.trip)

/-- The entity selects what the query asks for: at least one field is given and all given fields fit. -/
def Selects (st : Static) (r : Rtt) (q : Query) (src : Nat) (e : Selector) : Prop :=
  StopFits st q src e.stop ∧ (∀ t, e.trip = some t → TripFits r q src t) ∧
  (∀ id, e.route = some id → RouteFits st q src id) ∧ (∀ d, e.dir = some d → DirFits st q d) ∧
  (∀ id, e.agency = some id → AgencyFits st q src id) ∧ (∀ v, e.routeType = some v → TypeFits st q v) ∧
  ¬ (e.stop = none ∧ e.trip = none ∧ e.route = none ∧ e.agency = none ∧ e.routeType = none)

/-- The entity uses one of the combinations the code supports: a trip; a route, with or without direction;
an agency, with or without route type; a stop alone. -/
def Plain (e : Selector) : Prop :=
  (e.trip.isSome ∧ e.route = none ∧ e.dir = none ∧ e.agency = none ∧ e.routeType = none) ∨
  (e.trip = none ∧ e.route.isSome ∧ (∀ d, e.dir = some d → d ≤ 1) ∧ e.agency = none ∧ e.routeType = none) ∨
  (e.trip = none ∧ e.route = none ∧ e.dir = none ∧ e.agency.isSome ∧ ∀ v, e.routeType = some v → 0 ≤ v ∧ v ≤ 1702) ∨
  (e.trip = none ∧ e.route = none ∧ e.dir = none ∧ e.agency = none ∧ e.routeType = none)

/-- No trip reference of the feed makes the lookup throw. -/
def NoBad (ms : List (List Item)) : Prop :=
  ∀ m ∈ ms, ∀ a, Item.alert a ∈ m → ∀ e ∈ a.entities, e.trip ≠ some .bad

/-- The feed's additional trips named by an alert are known from the beginning. -/
def TripsKnown (r : Rtt) (ms : List (List Item)) : Prop :=
  ∀ m ∈ ms, ∀ a, Item.alert a ∈ m → ∀ e ∈ a.entities, ∀ id, e.trip = some (.found none id) →
    ∃ i rt, (r.addIds a.src).find id = some i ∧ (r.addTransports a.src)[i]? = some rt

end Nigiri.Alerts
