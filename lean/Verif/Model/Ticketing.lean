import Verif.Model.StringStore
import Verif.Model.Resolve

/-!
# Ticketing extension of a GTFS feed, and the lookup of agencies

Models `src/loader/gtfs/ticketing.cc` and `timetable::get_provider_idx` (`src/timetable.cc:169-186`).

Simplifications: the file contents outlive the maps made from them (in the code `read_ticketing_deep_links` returns a map
whose keys are views into a file that `load_ticketing` has already closed; such reads are outside of this model); strings
kept for trips and stops are the strings themselves (interning: property C32); bit vectors are lists of bits, and setting a
bit beyond their end is undefined (`cista::basic_bitvec::set` asserts the range; nothing in the loader resizes these
two vectors); one map from ids to links is used for the three texts of a link. `none` stands for an exception
(`hash_map::at`) or undefined behaviour.
-/

namespace Nigiri.Ticketing

/-! ## Agencies by id -/

/-- The part of the timetable: ids of providers are indices into `strings_`; `order` is `provider_id_to_idx_`. -/
structure Agencies where
  strings : StringStore String
  providers : List (Nat × Nat)
  order : List Nat

/-- `std::tuple{p.src_, p.id_} < std::tuple{src, b}`. -/
def keyLt (a b : Nat × Nat) : Bool := decide (a.1 < b.1) || (decide (a.1 = b.1) && decide (a.2 < b.2))

/-- The key of the provider at position `i` of the order. -/
def keyAt (a : Agencies) (i : Nat) : Option (Nat × Nat) := (a.order[i]?).bind fun p => a.providers[p]?

/-- `timetable::get_provider_idx`, `timetable.cc:169-186`; `none` is `provider_idx_t::invalid()`. -/
def getProvider (a : Agencies) (id : String) (src : Nat) : Option Nat :=
  match a.strings.find id with
  | none => none
  | some k =>
    let i := Resolve.lowerBound (fun j => match keyAt a j with | some x => keyLt x (src, k) | none => false) 0
      a.order.length
    match a.order[i]? with
    | none => none
    | some p => if a.providers[p]? = some (src, k) then some p else none

/-- The sort of `finalize`, `init_finish.cc:214-221`, as a condition. -/
def Sorted (a : Agencies) : Prop :=
  a.order.Perm (List.range a.providers.length) ∧
  ∀ (i j : Nat) (x y : Nat × Nat), i ≤ j → keyAt a i = some x → keyAt a j = some y → keyLt y x = false

/-! ## Identifiers of stops -/

/-- A row of `ticketing_identifiers.txt`, `ticketing.cc:23-27`. -/
structure IdRow where
  ticketId : String
  stop : String
  agency : String
  deriving Repr, DecidableEq

/-- One row, `ticketing.cc:31-41`: identifiers of each location, with the provider. -/
def idStep (stops : String → Option Nat) (provider : String → Option Nat)
    (acc : List (List (Option Nat × String))) (r : IdRow) : List (List (Option Nat × String)) :=
  match stops r.stop with
  | none => acc
  | some l => acc.modify l (fun b => b ++ [(provider r.agency, r.ticketId)])

/-- `read_ticketing_identifiers` before its sort, `ticketing.cc:19-41`. -/
def readIdentifiers (stops : String → Option Nat) (provider : String → Option Nat)
    (acc : List (List (Option Nat × String))) (rows : List IdRow) : List (List (Option Nat × String)) :=
  rows.foldl (idStep stops provider) acc

/-! ## Links -/

/-- A row of `ticketing_deep_links.txt`, `ticketing.cc:53-58`. -/
structure LinkRow where
  id : String
  web : String
  android : String
  ios : String
  deriving Repr, DecidableEq

/-- `timetable::ticketing_links_` and the returned map, `ticketing.cc:60-82`, for a timetable which has the links `old`.
-/
def readLinks (old : List (String × String × String)) (rows : List LinkRow) :
    List (String × String × String) × List (String × Nat) :=
  rows.foldl (fun s r =>
    (s.1 ++ [(r.web, r.android, r.ios)],
      if (s.2.lookup r.id).isSome then s.2 else s.2 ++ [(r.id, s.1.length)])) (old, [])

/-- The two loops `ticketing.cc:102-111`: for agencies (`providers_[provider_idx]`, where the index may be invalid) and
for routes with a link; `deep_links.at` throws for unknown ids. -/
def setLinks (links : List (String × Nat)) (target : List (Option Nat)) :
    List (Option Nat × String) → Option (List (Option Nat))
  | [] => some target
  | (k, id) :: rest =>
    match k, links.lookup id with
    | some k, some l => if k < target.length then setLinks links (target.set k (some l)) rest else none
    | _, _ => none

/-! ## Trips -/

/-- What `load_ticketing` needs of a trip: `trip_idx_`, `ticketing_unavailable_`, the locations of the flagged stops
(`StopTimes.ticketingStops`) and `ticketing_trip_id_`. -/
structure TripIn where
  idx : Nat
  unavailable : Bool
  stops : List Nat
  ticketId : String

/-- `bitvec::set`. -/
def setBit (bits : List Bool) (i : Nat) : Option (List Bool) := if i < bits.length then some (bits.set i true) else none

/-- Bits of trips, bits of locations, identifiers of trips. -/
structure TripBits where
  trips : List Bool
  locations : List Bool
  ids : List (List String)
  deriving Repr, DecidableEq

/-- The inner loop over flagged stops, `ticketing.cc:118-131`. -/
def setBits (bits : List Bool) : List Nat → Option (List Bool)
  | [] => some bits
  | l :: rest =>
    match setBit bits l with
    | some b => setBits b rest
    | none => none

/-- `ticketing.cc:114-116`. -/
def markTrip (bits : List Bool) (t : TripIn) : Option (List Bool) :=
  if t.unavailable then setBit bits t.idx else some bits

/-- `ticketing.cc:133-136`. -/
def nameTrip (ids : List (List String)) (t : TripIn) : List (List String) :=
  if t.ticketId = "" then ids else ids.modify t.idx (fun l => l ++ [t.ticketId])

/-- The loop over the trips, `ticketing.cc:113-137`. -/
def loadTrips (s : TripBits) : List TripIn → Option TripBits
  | [] => some s
  | t :: rest =>
    match markTrip s.trips t, setBits s.locations t.stops with
    | some a, some b => loadTrips ⟨a, b, nameTrip s.ids t⟩ rest
    | _, _ => none

end Nigiri.Ticketing
