import Verif.Model.Packing
/-!
# Merging duplicate transports

Model of `src/loader/merge_duplicates.cc`.  A bitfield is a function from days to `Bool`, of which the
days `0..511` (`kMaxDays`) count.  `transport_traffic_days_` holds bitfields instead of indices into
`bitfields_` (`register_bitfield` appends, `bitfields_[0]` is empty).
-/

namespace Nigiri.Merge

/-- `bitfield` of `kMaxDays = 512` bits (`types.h`). -/
abbrev Days := Nat → Bool

/-- All days of a bitfield. -/
def allDays : List Nat := List.range 512

/-- `bitfield::none()`. -/
def Days.none (x : Days) : Bool := allDays.all (fun d => !x d)

/-- `x & y`. -/
def Days.and (x y : Days) : Days := fun d => x d && y d

/-- `~x`. -/
def Days.compl (x : Days) : Days := fun d => !x d

/-- `x == y`. -/
def Days.beq (x y : Days) : Bool := allDays.all (fun d => x d == y d)

/-- `transport_range_t`: a transport and the stop range of the trip on it. -/
structure TripRange where
  transport : Nat
  first : Nat
  last : Nat
deriving DecidableEq, Repr

/-- The part of the timetable used by `merge`: `transport_traffic_days_`, `trip_transport_ranges_`, and
the trips of a transport (`transport_to_trip_section_` and `merged_trips_` flattened; constant). -/
structure State where
  days : Nat → Days
  ranges : Nat → List TripRange
  trips : Nat → List Nat

/-- `is_superset`, `merge_duplicates.cc:62-64`. -/
def isSuperset (x y : Days) : Bool := (x.and y).beq y

/-- `t = y` for ranges with `t == x`, `merge_duplicates.cc:53-57`. -/
def replaceTransport (x y : Nat) (r : TripRange) : TripRange :=
  if r.transport = x then { r with transport := y } else r

/-- `merge_and_nullify(x, y)`, `merge_duplicates.cc:47-60`: transport `x` is disabled and replaced by `y`
in the ranges of the trips of `x` (replacing twice has no further effect, so the loops over the trips
are a map over all of them). -/
def mergeAndNullify (s : State) (x y : Nat) : State :=
  { s with
    days := fun t => if t = x then fun _ => false else s.days t
    ranges := fun trp => if trp ∈ s.trips x then (s.ranges trp).map (replaceTransport x y) else s.ranges trp }

/-- The last branch of `merge`, `merge_duplicates.cc:70-89`: `a` loses the common days; the trips of `b`
which have a range on `b` get an additional range on `a`, covering all `size` stops. -/
def mergeOverlap (s : State) (size a b : Nat) : State :=
  { s with
    days := fun t => if t = a then (s.days a).and ((s.days a).and (s.days b)).compl else s.days t
    ranges := fun trp =>
      if trp ∈ s.trips b ∧ (s.ranges trp).any (fun r => r.transport == b) then
        s.ranges trp ++ [⟨a, 0, size⟩]
      else s.ranges trp }

/-- `merge(tt, size, a, b)`, `merge_duplicates.cc:34-93`: the new state and whether something was merged. -/
def merge (s : State) (size a b : Nat) : State × Bool :=
  if ((s.days a).and (s.days b)).none then (s, false)
  else if isSuperset (s.days b) (s.days a) then (mergeAndNullify s a b, true)
  else if isSuperset (s.days a) (s.days b) then (mergeAndNullify s b a, true)
  else (mergeOverlap s size a b, true)

/-! ### Finding duplicates -/

/-- The constant part of the timetable used by `find_duplicates`: routes of a location, location
sequence and transports of a route, `event_mam` of departures and arrivals by transport and stop
index, and `matches(tt, kEquivalent, ·, ·)`. -/
structure Net where
  locRoutes : Nat → List Nat
  seq : Nat → List Nat
  transports : Nat → List Nat
  dep : Nat → Nat → Delta
  arr : Nat → Nat → Delta
  equiv : Nat → Nat → Bool

/-- `get_delta`, `merge_duplicates.cc:10-32`: the summed differences of all arrivals and departures; `n`
is the number of stops. -/
def getDelta (net : Net) (n a b : Nat) : Nat :=
  ((List.range n).map (fun i =>
    (if i ≠ 0 then ((net.arr a i).count - (net.arr b i).count).natAbs else 0) +
    (if i ≠ n - 1 then ((net.dep a i).count - (net.dep b i).count).natAbs else 0))).sum

/-- The `while` loop of `find_duplicates`, `merge_duplicates.cc:135-158`, on two routes with `n` stops
(`operator<` of `delta` compares the packed words). -/
def mergeRoutes (net : Net) (n : Nat) : List Nat → List Nat → State → Nat → State × Nat
  | [], _, s, m => (s, m)
  | _ :: _, [], s, m => (s, m)
  | a :: as, b :: bs, s, m =>
    if a = b then mergeRoutes net n as bs s m
    else if (net.dep a 0).value = (net.dep b 0).value then
      if getDelta net n a b < n then
        let r := merge s n a b
        mergeRoutes net n as bs r.1 (if r.2 then m + 1 else m)
      else mergeRoutes net n as bs s m
    else if (net.dep a 0).lt (net.dep b 0) then mergeRoutes net n as (b :: bs) s m
    else mergeRoutes net n (a :: as) bs s m
termination_by as bs => as.length + bs.length

/-- `station_sequence_matches()`, `merge_duplicates.cc:120-126` (sequences of the same length). -/
def seqMatches (net : Net) (xs ys : List Nat) : Bool := (xs.zip ys).all (fun p => net.equiv p.1 p.2)

/-- The body of the inner loop of `find_duplicates`, `merge_duplicates.cc:107-159`. -/
def mergeRoutePair (net : Net) (b : Nat) (aRoute bRoute : Nat) (acc : State × Nat) : State × Nat :=
  if (net.seq bRoute).head? ≠ some b then acc
  else if (net.seq aRoute).length ≠ (net.seq bRoute).length then acc
  else if !seqMatches net (net.seq aRoute) (net.seq bRoute) then acc
  else mergeRoutes net (net.seq aRoute).length (net.transports aRoute) (net.transports bRoute) acc.1 acc.2

/-- `find_duplicates(tt, a, b)`, `merge_duplicates.cc:95-162`: the new state and the number of merges. -/
def findDuplicates (net : Net) (a b : Nat) (s : State) : State × Nat :=
  (net.locRoutes a).foldl (fun acc aRoute =>
    if (net.seq aRoute).head? ≠ some a then acc
    else (net.locRoutes b).foldl (fun acc bRoute => mergeRoutePair net b aRoute bRoute acc) acc) (s, 0)

/-- `build_footpaths`, `build_footpaths.cc:442-459`: duplicates are searched for a sequence of pairs of
equivalent locations. -/
def findAllDuplicates (net : Net) (pairs : List (Nat × Nat)) (s : State) : State :=
  pairs.foldl (fun s p => (findDuplicates net p.1 p.2 s).1) s

end Nigiri.Merge
