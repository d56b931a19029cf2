import Verif.Model.Raptor
/-!
# Specification: feasible journeys

Independent of the search: what a journey is in terms of the timetable data of a `Problem`.
Times are oriented (see `Verif.Model.Raptor`): for a forward search they are ordinary times.
-/

namespace Nigiri.Raptor

/-- Ready at `l` at time `t`, one can ride a vehicle that serves `stops` at the given times, boarding
at a stop at `l` where boarding is allowed, not before `t`, alighting at a later stop at `m` where
alighting is allowed, at time `a`, with all sections in between permitted. -/
def RideOn (stops : List Stop) (board alight : Nat → Int) (l : Loc) (t : Int) (m : Loc) (a : Int) : Prop :=
  ∃ (i j : Nat) (si sj : Stop), i < j ∧ stops[i]? = some si ∧ stops[j]? = some sj ∧ si.loc = l ∧ sj.loc = m ∧
    si.canBoard = true ∧ sj.canAlight = true ∧
    (∀ (x : Nat) (s : Stop), i < x → x ≤ j → stops[x]? = some s → s.secOk = true) ∧ t ≤ board i ∧ a = alight j

/-- A ride with a trip that runs on its day, on a route permitted by the filters, or with a permitted
real-time transport. -/
def Ride (P : Problem) (l : Loc) (t : Int) (m : Loc) (a : Int) : Prop :=
  (∃ r ∈ P.routes, r.allowed = true ∧ ∃ tr, r.active tr ∧ RideOn r.stops (r.board tr) (r.alight tr) l t m a) ∨
  (∃ r ∈ P.rts, r.allowed = true ∧ RideOn r.stops r.board r.alight l t m a)

/-- After alighting at `m` at `a` one is ready at `l'` at `t'`: by staying at the station (transfer
time; none if the station is a destination and the query ends at stations), by a footpath, or by the
last mile to the end point of the query. -/
def Change (P : Problem) (m : Loc) (a : Int) (l' : Loc) (t' : Int) : Prop :=
  (l' = m ∧ t' = a + (if P.intermodal = false ∧ P.isDest m = true then 0 else P.transfer m)) ∨
  (∃ d, (l', d) ∈ P.fps m a ∧ t' = a + d) ∨
  (P.intermodal = true ∧ l' = P.endLoc ∧ ∃ d, (P.endDist m = some d ∨ P.endTd m a = some d) ∧ t' = a + d)

/-- `Ready P starts k l t`: one can be ready at `l` at time `t` after exactly `k` rides. -/
inductive Ready (P : Problem) (starts : List (Loc × Int)) : Nat → Loc → Int → Prop
  | start {l t} : (l, t) ∈ starts → Ready P starts 0 l t
  | ride {k l t m a l' t'} : Ready P starts k l t → Ride P l t m a → Change P m a l' t' →
      Ready P starts (k + 1) l' t'

/-- `Cont P D n l t A`: ready at `l` at time `t` one can be ready at some target (a location in `D`) at
time `A` after exactly `n` more rides. -/
inductive Cont (P : Problem) (D : Loc → Prop) : Nat → Loc → Int → Int → Prop
  | here {l t} : D l → Cont P D 0 l t t
  | ride {n l t m a l' t' A} : Ride P l t m a → Change P m a l' t' → Cont P D n l' t' A → Cont P D (n + 1) l t A

/-- Sanity conditions on the timetable data: vehicles do not run backwards in time, walking takes no
negative time, boarding lookups return running trips that are not missed. -/
structure Sane (P : Problem) : Prop where
  lohi : P.lo < P.hi
  tripMono : ∀ r ∈ P.routes, ∀ tr, r.active tr → ∀ i j, i < j → j < r.stops.length → r.board tr i ≤ r.alight tr j
  rtMono : ∀ r ∈ P.rts, ∀ i j, i < j → j < r.stops.length → r.board i ≤ r.alight j
  etSound : ∀ r ∈ P.routes, ∀ i t lim tr, r.et i t lim = some tr → r.active tr ∧ t ≤ r.board tr i
  transfer : ∀ l, 0 ≤ P.transfer l
  fps : ∀ l t l' d, (l', d) ∈ P.fps l t → 0 ≤ d
  endDist : ∀ l d, P.endDist l = some d → 0 ≤ d
  endTd : ∀ l t d, P.endTd l t = some d → 0 ≤ d

/-- Vehicles of a route do not overtake each other, boarding lookups return the first trip that can be
caught and find one if there is one within `win` minutes that departs no later than the given limit;
waiting does not make a walk arrive earlier; stops are known locations. -/
structure Tame (P : Problem) (win : Int) : Prop extends Sane P where
  etLeast : ∀ r ∈ P.routes, ∀ i t lim tr, i + 1 < r.stops.length → r.et i t lim = some tr → ∀ tr', r.active tr' → t ≤ r.board tr' i →
    r.board tr i ≤ r.board tr' i ∧ ∀ j, i < j → j < r.stops.length → r.alight tr j ≤ r.alight tr' j
  overtake : ∀ r ∈ P.routes, ∀ a b i, r.active a → r.active b → r.board a i < r.board b i →
    ∀ j, i < j → j < r.stops.length → r.alight a j ≤ r.alight b j
  etComplete : ∀ r ∈ P.routes, ∀ i t lim tr, i + 1 < r.stops.length → r.active tr → P.lo < t → t ≤ r.board tr i →
    r.board tr i ≤ t + win → r.board tr i ≤ lim → r.board tr i < P.hi → (r.et i t lim).isSome = true
  fpsFifo : ∀ l a a' l' d, P.lo < a' → a' ≤ a → a + d ≤ a' + win → (l', d) ∈ P.fps l a → ∃ d', (l', d') ∈ P.fps l a' ∧ a' + d' ≤ a + d
  endFifo : ∀ l a a' d, P.lo < a' → a' ≤ a → a + d ≤ a' + win → P.endTd l a = some d → ∃ d', P.endTd l a' = some d' ∧ a' + d' ≤ a + d
  routeLocs : ∀ r ∈ P.routes, ∀ s ∈ r.stops, s.loc < P.nLoc
  rtLocs : ∀ r ∈ P.rts, ∀ s ∈ r.stops, s.loc < P.nLoc
  destLocs : ∀ d, P.isDest d = true → d < P.nLoc
  endDest : P.intermodal = true → P.isDest P.endLoc = true
  endStop : P.intermodal = true → (∀ r ∈ P.routes, ∀ s ∈ r.stops, s.loc ≠ P.endLoc) ∧ (∀ r ∈ P.rts, ∀ s ∈ r.stops, s.loc ≠ P.endLoc)
  endFps : P.intermodal = true → ∀ l t w, (P.endLoc, w) ∉ P.fps l t

/-- The lower bounds are admissible for journeys to `D` between `T0` and `W`: never more than the time a
journey still takes, and known for every location from which a target can be reached in time and for
every stop of a vehicle ahead of such a location.  Nothing is said about the end point of an intermodal
query, whose bound is never consulted. -/
structure Admissible (P : Problem) (D : Loc → Prop) (T0 W : Int) : Prop where
  nonneg : ∀ l x, P.lb l = some x → 0 ≤ x
  cont : ∀ n l t A, (P.intermodal = true → l ≠ P.endLoc) → T0 ≤ t → Cont P D n l t A → A ≤ W → ∃ x, P.lb l = some x ∧ t + x ≤ A
  alight : ∀ n m a l' t' A, (P.intermodal = true → m ≠ P.endLoc) → T0 ≤ a → Change P m a l' t' → Cont P D n l' t' A → A ≤ W → ∃ x, P.lb m = some x ∧ a + x ≤ A
  route : ∀ r ∈ P.routes, ∀ (i j : Nat) (si sj : Stop), i < j → r.stops[i]? = some si → r.stops[j]? = some sj →
    ∀ n a l' t' A, T0 ≤ a → Change P sj.loc a l' t' → Cont P D n l' t' A → A ≤ W → P.lb si.loc ≠ none
  rt : ∀ r ∈ P.rts, ∀ (i j : Nat) (si sj : Stop), i < j → r.stops[i]? = some si → r.stops[j]? = some sj →
    ∀ n a l' t' A, T0 ≤ a → Change P sj.loc a l' t' → Cont P D n l' t' A → A ≤ W → P.lb si.loc ≠ none

/-- The start events of a range query. -/
def allStarts (qs : List Start) : List (Loc × Int) := qs.flatMap (·.starts)

end Nigiri.Raptor
