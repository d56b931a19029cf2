/-!
# Queries: reversal and normalisation

Model of `query::flip_dir`, `sanitize_query`, `sanitize_via_stops`, `query::sanitize`
(`src/routing/query.cc`), over the fields of `query` (`include/nigiri/routing/query.h:75-110`) that
they touch; all other fields are the opaque component `rest`.
-/

namespace Nigiri

/-- `offset`, `query.h:28-49`. -/
structure Offset where
  target : Nat
  duration : Int
  mode : Int
deriving DecidableEq, Repr

/-- `td_offset`, `query.h:51-59`. -/
structure TdOffset where
  validFrom : Int
  duration : Int
  mode : Int
deriving DecidableEq, Repr

/-- `via_stop`, `query.h:61-66`. -/
structure ViaStop where
  location : Nat
  stay : Int
deriving DecidableEq, Repr

/-- `location_match_mode`, `location_match_mode.h`. -/
inductive MatchMode
  | exact | onlyChildren | equivalent | intermodal
deriving DecidableEq, Repr

/-- `query`, `query.h:72-110`. -/
structure Query (R : Type) where
  startMatchMode : MatchMode
  destMatchMode : MatchMode
  useStartFootpaths : Bool
  start : List Offset
  destination : List Offset
  tdStart : Nat → List TdOffset
  tdDest : Nat → List TdOffset
  maxTravelTime : Int
  viaStops : List ViaStop
  rest : R

namespace Query
variable {R : Type}

/-- `query::flip_dir`, `query.cc:51-56`. -/
def flipDir (q : Query R) : Query R :=
  { q with
    start := q.destination, destination := q.start
    tdStart := q.tdDest, tdDest := q.tdStart
    startMatchMode := q.destMatchMode, destMatchMode := q.startMatchMode
    viaStops := q.viaStops.reverse }

/-- `kMaxTravelTime` in minutes, `limits.h`. -/
def kMaxTravelTime : Int := 5 * 1440

/-- `sanitize_query`, `query.cc:25-29`. -/
def sanitizeQuery (q : Query R) : Query R :=
  if q.maxTravelTime < 0 ∨ q.maxTravelTime > kMaxTravelTime then { q with maxTravelTime := kMaxTravelTime }
  else q

/-- One pass of the `for` loop of `sanitize_via_stops`, `query.cc:34-44`: merges the first pair of
neighbouring matching via stops; `none` = not updated. `m a b` is
`matches(tt, kEquivalent, a, b)`. -/
def mergeFirst (m : Nat → Nat → Bool) : List ViaStop → Option (List ViaStop)
  | a :: b :: rest =>
    if m a.location b.location then some (⟨a.location, a.stay + b.stay⟩ :: rest)
    else (mergeFirst m (b :: rest)).map (a :: ·)
  | _ => none

/-- A merge shortens the list by one. -/
theorem mergeFirst_length {m : Nat → Nat → Bool} {l l' : List ViaStop} (h : mergeFirst m l = some l') :
    l'.length + 1 = l.length := by
  induction l generalizing l' with
  | nil => simp [mergeFirst] at h
  | cons a l ih =>
    cases l with
    | nil => simp [mergeFirst] at h
    | cons b l =>
      simp only [mergeFirst] at h
      split at h
      · cases h; simp
      · rw [Option.map_eq_some_iff] at h
        obtain ⟨r, hr, rfl⟩ := h
        have := ih hr
        simp at this ⊢; omega

/-- `sanitize_via_stops`, `query.cc:31-49`. -/
def sanitizeVias (m : Nat → Nat → Bool) (l : List ViaStop) : List ViaStop :=
  match _h : mergeFirst m l with
  | none => l
  | some l' => sanitizeVias m l'
termination_by l.length
decreasing_by have := mergeFirst_length _h; omega

/-- `utl::sort(start_)` with `operator<` on offsets (by duration, `query.h:38-40`).  `std::sort` is
not stable; the model fixes the stable order among equal durations. -/
def sortOffsets (l : List Offset) : List Offset := l.mergeSort (fun a b => a.duration ≤ b.duration)

/-- `query::sanitize`, `query.cc:58-66`; `none` = the `verify` throws. -/
def sanitize (m : Nat → Nat → Bool) (q : Query R) : Option (Query R) :=
  if q.startMatchMode ≠ .intermodal ∨ q.useStartFootpaths = false then
    let q1 := sanitizeQuery q
    some { q1 with viaStops := sanitizeVias m q1.viaStops, start := sortOffsets q1.start,
                   destination := sortOffsets q1.destination }
  else none

end Query
end Nigiri
