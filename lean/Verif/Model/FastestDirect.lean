import Verif.Model.Dijkstra
/-!
# Fastest direct connection

Model of `src/routing/get_fastest_direct.cc`.
-/

namespace Nigiri.FastestDirect
open Dijkstra

/-- `kUnreachableDirect`, `get_fastest_direct.h:10-11`. -/
def unreachable : Nat := 32767

/-- What `get_fastest_direct` reads of the timetable and the query. -/
structure Input where
  /-- number of locations -/
  n : Nat
  /-- `q.fastest_direct_` -/
  fixed : Option Int
  /-- `q.start_`: target and duration -/
  start : List (Nat × Nat)
  /-- locations visited by `for_each_meta(tt, q.start_match_mode_, l)` -/
  metas : Nat → List Nat
  /-- `q.destination_`: target and duration -/
  dest : List (Nat × Nat)
  /-- footpaths of the profile in search direction (`get_fastest_direct.cc:64-67`) -/
  footpaths : Nat → List Edge
  /-- `adjusted_transfer_time(q.transfer_time_settings_, _)` -/
  adj : Nat → Nat
  /-- `max_dist` -/
  maxDist : Nat
  /-- `get_special_station(special_station::kEnd)` -/
  kEnd : Nat
  /-- `static_cast<duration_t::rep>(std::ceil(_ * q.fastest_direct_factor_))` -/
  scale : Nat → Int

/-- `get_dist(start) = min(duration, get_dist(start))`, `get_fastest_direct.cc:28-34`.  The hash map
`dists` is a list over all locations, absent keys have the value `get_or_create` gives them. -/
def initOne (d : List Nat) (m dur : Nat) : List Nat := d.set m (min dur (d.getD m unreachable))

/-- The loop over the start offsets, `get_fastest_direct.cc:28-34`. -/
def initDists (q : Input) : List Nat :=
  q.start.foldl (fun d s => (q.metas s.1).foldl (fun d m => initOne d m s.2) d)
    (List.replicate q.n unreachable)

/-- `pq.push(label{l, d})` for the entries of `dists`, `get_fastest_direct.cc:35-37`; `keys` is the
iteration order of the hash map. -/
def pushAll (dists : List Nat) : List Nat → Dial Label → Option (Dial Label)
  | [], pq => some pq
  | k :: ks, pq => match pq.push Label.bucket ⟨k, dists.getD k unreachable⟩ with
    | none => none
    | some pq' => pushAll dists ks pq'

/-- One destination offset, `get_fastest_direct.cc:40-48`. -/
def addDest (m : List (Nat × Nat)) (o : Nat × Nat) : List (Nat × Nat) :=
  match m.lookup o.1 with
  | some d => if d > o.2 then m.map (fun p => if p.1 = o.1 then (p.1, o.2) else p) else m
  | none => m ++ [o]

/-- `dest_offsets`, `get_fastest_direct.cc:39-48`. -/
def destOffsets (q : Input) : List (Nat × Nat) := q.dest.foldl addDest []

/-- The footpaths the loop relaxes: those to a destination, with the adjusted duration
(`get_fastest_direct.cc:68-79`; `new_dist > max_dist` is implied by `new_dist < max_dist`). -/
def edges (q : Input) (l : Nat) : List Edge :=
  (q.footpaths l).filterMap fun e =>
    if ((destOffsets q).lookup e.target).isSome then some ⟨e.target, q.adj e.duration⟩ else none

/-- Update of `end_dist`, `get_fastest_direct.cc:89-94`. -/
def updEnd (q : Input) (l : Label) (e : Nat) : Nat :=
  match (destOffsets q).lookup l.l with
  | some o => if l.d + o < q.maxDist ∧ l.d + o < e then l.d + o else e
  | none => e

/-- The `while` loop, `get_fastest_direct.cc:52-95`, with an iteration budget (`none` = undefined
behaviour or budget exhausted). -/
def loop (q : Input) : Nat → State → Nat → Option Nat
  | 0, s, e => if s.pq.empty then some e else none
  | n + 1, s, e =>
    if s.pq.empty then some e
    else match s.pq.take with
      | none => none
      | some (l, pq') =>
        if l.l = q.kEnd then some e
        else if (s.dists.getD l.l unreachable) < l.d then loop q n ⟨pq', s.dists⟩ e
        else match expandAll q.maxDist l ⟨pq', s.dists⟩ (edges q l.l) with
          | none => none
          | some s' => loop q n s' (updEnd q l e)

/-- `get_fastest_direct`, `get_fastest_direct.cc:12-100`. -/
def fastestDirect (q : Input) (keys : List Nat) : Option Int :=
  match q.fixed with
  | some d => some d
  | none =>
    let dists := initDists q
    match pushAll dists keys (Dial.ofBuckets q.maxDist) with
    | none => none
    | some pq =>
      (loop q (budget ⟨pq, dists⟩) ⟨pq, dists⟩ unreachable).map fun e =>
        if e = unreachable then (unreachable : Int) else q.scale e

end Nigiri.FastestDirect
