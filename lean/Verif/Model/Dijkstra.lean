import Verif.Model.Dial
/-!
# Dijkstra on the lower-bound graph

Model of the generic `dijkstra` of `include/nigiri/routing/dijkstra.h`.
-/

namespace Nigiri

/-- `label`, `dijkstra.h:15-21`. -/
structure Label where
  l : Nat
  d : Nat
deriving DecidableEq, Repr

/-- `get_bucket`, `dijkstra.h:25-27`. -/
def Label.bucket (x : Label) : Nat := x.d

/-- `std::numeric_limits<label::dist_t>::max()` (`dist_t = uint16_t`). -/
def distMax : Nat := 65535

/-- An edge (`footpath`): target and duration. -/
structure Edge where
  target : Nat
  duration : Nat
deriving DecidableEq, Repr

namespace Dijkstra

/-- Queue and distance vector. -/
structure State where
  pq : Dial Label
  dists : List Nat

/-- The `expand` lambda, `dijkstra.h:49-57`; `none` = undefined behaviour (target outside the
distance vector, or push outside the bucket range). -/
def expand (maxDist : Nat) (l : Label) (s : State) (e : Edge) : Option State :=
  match s.dists[e.target]? with
  | none => none
  | some cur =>
    let newDist := l.d + e.duration
    if newDist < cur ∧ newDist < s.pq.nBuckets ∧ newDist < maxDist then
      match s.pq.push Label.bucket ⟨e.target, newDist⟩ with
      | none => none
      | some pq' => some ⟨pq', s.dists.set e.target newDist⟩
    else some s

/-- The two edge loops of one iteration, `dijkstra.h:59-68`. -/
def expandAll (maxDist : Nat) (l : Label) : State → List Edge → Option State
  | s, [] => some s
  | s, e :: es => match expand maxDist l s e with
    | none => none
    | some s' => expandAll maxDist l s' es

/-- The edges visited from a node: the static graph and, if the node has real-time edges, those of
the real-time graph (`dijkstra.h:59-68`). -/
def edgesOf (graph : Nat → List Edge) (hasRt : Nat → Bool) (rt : Nat → List Edge) (v : Nat) : List Edge :=
  graph v ++ (if hasRt v then rt v else [])

/-- One iteration of the `while` loop, `dijkstra.h:41-69`, on a non-empty queue. -/
def iterate (edges : Nat → List Edge) (maxDist : Nat) (s : State) : Option State :=
  match s.pq.take with
  | none => none
  | some (l, pq') =>
    match s.dists[l.l]? with
    | none => none
    | some cur =>
      if cur < l.d then some ⟨pq', s.dists⟩
      else expandAll maxDist l ⟨pq', s.dists⟩ (edges l.l)

/-- The `while` loop, `dijkstra.h:41-69`, with an iteration budget; `none` = undefined behaviour or
budget exhausted.  `C08_dijkstra_exact` shows that the budget `Σ dists + |pq|` always suffices. -/
def loop (edges : Nat → List Edge) (maxDist : Nat) : Nat → State → Option State
  | 0, s => if s.pq.empty then some s else none
  | n + 1, s => if s.pq.empty then some s
      else match iterate edges maxDist s with
        | none => none
        | some s' => loop edges maxDist n s'

/-- The budget that always suffices. -/
def budget (s : State) : Nat := s.dists.sum + s.pq.size

/-- `dijkstra(graph, has_rt, rt, pq, dists, max_dist)`, `dijkstra.h:31-70`: the final distances. -/
def dijkstra (graph : Nat → List Edge) (hasRt : Nat → Bool) (rt : Nat → List Edge) (pq : Dial Label)
    (dists : List Nat) (maxDist : Nat) : Option (List Nat) :=
  (loop (edgesOf graph hasRt rt) maxDist (budget ⟨pq, dists⟩) ⟨pq, dists⟩).map (·.dists)

end Dijkstra
end Nigiri
