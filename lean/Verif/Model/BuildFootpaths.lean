import Verif.Model.Dijkstra
/-!
# Transitive closure of the footpaths

Model of `src/loader/build_footpaths.cc` (`get_footpath_graph`, `find_components`,
`process_2_node_component`, `build_component_graph`, `connect_components`, `sort_footpaths`,
`write_footpaths`, `add_links_to_and_between_children`).
Locations are numbers, a footpath (`footpath.h:14-65`) is an `Edge` (target, minutes).
`none` stands for a thrown exception (`utl::verify`) or undefined behaviour (index out of bounds).
-/

namespace Nigiri.Footpaths

/-- `utl::erase_duplicates` after sorting: `std::unique` keeps the first footpath of every run of
footpaths with the same target, `build_footpaths.cc:78-82`. -/
def uniqueTargets : List Edge → List Edge
  | [] => []
  | e :: es => e :: uniqueTargets (es.dropWhile (fun x => x.target == e.target))
termination_by l => l.length
decreasing_by
  have := (List.dropWhile_sublist (fun x : Edge => x.target == e.target) (l := es)).length_le
  simp; omega

/-- `get_footpath_graph`, `build_footpaths.cc:68-85`: the footpaths of a location without those to
itself, sorted by target, one per target.  `std::sort` is not stable, so which footpath of several
to the same target survives is not determined: `sort` is any sorting function. -/
def footpathGraph (sort : List Edge → List Edge) (out : List (List Edge)) (i : Nat) : List Edge :=
  uniqueTargets (sort ((out.getD i []).filter (fun e => e.target != i)))

/-- The `for` loop pushing the unvisited targets on the stack, `build_footpaths.cc:109-113`. -/
def pushTargets (c : List (Option Nat)) (i : Nat) (es : List Edge) (st : List Nat) : List Nat :=
  es.foldl (fun st e => if c[e.target]? = some (some i) then st else e.target :: st) st

/-- The `while` loop of `find_components`, `build_footpaths.cc:100-114` (with an iteration budget;
`findComponents_spec` shows that it suffices). The stack is a list, its head is `top()`. -/
def visit (g : Nat → List Edge) (i : Nat) : Nat → List Nat → List (Option Nat) → Option (List (Option Nat))
  | _, [], c => some c
  | 0, _ :: _, _ => none
  | fuel + 1, j :: st, c =>
    match c[j]? with
    | none => none
    | some cj =>
      if cj = some i then visit g i fuel st c
      else
        let c' := c.set j (some i)
        visit g i fuel (pushTargets c' i (g j) st) c'

/-- Iterations that suffice for one search. -/
def visitBudget (g : Nat → List Edge) (n : Nat) : Nat :=
  1 + ((List.range n).map (fun j => (g j).length + 1)).sum

/-- One iteration of the outer loop of `find_components`, `build_footpaths.cc:95-115`. -/
def round (g : Nat → List Edge) (n : Nat) (c : List (Option Nat)) (i : Nat) : Option (List (Option Nat)) :=
  match c[i]? with
  | none => none
  | some ci =>
    if ci ≠ none ∨ (g i).isEmpty then some c
    else visit g i (visitBudget g n) [i] c

/-- All iterations of the outer loop. -/
def rounds (g : Nat → List Edge) (n : Nat) : List Nat → List (Option Nat) → Option (List (Option Nat))
  | [], c => some c
  | i :: is, c => match round g n c i with
    | none => none
    | some c' => rounds g n is c'

/-- `find_components`, `build_footpaths.cc:87-119`: the component of every location (`none` =
`component_idx_t::invalid()`). -/
def findComponents (g : Nat → List Edge) (n : Nat) : Option (List (Option Nat)) :=
  rounds g n (List.range n) (List.replicate n none)

/-- The locations of component `k` in increasing order: `utl::sort(assignments)` and
`utl::equal_ranges_linear`, `build_footpaths.cc:237, 250-253` (assignments are ordered by component,
then location). -/
def members (c : List (Option Nat)) (k : Nat) : List Nat :=
  (List.range c.length).filter (fun l => c[l]? == some (some k))

/-- A footpath of the result: from, to, minutes. -/
structure Entry where
  src : Nat
  dst : Nat
  dur : Nat
deriving DecidableEq, Repr

/-- Data besides the footpaths: `transfer_time_` (`u8_minutes`), and the walking minutes between two
locations by air line as computed in `adjust_to_walk_speed`, `build_footpaths.cc:121-144` (`none` =
too far apart to walk); without `adjust_footpaths` it is `some 0`. The floating point computation of
the distance is not modelled. -/
structure Env where
  tt : Nat → Nat
  walk : Nat → Nat → Option Nat

/-- The `write` lambda of `process_2_node_component`, `build_footpaths.cc:155-174`, and the body of
the write loop of `connect_components`, `build_footpaths.cc:324-344`: the larger of the raw duration
(converted to 8 bits) and both transfer times, adjusted to the walking speed. -/
def write (env : Env) (a b raw : Nat) : List Entry :=
  let duration := max (max (raw % 256) (env.tt a)) (env.tt b)
  match env.walk a b with
  | none => []
  | some w => [⟨a, b, max duration w⟩]

/-- One direction of `process_2_node_component`, `build_footpaths.cc:176-178`: the first footpath of
`a`, if there is one. -/
def writeFront (env : Env) (g : Nat → List Edge) (a b : Nat) : List Entry :=
  match (g a).head? with
  | none => []
  | some e => write env a b e.duration

/-- `process_2_node_component`, `build_footpaths.cc:146-183`. -/
def process2 (env : Env) (g : Nat → List Edge) (a b : Nat) : List Entry :=
  writeFront env g a b ++ writeFront env g b a

/-- `while (it != c.to_ && edge.target() != it->l_) ++it;`, `build_footpaths.cc:203-206`: the index of
the target in the component, searched from the current position; the size of the component if it
does not occur. -/
def locate (M : List Nat) (it t : Nat) : Nat := it + (M.drop it).findIdx (fun l => l == t)

/-- The weight of an edge of the component graph, `build_footpaths.cc:209-212` (the duration is
converted to 8 bits). -/
def edgeWeight (env : Env) (a b d : Nat) : Nat := max (max (env.tt a) (env.tt b)) (d % 256)

/-- The inner loop of `build_component_graph`, `build_footpaths.cc:201-219`: the `push_back`s
(position in `tmp_graph`, edge) for the footpaths of the `i`-th location `src`. -/
def scan (env : Env) (M : List Nat) (src i : Nat) : Nat → List Edge → List (Nat × Edge)
  | _, [] => []
  | it, e :: es =>
    let j := locate M it e.target
    let w := edgeWeight env src e.target e.duration
    (i, ⟨j, w⟩) :: (j, ⟨i, w⟩) :: scan env M src i j es

/-- All `push_back`s of `build_component_graph`, `build_footpaths.cc:197-220`. -/
def pushes (env : Env) (g : Nat → List Edge) (M : List Nat) : List (Nat × Edge) :=
  (List.range M.length).flatMap (fun i => scan env M (M.getD i 0) i 0 (g (M.getD i 0)))

/-- `tmp_graph[v]` after removing duplicates, `build_footpaths.cc:222-225` (the order in the bucket is
not modelled, it is irrelevant for the search). -/
def compGraph (ps : List (Nat × Edge)) (v : Nat) : List Edge :=
  ((ps.filter (fun p => p.1 == v)).map (·.2)).eraseDups

/-- Number of buckets of `tmp_graph`: one more than the largest index used. -/
def graphSize (ps : List (Nat × Edge)) : Nat := ps.foldl (fun s p => max s (p.1 + 1)) 0

/-- `footpath{l, duration_t{dist}}.duration()` for a 16-bit distance, `build_footpaths.cc:311-312`
with the constructor `footpath.h:31-36`: `duration_t` is a signed 16-bit integer, the footpath has 9
bits for the duration and clamps at 511. -/
def distToDuration (d : Nat) : Nat := if d < 32768 then min d 511 else d % 512

/-- The shortest path search from the `i`-th location of a component and the resulting footpaths,
`build_footpaths.cc:292-345`. -/
def closeFrom (env : Env) (M : List Nat) (graph : Nat → List Edge) (limit : Nat) (i : Nat) : Option (List Entry) :=
  match (Dial.ofBuckets limit : Dial Label).push Label.bucket ⟨i, 0⟩ with
  | none => none
  | some pq =>
    match Dijkstra.dijkstra graph (fun _ => false) (fun _ => []) pq
        ((List.replicate M.length distMax).set i 0) limit with
    | none => none
    | some dists =>
      some ((List.range dists.length).flatMap (fun t =>
        if dists.getD t 0 = distMax ∨ t = i then []
        else write env (M.getD i 0) (M.getD t 0) (distToDuration (dists.getD t 0))))

/-- `closeFrom` for all locations of a component. -/
def closeAll (env : Env) (M : List Nat) (graph : Nat → List Edge) (limit : Nat) : List Nat → Option (List Entry)
  | [] => some []
  | i :: is => match closeFrom env M graph limit i with
    | none => none
    | some es => match closeAll env M graph limit is with
      | none => none
      | some es' => some (es ++ es')

/-- One component in `connect_components`, `build_footpaths.cc:254-264, 292-345`: invalid component
sizes throw (`build_footpaths.cc:194`); a graph with more buckets than the component has locations
(target outside of the component), or fewer (location without edges), is accessed out of bounds by
the search. -/
def processComponent (env : Env) (g : Nat → List Edge) (limit : Nat) (M : List Nat) : Option (List Entry) :=
  match M with
  | [] => some []
  | [a, b] => some (process2 env g a b)
  | M =>
    if M.length ≤ 2 then none
    else
      let ps := pushes env g M
      if graphSize ps = M.length then closeAll env M (compGraph ps) limit (List.range M.length)
      else none

/-- All components in increasing order. -/
def processAll (env : Env) (g : Nat → List Edge) (limit : Nat) (c : List (Option Nat)) : List Nat → Option (List Entry)
  | [] => some []
  | k :: ks => match processComponent env g limit (members c k) with
    | none => none
    | some es => match processAll env g limit c ks with
      | none => none
      | some es' => some (es ++ es')

/-- `connect_components`, `build_footpaths.cc:230-346`: all footpaths written. -/
def connectComponents (sort : List Edge → List Edge) (env : Env) (limit : Nat) (out : List (List Edge)) :
    Option (List Entry) :=
  let g := footpathGraph sort out
  match findComponents g out.length with
  | none => none
  | some c => processAll env g limit c (List.range out.length)

/-- `preprocessing_footpaths_out_[l]` after `connect_components` and `sort_footpaths`,
`build_footpaths.cc:341-342, 404-414`; `sort` is any sorting function (here: by duration). -/
def outFootpaths (sort : List Edge → List Edge) (es : List Entry) (l : Nat) : List Edge :=
  sort ((es.filter (fun e => e.src == l)).map (fun e => ⟨e.dst, e.dur⟩))

/-- `preprocessing_footpaths_in_[l]`, `build_footpaths.cc:343-344, 404-414`. -/
def inFootpaths (sort : List Edge → List Edge) (es : List Entry) (l : Nat) : List Edge :=
  sort ((es.filter (fun e => e.dst == l)).map (fun e => ⟨e.src, e.dur⟩))

/-! ### Generated tracks -/

/-- The station tree: `children_` and whether a location is a `location_type::kGeneratedTrack`. -/
structure Tree where
  children : Nat → List Nat
  generated : Nat → Bool

/-- The generated tracks of a location. -/
def Tree.tracks (t : Tree) (l : Nat) : List Nat := (t.children l).filter t.generated

/-- The `emplace_back`s into `fp_out` (location, footpath) for the footpath `fp` of location `l`,
`build_footpaths.cc:352-371`. -/
def trackLinks (t : Tree) (l : Nat) (fp : Edge) : List (Nat × Edge) :=
  (t.children fp.target).flatMap (fun nc =>
    (if t.generated nc then [(l, ⟨nc, fp.duration⟩)] else []) ++
    (t.tracks l).map (fun child => (child, ⟨nc, fp.duration⟩))) ++
  (t.tracks l).map (fun child => (child, ⟨fp.target, fp.duration⟩))

/-- The links between the generated tracks of a station, its other children and the station itself,
`build_footpaths.cc:381-401`; `tt` is the station's transfer time. -/
def siblingLinks (t : Tree) (tt : Nat → Nat) (parent : Nat) : List (Nat × Edge) :=
  (List.range (t.children parent).length).flatMap (fun i =>
    let ci := (t.children parent).getD i 0
    if t.generated ci then
      (parent, ⟨ci, tt parent⟩) :: (ci, ⟨parent, tt parent⟩) ::
        (List.range (t.children parent).length).flatMap (fun j =>
          if i = j then [] else [(ci, ⟨(t.children parent).getD j 0, tt parent⟩)])
    else [])

/-- `add_links_to_and_between_children`, `build_footpaths.cc:348-402`, for `n` locations: the
footpaths of location `l` afterwards. -/
def addLinks (t : Tree) (tt : Nat → Nat) (n : Nat) (out : Nat → List Edge) (l : Nat) : List Edge :=
  let added := (List.range n).flatMap (fun x => (out x).flatMap (trackLinks t x))
  let siblings := (List.range n).flatMap (siblingLinks t tt)
  out l ++ ((added ++ siblings).filter (fun p => p.1 == l)).map (·.2)

end Nigiri.Footpaths
