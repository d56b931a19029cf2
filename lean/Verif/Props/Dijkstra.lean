import Verif.Proofs.Dijkstra
/-!
# Property C08: Dijkstra on the lower-bound graph is exact and terminates
-/

namespace Nigiri.Dijkstra
open Dial

/-- Specification: `WalkDist edges start v d` - there is a walk to `v` whose start distance plus
edge weights sum up to `d` (`start[v] < 65535` are the finite start distances). -/
inductive WalkDist (edges : Nat → List Edge) (start : List Nat) : Nat → Nat → Prop
  | start {v d} : start[v]? = some d → d < 65535 → WalkDist edges start v d
  | step {u d e} : WalkDist edges start u d → e ∈ edges u → WalkDist edges start e.target (d + e.duration)

/-- What the callers establish before calling (`dijkstra.cc:49-57`, `build_footpaths.cc`): the queue
is a proper bucket queue with at most 65535 buckets, holds only labels not better than the distance
vector, and one label for each finite start distance. -/
structure Pre (pq : Dial Label) (start : List Nat) : Prop where
  inv : Dial.Inv Label.bucket pq
  buckets : pq.nBuckets ≤ 65535
  queued : ∀ x ∈ pq.buckets.flatten, ∃ d, start[x.l]? = some d ∧ d ≤ x.d
  labelled : ∀ v d, start[v]? = some d → d < 65535 → ⟨v, d⟩ ∈ pq.buckets.flatten

private theorem walk_iff {edges : Nat → List Edge} {start : List Nat} {v d : Nat} :
    Walk distMax edges start v d ↔ WalkDist edges start v d := by
  constructor
  · intro h; induction h with
    | start h1 h2 => exact .start h1 h2
    | step _ h2 ih => exact .step ih h2
  · intro h; induction h with
    | start h1 h2 => exact .start h1 h2
    | step _ h2 ih => exact .step ih h2

/-- C08: for every graph (static plus real-time edges), start vector and limits, the algorithm
terminates without undefined behaviour, and its final distance vector satisfies: a value below
65535 is the length of an actual walk, it is at most the length of every walk shorter than the
number of buckets and `max_dist`, and it never exceeds the start distance. Hence every distance
below the limits is exactly the shortest one. -/
theorem C08_dijkstra_exact (graph : Nat → List Edge) (hasRt : Nat → Bool) (rt : Nat → List Edge)
    (pq : Dial Label) (start : List Nat) (maxDist : Nat) (hpre : Pre pq start)
    (hg : ∀ v e, e ∈ graph v → e.target < start.length)
    (hr : ∀ v e, e ∈ rt v → e.target < start.length) :
    ∃ dists, dijkstra graph hasRt rt pq start maxDist = some dists ∧
      dists.length = start.length ∧
      let edges := fun v => graph v ++ (if hasRt v then rt v else [])
      ∀ (v : Nat) (hv : v < dists.length),
        (dists[v] < 65535 → WalkDist edges start v dists[v]) ∧
        (∀ d, WalkDist edges start v d → d < pq.nBuckets → d < maxDist → dists[v] ≤ d) := by
  have hedges : ∀ v e, e ∈ edgesOf graph hasRt rt v → e.target < start.length := by
    intro v e he
    simp only [edgesOf, List.mem_append] at he
    rcases he with he | he
    · exact hg v e he
    · split at he
      · exact hr v e he
      · simp at he
  have hI : Inv distMax (edgesOf graph hasRt rt) (min pq.nBuckets maxDist) start pq.nBuckets ⟨pq, start⟩ := by
    refine ⟨hpre.inv, rfl, rfl, ?_, hpre.queued, ?_, ?_, ?_⟩
    · intro v hv; exact ⟨start[v], by simp, Nat.le_refl _⟩
    · intro x hx; have h1 := labels_lt hpre.inv x hx; have h2 := hpre.buckets; simp only [distMax]; omega
    · intro v d hv hd; exact Walk.start hv hd
    · intro v d hv hd; exact Or.inl (hpre.labelled v d hv hd)
  obtain ⟨s', h1, h2, h3⟩ := loop_spec (M := distMax) (maxDist := maxDist) (by intro d _ x _ hx; have h2 := hpre.buckets; simp only [distMax]; omega) rfl hedges
    (budget ⟨pq, start⟩) ⟨pq, start⟩ hI (Nat.le_refl _)
  refine ⟨s'.dists, by simp only [dijkstra, h1, Option.map_some], h2.len, ?_⟩
  intro edges v hv
  constructor
  · intro hlt
    exact walk_iff.mp (h2.sound v _ (by simp [hv]) hlt)
  · intro d hw hd1 hd2
    obtain ⟨t, ht1, ht2⟩ := inv_optimal h2 h3 (by have := hpre.buckets; simp only [distMax]; omega)
      (walk_iff.mpr hw) (by omega)
    rw [List.getElem?_eq_some_iff] at ht1
    obtain ⟨_, rfl⟩ := ht1
    exact ht2

/-- Corollary of C08 in the form used by the routing code: if the shortest walk to `v` has length
`d` below both limits then `d` is reported; if there is no walk at all, 65535 is reported. -/
theorem C08_dijkstra_shortest (graph : Nat → List Edge) (hasRt : Nat → Bool) (rt : Nat → List Edge)
    (pq : Dial Label) (start : List Nat) (maxDist : Nat) (hpre : Pre pq start)
    (hg : ∀ v e, e ∈ graph v → e.target < start.length)
    (hr : ∀ v e, e ∈ rt v → e.target < start.length) (hs : ∀ d ∈ start, d ≤ 65535) :
    ∃ dists, dijkstra graph hasRt rt pq start maxDist = some dists ∧
      let edges := fun v => graph v ++ (if hasRt v then rt v else [])
      ∀ v < start.length,
        (∀ d, WalkDist edges start v d → (∀ d', WalkDist edges start v d' → d ≤ d') →
          d < pq.nBuckets → d < maxDist → dists[v]? = some d) ∧
        ((¬ ∃ d, WalkDist edges start v d) → dists[v]? = some 65535) := by
  obtain ⟨dists, h1, h2, h3⟩ := C08_dijkstra_exact graph hasRt rt pq start maxDist hpre hg hr
  refine ⟨dists, h1, ?_⟩
  intro edges v hv
  have hv' : v < dists.length := by omega
  obtain ⟨h4, h5⟩ := h3 v hv'
  constructor
  · intro d hw hmin hd1 hd2
    have hle := h5 d hw hd1 hd2
    have hb := hpre.buckets
    have := hmin _ (h4 (by omega))
    rw [List.getElem?_eq_getElem hv']
    congr 1; omega
  · intro hno
    rw [List.getElem?_eq_getElem hv']
    congr 1
    have hge : 65535 ≤ dists[v] := by
      apply Nat.le_of_not_lt
      intro hlt
      exact hno ⟨_, h4 hlt⟩
    -- the distance never exceeds the start distance
    have hedges : ∀ v e, e ∈ edgesOf graph hasRt rt v → e.target < start.length := by
      intro v e he
      simp only [edgesOf, List.mem_append] at he
      rcases he with he | he
      · exact hg v e he
      · split at he
        · exact hr v e he
        · simp at he
    have hI : Inv distMax (edgesOf graph hasRt rt) (min pq.nBuckets maxDist) start pq.nBuckets ⟨pq, start⟩ := by
      refine ⟨hpre.inv, rfl, rfl, ?_, hpre.queued, ?_, ?_, ?_⟩
      · intro v hv; exact ⟨start[v], by simp, Nat.le_refl _⟩
      · intro x hx; have h1 := labels_lt hpre.inv x hx; have h2 := hpre.buckets; simp only [distMax]; omega
      · intro v d hv hd; exact Walk.start hv hd
      · intro v d hv hd; exact Or.inl (hpre.labelled v d hv hd)
    obtain ⟨s', g1, g2, -⟩ := loop_spec (M := distMax) (maxDist := maxDist) (by intro d _ x _ hx; have h2 := hpre.buckets; simp only [distMax]; omega) rfl hedges
      (budget ⟨pq, start⟩) ⟨pq, start⟩ hI (Nat.le_refl _)
    have hsd : s'.dists = dists := by
      simp only [dijkstra, g1, Option.map_some] at h1
      exact Option.some.inj h1
    obtain ⟨t, ht1, ht2⟩ := g2.mono v hv
    rw [hsd, List.getElem?_eq_getElem hv'] at ht1
    have := Option.some.inj ht1
    have := hs start[v] (List.getElem_mem hv)
    omega

/-- C08: no distance of at least `max_dist` or the number of buckets is ever reported, apart from
start distances. -/
theorem C08_dijkstra_limit (graph : Nat → List Edge) (hasRt : Nat → Bool) (rt : Nat → List Edge)
    (pq : Dial Label) (start dists : List Nat) (maxDist : Nat)
    (h : dijkstra graph hasRt rt pq start maxDist = some dists) (v : Nat) :
    dists[v]? = start[v]? ∨ ∃ d, dists[v]? = some d ∧ d < pq.nBuckets ∧ d < maxDist := by
  simp only [dijkstra, Option.map_eq_some_iff] at h
  obtain ⟨s', h1, h2⟩ := h
  have := loop_capped h1 v
  rw [h2] at this
  exact this

/-- Non-vacuity: a graph with a cycle, a shortcut found late and an unreachable node. -/
def exGraph : Nat → List Edge
  | 0 => [⟨1, 10⟩, ⟨2, 2⟩]
  | 1 => [⟨0, 1⟩]
  | 2 => [⟨1, 3⟩]
  | _ => []

/-- The queue of the example: node 0 with start distance 0. -/
def exPq : Dial Label := ⟨0, 1, [[⟨0, 0⟩]] ++ List.replicate 20 []⟩

example : dijkstra exGraph (fun _ => false) (fun _ => []) exPq [0, 65535, 65535, 65535] 65535
    = some [0, 5, 2, 65535] := by decide +kernel

example : Pre exPq [0, 65535, 65535, 65535] := by
  refine ⟨⟨by decide, by simp [exPq], ?_⟩, by decide, ?_, ?_⟩
  · intro i x hx
    rcases i with _ | i
    · simp [exPq] at hx; subst hx; rfl
    · by_cases hi : i < 20
      · rw [(by decide : ∀ i < 20, exPq.buckets.getD (i + 1) [] = []) i hi] at hx
        simp at hx
      · simp [exPq, List.getD_eq_getElem?_getD, hi] at hx
  · intro x hx
    simp [exPq] at hx
    subst hx
    exact ⟨0, rfl, Nat.le_refl _⟩
  · intro v d hv hd
    rcases v with _ | _ | _ | _ | v
    · simp at hv; subst hv; simp [exPq]
    · simp at hv; omega
    · simp at hv; omega
    · simp at hv; omega
    · simp at hv

end Nigiri.Dijkstra
