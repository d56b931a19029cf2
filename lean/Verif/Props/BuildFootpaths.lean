import Verif.Proofs.FootpathClosure
/-!
# Property C35: footpath closure

C35: after preprocessing, the footpath between two stops has the duration of the shortest chain of
direct footpaths.  C49: incoming and outgoing footpaths mirror each other.  C50: generated tracks
inherit the footpaths of their station.
-/

namespace Nigiri.Footpaths

/-! ### Specification (in terms of the footpaths given to the loader) -/

/-- There is a footpath from `a` to the other location `b` taking `d` minutes. -/
def Footpath (out : List (List Edge)) (a b d : Nat) : Prop :=
  a ≠ b ∧ ∃ es, out[a]? = some es ∧ ⟨b, d⟩ ∈ es

/-- One leg: a footpath in either direction, lasting at least as long as the transfer times of both
stops. -/
def WalkLeg (tt : Nat → Nat) (out : List (List Edge)) (a b w : Nat) : Prop :=
  ∃ d, (Footpath out a b d ∨ Footpath out b a d) ∧ w = max (max (tt a) (tt b)) d

/-- A chain of legs and its duration. -/
inductive WalkChain (tt : Nat → Nat) (out : List (List Edge)) (a : Nat) : Nat → Nat → Prop
  | refl : WalkChain tt out a a 0
  | step {b c d w : Nat} : WalkChain tt out a b d → WalkLeg tt out b c w → WalkChain tt out a c (d + w)

/-- The duration of the shortest chain from `a` to `b`. -/
def IsWalkDist (tt : Nat → Nat) (out : List (List Edge)) (a b d : Nat) : Prop :=
  WalkChain tt out a b d ∧ ∀ d', WalkChain tt out a b d' → d ≤ d'

/-- `a` and `b` are connected by a chain of footpaths. -/
def Connected (out : List (List Edge)) (a b : Nat) : Prop := ∃ d, WalkChain (fun _ => 0) out a b d

/-- `a` and `b` are connected to no third location. -/
def IsolatedPair (out : List (List Edge)) (a b : Nat) : Prop :=
  ∀ c, Connected out a c → c = a ∨ c = b

/-- Following footpaths in their direction only. -/
inductive Walkable (out : List (List Edge)) (a : Nat) : Nat → Prop
  | refl : Walkable out a a
  | step {b c d : Nat} : Walkable out a b → Footpath out b c d → Walkable out a c

/-- The directions of the footpaths: two stops from which a third one is reachable are both reachable
from a common stop. This holds if every footpath has an opposite footpath (`C35_opposite`). -/
def HasRoots (out : List (List Edge)) : Prop :=
  ∀ x y z, Walkable out x z → Walkable out y z → ∃ r, Walkable out r x ∧ Walkable out r y

/-- Well-formed input: targets exist, durations fit into 8 bits, all footpaths between the same
stops in the same direction have the same duration. -/
structure WellFormed (out : List (List Edge)) : Prop where
  target : ∀ es ∈ out, ∀ e ∈ es, e.target < out.length
  dur : ∀ es ∈ out, ∀ e ∈ es, e.duration < 256
  unique : ∀ es ∈ out, ∀ e ∈ es, ∀ e' ∈ es, e.target = e'.target → e = e'

/-! ### Link between specification and model -/

section link
variable {sort : List Edge → List Edge} {out : List (List Edge)} {env : Env}

theorem getD_mem {a : Nat} {e : Edge} : e ∈ out.getD a [] ↔ ∃ es, out[a]? = some es ∧ e ∈ es := by
  rw [List.getD_eq_getElem?_getD]
  cases out[a]? <;> simp

theorem mem_graph (hs : SortsBy Edge.target sort) (hw : WellFormed out) {a : Nat} {e : Edge} :
    e ∈ footpathGraph sort out a ↔ Footpath out a e.target e.duration := by
  constructor
  · intro h
    obtain ⟨h1, h2⟩ := graph_sub hs h
    obtain ⟨es, h3, h4⟩ := getD_mem.mp h1
    exact ⟨fun h => h2 h.symm, es, h3, h4⟩
  · rintro ⟨hne, es, h1, h2⟩
    have h3 := getD_mem.mpr ⟨es, h1, h2⟩
    obtain ⟨e', h4, h5⟩ := graph_complete hs h3 (fun h => hne h.symm)
    obtain ⟨h6, -⟩ := graph_sub hs h4
    obtain ⟨es', h7, h8⟩ := getD_mem.mp h6
    rw [h1] at h7
    have : es = es' := by simpa using h7
    subst this
    have heq := hw.unique es (List.mem_of_getElem? h1) e' h8 ⟨e.target, e.duration⟩ h2 h5
    rw [heq] at h4; exact h4

theorem leg_iff (hs : SortsBy Edge.target sort) (hw : WellFormed out) {a b w : Nat} :
    Leg env (footpathGraph sort out) a b w ↔ WalkLeg env.tt out a b w := by
  have hd : ∀ a e, e ∈ footpathGraph sort out a → e.duration % 256 = e.duration := by
    intro a e he
    obtain ⟨h1, -⟩ := graph_sub hs he
    obtain ⟨es, h3, h4⟩ := getD_mem.mp h1
    exact Nat.mod_eq_of_lt (hw.dur es (List.mem_of_getElem? h3) e h4)
  constructor
  · rintro (⟨e, he, rfl, rfl⟩ | ⟨e, he, rfl, rfl⟩)
    · exact ⟨e.duration, .inl ((mem_graph hs hw).mp he), by rw [edgeWeight, hd _ _ he]⟩
    · refine ⟨e.duration, .inr ((mem_graph hs hw).mp he), ?_⟩
      rw [edgeWeight, hd _ _ he, Nat.max_comm (env.tt b)]
  · rintro ⟨d, h | h, rfl⟩
    · have he : (⟨b, d⟩ : Edge) ∈ footpathGraph sort out a := (mem_graph hs hw).mpr h
      exact .inl ⟨_, he, rfl, by rw [edgeWeight, hd _ _ he]⟩
    · have he : (⟨a, d⟩ : Edge) ∈ footpathGraph sort out b := (mem_graph hs hw).mpr h
      exact .inr ⟨_, he, rfl, by rw [edgeWeight, hd _ _ he, Nat.max_comm (env.tt b)]⟩

theorem chain_iff (hs : SortsBy Edge.target sort) (hw : WellFormed out) {a b d : Nat} :
    Chain env (footpathGraph sort out) a b d ↔ WalkChain env.tt out a b d := by
  constructor
  · intro h
    induction h with
    | refl => exact .refl
    | step _ hl ih => exact .step ih ((leg_iff hs hw).mp hl)
  · intro h
    induction h with
    | refl => exact .refl
    | step _ hl ih => exact .step ih ((leg_iff hs hw).mpr hl)

theorem shortest_iff (hs : SortsBy Edge.target sort) (hw : WellFormed out) {a b d : Nat} :
    Shortest env (footpathGraph sort out) a b d ↔ IsWalkDist env.tt out a b d := by
  simp only [Shortest, IsWalkDist, chain_iff hs hw]

theorem adj_iff (hs : SortsBy Edge.target sort) (hw : WellFormed out) {a b : Nat} :
    Adj (footpathGraph sort out) a b ↔ ∃ w, WalkLeg (fun _ => 0) out a b w := by
  constructor
  · rintro (⟨e, he, rfl⟩ | ⟨e, he, rfl⟩)
    · exact ⟨_, e.duration, .inl ((mem_graph hs hw).mp he), rfl⟩
    · exact ⟨_, e.duration, .inr ((mem_graph hs hw).mp he), rfl⟩
  · rintro ⟨w, d, h | h, -⟩
    · exact .inl ⟨⟨b, d⟩, (mem_graph hs hw).mpr h, rfl⟩
    · exact .inr ⟨⟨a, d⟩, (mem_graph hs hw).mpr h, rfl⟩

theorem conn_iff (hs : SortsBy Edge.target sort) (hw : WellFormed out) {a b : Nat} :
    Conn (footpathGraph sort out) a b ↔ Connected out a b := by
  constructor
  · intro h
    induction h with
    | refl => exact ⟨0, .refl⟩
    | step _ hl ih =>
      obtain ⟨d, hd⟩ := ih
      obtain ⟨w, hw'⟩ := (adj_iff hs hw).mp hl
      exact ⟨_, .step hd hw'⟩
  · rintro ⟨d, h⟩
    induction h with
    | refl => exact .refl
    | step _ hl ih => exact .step ih ((adj_iff hs hw).mpr ⟨_, hl⟩)

theorem reach_iff (hs : SortsBy Edge.target sort) (hw : WellFormed out) {a b : Nat} :
    Reach (footpathGraph sort out) a b ↔ Walkable out a b := by
  constructor
  · intro h
    induction h with
    | refl => exact .refl
    | step _ he ih => exact .step ih ((mem_graph hs hw).mp he)
  · intro h
    induction h with
    | refl => exact .refl
    | @step b c d _ he ih =>
      exact Reach.step (e := ⟨c, d⟩) ih ((mem_graph hs hw).mpr he)

theorem rooted_of (hs : SortsBy Edge.target sort) (hw : WellFormed out) (hr : HasRoots out) :
    Rooted (footpathGraph sort out) := by
  intro x y z hx hy
  obtain ⟨r, h1, h2⟩ := hr x y z ((reach_iff hs hw).mp hx) ((reach_iff hs hw).mp hy)
  exact ⟨r, (reach_iff hs hw).mpr h1, (reach_iff hs hw).mpr h2⟩

theorem graph_target_lt (hs : SortsBy Edge.target sort) (hw : WellFormed out) (v : Nat) (e : Edge)
    (he : e ∈ footpathGraph sort out v) : e.target < out.length := by
  obtain ⟨-, es, h1, h2⟩ := (mem_graph hs hw).mp he
  exact hw.target es (List.mem_of_getElem? h1) _ h2

theorem graph_src_lt (hs : SortsBy Edge.target sort) (hw : WellFormed out) (v : Nat)
    (he : footpathGraph sort out v ≠ []) : v < out.length := by
  obtain ⟨e, he⟩ := List.exists_mem_of_ne_nil _ he
  obtain ⟨-, es, h1, -⟩ := (mem_graph hs hw).mp he
  rw [List.getElem?_eq_some_iff] at h1; exact h1.1

/-- Two different members: the component has two members iff there is no third one. -/
theorem length_two {M : List Nat} (hM : M.Pairwise (· < ·)) {a b : Nat} (ha : a ∈ M) (hb : b ∈ M)
    (hab : a ≠ b) : M.length = 2 ↔ ∀ c ∈ M, c = a ∨ c = b := by
  match M, hM with
  | [], _ => simp at ha
  | [x], _ => simp at ha hb; omega
  | [x, y], _ =>
    simp only [List.mem_cons, List.not_mem_nil, or_false, List.length_cons, List.length_nil] at *
    constructor
    · intro _ c hc; omega
    · intro _; trivial
  | x :: y :: z :: M', hM =>
    simp only [List.pairwise_cons, List.mem_cons] at hM
    constructor
    · intro h; simp at h
    · intro h
      have h1 := h x (by simp)
      have h2 := h y (by simp)
      have h3 := h z (by simp)
      have h4 := hM.1 y (by simp)
      have h5 := hM.1 z (by simp)
      have h6 := hM.2.1 z (by simp)
      omega

end link

/-! ### C35 -/

/-- C35: for every set of footpaths (see `WellFormed`, `HasRoots`), transfer times, walking times and
limit up to 256 minutes, preprocessing succeeds and writes exactly these footpaths, one per pair:
* from `a` to `b` if both are connected to further stops and the shortest chain from `a` to `b` is
  shorter than the limit - with the duration of the shortest chain;
* from `a` to `b` if the two are connected to no other stop and there is a direct footpath from `a` to
  `b` (however long) - with its duration, at least both transfer times;
in both cases raised to the walking time by air line, and only if that is walkable. -/
theorem C35_closure (sort : List Edge → List Edge) (hs : SortsBy Edge.target sort) (env : Env) (limit : Nat)
    (out : List (List Edge)) (hw : WellFormed out) (hr : HasRoots out) (hl0 : 0 < limit) (hl : limit ≤ 256) :
    ∃ es, connectComponents sort env limit out = some es ∧
      (∀ a b d, ⟨a, b, d⟩ ∈ es ↔ a ≠ b ∧ ∃ D w, env.walk a b = some w ∧ d = max D w ∧
        ((IsolatedPair out a b ∧ ∃ d', Footpath out a b d' ∧ D = max (max (env.tt a) (env.tt b)) d') ∨
         (¬ IsolatedPair out a b ∧ IsWalkDist env.tt out a b D ∧ D < limit))) ∧
      es.Pairwise (fun x y => x.src ≠ y.src ∨ x.dst ≠ y.dst) := by
  obtain ⟨c, R, h1, h2⟩ := findComponents_spec (graph_target_lt hs hw)
  have hroot := rooted_of hs hw hr
  have hsrc := graph_src_lt hs hw
  have hself : ∀ x, ∀ e ∈ footpathGraph sort out x, e.target ≠ x := fun x e he => (graph_sub hs he).2
  have hcomp := isComp_members hroot hsrc h2
  obtain ⟨es, h3, h4, h5⟩ := processAll_spec (env := env) hcomp hself (graph_sorted hs out) hl0 (by omega)
    (List.range out.length) List.pairwise_lt_range
  refine ⟨es, by rw [connectComponents, h1]; exact h3, ?_, h5⟩
  intro a b d
  rw [h4]
  have hmem : ∀ k a c', a ∈ members c k → (c' ∈ members c k ↔ Connected out a c') := by
    intro k a c' ha
    rw [← conn_iff hs hw]
    constructor
    · intro hc'; exact (hcomp k).conn a ha c' hc'
    · intro hc'
      induction hc' with
      | refl => exact ha
      | step _ hadj ih => exact (hcomp k).closed _ ih _ hadj
  have hpair : ∀ k a b, a ∈ members c k → b ∈ members c k → a ≠ b →
      ((members c k).length = 2 ↔ IsolatedPair out a b) := by
    intro k a b ha hb hab
    rw [length_two (hcomp k).sorted ha hb hab]
    exact ⟨fun h c' hc' => h c' ((hmem k a c' ha).mpr hc'), fun h c' hc' => h c' ((hmem k a c' ha).mp hc')⟩
  constructor
  · rintro ⟨k, -, h | h⟩
    · obtain ⟨hlen, e, he, hm, ht, w, hw', hd⟩ := h
      simp only at he hm ht hw' hd
      subst ht
      have hf := (mem_graph hs hw).mp he
      have hb : e.target ∈ members c k := (hcomp k).closed a hm _ (.inl ⟨e, he, rfl⟩)
      refine ⟨hf.1, max (max (env.tt a) (env.tt e.target)) e.duration, w, hw', ?_,
        .inl ⟨(hpair k a _ hm hb hf.1).mp hlen, e.duration, hf, rfl⟩⟩
      have hdur : e.duration < 256 := by
        obtain ⟨-, es', k1, k2⟩ := hf
        exact hw.dur es' (List.mem_of_getElem? k1) _ k2
      rw [hd, Nat.mod_eq_of_lt hdur]; omega
    · obtain ⟨hlen, ha, hb, hab, D, w, hsh, hD, hw', hd⟩ := h
      simp only at ha hb hab hsh hw' hd
      have hge := chain_ge hsh.1 hab
      refine ⟨hab, D, w, hw', ?_, .inr ⟨?_, (shortest_iff hs hw).mp hsh, hD⟩⟩
      · have : distToDuration D % 256 = D := by unfold distToDuration; rw [if_pos (by omega)]; omega
        rw [hd, this]; omega
      · rw [← hpair k a b ha hb hab]; omega
  · rintro ⟨hab, D, w, hw', hd, h⟩
    have hex : Adj (footpathGraph sort out) a b ∨ Chain env (footpathGraph sort out) a b D →
        ∃ k, a ∈ members c k ∧ b ∈ members c k ∧ k < out.length := by
      intro h
      have hc : Conn (footpathGraph sort out) a b := by
        rcases h with h | h
        · exact .step .refl h
        · exact h.conn
      obtain ⟨x, hx⟩ : ∃ x, Adj (footpathGraph sort out) x b := by
        cases hc with
        | refl => exact absurd rfl hab
        | step _ h => exact ⟨_, h⟩
      obtain ⟨k, hk⟩ := assigned_of_adj h2 hsrc hx.symm
      have hbm := mem_members.mpr hk
      refine ⟨k, ?_, hbm, (h2.roots k (h2.sound b k hk).1).1⟩
      rw [hmem k b a hbm, ← conn_iff hs hw]
      exact hc.symm
    rcases h with ⟨hp, d', hf, rfl⟩ | ⟨hp, hsh, hD⟩
    · have he : (⟨b, d'⟩ : Edge) ∈ footpathGraph sort out a := (mem_graph hs hw).mpr hf
      obtain ⟨k, ha, hb, hk⟩ := hex (.inl (.inl ⟨_, he, rfl⟩))
      refine ⟨k, List.mem_range.mpr hk, .inl ⟨(hpair k a b ha hb hab).mpr hp, ⟨b, d'⟩, he, ha, rfl, w, hw', ?_⟩⟩
      have hdur : d' < 256 := by
        obtain ⟨-, es', k1, k2⟩ := hf
        exact hw.dur es' (List.mem_of_getElem? k1) _ k2
      simp only
      rw [hd, Nat.mod_eq_of_lt hdur]; omega
    · have hsh' := (shortest_iff (env := env) hs hw).mpr hsh
      obtain ⟨k, ha, hb, hk⟩ := hex (.inr hsh'.1)
      have hge := chain_ge hsh'.1 hab
      refine ⟨k, List.mem_range.mpr hk, .inr ⟨?_, ha, hb, hab, D, w, hsh', hD, hw', ?_⟩⟩
      · have h6 : (members c k).length ≠ 2 := fun h => hp ((hpair k a b ha hb hab).mp h)
        have h7 : ∀ (M : List Nat), a ∈ M → b ∈ M → M.length ≠ 2 → 2 < M.length := by
          intro M ha hb h
          match M with
          | [] => simp at ha
          | [x] => simp at ha hb; omega
          | [x, y] => simp at h
          | x :: y :: z :: M' => simp
        exact h7 _ ha hb h6
      · have : distToDuration D % 256 = D := by unfold distToDuration; rw [if_pos (by omega)]; omega
        simp only
        rw [hd, this]; omega

/-- If every footpath has a footpath in the opposite direction (as the GTFS loader ensures), the
condition on the directions holds. -/
theorem C35_opposite (out : List (List Edge))
    (h : ∀ a b d, Footpath out a b d → ∃ d', Footpath out b a d') : HasRoots out := by
  have htrans : ∀ {a b c}, Walkable out a b → Walkable out b c → Walkable out a c := by
    intro a b c h1 h2
    induction h2 with
    | refl => exact h1
    | step _ hf ih => exact .step ih hf
  have hsymm : ∀ {a b}, Walkable out a b → Walkable out b a := by
    intro a b h1
    induction h1 with
    | refl => exact .refl
    | step _ hf ih =>
      obtain ⟨d', hd'⟩ := h _ _ _ hf
      exact htrans (.step .refl hd') ih
  intro x y z hx hy
  exact ⟨x, .refl, htrans hx (hsymm hy)⟩

private theorem chain_trans {tt : Nat → Nat} {out : List (List Edge)} {a b c d d' : Nat}
    (h1 : WalkChain tt out a b d) (h2 : WalkChain tt out b c d') : WalkChain tt out a c (d + d') := by
  induction h2 with
  | refl => exact h1
  | step _ hl ih => rw [← Nat.add_assoc]; exact .step ih hl

private theorem leg_symm {tt : Nat → Nat} {out : List (List Edge)} {a b w : Nat}
    (h : WalkLeg tt out a b w) : WalkLeg tt out b a w := by
  obtain ⟨d, h1, h2⟩ := h
  exact ⟨d, h1.elim .inr .inl, by rw [h2, Nat.max_comm (tt a)]⟩

private theorem chain_symm {tt : Nat → Nat} {out : List (List Edge)} {a b d : Nat}
    (h : WalkChain tt out a b d) : WalkChain tt out b a d := by
  induction h with
  | refl => exact .refl
  | @step b c d w _ hl ih =>
    have : WalkChain tt out c b (0 + w) := .step .refl (leg_symm hl)
    have := chain_trans this ih
    rw [show 0 + w + d = d + w by omega] at this
    exact this

private theorem exists_shortest {tt : Nat → Nat} {out : List (List Edge)} {a b d : Nat}
    (h : WalkChain tt out a b d) : ∃ D, IsWalkDist tt out a b D ∧ D ≤ d := by
  induction d using Nat.strongRecOn with
  | ind d ih =>
    by_cases hex : ∃ d', WalkChain tt out a b d' ∧ d' < d
    · obtain ⟨d', h1, h2⟩ := hex
      obtain ⟨D, h3, h4⟩ := ih d' h2 h1
      exact ⟨D, h3, by omega⟩
    · refine ⟨d, ⟨h, ?_⟩, Nat.le_refl _⟩
      intro d' h1
      apply Nat.le_of_not_lt
      exact fun hlt => hex ⟨d', h1, hlt⟩

private theorem connected_of_chain {tt : Nat → Nat} {out : List (List Edge)} {a b d : Nat}
    (h : WalkChain tt out a b d) : Connected out a b := by
  induction h with
  | refl => exact ⟨0, .refl⟩
  | step _ hl ih =>
    obtain ⟨d', h'⟩ := ih
    obtain ⟨x, hx, -⟩ := hl
    exact ⟨_, .step h' ⟨x, hx, rfl⟩⟩

/-- C35, closure: without adjustment to the walking speed, walking on from the end of a footpath over
another one is never needed - if the sum is below the limit there is a footpath at most as long. -/
theorem C35_transitive (sort : List Edge → List Edge) (hs : SortsBy Edge.target sort) (tt : Nat → Nat) (limit : Nat)
    (out : List (List Edge)) (hw : WellFormed out) (hr : HasRoots out) (hl0 : 0 < limit) (hl : limit ≤ 256)
    (es : List Entry) (h : connectComponents sort ⟨tt, fun _ _ => some 0⟩ limit out = some es)
    (a b c d₁ d₂ : Nat) (h1 : ⟨a, b, d₁⟩ ∈ es) (h2 : ⟨b, c, d₂⟩ ∈ es) (hac : a ≠ c) (hsum : d₁ + d₂ < limit) :
    ∃ d₃, ⟨a, c, d₃⟩ ∈ es ∧ d₃ ≤ d₁ + d₂ := by
  obtain ⟨es', k1, k2, -⟩ := C35_closure sort hs ⟨tt, fun _ _ => some 0⟩ limit out hw hr hl0 hl
  rw [h] at k1
  have : es = es' := by simpa using k1
  subst this
  have hchain : ∀ a b d, (⟨a, b, d⟩ : Entry) ∈ es → a ≠ b ∧ WalkChain tt out a b d := by
    intro a b d hm
    obtain ⟨hab, D, w, hw', hd, hcase⟩ := (k2 a b d).mp hm
    have hw0 : w = 0 := by simpa using hw'.symm
    subst hw0
    have hdD : d = D := by omega
    subst hdD
    refine ⟨hab, ?_⟩
    rcases hcase with ⟨-, d', hf, hD⟩ | ⟨-, hD, -⟩
    · have : WalkChain tt out a b (0 + d) := .step .refl ⟨d', .inl hf, hD⟩
      rwa [Nat.zero_add] at this
    · exact hD.1
  obtain ⟨hab, hc1⟩ := hchain a b d₁ h1
  obtain ⟨hbc, hc2⟩ := hchain b c d₂ h2
  obtain ⟨D, hD, hle⟩ := exists_shortest (chain_trans hc1 hc2)
  refine ⟨D, (k2 a c D).mpr ⟨hac, D, 0, rfl, by omega, .inr ⟨?_, hD, by omega⟩⟩, hle⟩
  intro hp
  rcases hp b (connected_of_chain hc1) with h | h
  · exact hab h.symm
  · exact hbc h

/-- C35, symmetry: apart from isolated pairs the footpaths of both directions have the same duration
(if walking by air line takes equally long in both directions). -/
theorem C35_both_directions (sort : List Edge → List Edge) (hs : SortsBy Edge.target sort) (env : Env) (limit : Nat)
    (out : List (List Edge)) (hw : WellFormed out) (hr : HasRoots out) (hl0 : 0 < limit) (hl : limit ≤ 256)
    (hwalk : ∀ a b, env.walk a b = env.walk b a)
    (es : List Entry) (h : connectComponents sort env limit out = some es) (a b d : Nat)
    (hp : ¬ IsolatedPair out a b) (hm : ⟨a, b, d⟩ ∈ es) : ⟨b, a, d⟩ ∈ es := by
  obtain ⟨es', k1, k2, -⟩ := C35_closure sort hs env limit out hw hr hl0 hl
  rw [h] at k1
  have : es = es' := by simpa using k1
  subst this
  obtain ⟨hab, D, w, hw', hd, hcase⟩ := (k2 a b d).mp hm
  refine (k2 b a d).mpr ⟨fun h => hab h.symm, D, w, by rw [← hwalk]; exact hw', hd, .inr ?_⟩
  rcases hcase with ⟨hp', -⟩ | ⟨-, hD, hDl⟩
  · exact absurd hp' hp
  · refine ⟨?_, ⟨chain_symm hD.1, fun d' hd' => hD.2 d' (chain_symm hd')⟩, hDl⟩
    intro hp'
    apply hp
    intro c hc
    have hab' : Connected out b a := connected_of_chain (chain_symm hD.1)
    obtain ⟨x, hx⟩ := hab'
    obtain ⟨y, hy⟩ := hc
    exact (hp' c ⟨_, chain_trans hx hy⟩).symm

/-! ### C49 -/

/-- C49: incoming and outgoing footpaths mirror each other (so that forward and backward search use
the same ones), and both lists are sorted by duration. For every result of the closure. -/
theorem C49_mirror (sort : List Edge → List Edge) (hs : SortsBy Edge.duration sort) (es : List Entry) :
    (∀ a b d, (⟨b, d⟩ : Edge) ∈ outFootpaths sort es a ↔ (⟨a, d⟩ : Edge) ∈ inFootpaths sort es b) ∧
    (∀ a b d, (⟨b, d⟩ : Edge) ∈ outFootpaths sort es a ↔ ⟨a, b, d⟩ ∈ es) ∧
    (∀ a, (outFootpaths sort es a).Pairwise (fun x y => x.duration ≤ y.duration)) ∧
    (∀ a, (inFootpaths sort es a).Pairwise (fun x y => x.duration ≤ y.duration)) := by
  have ho : ∀ a b d, (⟨b, d⟩ : Edge) ∈ outFootpaths sort es a ↔ ⟨a, b, d⟩ ∈ es := by
    intro a b d
    rw [outFootpaths, (hs.perm _).mem_iff]
    simp only [List.mem_map, List.mem_filter, beq_iff_eq, Edge.mk.injEq]
    constructor
    · rintro ⟨⟨x, y, z⟩, ⟨h1, h2⟩, h3, h4⟩
      simp only at h2 h3 h4; subst h2 h3 h4; exact h1
    · intro h; exact ⟨_, ⟨h, rfl⟩, rfl, rfl⟩
  have hi : ∀ a b d, (⟨a, d⟩ : Edge) ∈ inFootpaths sort es b ↔ ⟨a, b, d⟩ ∈ es := by
    intro a b d
    rw [inFootpaths, (hs.perm _).mem_iff]
    simp only [List.mem_map, List.mem_filter, beq_iff_eq, Edge.mk.injEq]
    constructor
    · rintro ⟨⟨x, y, z⟩, ⟨h1, h2⟩, h3, h4⟩
      simp only at h2 h3 h4; subst h2 h3 h4; exact h1
    · intro h; exact ⟨_, ⟨h, rfl⟩, rfl, rfl⟩
  exact ⟨fun a b d => (ho a b d).trans (hi a b d).symm, ho, fun a => hs.sorted _, fun a => hs.sorted _⟩

/-! ### Examples and counterexamples -/

/-- Insertion sort, a sorting function for the examples. -/
def insertBy (key : Edge → Nat) (e : Edge) : List Edge → List Edge
  | [] => [e]
  | x :: xs => if key e ≤ key x then e :: x :: xs else x :: insertBy key e xs

/-- Insertion sort. -/
def isort (key : Edge → Nat) : List Edge → List Edge
  | [] => []
  | e :: es => insertBy key e (isort key es)

theorem insertBy_perm (key : Edge → Nat) (e : Edge) : ∀ l, (insertBy key e l).Perm (e :: l)
  | [] => .refl _
  | x :: xs => by
    rw [insertBy]
    split
    · exact .refl _
    · exact ((insertBy_perm key e xs).cons x).trans (.swap e x xs)

theorem insertBy_sorted (key : Edge → Nat) (e : Edge) : ∀ l : List Edge,
    l.Pairwise (fun a b => key a ≤ key b) → (insertBy key e l).Pairwise (fun a b => key a ≤ key b)
  | [], _ => by simp [insertBy]
  | x :: xs, h => by
    rw [insertBy]
    rw [List.pairwise_cons] at h
    split
    · rename_i hle
      rw [List.pairwise_cons]
      refine ⟨?_, List.pairwise_cons.mpr h⟩
      intro y hy
      rcases List.mem_cons.mp hy with rfl | hy
      · exact hle
      · have := h.1 y hy; omega
    · rename_i hle
      rw [List.pairwise_cons]
      refine ⟨?_, insertBy_sorted key e xs h.2⟩
      intro y hy
      rcases List.mem_cons.mp ((insertBy_perm key e xs).mem_iff.mp hy) with rfl | hy
      · omega
      · exact h.1 y hy

theorem isort_sorts (key : Edge → Nat) : SortsBy key (isort key) := by
  constructor
  · intro l
    induction l with
    | nil => exact .refl _
    | cons e es ih => exact (insertBy_perm key e _).trans (ih.cons e)
  · intro l
    induction l with
    | nil => simp [isort]
    | cons e es ih => exact insertBy_sorted key e _ ih

/-- Non-vacuity: a station 0 - 1 - 2 with a long direct footpath 0 - 2, an isolated pair 3 - 4 and a
location without footpaths; the hypotheses hold and the closure is as expected: the chain 0 - 1 - 2
(5 + 7 minutes) is preferred to the direct footpath; the pair ignores the limit. -/
def exOut : List (List Edge) :=
  [[⟨2, 14⟩, ⟨1, 5⟩], [⟨0, 5⟩, ⟨2, 7⟩], [⟨1, 7⟩, ⟨0, 14⟩], [⟨4, 30⟩], [⟨3, 40⟩], []]

example : connectComponents (isort Edge.target) ⟨fun _ => 2, fun _ _ => some 0⟩ 20 exOut =
    some [⟨0, 1, 5⟩, ⟨0, 2, 12⟩, ⟨1, 0, 5⟩, ⟨1, 2, 7⟩, ⟨2, 0, 12⟩, ⟨2, 1, 7⟩, ⟨3, 4, 30⟩, ⟨4, 3, 40⟩] := by
  decide +kernel

example : WellFormed exOut := ⟨by decide, by decide, by decide⟩

example : HasRoots exOut := by
  apply C35_opposite
  rintro a b d ⟨hne, es, h1, h2⟩
  have hall : ∀ a' < 6, ∀ e ∈ exOut.getD a' [], ∃ e' ∈ exOut.getD e.target [], e'.target = a' := by decide
  have ha : a < 6 := by rw [List.getElem?_eq_some_iff] at h1; exact h1.1
  obtain ⟨e', h3, h4⟩ := hall a ha ⟨b, d⟩ (getD_mem.mpr ⟨es, h1, h2⟩)
  obtain ⟨es', h5, h6⟩ := getD_mem.mp h3
  refine ⟨e'.duration, fun h => hne h.symm, es', h5, ?_⟩
  rw [← h4]; exact h6

/-- The condition on the directions is necessary: with the footpaths 0 → 2 and 1 → 2 only, the search
from 1 takes stop 2 away from the component of 0, and loading fails (`invalid size`). -/
theorem C35_directed_counterexample :
    connectComponents (isort Edge.target) ⟨fun _ => 2, fun _ _ => some 0⟩ 20 [[⟨2, 5⟩], [⟨2, 5⟩], []] = none := by
  decide +kernel

/-- Durations of more than 255 minutes wrap around: footpaths of 300 minutes become 44 minutes. -/
theorem C35_wrap_counterexample :
    connectComponents (isort Edge.target) ⟨fun _ => 2, fun _ _ => some 0⟩ 200
      [[⟨1, 300⟩], [⟨0, 300⟩, ⟨2, 10⟩], [⟨1, 10⟩]] =
    some [⟨0, 1, 44⟩, ⟨0, 2, 54⟩, ⟨1, 0, 44⟩, ⟨1, 2, 10⟩, ⟨2, 0, 54⟩, ⟨2, 1, 10⟩] := by
  decide +kernel

/-- If there are two footpaths between the same stops with different durations, which one is used
depends on the (unstable) sorting function. -/
theorem C35_duplicate_counterexample :
    ∃ s₁ s₂, SortsBy Edge.target s₁ ∧ SortsBy Edge.target s₂ ∧
      connectComponents s₁ ⟨fun _ => 2, fun _ _ => some 0⟩ 20 [[⟨1, 4⟩, ⟨1, 9⟩], []] = some [⟨0, 1, 4⟩] ∧
      connectComponents s₂ ⟨fun _ => 2, fun _ _ => some 0⟩ 20 [[⟨1, 4⟩, ⟨1, 9⟩], []] = some [⟨0, 1, 9⟩] := by
  refine ⟨isort Edge.target, fun l => isort Edge.target l.reverse, isort_sorts _, ?_, by decide +kernel,
    by decide +kernel⟩
  exact ⟨fun l => ((isort_sorts Edge.target).perm _).trans (List.reverse_perm l),
    fun l => (isort_sorts Edge.target).sorted _⟩

/-! ### C50: generated tracks -/

/-- C50: generated tracks inherit the footpaths of their station: for a footpath from `a` to `b` in
`d` minutes, each of the stop `a` and its tracks gets a footpath of `d` minutes to each of `b` and its
tracks (tracks also to the other child stops of `b`). -/
theorem C50_tracks_inherit (t : Tree) (tt : Nat → Nat) (n : Nat) (out : Nat → List Edge) (a b d : Nat) (ha : a < n)
    (h : (⟨b, d⟩ : Edge) ∈ out a) (x y : Nat) (hx : x = a ∨ (x ∈ t.children a ∧ t.generated x = true))
    (hy : y = b ∨ (y ∈ t.children b ∧ t.generated y = true)) :
    (⟨y, d⟩ : Edge) ∈ addLinks t tt n out x := by
  unfold addLinks
  simp only [List.mem_append, List.mem_map, List.mem_filter, List.mem_flatMap, List.mem_range, beq_iff_eq]
  rcases hx with rfl | ⟨hx1, hx2⟩
  · rcases hy with rfl | ⟨hy1, hy2⟩
    · exact .inl h
    · refine .inr ⟨(x, ⟨y, d⟩), ⟨.inl ⟨x, ha, ⟨b, d⟩, h, ?_⟩, rfl⟩, rfl⟩
      unfold trackLinks
      simp only [List.mem_append, List.mem_flatMap]
      exact .inl ⟨y, hy1, .inl (by simp [hy2])⟩
  · have hxt : x ∈ t.tracks a := by simp [Tree.tracks, hx1, hx2]
    refine .inr ⟨(x, ⟨y, d⟩), ⟨.inl ⟨a, ha, ⟨b, d⟩, h, ?_⟩, rfl⟩, rfl⟩
    unfold trackLinks
    simp only [List.mem_append, List.mem_flatMap, List.mem_map]
    rcases hy with rfl | ⟨hy1, hy2⟩
    · exact .inr ⟨x, hxt, rfl⟩
    · exact .inl ⟨y, hy1, .inr ⟨x, hxt, rfl⟩⟩

/-- C50: between the station and its generated tracks, and between two different tracks, there are
footpaths of the station's transfer time. -/
theorem C50_within_station (t : Tree) (tt : Nat → Nat) (n : Nat) (out : Nat → List Edge) (p x : Nat) (hp : p < n)
    (hx : x ∈ t.children p) (hgx : t.generated x = true) :
    (⟨x, tt p⟩ : Edge) ∈ addLinks t tt n out p ∧ (⟨p, tt p⟩ : Edge) ∈ addLinks t tt n out x ∧
    ∀ y ∈ t.children p, y ≠ x → (⟨y, tt p⟩ : Edge) ∈ addLinks t tt n out x := by
  obtain ⟨i, hi⟩ := List.getElem?_of_mem hx
  have hil : i < (t.children p).length := by rw [List.getElem?_eq_some_iff] at hi; exact hi.1
  have hiD : (t.children p).getD i 0 = x := by simp [List.getD_eq_getElem?_getD, hi]
  have key : ∀ z (e : Edge), (z, e) ∈ siblingLinks t tt p → e ∈ addLinks t tt n out z := by
    intro z e h
    unfold addLinks
    simp only [List.mem_append, List.mem_map, List.mem_filter, List.mem_flatMap, List.mem_range, beq_iff_eq]
    exact .inr ⟨(z, e), ⟨.inr ⟨p, hp, h⟩, rfl⟩, rfl⟩
  refine ⟨key _ _ ?_, key _ _ ?_, fun y hy hyx => key _ _ ?_⟩ <;> unfold siblingLinks <;>
    simp only [List.mem_flatMap, List.mem_range] <;> refine ⟨i, hil, ?_⟩ <;> rw [hiD, if_pos hgx]
  · simp
  · simp
  · obtain ⟨j, hj⟩ := List.getElem?_of_mem hy
    have hjl : j < (t.children p).length := by rw [List.getElem?_eq_some_iff] at hj; exact hj.1
    have hjD : (t.children p).getD j 0 = y := by simp [List.getD_eq_getElem?_getD, hj]
    have hij : i ≠ j := by rintro rfl; rw [hi] at hj; exact hyx (by simpa using hj.symm)
    simp only [List.mem_cons, List.mem_flatMap, List.mem_range]
    exact .inr (.inr ⟨j, hjl, by rw [if_neg hij, hjD]; simp⟩)

/-- C50: if every footpath has an opposite one before and all child stops are generated tracks (as in
HRD timetables), this still holds afterwards - so the closure (C35) succeeds. -/
theorem C50_opposite (t : Tree) (tt : Nat → Nat) (n : Nat) (out : Nat → List Edge)
    (hn : ∀ a, ∀ e ∈ out a, a < n ∧ e.target < n) (hgen : ∀ p, ∀ x ∈ t.children p, t.generated x = true)
    (hsym : ∀ a, ∀ e ∈ out a, ∃ e' ∈ out e.target, e'.target = a) (x : Nat) (e : Edge)
    (he : e ∈ addLinks t tt n out x) : ∃ e' ∈ addLinks t tt n out e.target, e'.target = x := by
  have inh := C50_tracks_inherit t tt n out
  have he0 := he
  unfold addLinks at he
  simp only [List.mem_append, List.mem_map, List.mem_filter, List.mem_flatMap, List.mem_range, beq_iff_eq] at he
  have fromOut : ∀ a (f : Edge), f ∈ out a → ∀ x y,
      (x = a ∨ (x ∈ t.children a ∧ t.generated x = true)) →
      (y = f.target ∨ (y ∈ t.children f.target ∧ t.generated y = true)) →
      ∃ e' ∈ addLinks t tt n out y, e'.target = x := by
    intro a f hf x y hx hy
    obtain ⟨f', hf', ht⟩ := hsym a f hf
    refine ⟨⟨x, f'.duration⟩, inh f.target a f'.duration (hn a f hf).2 ?_ y x hy hx, rfl⟩
    rw [← ht]; exact hf'
  rcases he with he | ⟨⟨z, f⟩, ⟨he | he, hz⟩, hf⟩
  · exact fromOut x e he x e.target (.inl rfl) (.inl rfl)
  · simp only at hz hf
    subst hz hf
    obtain ⟨a, ha, g, hg, hl⟩ := he
    unfold trackLinks at hl
    simp only [List.mem_append, List.mem_flatMap, List.mem_map] at hl
    have htr : ∀ c, c ∈ t.tracks a → c ∈ t.children a ∧ t.generated c = true := by
      intro c hc; simpa [Tree.tracks] using hc
    rcases hl with ⟨nc, hnc, h | ⟨c, hc, h⟩⟩ | ⟨c, hc, h⟩
    · rw [if_pos (hgen _ nc hnc)] at h
      simp only [List.mem_cons, List.not_mem_nil, or_false, Prod.mk.injEq] at h
      obtain ⟨rfl, rfl⟩ := h
      exact fromOut z g hg z nc (.inl rfl) (.inr ⟨hnc, hgen _ nc hnc⟩)
    · simp only [Prod.mk.injEq] at h
      obtain ⟨rfl, rfl⟩ := h
      exact fromOut a g hg c nc (.inr (htr c hc)) (.inr ⟨hnc, hgen _ nc hnc⟩)
    · simp only [Prod.mk.injEq] at h
      obtain ⟨rfl, rfl⟩ := h
      exact fromOut a g hg c g.target (.inr (htr c hc)) (.inl rfl)
  · simp only at hz hf
    subst hz hf
    obtain ⟨p, hp, hl⟩ := he
    unfold siblingLinks at hl
    simp only [List.mem_flatMap, List.mem_range] at hl
    obtain ⟨i, hi, hl⟩ := hl
    have hmem : ∀ i, i < (t.children p).length → (t.children p).getD i 0 ∈ t.children p := by
      intro i hi
      rw [List.getD_eq_getElem?_getD, List.getElem?_eq_getElem hi]
      exact List.getElem_mem hi
    have hci := hmem i hi
    rw [if_pos (hgen p _ hci)] at hl
    obtain ⟨k1, k2, k3⟩ := C50_within_station t tt n out p _ hp hci (hgen p _ hci)
    simp only [List.mem_cons, List.mem_flatMap, List.mem_range, Prod.mk.injEq] at hl
    rcases hl with ⟨rfl, rfl⟩ | ⟨rfl, rfl⟩ | ⟨j, hj, hl⟩
    · exact ⟨_, k2, rfl⟩
    · exact ⟨_, k1, rfl⟩
    · split at hl
      · simp at hl
      · simp only [List.mem_cons, List.not_mem_nil, or_false, Prod.mk.injEq] at hl
        obtain ⟨rfl, rfl⟩ := hl
        simp only
        have hcj := hmem j hj
        by_cases heq : (t.children p).getD i 0 = (t.children p).getD j 0
        · refine ⟨⟨(t.children p).getD j 0, tt p⟩, ?_, heq.symm⟩
          rw [heq] at he0
          exact he0
        · exact ⟨_, (C50_within_station t tt n out p _ hp hcj (hgen p _ hcj)).2.2 _ hci heq, rfl⟩

/-- C50: nothing else is added: every footpath afterwards was there before, is inherited from a
footpath `a → b` of the same duration by a generated track of `a` or towards a child of `b`, or links
a generated track with its station or a sibling by the station's transfer time. -/
theorem C50_only (t : Tree) (tt : Nat → Nat) (n : Nat) (out : Nat → List Edge) (x y d : Nat)
    (h : (⟨y, d⟩ : Edge) ∈ addLinks t tt n out x) :
    (⟨y, d⟩ : Edge) ∈ out x ∨
    (∃ a b, (⟨b, d⟩ : Edge) ∈ out a ∧
      ((x = a ∧ y ∈ t.children b ∧ t.generated y = true) ∨
       (x ∈ t.children a ∧ t.generated x = true ∧ (y = b ∨ y ∈ t.children b)))) ∨
    (∃ p, d = tt p ∧
      ((x = p ∧ y ∈ t.children p ∧ t.generated y = true) ∨
       (x ∈ t.children p ∧ t.generated x = true ∧ (y = p ∨ y ∈ t.children p)))) := by
  unfold addLinks at h
  simp only [List.mem_append, List.mem_map, List.mem_filter, List.mem_flatMap, List.mem_range, beq_iff_eq] at h
  rcases h with h | ⟨⟨z, f⟩, ⟨h | h, hz⟩, hf⟩
  · exact .inl h
  · simp only at hz hf
    subst hz hf
    obtain ⟨a, ha, g, hg, hl⟩ := h
    unfold trackLinks at hl
    simp only [List.mem_append, List.mem_flatMap, List.mem_map] at hl
    have htr : ∀ c, c ∈ t.tracks a → c ∈ t.children a ∧ t.generated c = true := by
      intro c hc; simpa [Tree.tracks] using hc
    right; left
    rcases hl with ⟨nc, hnc, h | ⟨c, hc, h⟩⟩ | ⟨c, hc, h⟩
    · split at h
      · rename_i hgen
        simp only [List.mem_cons, List.not_mem_nil, or_false, Prod.mk.injEq, Edge.mk.injEq] at h
        obtain ⟨rfl, rfl, rfl⟩ := h
        exact ⟨z, g.target, hg, .inl ⟨rfl, hnc, hgen⟩⟩
      · simp at h
    · simp only [Prod.mk.injEq, Edge.mk.injEq] at h
      obtain ⟨rfl, rfl, rfl⟩ := h
      exact ⟨a, g.target, hg, .inr ⟨(htr c hc).1, (htr c hc).2, .inr hnc⟩⟩
    · simp only [Prod.mk.injEq, Edge.mk.injEq] at h
      obtain ⟨rfl, rfl, rfl⟩ := h
      exact ⟨a, g.target, hg, .inr ⟨(htr c hc).1, (htr c hc).2, .inl rfl⟩⟩
  · simp only at hz hf
    subst hz hf
    obtain ⟨p, hp, hl⟩ := h
    unfold siblingLinks at hl
    simp only [List.mem_flatMap, List.mem_range] at hl
    obtain ⟨i, hi, hl⟩ := hl
    have hmem : ∀ i, i < (t.children p).length → (t.children p).getD i 0 ∈ t.children p := by
      intro i hi
      rw [List.getD_eq_getElem?_getD, List.getElem?_eq_getElem hi]
      exact List.getElem_mem hi
    have hci := hmem i hi
    right; right
    split at hl
    · rename_i hgen
      simp only [List.mem_cons, List.mem_flatMap, List.mem_range, Prod.mk.injEq, Edge.mk.injEq] at hl
      rcases hl with ⟨rfl, rfl, rfl⟩ | ⟨rfl, rfl, rfl⟩ | ⟨j, hj, hl⟩
      · exact ⟨z, rfl, .inl ⟨rfl, hci, hgen⟩⟩
      · exact ⟨y, rfl, .inr ⟨hci, hgen, .inl rfl⟩⟩
      · split at hl
        · simp at hl
        · simp only [List.mem_cons, List.not_mem_nil, or_false, Prod.mk.injEq, Edge.mk.injEq] at hl
          obtain ⟨rfl, rfl, rfl⟩ := hl
          exact ⟨p, rfl, .inr ⟨hci, hgen, .inr (hmem j hj)⟩⟩
    · simp at hl

/-- Non-vacuity of C50: stations 0 and 1 with tracks 2, 3 and 4; the footpath 0 - 1 is inherited. -/
def exTree : Tree := ⟨fun l => if l = 0 then [2, 3] else if l = 1 then [4] else [], fun l => 2 ≤ l⟩

/-- The footpaths of the example. -/
def exPaths : Nat → List Edge := fun l => if l = 0 then [⟨1, 9⟩] else if l = 1 then [⟨0, 9⟩] else []

example : addLinks exTree (fun _ => 2) 5 exPaths 2 = [⟨4, 9⟩, ⟨1, 9⟩, ⟨0, 2⟩, ⟨3, 2⟩] := by decide +kernel
example : addLinks exTree (fun _ => 2) 5 exPaths 0 = [⟨1, 9⟩, ⟨4, 9⟩, ⟨2, 2⟩, ⟨3, 2⟩] := by decide +kernel
example : (⟨4, 9⟩ : Edge) ∈ addLinks exTree (fun _ => 2) 5 exPaths 3 :=
  C50_tracks_inherit exTree _ 5 exPaths 0 1 9 (by decide) (by decide) 3 4 (.inr (by decide)) (.inr (by decide))

end Nigiri.Footpaths
