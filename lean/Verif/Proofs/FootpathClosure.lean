import Verif.Proofs.BuildFootpaths
/-! Lemmas for the footpath closure: component graph, shortest paths, results. -/

namespace Nigiri.Footpaths

/-! ### The footpath graph -/

/-- `sort` sorts by target. -/
structure SortsBy (key : Edge → Nat) (sort : List Edge → List Edge) : Prop where
  perm : ∀ l, (sort l).Perm l
  sorted : ∀ l, (sort l).Pairwise (fun a b => key a ≤ key b)

theorem uniqueTargets_sub : ∀ (l : List Edge), ∀ e ∈ uniqueTargets l, e ∈ l := by
  intro l
  induction l using uniqueTargets.induct with
  | case1 => simp [uniqueTargets]
  | case2 e es ih =>
    intro x hx
    rw [uniqueTargets] at hx
    rcases List.mem_cons.mp hx with rfl | hx
    · simp
    · exact List.mem_cons_of_mem _ (List.dropWhile_sublist _ |>.mem (ih x hx))

theorem uniqueTargets_complete : ∀ (l : List Edge), ∀ e ∈ l, ∃ e' ∈ uniqueTargets l, e'.target = e.target := by
  intro l
  induction l using uniqueTargets.induct with
  | case1 => simp
  | case2 e es ih =>
    intro x hx
    rw [uniqueTargets]
    by_cases hxe : x.target = e.target
    · exact ⟨e, by simp, hxe.symm⟩
    · rcases List.mem_cons.mp hx with rfl | hx
      · exact absurd rfl hxe
      · have : x ∈ es.dropWhile (fun y => y.target == e.target) := by
          rw [← List.takeWhile_append_dropWhile (p := fun y : Edge => y.target == e.target) (l := es)] at hx
          rcases List.mem_append.mp hx with h | h
          · have := List.all_eq_true.mp (List.all_takeWhile (p := fun y : Edge => y.target == e.target) (l := es)) x h
            simp at this; exact absurd this hxe
          · exact h
        obtain ⟨e', h1, h2⟩ := ih x this
        exact ⟨e', List.mem_cons_of_mem _ h1, h2⟩

theorem dropWhile_gt : ∀ (es : List Edge) (t : Nat), (∀ x ∈ es, t ≤ x.target) →
    es.Pairwise (fun a b => a.target ≤ b.target) → ∀ x ∈ es.dropWhile (fun y => y.target == t), t < x.target := by
  intro es t
  induction es with
  | nil => simp
  | cons e es ih =>
    intro h1 h2 x hx
    rw [List.pairwise_cons] at h2
    rw [List.dropWhile_cons] at hx
    split at hx
    · exact ih (fun y hy => h1 y (by simp [hy])) h2.2 x hx
    · rename_i hne
      have h3 := h1 e (by simp)
      have h4 : e.target ≠ t := by simpa using hne
      rcases List.mem_cons.mp hx with rfl | hx
      · omega
      · have := h2.1 x hx; omega

theorem uniqueTargets_sorted : ∀ (l : List Edge), l.Pairwise (fun a b => a.target ≤ b.target) →
    (uniqueTargets l).Pairwise (fun a b => a.target < b.target) := by
  intro l
  induction l using uniqueTargets.induct with
  | case1 => simp [uniqueTargets]
  | case2 e es ih =>
    intro h
    rw [List.pairwise_cons] at h
    rw [uniqueTargets, List.pairwise_cons]
    refine ⟨?_, ih (h.2.sublist (List.dropWhile_sublist _))⟩
    intro x hx
    exact dropWhile_gt es e.target h.1 h.2 x (uniqueTargets_sub _ x hx)

theorem graph_sub {sort : List Edge → List Edge} (hs : SortsBy Edge.target sort) {out : List (List Edge)}
    {i : Nat} {e : Edge} (h : e ∈ footpathGraph sort out i) : e ∈ out.getD i [] ∧ e.target ≠ i := by
  have := (hs.perm _).mem_iff.mp (uniqueTargets_sub _ e h)
  simpa using this

theorem graph_complete {sort : List Edge → List Edge} (hs : SortsBy Edge.target sort) {out : List (List Edge)}
    {i : Nat} {e : Edge} (h : e ∈ out.getD i []) (hne : e.target ≠ i) :
    ∃ e' ∈ footpathGraph sort out i, e'.target = e.target := by
  apply uniqueTargets_complete
  rw [(hs.perm _).mem_iff]
  simp only [List.mem_filter]
  exact ⟨h, by simpa using hne⟩

theorem graph_sorted {sort : List Edge → List Edge} (hs : SortsBy Edge.target sort) (out : List (List Edge))
    (i : Nat) : (footpathGraph sort out i).Pairwise (fun a b => a.target < b.target) :=
  uniqueTargets_sorted _ (hs.sorted _)

/-! ### Component graph -/

theorem mem_members {c : List (Option Nat)} {k l : Nat} : l ∈ members c k ↔ c[l]? = some (some k) := by
  simp only [members, List.mem_filter, List.mem_range, beq_iff_eq]
  constructor
  · exact fun h => h.2
  · intro h
    refine ⟨?_, h⟩
    rw [List.getElem?_eq_some_iff] at h
    exact h.1

theorem members_sorted (c : List (Option Nat)) (k : Nat) : (members c k).Pairwise (· < ·) :=
  List.Pairwise.filter _ (List.pairwise_lt_range)

/-- Searching the target from a position not behind it finds it. -/
theorem locate_eq {M : List Nat} (hM : M.Pairwise (· < ·)) {it j t : Nat} (hj : M[j]? = some t)
    (hit : it ≤ j) : locate M it t = j := by
  unfold locate
  have hjl : j < M.length := by rw [List.getElem?_eq_some_iff] at hj; exact hj.1
  have : (M.drop it).findIdx (fun l => l == t) = j - it := by
    rw [List.findIdx_eq (by rw [List.length_drop]; omega)]
    rw [List.getElem?_eq_getElem hjl] at hj
    have hj' := Option.some.inj hj
    constructor
    · rw [List.getElem_drop]
      simp only [beq_iff_eq]
      have : it + (j - it) = j := by omega
      simp only [this]; exact hj'
    · intro x hx
      rw [List.getElem_drop]
      have := List.pairwise_iff_getElem.mp hM (it + x) j (by omega) hjl (by omega)
      rw [hj'] at this
      have hne : M[it + x]'(by omega) ≠ t := by omega
      simpa using hne
  omega

theorem idx_lt {M : List Nat} (hM : M.Pairwise (· < ·)) {i j a b : Nat} (hi : M[i]? = some a)
    (hj : M[j]? = some b) (hab : a ≤ b) : i ≤ j := by
  apply Nat.le_of_not_lt
  intro hlt
  rw [List.getElem?_eq_some_iff] at hi hj
  obtain ⟨hi, rfl⟩ := hi
  obtain ⟨hj, rfl⟩ := hj
  have := List.pairwise_iff_getElem.mp hM j i hj hi hlt
  omega

/-- The edges pushed for one location, if all targets belong to the component. -/
theorem scan_spec {env : Env} {M : List Nat} (hM : M.Pairwise (· < ·)) {src i : Nat} :
    ∀ (es : List Edge) (it : Nat), es.Pairwise (fun a b => a.target < b.target) →
      (∀ e ∈ es, ∃ j : Nat, M[j]? = some e.target ∧ it ≤ j) →
      ∀ p, p ∈ scan env M src i it es ↔ ∃ e ∈ es, ∃ j : Nat, M[j]? = some e.target ∧
        (p = (i, ⟨j, edgeWeight env src e.target e.duration⟩) ∨
          p = (j, ⟨i, edgeWeight env src e.target e.duration⟩)) := by
  intro es
  induction es with
  | nil => intro it _ _ p; simp [scan]
  | cons e es ih =>
    intro it hs hin p
    rw [List.pairwise_cons] at hs
    obtain ⟨j, hj, hle⟩ := hin e (by simp)
    have hloc := locate_eq hM hj hle
    rw [scan]
    simp only [hloc, List.mem_cons]
    rw [ih j hs.2 (by
      intro e' he'
      obtain ⟨j', hj', -⟩ := hin e' (List.mem_cons_of_mem _ he')
      exact ⟨j', hj', idx_lt hM hj hj' (by have := hs.1 e' he'; omega)⟩)]
    constructor
    · rintro (h | h | ⟨e', he', j', hj', h⟩)
      · exact ⟨e, .inl rfl, j, hj, .inl h⟩
      · exact ⟨e, .inl rfl, j, hj, .inr h⟩
      · exact ⟨e', .inr he', j', hj', h⟩
    · rintro ⟨e', he' | he', j', hj', h⟩
      · subst he'
        have hjj : j = j' := by
          have h1 := idx_lt hM hj hj' (Nat.le_refl _)
          have h2 := idx_lt hM hj' hj (Nat.le_refl _)
          omega
        subst hjj
        rcases h with h | h
        · exact .inl h
        · exact .inr (.inl h)
      · exact .inr (.inr ⟨e', he', j', hj', h⟩)

/-- A leg of a chain of footpaths: a footpath between the two locations, in either direction, which
takes at least the transfer time of both. -/
def Leg (env : Env) (g : Nat → List Edge) (a b w : Nat) : Prop :=
  (∃ e ∈ g a, e.target = b ∧ w = edgeWeight env a b e.duration) ∨
  (∃ e ∈ g b, e.target = a ∧ w = edgeWeight env b a e.duration)

theorem Leg.adj {env : Env} {g : Nat → List Edge} {a b w : Nat} (h : Leg env g a b w) : Adj g a b := by
  rcases h with ⟨e, h1, h2, -⟩ | ⟨e, h1, h2, -⟩
  · exact .inl ⟨e, h1, h2⟩
  · exact .inr ⟨e, h1, h2⟩

theorem edgeWeight_symm (env : Env) (a b d : Nat) : edgeWeight env a b d = edgeWeight env b a d := by
  unfold edgeWeight; rw [Nat.max_comm (env.tt a)]

theorem Leg.symm {env : Env} {g : Nat → List Edge} {a b w : Nat} (h : Leg env g a b w) : Leg env g b a w :=
  h.elim .inr .inl

/-- A chain of footpaths from `a` with its total duration. -/
inductive Chain (env : Env) (g : Nat → List Edge) (a : Nat) : Nat → Nat → Prop
  | refl : Chain env g a a 0
  | step {b c d w : Nat} : Chain env g a b d → Leg env g b c w → Chain env g a c (d + w)

theorem Chain.conn {env : Env} {g : Nat → List Edge} {a b d : Nat} (h : Chain env g a b d) : Conn g a b := by
  induction h with
  | refl => exact .refl
  | step _ h ih => exact .step ih h.adj

section component
variable {env : Env} {g : Nat → List Edge} {M : List Nat}

/-- What is known about the locations of a component. -/
structure IsComp (g : Nat → List Edge) (M : List Nat) : Prop where
  sorted : M.Pairwise (· < ·)
  closed : ∀ a ∈ M, ∀ b, Adj g a b → b ∈ M
  conn : ∀ a ∈ M, ∀ b ∈ M, Conn g a b
  edge : ∀ a ∈ M, ∃ b, Adj g a b

theorem getD_of {M : List Nat} {i a : Nat} (h : M[i]? = some a) : M.getD i 0 = a := by
  simp [List.getD_eq_getElem?_getD, h]

theorem idx_inj (hM : M.Pairwise (· < ·)) {i j a : Nat} (hi : M[i]? = some a) (hj : M[j]? = some a) : i = j := by
  have h1 := idx_lt hM hi hj (Nat.le_refl _)
  have h2 := idx_lt hM hj hi (Nat.le_refl _)
  omega

theorem mem_pushes (hM : IsComp g M) (hg : ∀ a, (g a).Pairwise (fun a b => a.target < b.target)) (v t w : Nat) :
    (v, (⟨t, w⟩ : Edge)) ∈ pushes env g M ↔
      ∃ a b, M[v]? = some a ∧ M[t]? = some b ∧ Leg env g a b w := by
  have hscan : ∀ i a, M[i]? = some a → ∀ p, p ∈ scan env M a i 0 (g a) ↔ ∃ e ∈ g a, ∃ j : Nat,
      M[j]? = some e.target ∧ (p = (i, ⟨j, edgeWeight env a e.target e.duration⟩) ∨
          p = (j, ⟨i, edgeWeight env a e.target e.duration⟩)) := by
    intro i a hi p
    apply scan_spec hM.sorted (g a) 0 (hg a)
    intro e he
    have ha : a ∈ M := List.mem_of_getElem? hi
    have := hM.closed a ha e.target (.inl ⟨e, he, rfl⟩)
    obtain ⟨j, hj⟩ := List.getElem?_of_mem this
    exact ⟨j, hj, by omega⟩
  unfold pushes
  simp only [List.mem_flatMap, List.mem_range]
  constructor
  · rintro ⟨i, hi, hp⟩
    have hia : M[i]? = some M[i] := List.getElem?_eq_getElem hi
    rw [getD_of hia] at hp
    obtain ⟨e, he, j, hj, h⟩ := (hscan i _ hia _).mp hp
    rcases h with h | h
    · simp only [Prod.mk.injEq, Edge.mk.injEq] at h
      obtain ⟨rfl, rfl, rfl⟩ := h
      exact ⟨_, _, hia, hj, .inl ⟨e, he, rfl, rfl⟩⟩
    · simp only [Prod.mk.injEq, Edge.mk.injEq] at h
      obtain ⟨rfl, rfl, rfl⟩ := h
      exact ⟨_, _, hj, hia, .inr ⟨e, he, rfl, rfl⟩⟩
  · rintro ⟨a, b, ha, hb, h⟩
    rcases h with ⟨e, he, rfl, rfl⟩ | ⟨e, he, rfl, rfl⟩
    · refine ⟨v, by rw [List.getElem?_eq_some_iff] at ha; exact ha.1, ?_⟩
      rw [getD_of ha]
      exact (hscan v a ha _).mpr ⟨e, he, t, hb, .inl rfl⟩
    · refine ⟨t, by rw [List.getElem?_eq_some_iff] at hb; exact hb.1, ?_⟩
      rw [getD_of hb]
      exact (hscan t b hb _).mpr ⟨e, he, v, ha, .inr rfl⟩

theorem mem_compGraph {ps : List (Nat × Edge)} {v : Nat} {e : Edge} : e ∈ compGraph ps v ↔ (v, e) ∈ ps := by
  simp only [compGraph, List.mem_eraseDups, List.mem_map, List.mem_filter, beq_iff_eq]
  constructor
  · rintro ⟨⟨x, y⟩, ⟨h1, h2⟩, h3⟩
    simp only at h2 h3; subst h2 h3; exact h1
  · intro h; exact ⟨(v, e), ⟨h, rfl⟩, rfl⟩

theorem graphSize_spec (ps : List (Nat × Edge)) (m : Nat) (h1 : ∀ p ∈ ps, p.1 < m)
    (h2 : ∀ v < m, ∃ p ∈ ps, p.1 = v) : graphSize ps = m := by
  have key : ∀ (ps : List (Nat × Edge)) (s : Nat),
      s ≤ ps.foldl (fun s p => max s (p.1 + 1)) s ∧
      (∀ p ∈ ps, p.1 < ps.foldl (fun s p => max s (p.1 + 1)) s) ∧
      (∀ m, s ≤ m → (∀ p ∈ ps, p.1 < m) → ps.foldl (fun s p => max s (p.1 + 1)) s ≤ m) := by
    intro ps
    induction ps with
    | nil => intro s; simp
    | cons p ps ih =>
      intro s
      obtain ⟨k1, k2, k3⟩ := ih (max s (p.1 + 1))
      rw [List.foldl_cons]
      refine ⟨by omega, ?_, ?_⟩
      · intro q hq
        rcases List.mem_cons.mp hq with rfl | hq
        · omega
        · exact k2 q hq
      · intro m hs hm
        refine k3 m ?_ (fun q hq => hm q (List.mem_cons_of_mem _ hq))
        have := hm p (by simp); omega
  obtain ⟨k1, k2, k3⟩ := key ps 0
  have h3 := k3 m (by omega) h1
  unfold graphSize
  by_cases hm : m = 0
  · omega
  · obtain ⟨p, hp, hpm⟩ := h2 (m - 1) (by omega)
    have := k2 p hp
    omega

theorem graphSize_comp (hM : IsComp g M) (hg : ∀ a, (g a).Pairwise (fun a b => a.target < b.target)) :
    graphSize (pushes env g M) = M.length := by
  apply graphSize_spec
  · intro p hp
    obtain ⟨a, b, ha, -, -⟩ := (mem_pushes hM hg p.1 p.2.target p.2.duration).mp hp
    rw [List.getElem?_eq_some_iff] at ha; exact ha.1
  · intro v hv
    have ha : M[v]? = some M[v] := List.getElem?_eq_getElem hv
    obtain ⟨b, hab⟩ := hM.edge M[v] (List.getElem_mem hv)
    obtain ⟨t, ht⟩ := List.getElem?_of_mem (hM.closed _ (List.getElem_mem hv) b hab)
    rcases hab with ⟨e, he, hb⟩ | ⟨e, he, hb⟩
    · exact ⟨(v, ⟨t, edgeWeight env M[v] b e.duration⟩),
        (mem_pushes hM hg _ _ _).mpr ⟨_, _, ha, ht, .inl ⟨e, he, hb, rfl⟩⟩, rfl⟩
    · exact ⟨(v, ⟨t, edgeWeight env b M[v] e.duration⟩),
        (mem_pushes hM hg _ _ _).mpr ⟨_, _, ha, ht, .inr ⟨e, he, hb, rfl⟩⟩, rfl⟩

/-! ### Shortest paths in the component -/

open Dijkstra in
theorem walk_chain (hM : IsComp g M) (hg : ∀ a, (g a).Pairwise (fun a b => a.target < b.target))
    {i a : Nat} (hi : M[i]? = some a) (v d : Nat) :
    WalkDist (fun v => compGraph (pushes env g M) v ++ (if false then [] else []))
      ((List.replicate M.length distMax).set i 0) v d ↔
      ∃ b, M[v]? = some b ∧ Chain env g a b d := by
  have hil : i < M.length := by rw [List.getElem?_eq_some_iff] at hi; exact hi.1
  constructor
  · intro h
    induction h with
    | @start v d h1 h2 =>
      by_cases hv : v = i
      · subst hv
        rw [List.getElem?_set_self (by simpa using hil)] at h1
        have : d = 0 := by simpa using h1.symm
        subst this
        exact ⟨a, hi, .refl⟩
      · rw [List.getElem?_set_ne (by omega), List.getElem?_replicate] at h1
        split at h1
        · have : d = distMax := by simpa using h1.symm
          unfold distMax at this; omega
        · simp at h1
    | @step u d e _ he ih =>
      obtain ⟨b, hb, hc⟩ := ih
      simp only [Bool.false_eq_true, if_false, List.append_nil, mem_compGraph] at he
      obtain ⟨a', b', ha', hb', hl⟩ := (mem_pushes hM hg u e.target e.duration).mp he
      rw [hb] at ha'
      have : b = a' := by simpa using ha'
      subst this
      exact ⟨b', hb', .step hc hl⟩
  · rintro ⟨b, hb, hc⟩
    induction hc generalizing v with
    | refl =>
      have : v = i := idx_inj hM.sorted hb hi
      subst this
      exact .start (List.getElem?_set_self (by simpa using hil)) (by omega)
    | @step b c d w hc hl ih =>
      have hbM : b ∈ M := by
        have hcM : c ∈ M := List.mem_of_getElem? hb
        exact hM.closed c hcM b hl.adj.symm
      obtain ⟨u, hu⟩ := List.getElem?_of_mem hbM
      have hw := ih u hu
      have hedge : (⟨v, w⟩ : Edge) ∈ compGraph (pushes env g M) u := by
        rw [mem_compGraph]
        exact (mem_pushes hM hg u v w).mpr ⟨b, c, hu, hb, hl⟩
      exact WalkDist.step (e := ⟨v, w⟩) hw (by simpa using hedge)

/-- The least duration of a chain. -/
def Shortest (env : Env) (g : Nat → List Edge) (a b d : Nat) : Prop :=
  Chain env g a b d ∧ ∀ d', Chain env g a b d' → d ≤ d'

theorem mem_write {env : Env} {a b raw : Nat} {x : Entry} :
    x ∈ write env a b raw ↔ ∃ w, env.walk a b = some w ∧
      x = ⟨a, b, max (max (max (raw % 256) (env.tt a)) (env.tt b)) w⟩ := by
  unfold write
  cases env.walk a b <;> simp

theorem chain_ge {a b d : Nat} (h : Chain env g a b d) (hab : a ≠ b) :
    env.tt a ≤ d ∧ env.tt b ≤ d := by
  have key : ∀ {a b d : Nat}, Chain env g a b d → (a = b ∧ d = 0) ∨ (env.tt a ≤ d ∧ env.tt b ≤ d) := by
    intro a b d h
    induction h with
    | refl => exact .inl ⟨rfl, rfl⟩
    | @step b c d w hc hl ih =>
      right
      have hw : env.tt b ≤ w ∧ env.tt c ≤ w := by
        rcases hl with ⟨e, -, -, rfl⟩ | ⟨e, -, -, rfl⟩ <;> unfold edgeWeight <;> omega
      rcases ih with ⟨rfl, rfl⟩ | h1
      · omega
      · omega
  rcases key h with h1 | h1
  · exact absurd h1.1 hab
  · exact h1

theorem closeFrom_spec (hM : IsComp g M) (hg : ∀ a, (g a).Pairwise (fun a b => a.target < b.target))
    {limit : Nat} (hl0 : 0 < limit) (hl : limit ≤ 65535) {i a : Nat} (hi : M[i]? = some a) :
    ∃ es, closeFrom env M (compGraph (pushes env g M)) limit i = some es ∧
      (∀ x, x ∈ es ↔ ∃ b d w, b ∈ M ∧ b ≠ a ∧ Shortest env g a b d ∧ d < limit ∧
        env.walk a b = some w ∧
        x = ⟨a, b, max (max (max (distToDuration d % 256) (env.tt a)) (env.tt b)) w⟩) ∧
      es.Pairwise (fun x y => x.dst < y.dst) := by
  have hil : i < M.length := by rw [List.getElem?_eq_some_iff] at hi; exact hi.1
  obtain ⟨pq, hp1, hp2, hp3, hp4⟩ : ∃ pq, (Dial.ofBuckets limit : Dial Label).push Label.bucket ⟨i, 0⟩ = some pq ∧
      Dial.Inv Label.bucket pq ∧ pq.nBuckets = limit ∧ pq.buckets.flatten.Perm [⟨i, 0⟩] := by
    obtain ⟨pq, h1, h2, h3, h4⟩ := Dial.push_spec (Dial.inv_ofBuckets (bucketOf := Label.bucket) limit)
      (⟨i, 0⟩ : Label) (by simpa [Dial.ofBuckets, Dial.nBuckets, Label.bucket] using hl0)
    refine ⟨pq, h1, h2, by rw [h3]; simp [Dial.ofBuckets, Dial.nBuckets], ?_⟩
    rw [Dial.contents_ofBuckets] at h4
    exact h4
  have hpre : Dijkstra.Pre pq ((List.replicate M.length distMax).set i 0) := by
    refine ⟨hp2, by omega, ?_, ?_⟩
    · intro x hx
      have := hp4.mem_iff.mp hx
      simp only [List.mem_cons, List.not_mem_nil, or_false] at this
      subst this
      exact ⟨0, List.getElem?_set_self (by simpa using hil), Nat.le_refl _⟩
    · intro v d hv hd
      by_cases hvi : v = i
      · subst hvi
        rw [List.getElem?_set_self (by simpa using hil)] at hv
        have : d = 0 := by simpa using hv.symm
        subst this
        exact hp4.mem_iff.mpr (by simp)
      · rw [List.getElem?_set_ne (by omega), List.getElem?_replicate] at hv
        split at hv
        · have : d = distMax := by simpa using hv.symm
          unfold distMax at this; omega
        · simp at hv
  obtain ⟨dists, hd1, hd2, hd3⟩ := Dijkstra.C08_dijkstra_exact (compGraph (pushes env g M)) (fun _ => false)
    (fun _ => []) pq _ limit hpre (by
      intro v e he
      obtain ⟨_, b, _, hb, _⟩ := (mem_pushes hM hg v e.target e.duration).mp (mem_compGraph.mp he)
      rw [List.getElem?_eq_some_iff] at hb
      simpa using hb.1) (by simp)
  have hlen : dists.length = M.length := by simpa using hd2
  -- value of the distance vector
  have hval : ∀ t b, M[t]? = some b → b ≠ a → ∀ x, dists.getD t 0 = x →
      (x ≠ distMax → Shortest env g a b x ∧ x < limit) ∧
      (∀ d, Shortest env g a b d → d < limit → x = d) := by
    intro t b hb hba x hx
    have hti : t ≠ i := by
      intro h; subst h; rw [hi] at hb; exact hba (by simpa using hb.symm)
    have ht : t < dists.length := by
      rw [List.getElem?_eq_some_iff] at hb; rw [hlen]; exact hb.1
    have hx' : dists[t] = x := by
      rw [← hx, List.getD_eq_getElem?_getD, List.getElem?_eq_getElem ht]; rfl
    obtain ⟨k1, k2⟩ := hd3 t ht
    rw [hx', hp3] at k2
    rw [hx'] at k1
    have hw := fun d => walk_chain (env := env) hM hg hi t d
    have hchain : x < 65535 → Chain env g a b x := by
      intro hlt
      obtain ⟨b', hb', hc⟩ := (hw x).mp (k1 hlt)
      rw [hb] at hb'
      have : b = b' := by simpa using hb'
      rw [this]; exact hc
    have hup : ∀ d, Chain env g a b d → d < limit → x ≤ d := by
      intro d hc hdl
      exact k2 d ((hw d).mpr ⟨b, hb, hc⟩) hdl hdl
    have hlim : x = distMax ∨ x < limit := by
      rcases Dijkstra.C08_dijkstra_limit _ _ _ _ _ _ _ hd1 t with h | ⟨d, h1, h2, h3⟩
      · rw [List.getElem?_set_ne (by omega), List.getElem?_replicate, if_pos (by omega),
          List.getElem?_eq_getElem ht, hx'] at h
        exact .inl (by simpa using h)
      · rw [List.getElem?_eq_getElem ht, hx'] at h1
        right
        have : x = d := by simpa using h1
        omega
    constructor
    · intro hne
      have hxl : x < limit := hlim.resolve_left hne
      refine ⟨⟨hchain (by omega), ?_⟩, hxl⟩
      intro d' hc
      by_cases hd' : d' < limit
      · exact hup d' hc hd'
      · omega
    · intro d hs hdl
      have h1 := hup d hs.1 hdl
      have h2 := hs.2 x (hchain (by omega))
      omega
  refine ⟨_, by rw [closeFrom, hp1]; simp only; rw [hd1], ?_, ?_⟩
  · intro x
    simp only [List.mem_flatMap, List.mem_range]
    constructor
    · rintro ⟨t, ht, hx⟩
      split at hx
      · simp at hx
      · rename_i hcond
        rw [not_or] at hcond
        have hb : M[t]? = some M[t] := List.getElem?_eq_getElem (by omega)
        have hba : M[t] ≠ a := by
          intro h; rw [h] at hb; exact hcond.2 (idx_inj hM.sorted hb hi)
        obtain ⟨h1, -⟩ := hval t _ hb hba _ rfl
        obtain ⟨h2, h3⟩ := h1 hcond.1
        rw [getD_of hi, getD_of hb] at hx
        obtain ⟨w, hw1, hw2⟩ := mem_write.mp hx
        exact ⟨M[t], _, w, List.getElem_mem _, hba, h2, h3, hw1, hw2⟩
    · rintro ⟨b, d, w, hb, hba, hs, hdl, hw, rfl⟩
      obtain ⟨t, ht⟩ := List.getElem?_of_mem hb
      have htl : t < dists.length := by
        rw [List.getElem?_eq_some_iff] at ht; rw [hlen]; exact ht.1
      refine ⟨t, htl, ?_⟩
      obtain ⟨-, h1⟩ := hval t b ht hba _ rfl
      have h2 := h1 d hs hdl
      rw [if_neg]
      · rw [getD_of hi, getD_of ht, h2]
        exact mem_write.mpr ⟨w, hw, rfl⟩
      · rintro (h | h)
        · rw [h2] at h; unfold distMax at h; omega
        · subst h; rw [hi] at ht; exact hba (by simpa using ht.symm)
  · rw [List.pairwise_flatMap]
    constructor
    · intro t _
      split
      · simp
      · unfold write; split <;> simp
    · refine List.Pairwise.imp_of_mem ?_ (List.pairwise_lt_range (n := dists.length))
      intro t t' ht ht' hlt x hx y hy
      simp only [List.mem_range] at ht ht'
      have hM1 : M[t]? = some M[t] := List.getElem?_eq_getElem (by omega)
      have hM2 : M[t']? = some M[t'] := List.getElem?_eq_getElem (by omega)
      split at hx
      · simp at hx
      split at hy
      · simp at hy
      rw [getD_of hi, getD_of hM1] at hx
      rw [getD_of hi, getD_of hM2] at hy
      obtain ⟨_, _, rfl⟩ := mem_write.mp hx
      obtain ⟨_, _, rfl⟩ := mem_write.mp hy
      exact List.pairwise_iff_getElem.mp hM.sorted t t' _ _ hlt

/-- All searches of a component. -/
theorem closeAll_spec (hM : IsComp g M) (hg : ∀ a, (g a).Pairwise (fun a b => a.target < b.target))
    {limit : Nat} (hl0 : 0 < limit) (hl : limit ≤ 65535) :
    ∀ (is : List Nat), (∀ i ∈ is, i < M.length) → is.Pairwise (· < ·) →
    ∃ es, closeAll env M (compGraph (pushes env g M)) limit is = some es ∧
      (∀ x, x ∈ es ↔ ∃ i ∈ is, ∃ a, M[i]? = some a ∧ ∃ b d w, b ∈ M ∧ b ≠ a ∧ Shortest env g a b d ∧ d < limit ∧
        env.walk a b = some w ∧
        x = ⟨a, b, max (max (max (distToDuration d % 256) (env.tt a)) (env.tt b)) w⟩) ∧
      es.Pairwise (fun x y => x.src ≠ y.src ∨ x.dst ≠ y.dst) := by
  intro is
  induction is with
  | nil => intro _ _; exact ⟨[], rfl, by simp, by simp⟩
  | cons i is ih =>
    intro hlt hpw
    rw [List.pairwise_cons] at hpw
    obtain ⟨es', h1, h2, h3⟩ := ih (fun j hj => hlt j (List.mem_cons_of_mem _ hj)) hpw.2
    have hil := hlt i (by simp)
    have hi : M[i]? = some M[i] := List.getElem?_eq_getElem hil
    obtain ⟨es, k1, k2, k3⟩ := closeFrom_spec (env := env) hM hg hl0 hl hi
    refine ⟨es ++ es', by rw [closeAll, k1, h1], ?_, ?_⟩
    · intro x
      rw [List.mem_append, k2, h2]
      constructor
      · rintro (h | ⟨j, hj, h⟩)
        · exact ⟨i, by simp, M[i], hi, h⟩
        · exact ⟨j, List.mem_cons_of_mem _ hj, h⟩
      · rintro ⟨j, hj, a, ha, h⟩
        rcases List.mem_cons.mp hj with rfl | hj
        · rw [hi] at ha
          have : M[j] = a := by simpa using ha
          rw [this]; exact .inl h
        · exact .inr ⟨j, hj, a, ha, h⟩
    · rw [List.pairwise_append]
      refine ⟨k3.imp (fun h => .inr (by omega)), h3, ?_⟩
      intro x hx y hy
      left
      obtain ⟨b, d, w, -, -, -, -, -, rfl⟩ := (k2 x).mp hx
      obtain ⟨j, hj, a, ha, b', d', w', -, -, -, -, -, rfl⟩ := (h2 y).mp hy
      have := hpw.1 j hj
      simp only
      intro hh
      rw [← hh] at ha
      have := idx_inj hM.sorted hi ha
      omega

/-! ### One component -/

/-- The result for a component: what the closure writes. -/
def Result (env : Env) (g : Nat → List Edge) (limit : Nat) (M : List Nat) (x : Entry) : Prop :=
  (M.length = 2 ∧ ∃ e ∈ g x.src, x.src ∈ M ∧ e.target = x.dst ∧ ∃ w, env.walk x.src x.dst = some w ∧
    x.dur = max (max (max (e.duration % 256) (env.tt x.src)) (env.tt x.dst)) w) ∨
  (2 < M.length ∧ x.src ∈ M ∧ x.dst ∈ M ∧ x.src ≠ x.dst ∧ ∃ d w, Shortest env g x.src x.dst d ∧ d < limit ∧
    env.walk x.src x.dst = some w ∧
    x.dur = max (max (max (distToDuration d % 256) (env.tt x.src)) (env.tt x.dst)) w)

theorem only_edge {a b : Nat} (hM : IsComp g [a, b]) (hself : ∀ x, ∀ e ∈ g x, e.target ≠ x)
    (hg : ∀ a, (g a).Pairwise (fun a b => a.target < b.target)) :
    (∀ e ∈ g a, e.target = b ∧ (g a).head? = some e) ∧ (∀ e ∈ g b, e.target = a ∧ (g b).head? = some e) := by
  have key : ∀ x y, (∀ e ∈ g x, e.target = y) → ∀ e ∈ g x, (g x).head? = some e := by
    intro x y h e he
    cases hgx : g x with
    | nil => rw [hgx] at he; simp at he
    | cons e' es =>
      have hp := hg x
      rw [hgx, List.pairwise_cons] at hp
      rw [hgx] at he h
      rcases List.mem_cons.mp he with rfl | he
      · rfl
      · have h1 := hp.1 e he
        have h2 := h e' (by simp)
        have h3 := h e (List.mem_cons_of_mem _ he)
        omega
  have ha : ∀ e ∈ g a, e.target = b := by
    intro e he
    have := hM.closed a (by simp) e.target (.inl ⟨e, he, rfl⟩)
    simp only [List.mem_cons, List.not_mem_nil, or_false] at this
    exact this.resolve_left (hself a e he)
  have hb : ∀ e ∈ g b, e.target = a := by
    intro e he
    have := hM.closed b (by simp) e.target (.inl ⟨e, he, rfl⟩)
    simp only [List.mem_cons, List.not_mem_nil, or_false] at this
    exact this.resolve_right (hself b e he)
  exact ⟨fun e he => ⟨ha e he, key a b ha e he⟩, fun e he => ⟨hb e he, key b a hb e he⟩⟩

theorem processComponent_spec (hM : IsComp g M) (hself : ∀ x, ∀ e ∈ g x, e.target ≠ x)
    (hg : ∀ a, (g a).Pairwise (fun a b => a.target < b.target))
    {limit : Nat} (hl0 : 0 < limit) (hl : limit ≤ 65535) :
    ∃ es, processComponent env g limit M = some es ∧ (∀ x, x ∈ es ↔ Result env g limit M x) ∧
      es.Pairwise (fun x y => x.src ≠ y.src ∨ x.dst ≠ y.dst) := by
  match M, hM with
  | [], hM => exact ⟨[], rfl, by intro x; simp [Result], by simp⟩
  | [a], hM =>
    obtain ⟨b, hb⟩ := hM.edge a (by simp)
    have := hM.closed a (by simp) b hb
    simp only [List.mem_cons, List.not_mem_nil, or_false] at this
    subst this
    rcases hb with ⟨e, he, h⟩ | ⟨e, he, h⟩ <;> exact absurd h (hself _ e he)
  | [a, b], hM =>
    obtain ⟨oa, ob⟩ := only_edge hM hself hg
    have hab : a < b := by have := hM.sorted; simpa using this
    refine ⟨_, rfl, ?_, ?_⟩
    · intro x
      rw [process2, List.mem_append]
      have h1 : ∀ (a b : Nat), (∀ e ∈ g a, e.target = b ∧ (g a).head? = some e) →
          (x ∈ writeFront env g a b ↔
          ∃ e ∈ g a, x.src = a ∧ x.dst = b ∧ ∃ w, env.walk a b = some w ∧
            x.dur = max (max (max (e.duration % 256) (env.tt a)) (env.tt b)) w) := by
        intro a b oa
        unfold writeFront
        cases hh : (g a).head? with
        | none =>
          have : g a = [] := by simpa using hh
          simp [this]
        | some e =>
          have he : e ∈ g a := List.mem_of_head? hh
          rw [mem_write]
          constructor
          · rintro ⟨w, hw, rfl⟩
            exact ⟨e, he, rfl, rfl, w, hw, rfl⟩
          · rintro ⟨e', he', h1, h2, w, hw, h3⟩
            have : e = e' := by have := (oa e' he').2; rw [hh] at this; simpa using this
            subst this
            refine ⟨w, hw, ?_⟩
            cases x; simp only at h1 h2 h3; subst h1 h2 h3; rfl
      rw [h1 a b oa, h1 b a ob]
      constructor
      · rintro (⟨e, he, h2, h3, w, hw, h4⟩ | ⟨e, he, h2, h3, w, hw, h4⟩)
        · refine .inl ⟨rfl, e, by rw [h2]; exact he, by simp [h2], by rw [h3]; exact (oa e he).1, w, ?_, ?_⟩
          · rw [h2, h3]; exact hw
          · rw [h2, h3]; exact h4
        · refine .inl ⟨rfl, e, by rw [h2]; exact he, by simp [h2], by rw [h3]; exact (ob e he).1, w, ?_, ?_⟩
          · rw [h2, h3]; exact hw
          · rw [h2, h3]; exact h4
      · rintro (⟨-, e, he, h2, h3, w, hw, h4⟩ | ⟨h, -⟩)
        · simp only [List.mem_cons, List.not_mem_nil, or_false] at h2
          rcases h2 with h2 | h2
          · left
            rw [h2] at he hw h4
            have h5 := (oa e he).1
            rw [h3] at h5
            rw [h5] at hw h4
            exact ⟨e, he, h2, h5, w, hw, h4⟩
          · right
            rw [h2] at he hw h4
            have h5 := (ob e he).1
            rw [h3] at h5
            rw [h5] at hw h4
            exact ⟨e, he, h2, h5, w, hw, h4⟩
        · simp at h
    · rw [process2, List.pairwise_append]
      have h2 : ∀ (a b : Nat), (writeFront env g a b).Pairwise
          (fun x y => x.src ≠ y.src ∨ x.dst ≠ y.dst) ∧
          ∀ x ∈ writeFront env g a b, x.src = a := by
        intro a b
        unfold writeFront
        cases (g a).head? with
        | none => simp
        | some e =>
          simp only [write]
          cases env.walk a b <;> simp
      refine ⟨(h2 a b).1, (h2 b a).1, ?_⟩
      intro x hx y hy
      left
      rw [(h2 a b).2 x hx, (h2 b a).2 y hy]; omega
  | a :: b :: c :: M', hM =>
    obtain ⟨es, h1, h2, h3⟩ := closeAll_spec (env := env) hM hg hl0 hl (List.range (a :: b :: c :: M').length)
      (by simp) List.pairwise_lt_range
    refine ⟨es, ?_, ?_, h3⟩
    · rw [processComponent]
      · rw [if_neg (by simp)]
        simp only
        rw [if_pos (graphSize_comp hM hg)]
        exact h1
      · simp
      · simp
    · intro x
      rw [h2]
      constructor
      · rintro ⟨i, -, a', ha', b', d, w, hb, hba, hs, hdl, hw, rfl⟩
        exact .inr ⟨by simp, List.mem_of_getElem? ha', hb, fun h => hba h.symm, d, w, hs, hdl, hw, rfl⟩
      · rintro (⟨h, -⟩ | ⟨-, ha, hb, hab, d, w, hs, hdl, hw, hd⟩)
        · simp at h
        · obtain ⟨i, hi⟩ := List.getElem?_of_mem ha
          refine ⟨i, ?_, x.src, hi, x.dst, d, w, hb, fun h => hab h.symm, hs, hdl, hw, ?_⟩
          · rw [List.getElem?_eq_some_iff] at hi; exact List.mem_range.mpr hi.1
          · cases x; simp only at hd; subst hd; rfl

end component

/-! ### All components -/

theorem isComp_members {g : Nat → List Edge} {n : Nat} {R : List Nat} {c : List (Option Nat)} (hr : Rooted g)
    (hsrc : ∀ v, g v ≠ [] → v < n) (h : RInv g n n R c) (k : Nat) :
    IsComp g (members c k) := by
  refine ⟨members_sorted c k, ?_, ?_, ?_⟩
  · intro a ha b hab
    rw [mem_members] at ha ⊢
    obtain ⟨k', hk'⟩ := assigned_of_adj h hsrc hab.symm
    rw [hk', comp_eq hr hsrc h (.step .refl hab) ha hk']
  · intro a ha b hb
    exact conn_of_comp h (mem_members.mp ha) (mem_members.mp hb)
  · intro a ha
    obtain ⟨hkR, hk⟩ := h.sound a k (mem_members.mp ha)
    by_cases hak : k = a
    · subst hak
      obtain ⟨e, he⟩ := List.exists_mem_of_ne_nil _ (h.roots k hkR).2.2
      exact ⟨e.target, .inl ⟨e, he, rfl⟩⟩
    · cases hk with
      | refl => exact absurd rfl hak
      | step _ he => exact ⟨_, .inr ⟨_, he, rfl⟩⟩

theorem processAll_spec {env : Env} {g : Nat → List Edge} {limit : Nat} {c : List (Option Nat)}
    (hM : ∀ k, IsComp g (members c k)) (hself : ∀ x, ∀ e ∈ g x, e.target ≠ x)
    (hg : ∀ a, (g a).Pairwise (fun a b => a.target < b.target)) (hl0 : 0 < limit) (hl : limit ≤ 65535) :
    ∀ (ks : List Nat), ks.Pairwise (· < ·) →
    ∃ es, processAll env g limit c ks = some es ∧
      (∀ x, x ∈ es ↔ ∃ k ∈ ks, Result env g limit (members c k) x) ∧
      es.Pairwise (fun x y => x.src ≠ y.src ∨ x.dst ≠ y.dst) := by
  intro ks
  induction ks with
  | nil => intro _; exact ⟨[], rfl, by simp, by simp⟩
  | cons k ks ih =>
    intro hpw
    rw [List.pairwise_cons] at hpw
    obtain ⟨es', h1, h2, h3⟩ := ih hpw.2
    obtain ⟨es, k1, k2, k3⟩ := processComponent_spec (env := env) (hM k) hself hg hl0 hl
    refine ⟨es ++ es', by rw [processAll, k1, h1], ?_, ?_⟩
    · intro x
      rw [List.mem_append, k2, h2]
      simp
    · rw [List.pairwise_append]
      refine ⟨k3, h3, ?_⟩
      intro x hx y hy
      left
      have hsrc : ∀ k x, Result env g limit (members c k) x → x.src ∈ members c k := by
        rintro k x (⟨-, e, -, h, -⟩ | ⟨-, h, -⟩) <;> exact h
      have hx' := hsrc k x ((k2 x).mp hx)
      obtain ⟨k', hk', hr⟩ := (h2 y).mp hy
      have hy' := hsrc k' y hr
      rw [mem_members] at hx' hy'
      intro hh
      rw [hh, hy'] at hx'
      have : k' = k := by simpa using hx'
      have := hpw.1 k' hk'
      omega

end Nigiri.Footpaths
