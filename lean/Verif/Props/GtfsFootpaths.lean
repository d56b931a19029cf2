import Verif.Props.GtfsStops
/-!
# C117, C119, C120: footpaths of a GTFS timetable, related stops, stop groups, nearby stations
-/
namespace Nigiri.GtfsStops
open Nigiri

/-! ## Footpaths -/

/-- The footpath from `a` to `b`. -/
def fp (f : Fps) (a b : Nat) : Option Int := (f.out a).lookup b

/-- Incoming footpaths mirror the outgoing ones, and there is one per pair of stops. -/
structure Sane (f : Fps) : Prop where
  mirror : ∀ a b, (f.in_ b).lookup a = (f.out a).lookup b
  outs : ∀ a, ((f.out a).map (·.1)).Nodup
  ins : ∀ a, ((f.in_ a).map (·.1)).Nodup

theorem any_lookup (l : List (Nat × Int)) (b : Nat) : l.any (fun f => f.1 == b) = (l.lookup b).isSome := by
  induction l with
  | nil => rfl
  | cons e l ih =>
    rw [List.any_cons, List.lookup_cons, ih]
    by_cases he : e.1 = b
    · simp [he]
    · have h1 : (e.1 == b) = false := by simp [he]
      have h2 : (b == e.1) = false := by rw [beq_eq_false_iff_ne]; exact fun h => he h.symm
      rw [h1, h2]
      rfl

theorem lookup_snoc (l : List (Nat × Int)) (e : Nat × Int) (b : Nat) :
    (l ++ [e]).lookup b = (l.lookup b).or (if e.1 = b then some e.2 else none) := by
  induction l with
  | nil =>
    rw [List.nil_append, List.lookup_cons]
    by_cases he : e.1 = b
    · simp [he]
    · have h2 : (b == e.1) = false := by rw [beq_eq_false_iff_ne]; exact fun h => he h.symm
      simp [he, h2]
  | cons x l ih =>
    rw [List.cons_append, List.lookup_cons, List.lookup_cons, ih]
    cases b == x.1 <;> rfl

theorem nodup_snoc {l : List (Nat × Int)} (h : (l.map (·.1)).Nodup) {e : Nat × Int} (he : l.lookup e.1 = none) :
    ((l ++ [e]).map (·.1)).Nodup := by
  rw [List.map_append, List.nodup_append]
  refine ⟨h, by simp, ?_⟩
  intro u hu v hv huv
  simp only [List.map_cons, List.map_nil, List.mem_singleton] at hv
  rw [List.mem_map] at hu
  obtain ⟨y, hy, hye⟩ := hu
  have : l.any (fun f => f.1 == e.1) = true := by
    rw [List.any_eq_true]
    exact ⟨y, hy, by simp [hye, huv, hv]⟩
  rw [any_lookup, he] at this
  cases this

/-- Set an entry which is not there. -/
def setNew (L : Nat → Nat → Option Int) (a b : Nat) (v : Int) : Nat → Nat → Option Int :=
  fun i j => if i = a ∧ j = b then (L i j).or (some v) else L i j

theorem push_lookup (m : Nat → List (Nat × Int)) (i t : Nat) (d : Int) (j u : Nat) :
    (push m i (t, d) j).lookup u = if j = i ∧ u = t then ((m j).lookup u).or (some d) else (m j).lookup u := by
  unfold push
  by_cases hj : j = i
  · rw [if_pos hj, lookup_snoc]
    by_cases hu : u = t
    · rw [if_pos (show (t, d).1 = u from hu.symm), if_pos ⟨hj, hu⟩]
    · rw [if_neg (show ¬ (t, d).1 = u from fun h => hu h.symm), if_neg (fun h : j = i ∧ u = t => hu h.2)]
      cases (m j).lookup u <;> rfl
  · rw [if_neg hj, if_neg (fun h => hj h.1)]

theorem addNew_lookup (m : Nat → List (Nat × Int)) (i t : Nat) (d : Int) (j u : Nat) :
    (addNew m i t d j).lookup u = if j = i ∧ u = t then ((m j).lookup u).or (some (fpDur d)) else (m j).lookup u := by
  unfold addNew
  rw [any_lookup]
  cases h : (m i).lookup t with
  | none => rw [if_neg (by simp)]; exact push_lookup m i t (fpDur d) j u
  | some v =>
    rw [if_pos (show (some v).isSome = true from rfl)]
    split
    · rename_i hc
      rw [hc.1, hc.2, h]
      rfl
    · rfl

theorem push_nodup {m : Nat → List (Nat × Int)} (h : ∀ a, ((m a).map (·.1)).Nodup) {i t : Nat} (d : Int)
    (hn : (m i).lookup t = none) (a : Nat) : ((push m i (t, d) a).map (·.1)).Nodup := by
  unfold push
  by_cases ha : a = i
  · rw [if_pos ha]
    exact nodup_snoc (h a) (by rw [ha]; exact hn)
  · rw [if_neg ha]
    exact h a

theorem addNew_nodup {m : Nat → List (Nat × Int)} (h : ∀ a, ((m a).map (·.1)).Nodup) (i t : Nat) (d : Int) (a : Nat) :
    ((addNew m i t d a).map (·.1)).Nodup := by
  unfold addNew
  rw [any_lookup]
  cases hl : (m i).lookup t with
  | none => rw [if_neg (by simp)]; exact push_nodup h _ hl a
  | some v => rw [if_pos (show (some v).isSome = true from rfl)]; exact h a

/-- Set several. -/
def setAll (L : Nat → Nat → Option Int) (evs : List (Nat × Nat × Int)) : Nat → Nat → Option Int :=
  evs.foldl (fun L e => setNew L e.1 e.2.1 e.2.2) L

theorem setAll_eq (evs : List (Nat × Nat × Int)) (L : Nat → Nat → Option Int) (i j : Nat) :
    setAll L evs i j = (L i j).or ((evs.find? fun e => e.1 == i && e.2.1 == j).map (·.2.2)) := by
  induction evs generalizing L with
  | nil => simp [setAll]
  | cons e evs ih =>
    show setAll (setNew L e.1 e.2.1 e.2.2) evs i j = _
    rw [ih, List.find?_cons]
    unfold setNew
    by_cases h : i = e.1 ∧ j = e.2.1
    · rw [if_pos h]
      have : (e.1 == i && e.2.1 == j) = true := by simp [h.1, h.2]
      rw [this]
      cases L i j <;> rfl
    · rw [if_neg h]
      have : (e.1 == i && e.2.1 == j) = false := by
        rw [Bool.and_eq_false_iff, beq_eq_false_iff_ne, beq_eq_false_iff_ne]
        by_cases h1 : e.1 = i
        · exact Or.inr fun h2 => h ⟨h1.symm, h2.symm⟩
        · exact Or.inl h1
      rw [this]

theorem setAll_append (L : Nat → Nat → Option Int) (a b : List (Nat × Nat × Int)) :
    setAll L (a ++ b) = setAll (setAll L a) b := List.foldl_append

theorem fold_set {α : Type} (g : Fps → α → Fps) (ev : α → List (Nat × Nat × Int))
    (hg : ∀ f x, Sane f → Sane (g f x) ∧ fp (g f x) = setAll (fp f) (ev x)) (l : List α) (f : Fps) (hf : Sane f) :
    Sane (l.foldl g f) ∧ fp (l.foldl g f) = setAll (fp f) (l.flatMap ev) := by
  induction l generalizing f with
  | nil => exact ⟨hf, rfl⟩
  | cons x l ih =>
    obtain ⟨h1, h2⟩ := hg f x hf
    obtain ⟨h3, h4⟩ := ih (g f x) h1
    refine ⟨h3, ?_⟩
    rw [List.flatMap_cons, setAll_append, ← h2]
    exact h4

theorem explicit_step {f : Fps} (hf : Sane f) (s : Nat) (x : Nat × Int) (hn : fp f s x.1 = none) :
    Sane (explicitFp s f x) ∧ fp (explicitFp s f x) = setAll (fp f) [(s, x.1, fpDur x.2)] := by
  constructor
  · constructor
    · intro a b
      show (push f.in_ x.1 (s, fpDur x.2) b).lookup a = (push f.out s (x.1, fpDur x.2) a).lookup b
      rw [push_lookup, push_lookup, hf.mirror a b]
      by_cases h : a = s ∧ b = x.1
      · rw [if_pos h, if_pos ⟨h.2, h.1⟩]
      · rw [if_neg h, if_neg (fun hc => h ⟨hc.2, hc.1⟩)]
    · exact push_nodup hf.outs _ hn
    · exact push_nodup hf.ins _ ((hf.mirror s x.1).trans hn)
  · funext i j
    show (push f.out s (x.1, fpDur x.2) i).lookup j = _
    rw [push_lookup]
    rfl

theorem reverse_step {f : Fps} (hf : Sane f) (s : Nat) (x : Nat × Int) :
    Sane (reverseFp s f x) ∧ fp (reverseFp s f x) = setAll (fp f) [(x.1, s, fpDur x.2)] := by
  constructor
  · constructor
    · intro a b
      show (addNew f.in_ s x.1 x.2 b).lookup a = (addNew f.out x.1 s x.2 a).lookup b
      rw [addNew_lookup, addNew_lookup, hf.mirror a b]
      by_cases h : a = x.1 ∧ b = s
      · rw [if_pos h, if_pos ⟨h.2, h.1⟩]
      · rw [if_neg h, if_neg (fun hc => h ⟨hc.2, hc.1⟩)]
    · exact addNew_nodup hf.outs _ _ _
    · exact addNew_nodup hf.ins _ _ _
  · funext i j
    show (addNew f.out x.1 s x.2 i).lookup j = _
    rw [addNew_lookup]
    rfl

/-- The entries of a generated footpath. -/
def nearEv (walk : Nat → Nat → Int) (s m : Nat) : List (Nat × Nat × Int) :=
  if 511 < walk s m then [] else [(s, m, fpDur (walk s m)), (m, s, fpDur (walk s m))]

theorem near_step (walk : Nat → Nat → Int) (s : Nat) (f : Fps) (m : Nat) (hf : Sane f) :
    Sane (nearFp walk s f m) ∧ fp (nearFp walk s f m) = setAll (fp f) (nearEv walk s m) := by
  unfold nearFp nearEv
  by_cases hw : 511 < walk s m
  · rw [if_pos hw, if_pos hw]
    exact ⟨hf, rfl⟩
  · rw [if_neg hw, if_neg hw]
    constructor
    · constructor
      · intro a b
        show (addNew (addNew f.in_ m s (walk s m)) s m (walk s m) b).lookup a =
          (addNew (addNew f.out s m (walk s m)) m s (walk s m) a).lookup b
        rw [addNew_lookup, addNew_lookup, addNew_lookup, addNew_lookup, hf.mirror a b]
        have c1 : (b = s ∧ a = m) ↔ (a = m ∧ b = s) := ⟨fun h => ⟨h.2, h.1⟩, fun h => ⟨h.2, h.1⟩⟩
        have c2 : (b = m ∧ a = s) ↔ (a = s ∧ b = m) := ⟨fun h => ⟨h.2, h.1⟩, fun h => ⟨h.2, h.1⟩⟩
        simp only [c1, c2]
      · exact addNew_nodup (addNew_nodup hf.outs _ _ _) _ _ _
      · exact addNew_nodup (addNew_nodup hf.ins _ _ _) _ _ _
    · funext i j
      show (addNew (addNew f.out s m (walk s m)) m s (walk s m) i).lookup j = _
      rw [addNew_lookup, addNew_lookup]
      rfl

/-- The entries of the footpaths of `transfers.txt`. -/
def explicitEvs (fps : Nat → List (Nat × Int)) (order : List Nat) : List (Nat × Nat × Int) :=
  order.flatMap fun s => (fps s).map fun x => (s, x.1, fpDur x.2)

/-- Their reverses. -/
def reverseEvs (fps : Nat → List (Nat × Int)) (order : List Nat) : List (Nat × Nat × Int) :=
  order.flatMap fun s => (fps s).map fun x => (x.1, s, fpDur x.2)

/-- The entries of generated footpaths. -/
def nearEvs (metas : Nat → List Nat) (walk : Nat → Nat → Int) (order : List Nat) : List (Nat × Nat × Int) :=
  order.flatMap fun s => (metas s).flatMap (nearEv walk s)

theorem setAll_none {L : Nat → Nat → Option Int} {evs : List (Nat × Nat × Int)} {i j : Nat} (h : L i j = none)
    (hn : ∀ e ∈ evs, ¬ (e.1 = i ∧ e.2.1 = j)) : setAll L evs i j = none := by
  rw [setAll_eq, h]
  have : (evs.find? fun e => e.1 == i && e.2.1 == j) = none := by
    rw [List.find?_eq_none]
    intro e he
    have := hn e he
    simpa using this
  rw [this]
  rfl

theorem explicit_inner (s : Nat) : ∀ (xs : List (Nat × Int)) (f : Fps), Sane f → (xs.map (·.1)).Nodup →
    (∀ x ∈ xs, fp f s x.1 = none) →
    Sane (xs.foldl (explicitFp s) f) ∧ fp (xs.foldl (explicitFp s) f) =
      setAll (fp f) (xs.map fun x => (s, x.1, fpDur x.2)) := by
  intro xs
  induction xs with
  | nil => intro f hf _ _; exact ⟨hf, rfl⟩
  | cons x xs ih =>
    intro f hf hn hx
    rw [List.map_cons, List.nodup_cons] at hn
    obtain ⟨h1, h2⟩ := explicit_step hf s x (hx x (by simp))
    obtain ⟨h3, h4⟩ := ih (explicitFp s f x) h1 hn.2 (by
      intro y hy
      rw [h2]
      refine setAll_none (hx y (by simp [hy])) ?_
      intro e he hc
      rw [List.mem_singleton] at he
      subst he
      exact hn.1 (List.mem_map.mpr ⟨y, hy, hc.2.symm⟩))
    refine ⟨h3, ?_⟩
    rw [List.map_cons, show ((s, x.1, fpDur x.2) :: xs.map fun x => (s, x.1, fpDur x.2)) =
      [(s, x.1, fpDur x.2)] ++ xs.map fun x => (s, x.1, fpDur x.2) from rfl, setAll_append, ← h2]
    exact h4

theorem explicit_pass (fps : Nat → List (Nat × Int)) (hn : ∀ a, ((fps a).map (·.1)).Nodup) :
    ∀ (order : List Nat) (f : Fps), Sane f → order.Nodup → (∀ s ∈ order, ∀ b, fp f s b = none) →
    Sane (order.foldl (fun f s => (fps s).foldl (explicitFp s) f) f) ∧
      fp (order.foldl (fun f s => (fps s).foldl (explicitFp s) f) f) = setAll (fp f) (explicitEvs fps order) := by
  intro order
  induction order with
  | nil => intro f hf _ _; exact ⟨hf, rfl⟩
  | cons s order ih =>
    intro f hf ho hx
    rw [List.nodup_cons] at ho
    obtain ⟨h1, h2⟩ := explicit_inner s (fps s) f hf (hn s) (fun x _ => hx s (by simp) x.1)
    obtain ⟨h3, h4⟩ := ih ((fps s).foldl (explicitFp s) f) h1 ho.2 (by
      intro y hy b
      rw [h2]
      refine setAll_none (hx y (by simp [hy]) b) ?_
      intro e he hc
      rw [List.mem_map] at he
      obtain ⟨x, _, rfl⟩ := he
      exact ho.1 (by rw [show s = y from hc.1]; exact hy))
    refine ⟨h3, ?_⟩
    unfold explicitEvs
    rw [List.flatMap_cons, setAll_append, ← h2]
    exact h4

theorem fps_eq (fps : Nat → List (Nat × Int)) (metas : Nat → List Nat) (walk : Nat → Nat → Int) (order : List Nat)
    (hn : ∀ a, ((fps a).map (·.1)).Nodup) (ho : order.Nodup) :
    Sane (footpaths fps metas walk order) ∧ fp (footpaths fps metas walk order) =
      setAll (fun _ _ => none) (explicitEvs fps order ++ reverseEvs fps order ++ nearEvs metas walk order) := by
  have h0 : Sane {} := ⟨fun _ _ => rfl, fun _ => List.nodup_nil, fun _ => List.nodup_nil⟩
  obtain ⟨h1, e1⟩ := explicit_pass fps hn order {} h0 ho (fun _ _ _ => rfl)
  obtain ⟨h2, e2⟩ := fold_set (fun f s => (fps s).foldl (reverseFp s) f)
    (fun s => (fps s).map fun x => (x.1, s, fpDur x.2)) (by
      intro f s hf
      obtain ⟨a, b⟩ := fold_set (reverseFp s) (fun x => [(x.1, s, fpDur x.2)]) (fun f x hf => reverse_step hf s x) (fps s) f hf
      refine ⟨a, b.trans ?_⟩
      congr 1
      induction fps s with
      | nil => rfl
      | cons y ys ih => rw [List.flatMap_cons, ih]; rfl) order _ h1
  obtain ⟨h3, e3⟩ := fold_set (fun f s => (metas s).foldl (nearFp walk s) f)
    (fun s => (metas s).flatMap (nearEv walk s)) (by
      intro f s hf
      exact fold_set (nearFp walk s) (nearEv walk s) (fun f m hf => near_step walk s f m hf) (metas s) f hf) order _ h2
  refine ⟨h3, e3.trans ?_⟩
  rw [e2, e1, setAll_append, setAll_append]
  rfl

theorem find_evs {evs : List (Nat × Nat × Int)} {i j : Nat} :
    ((evs.find? fun e => e.1 == i && e.2.1 == j).map (·.2.2)) = none ↔ ∀ v, (i, j, v) ∉ evs := by
  rw [Option.map_eq_none_iff, List.find?_eq_none]
  constructor
  · intro h v hv
    have := h _ hv
    simp at this
  · intro h e he hc
    simp only [Bool.and_eq_true, beq_iff_eq] at hc
    exact h e.2.2 (by rw [← hc.1, ← hc.2]; exact he)

theorem find_evs_some {evs : List (Nat × Nat × Int)} {i j : Nat} {v : Int}
    (h : ((evs.find? fun e => e.1 == i && e.2.1 == j).map (·.2.2)) = some v) : (i, j, v) ∈ evs := by
  rw [Option.map_eq_some_iff] at h
  obtain ⟨e, he, rfl⟩ := h
  have h1 := List.mem_of_find?_eq_some he
  have h2 := List.find?_some he
  simp only [Bool.and_eq_true, beq_iff_eq] at h2
  rw [← h2.1, ← h2.2]
  exact h1

theorem lookup_mem {l : List (Nat × Int)} (hn : (l.map (·.1)).Nodup) {b : Nat} {d : Int} :
    l.lookup b = some d ↔ (b, d) ∈ l := by
  induction l with
  | nil => simp
  | cons e l ih =>
    rw [List.map_cons, List.nodup_cons] at hn
    rw [List.lookup_cons, List.mem_cons]
    by_cases he : b = e.1
    · have : (b == e.1) = true := by simp [he]
      rw [this]
      simp only [Option.some.injEq]
      constructor
      · intro h
        exact Or.inl (by rw [he, ← h])
      · rintro (h | h)
        · rw [← h]
        · exact absurd (List.mem_map.mpr ⟨_, h, he⟩) hn.1
    · have : (b == e.1) = false := by rw [beq_eq_false_iff_ne]; exact he
      rw [this, ih hn.2]
      constructor
      · exact Or.inr
      · rintro (h | h)
        · exact absurd (by rw [← h]) he
        · exact h

theorem lookup_none {l : List (Nat × Int)} {b : Nat} : l.lookup b = none ↔ ∀ d, (b, d) ∉ l := by
  induction l with
  | nil => simp
  | cons e l ih =>
    rw [List.lookup_cons]
    by_cases he : b = e.1
    · have : (b == e.1) = true := by simp [he]
      rw [this]
      simp only [reduceCtorEq, false_iff]
      intro h
      exact h e.2 (by rw [he]; simp)
    · have : (b == e.1) = false := by rw [beq_eq_false_iff_ne]; exact he
      rw [this, ih]
      constructor
      · intro h d hm
        rw [List.mem_cons] at hm
        rcases hm with hm | hm
        · exact he (by rw [← hm])
        · exact h d hm
      · intro h d hm
        exact h d (List.mem_cons_of_mem _ hm)

theorem mem_explicit {fps : Nat → List (Nat × Int)} {order : List Nat} {a b : Nat} {v : Int} :
    (a, b, v) ∈ explicitEvs fps order ↔ a ∈ order ∧ ∃ d, (b, d) ∈ fps a ∧ fpDur d = v := by
  unfold explicitEvs
  simp only [List.mem_flatMap, List.mem_map, Prod.mk.injEq]
  constructor
  · rintro ⟨s, hs, x, hx, rfl, rfl, rfl⟩
    exact ⟨hs, x.2, hx, rfl⟩
  · rintro ⟨ha, d, hd, rfl⟩
    exact ⟨a, ha, (b, d), hd, rfl, rfl, rfl⟩

theorem mem_reverse {fps : Nat → List (Nat × Int)} {order : List Nat} {a b : Nat} {v : Int} :
    (a, b, v) ∈ reverseEvs fps order ↔ b ∈ order ∧ ∃ d, (a, d) ∈ fps b ∧ fpDur d = v := by
  unfold reverseEvs
  simp only [List.mem_flatMap, List.mem_map, Prod.mk.injEq]
  constructor
  · rintro ⟨s, hs, x, hx, rfl, rfl, rfl⟩
    exact ⟨hs, x.2, hx, rfl⟩
  · rintro ⟨ha, d, hd, rfl⟩
    exact ⟨b, ha, (a, d), hd, rfl, rfl, rfl⟩

/-- The stop `b` is related to `a` and at most 511 minutes away, `v` is the walking time. -/
def Near (metas : Nat → List Nat) (walk : Nat → Nat → Int) (order : List Nat) (a b : Nat) (v : Int) : Prop :=
  a ∈ order ∧ b ∈ metas a ∧ walk a b ≤ 511 ∧ v = fpDur (walk a b)

theorem mem_near {metas : Nat → List Nat} {walk : Nat → Nat → Int} {order : List Nat} {a b : Nat} {v : Int} :
    (a, b, v) ∈ nearEvs metas walk order ↔ Near metas walk order a b v ∨ Near metas walk order b a v := by
  unfold nearEvs Near
  simp only [List.mem_flatMap]
  constructor
  · rintro ⟨s, hs, m, hm, he⟩
    unfold nearEv at he
    split at he
    · cases he
    · rename_i hw
      simp only [List.mem_cons, List.not_mem_nil, or_false, Prod.mk.injEq] at he
      rcases he with ⟨rfl, rfl, rfl⟩ | ⟨rfl, rfl, rfl⟩
      · exact Or.inl ⟨hs, hm, by omega, rfl⟩
      · exact Or.inr ⟨hs, hm, by omega, rfl⟩
  · rintro (⟨h1, h2, h3, h4⟩ | ⟨h1, h2, h3, h4⟩)
    · refine ⟨a, h1, b, h2, ?_⟩
      unfold nearEv
      rw [if_neg (by omega)]
      simp [h4]
    · refine ⟨b, h1, a, h2, ?_⟩
      unfold nearEv
      rw [if_neg (by omega)]
      simp [h4]

section
variable (fps : Nat → List (Nat × Int)) (metas : Nat → List Nat) (walk : Nat → Nat → Int) (order : List Nat)
  (hn : ∀ a, ((fps a).map (·.1)).Nodup) (ho : order.Nodup)

include hn ho

/-- **C117 (mirror).** Incoming and outgoing footpaths are the same, with the same durations; there is one per pair of stops -
whatever the order in which the stops are visited. -/
theorem C117_mirror : ∀ a b d,
    ((b, d) ∈ (footpaths fps metas walk order).out a ↔ (a, d) ∈ (footpaths fps metas walk order).in_ b) ∧
    (((footpaths fps metas walk order).out a).map (·.1)).Nodup ∧
    (((footpaths fps metas walk order).in_ a).map (·.1)).Nodup := by
  intro a b d
  obtain ⟨h, _⟩ := fps_eq fps metas walk order hn ho
  refine ⟨?_, h.outs a, h.ins a⟩
  rw [← lookup_mem (h.outs a), ← lookup_mem (h.ins b), h.mirror a b]

/-- **C117 (given).** A footpath of `transfers.txt` has its duration (at most 511 minutes); without one, the one in the
other direction counts. -/
theorem C117_given (a b : Nat) (d : Int) :
    (a ∈ order → (fps a).lookup b = some d → ((footpaths fps metas walk order).out a).lookup b = some (fpDur d)) ∧
    (b ∈ order → (fps a).lookup b = none → (fps b).lookup a = some d →
      ((footpaths fps metas walk order).out a).lookup b = some (fpDur d)) := by
  obtain ⟨_, e⟩ := fps_eq fps metas walk order hn ho
  have e' := congrFun (congrFun e a) b
  rw [setAll_eq, Option.none_or, List.append_assoc, List.find?_append, List.find?_append] at e'
  constructor
  · intro ha hl
    show fp _ a b = _
    rw [e']
    cases hf : (explicitEvs fps order).find? (fun e => e.1 == a && e.2.1 == b) with
    | none =>
      have := find_evs.mp (show ((explicitEvs fps order).find? (fun e => e.1 == a && e.2.1 == b)).map (·.2.2) = none by
        rw [hf]; rfl) (fpDur d)
      exact absurd (mem_explicit.mpr ⟨ha, d, (lookup_mem (hn a)).mp hl, rfl⟩) this
    | some x =>
      have := find_evs_some (show ((explicitEvs fps order).find? (fun e => e.1 == a && e.2.1 == b)).map (·.2.2) = some x.2.2 by
        rw [hf]; rfl)
      obtain ⟨_, d', hd', hv⟩ := mem_explicit.mp this
      rw [← lookup_mem (hn a), hl] at hd'
      cases hd'
      rw [Option.some_or, Option.map_some, hv]
  · intro hb hl hr
    show fp _ a b = _
    rw [e']
    have h1 : (explicitEvs fps order).find? (fun e => e.1 == a && e.2.1 == b) = none := by
      have := find_evs (evs := explicitEvs fps order) (i := a) (j := b) |>.mpr (by
        intro v hv
        obtain ⟨_, d', hd', _⟩ := mem_explicit.mp hv
        rw [← lookup_mem (hn a), hl] at hd'
        cases hd')
      rwa [Option.map_eq_none_iff] at this
    rw [h1, Option.none_or]
    cases hf : (reverseEvs fps order).find? (fun e => e.1 == a && e.2.1 == b) with
    | none =>
      have := find_evs.mp (show ((reverseEvs fps order).find? (fun e => e.1 == a && e.2.1 == b)).map (·.2.2) = none by
        rw [hf]; rfl) (fpDur d)
      exact absurd (mem_reverse.mpr ⟨hb, d, (lookup_mem (hn b)).mp hr, rfl⟩) this
    | some x =>
      have := find_evs_some (show ((reverseEvs fps order).find? (fun e => e.1 == a && e.2.1 == b)).map (·.2.2) = some x.2.2 by
        rw [hf]; rfl)
      obtain ⟨_, d', hd', hv⟩ := mem_reverse.mp this
      rw [← lookup_mem (hn b), hr] at hd'
      cases hd'
      rw [Option.some_or, Option.map_some, hv]

/-- **C117 (generated).** Without a footpath of `transfers.txt` in either direction, there is one exactly if one of the stops
is related to the other one and at most 511 minutes away; its duration is the walking time (from one of them). -/
theorem C117_generated (a b : Nat) (ha : (fps a).lookup b = none) (hb : (fps b).lookup a = none) :
    (∀ v, ((footpaths fps metas walk order).out a).lookup b = some v →
      Near metas walk order a b v ∨ Near metas walk order b a v) ∧
    (((footpaths fps metas walk order).out a).lookup b = none ↔
      ∀ v, ¬ Near metas walk order a b v ∧ ¬ Near metas walk order b a v) := by
  obtain ⟨_, e⟩ := fps_eq fps metas walk order hn ho
  have e' := congrFun (congrFun e a) b
  rw [setAll_eq, Option.none_or] at e'
  have nox : ∀ v, (a, b, v) ∉ explicitEvs fps order := by
    intro v hv
    obtain ⟨_, d', hd', _⟩ := mem_explicit.mp hv
    rw [← lookup_mem (hn a), ha] at hd'
    cases hd'
  have nor : ∀ v, (a, b, v) ∉ reverseEvs fps order := by
    intro v hv
    obtain ⟨_, d', hd', _⟩ := mem_reverse.mp hv
    rw [← lookup_mem (hn b), hb] at hd'
    cases hd'
  have hsome : ∀ v, ((footpaths fps metas walk order).out a).lookup b = some v →
      Near metas walk order a b v ∨ Near metas walk order b a v := by
    intro v hv
    have := find_evs_some (e'.symm.trans hv)
    rw [List.mem_append, List.mem_append] at this
    rcases this with (h | h) | h
    · exact absurd h (nox v)
    · exact absurd h (nor v)
    · exact mem_near.mp h
  refine ⟨hsome, ?_⟩
  constructor
  · intro hnone v
    have := find_evs.mp (e'.symm.trans hnone) v
    rw [List.mem_append, List.mem_append] at this
    exact ⟨fun hh => this (Or.inr (mem_near.mpr (Or.inl hh))), fun hh => this (Or.inr (mem_near.mpr (Or.inr hh)))⟩
  · intro hnone
    show fp _ a b = none
    rw [e', find_evs]
    intro v hv
    rw [List.mem_append, List.mem_append] at hv
    rcases hv with (h | h) | h
    · exact nox v h
    · exact nor v h
    · rcases mem_near.mp h with h | h
      · exact (hnone v).1 h
      · exact (hnone v).2 h

/-- **C117 (both ways).** If there is a footpath from `a` to `b`, there is one from `b` to `a`. -/
theorem C117_both (hx : ∀ a, a ∉ order → fps a = []) (a b : Nat)
    (h : ((footpaths fps metas walk order).out a).lookup b ≠ none) :
    ((footpaths fps metas walk order).out b).lookup a ≠ none := by
  have hin : ∀ x y d, (fps x).lookup y = some d → x ∈ order := by
    intro x y d hd
    refine Classical.byContradiction fun hc => ?_
    rw [hx x hc] at hd
    cases hd
  cases h1 : (fps b).lookup a with
  | some d =>
    rw [(C117_given fps metas walk order hn ho b a d).1 (hin b a d h1) h1]
    exact fun hc => by cases hc
  | none =>
    cases h2 : (fps a).lookup b with
    | some d =>
      rw [(C117_given fps metas walk order hn ho b a d).2 (hin a b d h2) h1 h2]
      exact fun hc => by cases hc
    | none =>
      intro hc
      have := ((C117_generated fps metas walk order hn ho b a h1 h2).2.mp hc)
      exact h (((C117_generated fps metas walk order hn ho a b h2 h1).2).mpr (fun v => ⟨(this v).2, (this v).1⟩))

omit hn in
/-- **C117 (equivalent stops).** The equivalent stops of a stop are the related ones at most 511 minutes away. -/
theorem C117_equivalent (a : Nat) :
    (footpaths fps metas walk order).eqs a =
      if a ∈ order then (metas a).filter (fun m => decide (walk a m ≤ 511)) else [] := by
  have keep1 : ∀ (xs : List (Nat × Int)) (s : Nat) (f : Fps), (xs.foldl (explicitFp s) f).eqs = f.eqs := by
    intro xs s
    induction xs with
    | nil => intro f; rfl
    | cons x xs ih => intro f; exact ih (explicitFp s f x)
  have keep2 : ∀ (xs : List (Nat × Int)) (s : Nat) (f : Fps), (xs.foldl (reverseFp s) f).eqs = f.eqs := by
    intro xs s
    induction xs with
    | nil => intro f; rfl
    | cons x xs ih => intro f; exact ih (reverseFp s f x)
  have all : ∀ (g : Nat → Fps → Fps), (∀ s f, (g s f).eqs = f.eqs) → ∀ (l : List Nat) (f : Fps),
      (l.foldl (fun f s => g s f) f).eqs = f.eqs := by
    intro g hg l
    induction l with
    | nil => intro f; rfl
    | cons x l ih => intro f; exact (ih (g x f)).trans (hg x f)
  have inner : ∀ (ms : List Nat) (s : Nat) (f : Fps), (ms.foldl (nearFp walk s) f).eqs a =
      if a = s then f.eqs a ++ ms.filter (fun m => decide (walk s m ≤ 511)) else f.eqs a := by
    intro ms s
    induction ms with
    | nil => intro f; simp
    | cons m ms ih =>
      intro f
      rw [List.foldl_cons, ih (nearFp walk s f m)]
      have he : (nearFp walk s f m).eqs a = if a = s ∧ walk s m ≤ 511 then f.eqs a ++ [m] else f.eqs a := by
        unfold nearFp
        by_cases hw : 511 < walk s m
        · rw [if_pos hw, if_neg (fun hc => by omega)]
        · rw [if_neg hw]
          show push f.eqs s m a = _
          unfold push
          by_cases has : a = s
          · rw [if_pos has, if_pos ⟨has, by omega⟩]
          · rw [if_neg has, if_neg (fun hc => has hc.1)]
      rw [he, List.filter_cons]
      by_cases has : a = s
      · rw [if_pos has, if_pos has]
        by_cases hw : walk s m ≤ 511
        · rw [if_pos ⟨has, hw⟩, if_pos (by simpa using hw), List.append_assoc]
          rfl
        · rw [if_neg (fun hc => hw hc.2), if_neg (by simpa using hw)]
      · rw [if_neg has, if_neg has, if_neg (fun hc => has hc.1)]
  have outer : ∀ (l : List Nat) (f : Fps), l.Nodup → (l.foldl (fun f s => (metas s).foldl (nearFp walk s) f) f).eqs a =
      f.eqs a ++ if a ∈ l then (metas a).filter (fun m => decide (walk a m ≤ 511)) else [] := by
    intro l
    induction l with
    | nil => intro f _; simp
    | cons s l ih =>
      intro f hl
      rw [List.nodup_cons] at hl
      rw [List.foldl_cons, ih _ hl.2, inner]
      by_cases has : a = s
      · rw [if_pos has, if_neg (by rw [has]; exact hl.1), if_pos (by rw [has]; exact List.mem_cons_self), List.append_nil, has]
      · rw [if_neg has]
        congr 1
        by_cases hal : a ∈ l
        · rw [if_pos hal, if_pos (List.mem_cons_of_mem _ hal)]
        · rw [if_neg hal, if_neg (by
            rw [List.mem_cons]
            rintro (h | h)
            · exact has h
            · exact hal h)]
  unfold footpaths
  rw [outer order _ ho, all (fun s f => (fps s).foldl (reverseFp s) f) (fun s f => keep2 (fps s) s f),
    all (fun s f => (fps s).foldl (explicitFp s) f) (fun s f => keep1 (fps s) s f)]
  rfl

end

/-- **C117 (durations).** Durations are kept up to 511 minutes, longer ones become 511 (negative ones are taken modulo 512). -/
theorem C117_durations (d : Int) : (0 ≤ d → fpDur d = min d 511) ∧ 0 ≤ fpDur d ∧ fpDur d ≤ 511 := by
  unfold fpDur
  split <;> omega

/-- **C117 (loaded).** After reading `stops.txt` and `transfers.txt`, the hypotheses of the theorems hold for every order of the
stops. -/
theorem C117_loaded (rows : List Row) (ts : List Transfer) (order : List Nat)
    (hp : order.Perm (readTransfers (readStops rows) ts).1.keys) :
    order.Nodup ∧ (∀ a, ((((readTransfers (readStops rows) ts).1.info a).footpaths).map (·.1)).Nodup) ∧
    ∀ a, a ∉ order → ((readTransfers (readStops rows) ts).1.info a).footpaths = [] := by
  rw [readTransfers_keys] at hp
  refine ⟨hp.nodup_iff.mpr (C118_known rows).1,
    fun a => (C116_footpaths _ (fun x => (readStops_plain rows x).1) ts a).1, ?_⟩
  intro a ha
  have hk : a ∉ (readStops rows).keys := fun h => ha (hp.mem_iff.mpr h)
  cases hf : ((readTransfers (readStops rows) ts).1.info a).footpaths with
  | nil => rfl
  | cons e l =>
    have h1 : (((readTransfers (readStops rows) ts).1.info a).footpaths).lookup e.1 = some e.2 := by
      rw [hf, List.lookup_cons]
      simp
    rw [(C116_footpaths _ (fun x => (readStops_plain rows x).1) ts a).2 e.1, Option.map_eq_some_iff] at h1
    obtain ⟨t, ht, _⟩ := h1
    have h2 := List.find?_some ht
    simp only [Bool.and_eq_true, beq_iff_eq] at h2
    obtain ⟨_, _, hx, _⟩ := (general_iff t _).mp h2.1.1.1
    rw [h2.1.1.2] at hx
    exact absurd hx hk

/-- **C117 (limitation).** The walking time from `a` to `b` may differ from the one from `b` to `a` (the length of a degree of
longitude is taken at the first stop); which one both footpaths get depends on the order of the stops. -/
theorem C117_order_counterexample :
    let metas : Nat → List Nat := fun x => if x = 1 then [2] else if x = 2 then [1] else []
    let walk : Nat → Nat → Int := fun a _ => if a = 1 then 5 else 6
    ((footpaths (fun _ => []) metas walk [1, 2]).out 1).lookup 2 = some 5 ∧
    ((footpaths (fun _ => []) metas walk [2, 1]).out 1).lookup 2 = some 6 := by decide

/-- **C117 (limitation).** A row of type 3 (transfer not possible) does not keep the footpath from being generated. -/
theorem C117_impossible_counterexample :
    let s := (readTransfers (readStops [{ id := 1 }, { id := 2 }]) [⟨1, 2, 3, 0, none, none⟩]).1
    ((footpaths (fun a => (s.info a).footpaths) (fun x => if x = 1 then [2] else []) (fun _ _ => 2) s.keys).out 1).lookup 2 =
      some 2 := by decide

/-- A given footpath from 1 to 2 (and back), a generated one from 1 to 3. -/
example :
    let s := (readTransfers (readStops [{ id := 1 }, { id := 2 }, { id := 3 }]) [⟨1, 2, 2, 600, none, none⟩]).1
    let f := footpaths (fun a => (s.info a).footpaths) (fun x => if x = 1 then [1, 2, 3] else [x]) (fun _ _ => 2) s.keys
    f.out 1 = [(2, 10), (1, 2), (3, 2)] ∧ f.out 2 = [(1, 10), (2, 2)] ∧ f.in_ 2 = [(1, 10), (2, 2)] ∧ f.out 3 = [(1, 2), (3, 2)] ∧
      f.eqs 1 = [1, 2, 3] := by decide

/-! ## Related stops -/

/-- The stops which are reached from the given ones over parents and children. -/
inductive Reach (info : Nat → Rec) (from_ : List Nat) : Nat → Prop
  | base {x : Nat} (h : x ∈ from_) : Reach info from_ x
  | up {x p : Nat} (h : Reach info from_ x) (hp : (info x).parent = some p) : Reach info from_ p
  | down {x c : Nat} (h : Reach info from_ x) (hc : c ∈ (info x).children) : Reach info from_ c

theorem mem_nb {info : Nat → Rec} {x y : Nat} : y ∈ nb info x ↔ (info x).parent = some y ∨ y ∈ (info x).children := by
  unfold nb
  rw [List.mem_append, Option.mem_toList]

theorem Reach.nb {info : Nat → Rec} {l : List Nat} {x y : Nat} (h : Reach info l x) (hy : y ∈ nb info x) : Reach info l y := by
  rcases mem_nb.mp hy with h1 | h1
  · exact h.up h1
  · exact h.down h1

theorem Reach.mono {info : Nat → Rec} {l l' : List Nat} (hl : ∀ y ∈ l, Reach info l' y) {x : Nat} (h : Reach info l x) :
    Reach info l' x := by
  induction h with
  | base h => exact hl _ h
  | up _ hp ih => exact ih.up hp
  | down _ hc ih => exact ih.down hc

theorem loop_sound {info : Nat → Rec} {todo done r : List Nat} (h : Loop info todo done r) :
    ∀ x ∈ r, x ∈ done ∨ Reach info todo x := by
  induction h with
  | stop done => exact fun x hx => Or.inl hx
  | step n hn h ih =>
    intro x hx
    rcases ih x hx with h1 | h1
    · rw [List.mem_cons] at h1
      rcases h1 with rfl | h1
      · exact Or.inr (.base hn)
      · exact Or.inl h1
    · refine Or.inr (h1.mono ?_)
      intro y hy
      rw [List.mem_append, List.mem_filter, List.mem_filter] at hy
      rcases hy with hy | hy
      · exact .base hy.1
      · exact (Reach.base hn).nb hy.1

theorem loop_complete {info : Nat → Rec} {todo done r : List Nat} (h : Loop info todo done r)
    (hc : ∀ d ∈ done, ∀ y ∈ nb info d, y ∈ done ∨ y ∈ todo) :
    (∀ x ∈ done, x ∈ r) ∧ (∀ x ∈ todo, x ∈ r) ∧ ∀ x ∈ r, ∀ y ∈ nb info x, y ∈ r := by
  induction h with
  | stop done =>
    refine ⟨fun x hx => hx, fun x hx => absurd hx List.not_mem_nil, fun x hx y hy => ?_⟩
    rcases hc x hx y hy with h | h
    · exact h
    · cases h
  | @step todo done r n hn h ih =>
    obtain ⟨h1, h2, h3⟩ := ih (by
      intro d hd y hy
      rw [List.mem_append, List.mem_filter, List.mem_filter]
      by_cases hyd : y ∈ n :: done
      · exact Or.inl hyd
      · refine Or.inr ?_
        rw [List.mem_cons] at hd
        rcases hd with rfl | hd
        · exact Or.inr ⟨hy, by simpa using hyd⟩
        · rcases hc d hd y hy with h4 | h4
          · exact absurd (List.mem_cons_of_mem _ h4) hyd
          · refine Or.inl ⟨h4, ?_⟩
            simp only [decide_eq_true_eq]
            intro hyn
            exact hyd (by rw [hyn]; exact List.mem_cons_self))
    refine ⟨fun x hx => h1 x (List.mem_cons_of_mem _ hx), fun x hx => ?_, h3⟩
    by_cases hxn : x = n
    · exact h1 x (by rw [hxn]; exact List.mem_cons_self)
    · exact h2 x (by
        rw [List.mem_append, List.mem_filter]
        exact Or.inl ⟨hx, by simpa using hxn⟩)

/-- The result of the loop is the set of reached stops, whatever the order. -/
theorem loop_iff {info : Nat → Rec} {todo r : List Nat} (h : Loop info todo [] r) (x : Nat) : x ∈ r ↔ Reach info todo x := by
  constructor
  · intro hx
    rcases loop_sound h x hx with h1 | h1
    · cases h1
    · exact h1
  · intro hx
    obtain ⟨_, h2, h3⟩ := loop_complete h (fun d hd => by cases hd)
    induction hx with
    | base hb => exact h2 _ hb
    | up _ hp ih => exact h3 _ ih _ (mem_nb.mpr (Or.inl hp))
    | down _ hc ih => exact h3 _ ih _ (mem_nb.mpr (Or.inr hc))

/-- What holds during the loop. -/
structure Going (info : Nat → Rec) (U : List Nat) (todo done : List Nat) : Prop where
  todoU : ∀ x ∈ todo, x ∈ U
  doneU : ∀ x ∈ done, x ∈ U
  nodup : done.Nodup
  apart : ∀ x ∈ todo, x ∉ done

theorem Going.next {info : Nat → Rec} {U todo done : List Nat} (hU : ∀ x ∈ U, ∀ y ∈ nb info x, y ∈ U)
    (h : Going info U todo done) {n : Nat} (hn : n ∈ todo) :
    Going info U (todo.filter (· ≠ n) ++ (nb info n).filter (· ∉ n :: done)) (n :: done) where
  todoU := by
    intro x hx
    rw [List.mem_append, List.mem_filter, List.mem_filter] at hx
    rcases hx with hx | hx
    · exact h.todoU x hx.1
    · exact hU n (h.todoU n hn) x hx.1
  doneU := by
    intro x hx
    rw [List.mem_cons] at hx
    rcases hx with rfl | hx
    · exact h.todoU _ hn
    · exact h.doneU x hx
  nodup := List.nodup_cons.mpr ⟨h.apart n hn, h.nodup⟩
  apart := by
    intro x hx
    rw [List.mem_append, List.mem_filter, List.mem_filter] at hx
    rcases hx with hx | hx
    · intro hd
      rw [List.mem_cons] at hd
      rcases hd with hd | hd
      · simp [hd] at hx
      · exact h.apart x hx.1 hd
    · simpa using hx.2

theorem nodup_subset_length : ∀ (l U : List Nat), l.Nodup → (∀ x ∈ l, x ∈ U) → l.length ≤ U.length
  | [], U, _, _ => by simp
  | a :: l, U, hl, h => by
    rw [List.nodup_cons] at hl
    have h1 := nodup_subset_length l (U.erase a) hl.2 (by
      intro x hx
      have hne : x ≠ a := fun hc => hl.1 (hc ▸ hx)
      exact (List.mem_erase_of_ne hne).mpr (h x (List.mem_cons_of_mem _ hx)))
    have h2 := List.length_erase_of_mem (h a List.mem_cons_self)
    have h3 := List.length_pos_of_mem (h a List.mem_cons_self)
    rw [List.length_cons]
    omega

theorem loop_exists {info : Nat → Rec} {U : List Nat} (hU : ∀ x ∈ U, ∀ y ∈ nb info x, y ∈ U) :
    ∀ (k : Nat) (todo done : List Nat), U.length - done.length = k → Going info U todo done →
    ∃ r, Loop info todo done r := by
  intro k
  induction k with
  | zero =>
    intro todo done hk h
    cases todo with
    | nil => exact ⟨done, .stop done⟩
    | cons n todo =>
      exfalso
      have := nodup_subset_length (n :: done) U (h.next hU List.mem_cons_self).nodup
        (h.next hU List.mem_cons_self).doneU
      rw [List.length_cons] at this
      omega
  | succ k ih =>
    intro todo done hk h
    cases todo with
    | nil => exact ⟨done, .stop done⟩
    | cons n todo =>
      obtain ⟨r, hr⟩ := ih _ (n :: done) (by rw [List.length_cons]; omega) (h.next hU List.mem_cons_self)
      exact ⟨r, .step n List.mem_cons_self hr⟩

theorem rounds_bound {info : Nat → Rec} {U : List Nat} (hU : ∀ x ∈ U, ∀ y ∈ nb info x, y ∈ U)
    (run : Nat → List Nat × List Nat) (h0 : Going info U (run 0).1 (run 0).2) (hd : (run 0).2 = []) (n : Nat)
    (hr : ∀ i, i < n → Round info (run i) (run (i + 1))) : n ≤ U.length := by
  have gen : ∀ i, i ≤ n → Going info U (run i).1 (run i).2 ∧ (run i).2.length = i := by
    intro i
    induction i with
    | zero => intro _; exact ⟨h0, by rw [hd]; rfl⟩
    | succ i ih =>
      intro hi
      obtain ⟨h1, h2⟩ := ih (by omega)
      have := hr i (by omega)
      generalize run i = a at this h1 h2
      generalize run (i + 1) = b at this
      cases this with
      | mk m hm => exact ⟨h1.next hU hm, by rw [List.length_cons]; exact congrArg (· + 1) h2⟩
  obtain ⟨h1, h2⟩ := gen n (Nat.le_refl n)
  have := nodup_subset_length _ U h1.nodup h1.doneU
  omega

/-- The stop `k` is close enough to `x` to be related to it: within 500 m, or a direct parent or child within 2 km. -/
def CloseTo (info : Nat → Rec) (sq : Nat → Nat → Nat) (x k : Nat) : Prop :=
  sq k x ≤ 4000000 ∧ (sq k x ≤ 250000 ∨ (info x).parent = some k ∨ k ∈ (info x).children)

theorem keep_iff (info : Nat → Rec) (sq : Nat → Nat → Nat) (x k : Nat) : keep info sq x k = true ↔ CloseTo info sq x k := by
  unfold keep CloseTo
  rw [show (500 : Nat) ^ 2 = 250000 from rfl, show (2000 : Nat) ^ 2 = 4000000 from rfl]
  generalize sq k x = d
  by_cases h1 : (info x).parent = some k
  · simp only [h1, decide_true, Bool.not_true, Bool.and_false, Bool.false_and, Bool.false_or, Bool.not_eq_true',
      decide_eq_false_iff_not, true_or, or_true, and_true]
    omega
  · by_cases h2 : k ∈ (info x).children
    · simp only [h2, decide_true, Bool.not_true, Bool.and_false, Bool.false_or, Bool.not_eq_true',
        decide_eq_false_iff_not, or_true, and_true]
      omega
    · simp only [h1, h2, decide_false, Bool.not_false, Bool.and_true, Bool.not_eq_true', Bool.or_eq_false_iff,
        decide_eq_false_iff_not, or_false]
      omega

/-- **C119 (related stops).** Whatever the order in which the hash set is visited: the related stops of `x` are those stops
reached from `x`, the stops of the same name and the close ones over parents and children which are within 500 m (direct
parent and children: 2 km), with their children. -/
theorem C119_related (s : Stops) (close : Nat → List Nat) (sq : Nat → Nat → Nat) (x : Nat) (m : List Nat)
    (h : Metas s close sq x m) (y : Nat) :
    y ∈ m ↔ ∃ k, Reach s.info (x :: sameName s x ++ close x) k ∧ CloseTo s.info sq x k ∧
      (y = k ∨ y ∈ (s.info k).children) := by
  obtain ⟨done, hl, rfl⟩ := h
  unfold finish
  rw [List.mem_append, List.mem_filter, List.mem_flatMap, keep_iff, loop_iff hl]
  constructor
  · rintro (⟨h1, h2⟩ | ⟨k, hk, hy⟩)
    · exact ⟨y, h1, h2, Or.inl rfl⟩
    · rw [List.mem_filter, keep_iff, loop_iff hl] at hk
      exact ⟨k, hk.1, hk.2, Or.inr hy⟩
  · rintro ⟨k, h1, h2, rfl | hy⟩
    · exact Or.inl ⟨h1, h2⟩
    · refine Or.inr ⟨k, ?_, hy⟩
      rw [List.mem_filter, keep_iff, loop_iff hl]
      exact ⟨h1, h2⟩

/-- Neighbours of stops are stops. -/
theorem nb_known (rows : List Row) : ∀ x ∈ (readStops rows).keys, ∀ y ∈ nb (readStops rows).info x, y ∈ (readStops rows).keys := by
  intro x _ y hy
  rw [(C118_known rows).2]
  rcases mem_nb.mp hy with h | h
  · rw [(C118_parent rows x).1] at h
    cases hl : (rows.filter fun r => r.used && r.id == x && r.parent.isSome).getLast? with
    | none => rw [hl] at h; cases h
    | some r =>
      rw [hl] at h
      have hr := List.mem_of_getLast? hl
      rw [List.mem_filter] at hr
      obtain ⟨hr1, hr2⟩ := hr
      simp only [Bool.and_eq_true, beq_iff_eq] at hr2
      exact ⟨r, hr1, hr2.1.1, Or.inr h⟩
  · obtain ⟨r, hr, hu, hc, _⟩ := ((C118_children rows x).2 y).mp h
    exact ⟨r, hr, hu, Or.inl hc⟩

/-- **C119 (ends).** The search for related stops ends after at most as many rounds as there are stops, and has a result,
whatever the hierarchy (loops, too). -/
theorem C119_ends (rows : List Row) (from_ : List Nat) (hf : ∀ x ∈ from_, x ∈ (readStops rows).keys) :
    (∃ r, Loop (readStops rows).info from_ [] r) ∧
    ∀ (run : Nat → List Nat × List Nat) (n : Nat), run 0 = (from_, []) →
      (∀ i, i < n → Round (readStops rows).info (run i) (run (i + 1))) → n ≤ (readStops rows).keys.length := by
  have hg : Going (readStops rows).info (readStops rows).keys from_ [] :=
    ⟨hf, fun x hx => absurd hx List.not_mem_nil, List.nodup_nil, fun x _ hc => absurd hc List.not_mem_nil⟩
  refine ⟨loop_exists (nb_known rows) _ from_ [] rfl hg, ?_⟩
  intro run n h0 hr
  exact rounds_bound (nb_known rows) run (by rw [h0]; exact hg) (by rw [h0]) n hr

/-- **C119 (itself).** A stop is related to itself and to its children, and to its parent and the other children of it if
the parent is within 2 km. -/
theorem C119_family (rows : List Row) (close : Nat → List Nat) (sq : Nat → Nat → Nat) (x : Nat) (m : List Nat)
    (h : Metas (readStops rows) close sq x m) (hx : sq x x = 0) :
    x ∈ m ∧ (∀ c ∈ ((readStops rows).info x).children, c ∈ m) ∧
    ∀ p, ((readStops rows).info x).parent = some p → sq p x ≤ 4000000 →
      p ∈ m ∧ ∀ c ∈ ((readStops rows).info p).children, c ∈ m := by
  have hr : Reach (readStops rows).info (x :: sameName (readStops rows) x ++ close x) x := .base (by simp)
  have hc : CloseTo (readStops rows).info sq x x := ⟨by omega, Or.inl (by omega)⟩
  refine ⟨(C119_related _ close sq x m h x).mpr ⟨x, hr, hc, Or.inl rfl⟩,
    fun c hcc => (C119_related _ close sq x m h c).mpr ⟨x, hr, hc, Or.inr hcc⟩, ?_⟩
  intro p hp hd
  have hc' : CloseTo (readStops rows).info sq x p := ⟨hd, Or.inr (Or.inl hp)⟩
  exact ⟨(C119_related _ close sq x m h p).mpr ⟨p, hr.up hp, hc', Or.inl rfl⟩,
    fun c hcc => (C119_related _ close sq x m h c).mpr ⟨p, hr.up hp, hc', Or.inr hcc⟩⟩

/-- A station 9 with two platforms 1 and 2, 1 has an equally named stop 3: stop 1 is related to all of them. -/
example : let s := readStops [{ id := 1, name := some 5, parent := some 9 }, { id := 2, parent := some 9 }, { id := 3, name := some 5 }]
    s.keys = [1, 9, 2, 3] ∧ sameName s 1 = [3] ∧
    Metas s (fun _ => []) (fun _ _ => 0) 1 (finish s.info (fun _ _ => 0) 1 [2, 9, 3, 1]) ∧
    finish s.info (fun _ _ => 0) 1 [2, 9, 3, 1] = [2, 9, 3, 1, 1, 2] := by
  refine ⟨by decide, by decide, ⟨[2, 9, 3, 1], ?_, rfl⟩, by decide⟩
  refine .step 1 (by decide) ?_
  refine .step 3 (by decide) ?_
  refine .step 9 (by decide) ?_
  refine .step 2 (by decide) ?_
  exact .stop _

/-- **C119 (limitation).** Relatedness is not symmetric: 2 is a child of 1 at a distance of 1 km and has a child 3 beside
itself.  1 is related to 2 and 3; 3 is related to 2 but not to 1. -/
theorem C119_symmetry_counterexample :
    let s := readStops [{ id := 1 }, { id := 2, parent := some 1 }, { id := 3, parent := some 2 }]
    let sq : Nat → Nat → Nat := fun a b => if a = 1 ∧ b ≠ 1 ∨ a ≠ 1 ∧ b = 1 then 1000000 else 0
    Metas s (fun _ => []) sq 1 (finish s.info sq 1 [3, 2, 1]) ∧ 3 ∈ finish s.info sq 1 [3, 2, 1] ∧
    Metas s (fun _ => []) sq 3 (finish s.info sq 3 [1, 2, 3]) ∧ 1 ∉ finish s.info sq 3 [1, 2, 3] := by
  refine ⟨⟨_, ?_, rfl⟩, by decide, ⟨_, ?_, rfl⟩, by decide⟩
  · refine .step 1 (by decide) (.step 2 (by decide) (.step 3 (by decide) (.stop _)))
  · refine .step 3 (by decide) (.step 2 (by decide) (.step 1 (by decide) (.stop _)))

/-! ## Stop groups and nearby stations -/

/-- **C120 (stop groups).** The equivalent stops of a group are, in the order of the file, its stops with their children and
grandchildren - if the group is at (0,0) and both are known. -/
theorem C120_groups (known origin : Nat → Bool) (children : Nat → List Nat) (rows : List (Nat × Nat)) (eqs : Nat → List Nat)
    (g : Nat) :
    stopGroups known origin children rows eqs g =
      eqs g ++ (rows.filter fun r => r.1 == g && known g && known r.2 && origin g).flatMap
        fun r => r.2 :: (children r.2).flatMap fun c => c :: children c := by
  have pushAll : ∀ (l : List Nat) (e : Nat → List Nat) (t : Nat),
      (l.foldl (fun e x => push e t x) e) g = if g = t then e g ++ l else e g := by
    intro l
    induction l with
    | nil => intro e t; simp
    | cons x l ih =>
      intro e t
      rw [List.foldl_cons, ih]
      unfold push
      by_cases hg : g = t
      · rw [if_pos hg, if_pos hg, if_pos hg, List.append_assoc]; rfl
      · rw [if_neg hg, if_neg hg, if_neg hg]
  have kids : ∀ (l : List Nat) (e : Nat → List Nat) (t : Nat),
      (l.foldl (fun e c => (children c).foldl (fun e g => push e t g) (push e t c)) e) g =
        if g = t then e g ++ l.flatMap (fun c => c :: children c) else e g := by
    intro l
    induction l with
    | nil => intro e t; simp
    | cons x l ih =>
      intro e t
      rw [List.foldl_cons, ih, pushAll]
      unfold push
      by_cases hg : g = t
      · rw [if_pos hg, if_pos hg, if_pos hg, if_pos hg, List.flatMap_cons]; simp
      · rw [if_neg hg, if_neg hg, if_neg hg, if_neg hg]
  unfold stopGroups
  induction rows generalizing eqs with
  | nil => simp
  | cons r rows ih =>
    rw [List.foldl_cons, ih]
    have hrow : groupRow known origin children eqs r g = eqs g ++
        (if (r.1 == g && known g && known r.2 && origin g) = true
          then r.2 :: (children r.2).flatMap (fun c => c :: children c) else []) := by
      unfold groupRow
      by_cases hg : g = r.1
      · have hb : (r.1 == g && known g && known r.2 && origin g) = (known r.1 && known r.2 && origin r.1) := by
          rw [hg]; simp
        rw [hb]
        by_cases hc : (known r.1 && known r.2 && origin r.1) = true
        · rw [if_pos hc, if_pos hc, kids, if_pos hg]
          unfold push
          rw [if_pos hg]
          simp
        · rw [if_neg hc, if_neg hc, List.append_nil]
      · have hb : (r.1 == g && known g && known r.2 && origin g) = false := by
          have : (r.1 == g) = false := by rw [beq_eq_false_iff_ne]; exact fun h => hg h.symm
          rw [this]; rfl
        rw [hb]
        by_cases hc : (known r.1 && known r.2 && origin r.1) = true
        · rw [if_pos hc, kids, if_neg hg]
          unfold push
          rw [if_neg hg]
          simp
        · rw [if_neg hc]
          simp
    rw [hrow, List.filter_cons]
    split
    · rw [List.flatMap_cons, List.append_assoc]
    · rw [List.append_nil]

example : stopGroups (fun _ => true) (fun x => x == 9) (fun x => if x = 1 then [2] else if x = 2 then [3] else [])
    [(9, 1), (8, 1), (9, 4)] (fun _ => []) 9 = [1, 2, 3, 4] := by decide

/-- Two locations which are to be linked: different sources, no dummies, `b` near `a` and `a` not at (0,0). -/
def Linked (p : Places) (a b : Nat) : Prop :=
  a < p.n ∧ p.nowhere a = false ∧ p.src a ≠ none ∧ p.src b ≠ none ∧ p.src a ≠ p.src b ∧ b ∈ p.near a

/-- The time of a link: the walking time, at least the transfer times of both stops. -/
def linkTime (p : Places) (a b : Nat) : Int := fpDur (max (max (p.transferTime a) (p.transferTime b)) (p.walk a b))

/-- **C120 (nearby stations).** New footpaths are exactly those between nearby locations of different sources (no dummies), in
the outgoing and in the incoming ones, with the time of the walk but at least both transfer times; those less than 100 m apart
become equivalent. -/
theorem C120_nearby (p : Places) (f : Fps) (a b : Nat) (d : Int) :
    ((b, d) ∈ (linkNearby p f).out a ↔ (b, d) ∈ f.out a ∨ (Linked p a b ∧ d = linkTime p a b)) ∧
    ((a, d) ∈ (linkNearby p f).in_ b ↔ (a, d) ∈ f.in_ b ∨ (Linked p a b ∧ d = linkTime p a b)) ∧
    (b ∈ (linkNearby p f).eqs a ↔ b ∈ f.eqs a ∨ (Linked p a b ∧ p.veryNear a b = true)) := by
  have pm : ∀ {α : Type} (m : Nat → List α) (i : Nat) (x y : α) (j : Nat), y ∈ push m i x j ↔ y ∈ m j ∨ (j = i ∧ y = x) := by
    intro α m i x y j
    unfold push
    by_cases hj : j = i
    · rw [if_pos hj, List.mem_append, List.mem_singleton]
      exact ⟨fun h => h.elim Or.inl (fun h => Or.inr ⟨hj, h⟩), fun h => h.elim Or.inl (fun h => Or.inr h.2)⟩
    · rw [if_neg hj]
      exact ⟨Or.inl, fun h => h.elim id (fun h => absurd h.1 hj)⟩
  let ok (x y : Nat) : Prop := p.src x ≠ none ∧ p.src y ≠ none ∧ p.src x ≠ p.src y
  have inner : ∀ (x : Nat) (hx : p.src x ≠ none) (l : List Nat) (f : Fps),
      ((b, d) ∈ (l.foldl (linkTo p x) f).out a ↔ (b, d) ∈ f.out a ∨ (a = x ∧ b ∈ l ∧ ok a b ∧ d = linkTime p a b)) ∧
      ((a, d) ∈ (l.foldl (linkTo p x) f).in_ b ↔ (a, d) ∈ f.in_ b ∨ (a = x ∧ b ∈ l ∧ ok a b ∧ d = linkTime p a b)) ∧
      (b ∈ (l.foldl (linkTo p x) f).eqs a ↔ b ∈ f.eqs a ∨ (a = x ∧ b ∈ l ∧ ok a b ∧ p.veryNear a b = true)) := by
    intro x hx l
    induction l with
    | nil => intro f; simp
    | cons y l ih =>
      intro f
      rw [List.foldl_cons]
      obtain ⟨i1, i2, i3⟩ := ih (linkTo p x f y)
      rw [i1, i2, i3]
      by_cases hc : x = y ∨ p.src y = none ∨ p.src x = p.src y
      · have hl : linkTo p x f y = f := by unfold linkTo; rw [if_pos hc]
        rw [hl]
        have hno : ∀ {Q : Prop}, (a = x ∧ b ∈ y :: l ∧ ok a b ∧ Q) ↔ (a = x ∧ b ∈ l ∧ ok a b ∧ Q) := by
          intro Q
          constructor
          · rintro ⟨h1, h2, h3, h4⟩
            rw [List.mem_cons] at h2
            rcases h2 with rfl | h2
            · exfalso
              subst h1
              rcases hc with rfl | hc | hc
              · exact h3.2.2 rfl
              · exact h3.2.1 hc
              · exact h3.2.2 hc
            · exact ⟨h1, h2, h3, h4⟩
          · rintro ⟨h1, h2, h3, h4⟩
            exact ⟨h1, List.mem_cons_of_mem _ h2, h3, h4⟩
        rw [hno, hno]
        exact ⟨Iff.rfl, Iff.rfl, Iff.rfl⟩
      · have hok : ok x y := ⟨hx, fun h => hc (Or.inr (Or.inl h)), fun h => hc (Or.inr (Or.inr h))⟩
        have hl : linkTo p x f y = Fps.mk (push f.out x (y, linkTime p x y)) (push f.in_ y (x, linkTime p x y))
            (if p.veryNear x y then push f.eqs x y else f.eqs) := by
          unfold linkTo
          rw [if_neg hc]
          rfl
        rw [hl]
        have hyes : ∀ {Q : Prop}, (a = x ∧ b ∈ y :: l ∧ ok a b ∧ Q) ↔
            ((a = x ∧ b = y ∧ Q) ∨ (a = x ∧ b ∈ l ∧ ok a b ∧ Q)) := by
          intro Q
          constructor
          · rintro ⟨h1, h2, h3, h4⟩
            rw [List.mem_cons] at h2
            rcases h2 with h2 | h2
            · exact Or.inl ⟨h1, h2, h4⟩
            · exact Or.inr ⟨h1, h2, h3, h4⟩
          · rintro (⟨h1, h2, h4⟩ | ⟨h1, h2, h3, h4⟩)
            · exact ⟨h1, by rw [h2]; exact List.mem_cons_self, by rw [h1, h2]; exact hok, h4⟩
            · exact ⟨h1, List.mem_cons_of_mem _ h2, h3, h4⟩
        rw [hyes, hyes]
        refine ⟨?_, ?_, ?_⟩
        · rw [pm]
          have : (a = x ∧ (b, d) = (y, linkTime p x y)) ↔ (a = x ∧ b = y ∧ d = linkTime p a b) := by
            rw [Prod.mk.injEq]
            constructor
            · rintro ⟨rfl, rfl, h⟩; exact ⟨rfl, rfl, h⟩
            · rintro ⟨rfl, rfl, h⟩; exact ⟨rfl, rfl, h⟩
          rw [this, or_assoc]
        · rw [pm]
          have : (b = y ∧ (a, d) = (x, linkTime p x y)) ↔ (a = x ∧ b = y ∧ d = linkTime p a b) := by
            rw [Prod.mk.injEq]
            constructor
            · rintro ⟨rfl, rfl, h⟩; exact ⟨rfl, rfl, h⟩
            · rintro ⟨rfl, rfl, h⟩; exact ⟨rfl, rfl, h⟩
          rw [this, or_assoc]
        · have : (b ∈ (if p.veryNear x y then push f.eqs x y else f.eqs) a) ↔
              b ∈ f.eqs a ∨ (a = x ∧ b = y ∧ p.veryNear a b = true) := by
            by_cases hv : p.veryNear x y = true
            · rw [if_pos hv, pm]
              constructor
              · rintro (h | ⟨rfl, rfl⟩)
                · exact Or.inl h
                · exact Or.inr ⟨rfl, rfl, hv⟩
              · rintro (h | ⟨rfl, rfl, _⟩)
                · exact Or.inl h
                · exact Or.inr ⟨rfl, rfl⟩
            · rw [if_neg hv]
              constructor
              · exact Or.inl
              · rintro (h | ⟨rfl, rfl, h⟩)
                · exact h
                · exact absurd h hv
          rw [this, or_assoc]
  have outer : ∀ (l : List Nat) (f : Fps),
      ((b, d) ∈ (l.foldl (linkFrom p) f).out a ↔ (b, d) ∈ f.out a ∨
        (a ∈ l ∧ p.nowhere a = false ∧ b ∈ p.near a ∧ ok a b ∧ d = linkTime p a b)) ∧
      ((a, d) ∈ (l.foldl (linkFrom p) f).in_ b ↔ (a, d) ∈ f.in_ b ∨
        (a ∈ l ∧ p.nowhere a = false ∧ b ∈ p.near a ∧ ok a b ∧ d = linkTime p a b)) ∧
      (b ∈ (l.foldl (linkFrom p) f).eqs a ↔ b ∈ f.eqs a ∨
        (a ∈ l ∧ p.nowhere a = false ∧ b ∈ p.near a ∧ ok a b ∧ p.veryNear a b = true)) := by
    intro l
    induction l with
    | nil => intro f; simp
    | cons x l ih =>
      intro f
      rw [List.foldl_cons]
      obtain ⟨i1, i2, i3⟩ := ih (linkFrom p f x)
      rw [i1, i2, i3]
      by_cases hc : p.nowhere x = true ∨ p.src x = none
      · have hl : linkFrom p f x = f := by unfold linkFrom; rw [if_pos hc]
        rw [hl]
        have hno : ∀ {Q : Prop}, (a ∈ x :: l ∧ p.nowhere a = false ∧ b ∈ p.near a ∧ ok a b ∧ Q) ↔
            (a ∈ l ∧ p.nowhere a = false ∧ b ∈ p.near a ∧ ok a b ∧ Q) := by
          intro Q
          constructor
          · rintro ⟨h1, h2, h3, h4, h5⟩
            rw [List.mem_cons] at h1
            rcases h1 with rfl | h1
            · exfalso
              rcases hc with hc | hc
              · rw [hc] at h2; cases h2
              · exact h4.1 hc
            · exact ⟨h1, h2, h3, h4, h5⟩
          · rintro ⟨h1, h2⟩
            exact ⟨List.mem_cons_of_mem _ h1, h2⟩
        rw [hno, hno]
        exact ⟨Iff.rfl, Iff.rfl, Iff.rfl⟩
      · have hnw : p.nowhere x = false := by
          cases hh : p.nowhere x with
          | false => rfl
          | true => exact absurd (Or.inl hh) hc
        have hl : linkFrom p f x = (p.near x).foldl (linkTo p x) f := by unfold linkFrom; rw [if_neg hc]
        rw [hl]
        obtain ⟨j1, j2, j3⟩ := inner x (fun h => hc (Or.inr h)) (p.near x) f
        rw [j1, j2, j3]
        have hyes : ∀ {Q : Prop}, (a ∈ x :: l ∧ p.nowhere a = false ∧ b ∈ p.near a ∧ ok a b ∧ Q) ↔
            ((a = x ∧ b ∈ p.near x ∧ ok a b ∧ Q) ∨ (a ∈ l ∧ p.nowhere a = false ∧ b ∈ p.near a ∧ ok a b ∧ Q)) := by
          intro Q
          constructor
          · rintro ⟨h1, h2, h3, h4, h5⟩
            rw [List.mem_cons] at h1
            rcases h1 with rfl | h1
            · exact Or.inl ⟨rfl, h3, h4, h5⟩
            · exact Or.inr ⟨h1, h2, h3, h4, h5⟩
          · rintro (⟨rfl, h3, h4, h5⟩ | ⟨h1, h2⟩)
            · exact ⟨List.mem_cons_self, hnw, h3, h4, h5⟩
            · exact ⟨List.mem_cons_of_mem _ h1, h2⟩
        rw [hyes, hyes, or_assoc, or_assoc, or_assoc]
        exact ⟨Iff.rfl, Iff.rfl, Iff.rfl⟩
  have conv : ∀ {Q : Prop}, (a ∈ List.range p.n ∧ p.nowhere a = false ∧ b ∈ p.near a ∧ ok a b ∧ Q) ↔ (Linked p a b ∧ Q) := by
    intro Q
    rw [List.mem_range]
    constructor
    · rintro ⟨h1, h2, h3, h4, h5⟩
      exact ⟨⟨h1, h2, h4.1, h4.2.1, h4.2.2, h3⟩, h5⟩
    · rintro ⟨⟨h1, h2, h3, h4, h5, h6⟩, h7⟩
      exact ⟨h1, h2, h6, ⟨h3, h4, h5⟩, h7⟩
  obtain ⟨o1, o2, o3⟩ := outer (List.range p.n) f
  rw [conv] at o1 o2 o3
  exact ⟨o1, o2, o3⟩

/-- Locations 0 and 1 of source 0, 2 of source 1, 3 a dummy, all near each other. -/
example :
    let p : Places := ⟨4, fun _ => false, fun x => if x < 2 then some 0 else if x = 2 then some 1 else none, fun _ => [0, 1, 2, 3],
      fun x => x, fun _ _ => 1, fun a b => a + b == 2⟩
    let f := linkNearby p {}
    f.out 0 = [(2, 2)] ∧ f.out 2 = [(0, 2), (1, 2)] ∧ f.in_ 2 = [(0, 2), (1, 2)] ∧ f.out 3 = [] ∧ f.eqs 0 = [2] ∧ f.eqs 1 = [] := by
  decide

end Nigiri.GtfsStops
