import Verif.Model.CachedLookup
/-!
# Property C33: the memoising lookup behaves like the map itself
-/

namespace Nigiri.CachedLookup
variable {K V : Type} [DecidableEq K]

/-- Specification: a plain map with "get or create, then update". -/
def specRun (m : K → Option V) : List (Op K V) → (K → Option V) × List V
  | [] => (m, [])
  | o :: os =>
    let v := (m o.key).getD o.create
    let r := specRun (fun k => if k = o.key then some (o.update v) else m k) os
    (r.1, v :: r.2)

/-- The abstract map represented by the entries. -/
def lookup (m : List (K × V)) (k : K) : Option V := (m.find? (fun e => e.1 = k)).map (·.2)

private structure Inv (c : CachedLookup K V) : Prop where
  nodup : (c.map.map (·.1)).Nodup
  prev : ∀ p, c.prev = some p → p < c.map.length

private theorem lookup_of_get {m : List (K × V)} (hn : (m.map (·.1)).Nodup) {p : Nat} {e : K × V}
    (h : m[p]? = some e) : lookup m e.1 = some e.2 := by
  induction m generalizing p with
  | nil => simp at h
  | cons a m ih =>
    simp only [List.map_cons, List.nodup_cons] at hn
    cases p with
    | zero => simp at h; subst h; simp [lookup]
    | succ p =>
      simp at h
      have hne : a.1 ≠ e.1 := by
        intro heq
        apply hn.1
        rw [heq]
        exact List.mem_map.mpr ⟨e, List.mem_of_getElem? h, rfl⟩
      have := ih hn.2 h
      simp only [lookup, List.find?_cons, hne, decide_false] at this ⊢
      exact this

private theorem lookup_set {m : List (K × V)} {p : Nat} {e : K × V} (hn : (m.map (·.1)).Nodup)
    (h : m[p]? = some e) (v : V) (k : K) :
    lookup (m.set p (e.1, v)) k = if k = e.1 then some v else lookup m k := by
  induction m generalizing p with
  | nil => simp at h
  | cons a m ih =>
    simp only [List.map_cons, List.nodup_cons] at hn
    cases p with
    | zero =>
      simp at h; subst h
      by_cases hk : k = a.1
      · subst hk; simp [lookup]
      · have : ¬ a.1 = k := fun h => hk h.symm
        simp [lookup, hk, this]
    | succ p =>
      simp at h
      have := ih hn.2 h
      have hne : a.1 ≠ e.1 := by
        intro heq
        apply hn.1
        rw [heq]
        exact List.mem_map.mpr ⟨e, List.mem_of_getElem? h, rfl⟩
      by_cases ha : a.1 = k
      · subst ha; simp [lookup, hne]
      · simp only [lookup, List.set_cons_succ, List.find?_cons, ha, decide_false] at this ⊢
        exact this

omit [DecidableEq K] in
private theorem keys_set {m : List (K × V)} {p : Nat} {e : K × V} (h : m[p]? = some e) (v : V) :
    (m.set p (e.1, v)).map (·.1) = m.map (·.1) := by
  induction m generalizing p with
  | nil => simp
  | cons a m ih =>
    cases p with
    | zero => simp at h; subst h; simp
    | succ p => simp at h; simp [ih h]

private theorem lookup_append {m : List (K × V)} {k0 k : K} {v : V} :
    lookup (m ++ [(k0, v)]) k = match lookup m k with
      | some x => some x
      | none => if k = k0 then some v else none := by
  simp only [lookup, List.find?_append]
  cases hf : List.find? (fun e => decide (e.1 = k)) m with
  | some e => simp
  | none =>
    by_cases hk : k0 = k
    · subst hk; simp
    · have : ¬ k = k0 := fun h => hk h.symm
      simp [hk, this]

private theorem locate_spec {c : CachedLookup K V} (h : Inv c) (k : K) (create : V) :
    ∃ m p v, c.locate k create = (m, some p) ∧ (m.map (·.1)).Nodup ∧ m[p]? = some (k, v) ∧
      v = (lookup c.map k).getD create ∧
      (∀ k', k' ≠ k → lookup m k' = lookup c.map k') := by
  have hslow : ∃ m p v, (match mapFind c.map k with
      | none => (c.map ++ [(k, create)], some c.map.length)
      | some i => (c.map, some i)) = (m, some p) ∧ (m.map (·.1)).Nodup ∧ m[p]? = some (k, v) ∧
      v = (lookup c.map k).getD create ∧ (∀ k', k' ≠ k → lookup m k' = lookup c.map k') := by
    cases hf : mapFind c.map k with
    | none =>
      have hnone : ∀ e ∈ c.map, e.1 ≠ k := by
        intro e he heq
        simp only [mapFind, List.findIdx?_eq_none_iff] at hf
        have := hf e he
        simp [heq] at this
      have hl : lookup c.map k = none := by
        simp only [lookup, Option.map_eq_none_iff, List.find?_eq_none]
        intro e he; simp [hnone e he]
      refine ⟨_, _, create, rfl, ?_, by simp, by simp [hl], ?_⟩
      · simp only [List.map_append, List.map_cons, List.map_nil]
        rw [List.nodup_append]
        refine ⟨h.nodup, by simp, ?_⟩
        intro a ha b hb
        simp at hb; subst hb
        obtain ⟨e, he, rfl⟩ := List.mem_map.mp ha
        exact hnone e he
      · intro k' hk'
        rw [lookup_append]
        cases lookup c.map k' <;> simp [hk']
    | some i =>
      simp only [mapFind, List.findIdx?_eq_some_iff_getElem] at hf
      obtain ⟨hi, hk, -⟩ := hf
      have hk : c.map[i].1 = k := by simpa using hk
      have hg : c.map[i]? = some (k, c.map[i].2) := by
        rw [List.getElem?_eq_getElem hi, ← hk]
      refine ⟨_, _, _, rfl, h.nodup, hg, ?_, fun _ _ => rfl⟩
      have := lookup_of_get h.nodup hg
      simp at this
      simp [this]
  unfold locate
  simp only
  cases hp : c.prev with
  | none => exact hslow
  | some p =>
    have hlt := h.prev p hp
    simp only [List.getElem?_eq_getElem hlt]
    split
    · exact hslow
    · rename_i hk
      have hk : c.map[p].1 = k := by simpa using hk
      have hg : c.map[p]? = some (k, c.map[p].2) := by
        rw [List.getElem?_eq_getElem hlt, ← hk]
      refine ⟨_, _, _, rfl, h.nodup, hg, ?_, fun _ _ => rfl⟩
      have := lookup_of_get h.nodup hg
      simp at this
      simp [this]

/-- C33: for every initial map and every sequence of calls (each of which may modify the referenced
value), the memoising lookup is defined, returns exactly what "get or create" on the plain map
returns, and leaves the same map. -/
theorem C33_cached_lookup (m : List (K × V)) (hm : (m.map (·.1)).Nodup) (ops : List (Op K V)) :
    ∃ c' outs, run ⟨m, none⟩ ops = some (c', outs) ∧
      outs = (specRun (lookup m) ops).2 ∧
      ∀ k, lookup c'.map k = (specRun (lookup m) ops).1 k := by
  suffices h : ∀ (c : CachedLookup K V) (f : K → Option V), Inv c → (∀ k, lookup c.map k = f k) →
      ∃ c' outs, run c ops = some (c', outs) ∧ outs = (specRun f ops).2 ∧
        ∀ k, lookup c'.map k = (specRun f ops).1 k from
    h ⟨m, none⟩ (lookup m) ⟨hm, by simp⟩ (fun _ => rfl)
  clear hm m
  induction ops with
  | nil => intro c f h hf; exact ⟨c, [], rfl, rfl, hf⟩
  | cons o os ih =>
    intro c f h hf
    obtain ⟨m, p, v, h1, h2, h3, h4, h5⟩ := locate_spec h o.key o.create
    have hplt : p < m.length := by rw [List.getElem?_eq_some_iff] at h3; exact h3.1
    have hc : c.call o.key o.create o.update = some (⟨m.set p (o.key, o.update v), some p⟩, v) := by
      simp only [call, h1, h3]
    obtain ⟨c', outs, g1, g2, g3⟩ := ih ⟨m.set p (o.key, o.update v), some p⟩
      (fun k => if k = o.key then some (o.update ((f o.key).getD o.create)) else f k)
      ⟨by simp only; rw [keys_set h3 (o.update v)]; exact h2, by simp [hplt]⟩
      (by
        intro k
        simp only
        rw [lookup_set h2 h3 (o.update v) k]
        simp only
        by_cases hk : k = o.key
        · simp [hk, h4, hf]
        · simp [hk, h5 k hk, hf])
    refine ⟨c', v :: outs, by simp only [run, hc, g1], ?_, ?_⟩
    · simp only [specRun, g2, h4, hf]
    · intro k; simp only [specRun, g3]

example : (([("a", 1), ("b", 2)] : List (String × Nat)).map (·.1)).Nodup := by decide

example : (run (⟨[("a", 1)], none⟩ : CachedLookup String Nat)
    [⟨"b", 7, (· + 1)⟩, ⟨"b", 9, (· + 1)⟩, ⟨"a", 0, id⟩]).map (·.2) = some [7, 8, 1] := by decide

end Nigiri.CachedLookup
