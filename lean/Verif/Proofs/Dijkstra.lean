import Verif.Model.Dijkstra
import Verif.Proofs.Dial
/-! Invariants of the Dijkstra loop. -/

namespace Nigiri.Dijkstra
open Dial

/-- `v` is reachable with total distance `d`: start distance plus edge weights along a walk. -/
inductive Walk (M : Nat) (edges : Nat → List Edge) (start : List Nat) : Nat → Nat → Prop
  | start {v d} : start[v]? = some d → d < M → Walk M edges start v d
  | step {u d e} : Walk M edges start u d → e ∈ edges u → Walk M edges start e.target (d + e.duration)

/-- Loop invariant. -/
structure Inv (M : Nat) (edges : Nat → List Edge) (cap : Nat) (start : List Nat) (nb : Nat) (s : State) : Prop where
  pq : Dial.Inv Label.bucket s.pq
  nb : s.pq.nBuckets = nb
  len : s.dists.length = start.length
  mono : ∀ v (h : v < start.length), ∃ d, s.dists[v]? = some d ∧ d ≤ start[v]
  queued : ∀ l ∈ contents s.pq, ∃ d, s.dists[l.l]? = some d ∧ d ≤ l.d
  lab : ∀ l ∈ contents s.pq, l.d < M
  sound : ∀ v d, s.dists[v]? = some d → d < M → Walk M edges start v d
  settled : ∀ v d, s.dists[v]? = some d → d < M → ⟨v, d⟩ ∈ contents s.pq ∨
    ∀ e ∈ edges v, d + e.duration < cap → ∃ t, s.dists[e.target]? = some t ∧ t ≤ d + e.duration

/-- Invariant while expanding the edges of `l` (its label is already removed from the queue): all
nodes but `l` are fine, and for `l` the edges in `done` are relaxed. -/
structure InvE (M : Nat) (edges : Nat → List Edge) (cap : Nat) (start : List Nat) (nb : Nat) (l : Label)
    (done : List Edge) (s : State) : Prop where
  pq : Dial.Inv Label.bucket s.pq
  nb : s.pq.nBuckets = nb
  len : s.dists.length = start.length
  mono : ∀ v (h : v < start.length), ∃ d, s.dists[v]? = some d ∧ d ≤ start[v]
  queued : ∀ l ∈ contents s.pq, ∃ d, s.dists[l.l]? = some d ∧ d ≤ l.d
  lab : ∀ l ∈ contents s.pq, l.d < M
  sound : ∀ v d, s.dists[v]? = some d → d < M → Walk M edges start v d
  self : s.dists[l.l]? = some l.d
  settled : ∀ v d, s.dists[v]? = some d → d < M → v ≠ l.l → ⟨v, d⟩ ∈ contents s.pq ∨
    ∀ e ∈ edges v, d + e.duration < cap → ∃ t, s.dists[e.target]? = some t ∧ t ≤ d + e.duration
  relaxed : ∀ e ∈ done, l.d + e.duration < cap → ∃ t, s.dists[e.target]? = some t ∧ t ≤ l.d + e.duration

theorem sum_set_lt (l : List Nat) (i v : Nat) (x : Nat) (h : l[i]? = some x) (hv : v < x) :
    (l.set i v).sum + 1 ≤ l.sum := by
  induction l generalizing i with
  | nil => simp at h
  | cons a l ih =>
    cases i with
    | zero => simp at h; subst h; simp; omega
    | succ i =>
      simp only [List.getElem?_cons_succ] at h
      have := ih i h
      simp only [List.set_cons_succ, List.sum_cons]
      omega

variable {edges : Nat → List Edge} {M cap maxDist nb : Nat} {start : List Nat}

theorem expand_spec (hM : ∀ d ∈ start, ∀ x, x < d → x < nb → x < M) (hcap : cap = min nb maxDist) {l : Label} {done : List Edge} {s : State} {e : Edge}
    (h : InvE M edges cap start nb l done s) (hl : l.d < M) (he : e ∈ edges l.l)
    (ht : e.target < start.length) :
    ∃ s', expand maxDist l s e = some s' ∧ InvE M edges cap start nb l (done ++ [e]) s' ∧
      s'.dists.sum + s'.pq.size ≤ s.dists.sum + s.pq.size := by
  obtain ⟨cur, hcur, hcur'⟩ := h.mono e.target ht
  by_cases hc : l.d + e.duration < cur ∧ l.d + e.duration < s.pq.nBuckets ∧ l.d + e.duration < maxDist
  · obtain ⟨pq', hp1, hp2, hp3, hp4⟩ := push_spec h.pq (⟨e.target, l.d + e.duration⟩ : Label)
      (by simp only [Label.bucket]; exact hc.2.1)
    have hne : e.target ≠ l.l := by
      intro heq; rw [heq, h.self] at hcur; have := Option.some.inj hcur; omega
    have hlen : e.target < s.dists.length := by rw [h.len]; exact ht
    have hget : ∀ v, (s.dists.set e.target (l.d + e.duration))[v]?
        = if e.target = v then some (l.d + e.duration) else s.dists[v]? := by
      intro v
      rw [List.getElem?_set]
      split
      · simp
      · rfl
    have hmem : ∀ x, x ∈ contents pq' ↔ x = ⟨e.target, l.d + e.duration⟩ ∨ x ∈ contents s.pq := by
      intro x; rw [hp4.mem_iff]; simp
    have hle : ∀ (v d : Nat), s.dists[v]? = some d → ∃ t, (s.dists.set e.target (l.d + e.duration))[v]? = some t ∧ t ≤ d := by
      intro v d hv
      rw [hget]
      split
      · rename_i heq; subst heq; rw [hcur] at hv; have := Option.some.inj hv
        exact ⟨_, rfl, by omega⟩
      · exact ⟨d, hv, Nat.le_refl _⟩
    refine ⟨⟨pq', s.dists.set e.target (l.d + e.duration)⟩, ?_, ?_, ?_⟩
    · simp only [expand, hcur, if_pos hc, hp1]
    · refine ⟨hp2, hp3.trans h.nb, by simp [h.len], ?_, ?_, ?_, ?_, ?_, ?_, ?_⟩
      · intro v hv
        obtain ⟨d, hd, hd'⟩ := h.mono v hv
        obtain ⟨t, ht1, ht2⟩ := hle v d hd
        exact ⟨t, ht1, by omega⟩
      · intro x hx
        rw [hmem] at hx
        rcases hx with rfl | hx
        · exact ⟨_, by rw [hget]; simp, Nat.le_refl _⟩
        · obtain ⟨d, hd, hd'⟩ := h.queued x hx
          obtain ⟨t, ht1, ht2⟩ := hle _ d hd
          exact ⟨t, ht1, by omega⟩
      · intro x hx
        rw [hmem] at hx
        rcases hx with rfl | hx
        · show l.d + e.duration < M
          exact hM start[e.target] (List.getElem_mem _) _ (by omega) (by have := h.nb; omega)
        · exact h.lab x hx
      · intro v d hv hd
        simp only at hv
        rw [hget] at hv
        split at hv
        · rename_i heq
          have := Option.some.inj hv
          subst this; subst heq
          exact Walk.step (h.sound l.l l.d h.self hl) he
        · exact h.sound v d hv hd
      · simp only; rw [hget, if_neg hne]; exact h.self
      · intro v d hv hd hvl
        simp only at hv
        rw [hget] at hv
        split at hv
        · rename_i heq
          have := Option.some.inj hv
          subst this; subst heq
          exact Or.inl ((hmem _).mpr (Or.inl rfl))
        · rcases h.settled v d hv hd hvl with hq | hset
          · exact Or.inl ((hmem _).mpr (Or.inr hq))
          · refine Or.inr (fun e' he' hcap' => ?_)
            obtain ⟨t, ht1, ht2⟩ := hset e' he' hcap'
            obtain ⟨t', ht1', ht2'⟩ := hle _ t ht1
            exact ⟨t', ht1', by omega⟩
      · intro e' he' hcap'
        simp only [List.mem_append, List.mem_singleton] at he'
        rcases he' with he' | rfl
        · obtain ⟨t, ht1, ht2⟩ := h.relaxed e' he' hcap'
          obtain ⟨t', ht1', ht2'⟩ := hle _ t ht1
          exact ⟨t', ht1', by omega⟩
        · exact ⟨_, by simp only; rw [hget]; simp, Nat.le_refl _⟩
    · have h1 := sum_set_lt s.dists e.target (l.d + e.duration) cur hcur hc.1
      have h2 := hp2.size_eq
      have h3 := h.pq.size_eq
      have h4 := hp4.length_eq
      simp only [List.length_cons] at h4
      simp only
      omega
  · refine ⟨s, by simp only [expand, hcur, if_neg hc], ?_, Nat.le_refl _⟩
    refine ⟨h.pq, h.nb, h.len, h.mono, h.queued, h.lab, h.sound, h.self, h.settled, ?_⟩
    intro e' he' hcap'
    simp only [List.mem_append, List.mem_singleton] at he'
    rcases he' with he' | rfl
    · exact h.relaxed e' he' hcap'
    · refine ⟨cur, hcur, ?_⟩
      have := h.nb
      rw [hcap] at hcap'
      omega

theorem expandAll_spec (hM : ∀ d ∈ start, ∀ x, x < d → x < nb → x < M) (hcap : cap = min nb maxDist) {l : Label} (hl : l.d < M) :
    ∀ (es done : List Edge) (s : State), InvE M edges cap start nb l done s →
      (∀ e ∈ es, e ∈ edges l.l) → (∀ e ∈ es, e.target < start.length) →
      ∃ s', expandAll maxDist l s es = some s' ∧ InvE M edges cap start nb l (done ++ es) s' ∧
        s'.dists.sum + s'.pq.size ≤ s.dists.sum + s.pq.size := by
  intro es
  induction es with
  | nil => intro done s h _ _; exact ⟨s, rfl, by simpa using h, Nat.le_refl _⟩
  | cons e es ih =>
    intro done s h h1 h2
    obtain ⟨s', hs1, hs2, hs3⟩ := expand_spec hM hcap h hl (h1 e (by simp)) (h2 e (by simp))
    obtain ⟨s'', ht1, ht2, ht3⟩ := ih (done ++ [e]) s' hs2 (fun e' he' => h1 e' (by simp [he']))
      (fun e' he' => h2 e' (by simp [he']))
    refine ⟨s'', ?_, by simpa using ht2, by omega⟩
    simp only [expandAll, hs1, ht1]

theorem iterate_spec (hM : ∀ d ∈ start, ∀ x, x < d → x < nb → x < M) (hcap : cap = min nb maxDist)
    (hedges : ∀ v e, e ∈ edges v → e.target < start.length) {s : State}
    (h : Inv M edges cap start nb s) (hne : contents s.pq ≠ []) :
    ∃ s', iterate edges maxDist s = some s' ∧ Inv M edges cap start nb s' ∧
      s'.dists.sum + s'.pq.size < s.dists.sum + s.pq.size := by
  obtain ⟨l, pq', ht, hinv, hn, hperm, -⟩ := take_spec h.pq hne
  have hlmem : l ∈ contents s.pq := by rw [hperm.mem_iff]; simp
  obtain ⟨cur, hcur, hcur'⟩ := h.queued l hlmem
  have hsz : pq'.size + 1 = s.pq.size := by
    have h1 := hinv.size_eq
    have h2 := h.pq.size_eq
    have h3 := hperm.length_eq
    simp only [List.length_cons] at h3
    omega
  have hmem : ∀ x, x ∈ contents s.pq ↔ x = l ∨ x ∈ contents pq' := by
    intro x; rw [hperm.mem_iff]; simp
  have hq' : ∀ x ∈ contents pq', ∃ d, s.dists[x.l]? = some d ∧ d ≤ x.d :=
    fun x hx => h.queued x ((hmem x).mpr (Or.inr hx))
  have hlab' : ∀ x ∈ contents pq', x.d < M := fun x hx => h.lab x ((hmem x).mpr (Or.inr hx))
  by_cases hlt : cur < l.d
  · refine ⟨⟨pq', s.dists⟩, by simp only [iterate, ht, hcur, if_pos hlt], ?_, by simp only; omega⟩
    refine ⟨hinv, hn.trans h.nb, h.len, h.mono, hq', hlab', h.sound, ?_⟩
    intro v d hv hd
    rcases h.settled v d hv hd with hq | hset
    · rw [hmem] at hq
      rcases hq with hq | hq
      · subst hq
        simp only at hcur hlt
        rw [hv] at hcur
        have := Option.some.inj hcur
        omega
      · exact Or.inl hq
    · exact Or.inr hset
  · have hld : cur = l.d := by omega
    subst hld
    have hl : l.d < M := h.lab l hlmem
    have hE : InvE M edges cap start nb l [] ⟨pq', s.dists⟩ := by
      refine ⟨hinv, hn.trans h.nb, h.len, h.mono, hq', hlab', h.sound, hcur, ?_, by simp⟩
      intro v d hv hd hvl
      rcases h.settled v d hv hd with hq | hset
      · rw [hmem] at hq
        rcases hq with hq | hq
        · rw [← hq] at hvl; simp at hvl
        · exact Or.inl hq
      · exact Or.inr hset
    obtain ⟨s', hs1, hs2, hs3⟩ := expandAll_spec hM hcap hl (edges l.l) [] _ hE (fun e he => he)
      (fun e he => hedges l.l e he)
    refine ⟨s', by simp only [iterate, ht, hcur, if_neg hlt, hs1], ?_, by simp only at hs3; omega⟩
    refine ⟨hs2.pq, hs2.nb, hs2.len, hs2.mono, hs2.queued, hs2.lab, hs2.sound, ?_⟩
    intro v d hv hd
    by_cases hvl : v = l.l
    · subst hvl
      rw [hs2.self] at hv
      have := Option.some.inj hv
      subst this
      refine Or.inr (fun e he hc => ?_)
      exact hs2.relaxed e (by simpa using he) hc
    · exact hs2.settled v d hv hd hvl

theorem labels_lt {pq : Dial Label} (h : Dial.Inv Label.bucket pq) : ∀ x ∈ contents pq, x.d < pq.nBuckets := by
  intro x hx
  obtain ⟨i, hi⟩ := mem_contents.mp hx
  have := h.bucket i x hi
  simp only [Label.bucket] at this
  by_cases hl : i < pq.buckets.length
  · unfold nBuckets; omega
  · simp [List.getD_eq_getElem?_getD, hl] at hi

theorem loop_spec (hM : ∀ d ∈ start, ∀ x, x < d → x < nb → x < M) (hcap : cap = min nb maxDist)
    (hedges : ∀ v e, e ∈ edges v → e.target < start.length) :
    ∀ (n : Nat) (s : State), Inv M edges cap start nb s → s.dists.sum + s.pq.size ≤ n →
      ∃ s', loop edges maxDist n s = some s' ∧ Inv M edges cap start nb s' ∧ contents s'.pq = [] := by
  intro n
  induction n with
  | zero =>
    intro s h hb
    have h0 : s.pq.size = 0 := by omega
    have he : s.pq.empty = true := by simp [empty, h0]
    exact ⟨s, by simp [loop, he], h, (empty_iff h.pq).mp he⟩
  | succ n ih =>
    intro s h hb
    by_cases he : s.pq.empty = true
    · exact ⟨s, by simp [loop, he], h, (empty_iff h.pq).mp he⟩
    · have hne : contents s.pq ≠ [] := fun hc => he ((empty_iff h.pq).mpr hc)
      obtain ⟨s', h1, h2, h3⟩ := iterate_spec hM hcap hedges h hne
      obtain ⟨s'', h4, h5, h6⟩ := ih s' h2 (by omega)
      refine ⟨s'', ?_, h5, h6⟩
      simp only [loop, he, Bool.false_eq_true, if_false, h1, h4]

theorem inv_optimal {s : State} (h : Inv M edges cap start nb s) (he : contents s.pq = [])
    (hcapm : cap ≤ M) :
    ∀ {v d}, Walk M edges start v d → d < cap → ∃ t, s.dists[v]? = some t ∧ t ≤ d := by
  intro v d hw
  induction hw with
  | @start v d hs hd =>
    intro _
    have hv : v < start.length := by
      rw [List.getElem?_eq_some_iff] at hs; exact hs.1
    obtain ⟨t, ht, ht'⟩ := h.mono v hv
    have : start[v] = d := by rw [List.getElem?_eq_some_iff] at hs; exact hs.2
    exact ⟨t, ht, by omega⟩
  | @step u d e hw he' ih =>
    intro hc
    obtain ⟨t, ht, ht'⟩ := ih (by omega)
    rcases h.settled u t ht (by omega) with hq | hset
    · rw [he] at hq; simp at hq
    · obtain ⟨t', h1, h2⟩ := hset e he' (by omega)
      exact ⟨t', h1, by omega⟩

/-! ### Distances below the limits -/

/-- Nothing but distances below the limits is ever written. -/
def Capped (maxDist nb : Nat) (a b : List Nat) : Prop :=
  ∀ v : Nat, b[v]? = a[v]? ∨ ∃ d, b[v]? = some d ∧ d < nb ∧ d < maxDist

theorem Capped.trans {maxDist nb : Nat} {a b c : List Nat} (h1 : Capped maxDist nb a b)
    (h2 : Capped maxDist nb b c) : Capped maxDist nb a c := by
  intro v
  rcases h2 v with h | h
  · rw [h]; exact h1 v
  · exact .inr h

theorem push_nBuckets {α : Type} {key : α → Nat} {x : α} {d d' : Dial α} (h : d.push key x = some d') :
    d'.nBuckets = d.nBuckets := by
  unfold Dial.push at h
  simp only at h
  split at h
  · have := Option.some.inj h
    rw [← this]; simp [Dial.nBuckets]
  · simp at h

theorem take_nBuckets {α : Type} {x : α} {d d' : Dial α} (h : d.take = some (x, d')) :
    d'.nBuckets = d.nBuckets := by
  unfold Dial.take at h
  split at h
  · simp at h
  · rename_i y d1 h1
    split at h
    · simp at h
    · rename_i d2 h2
      simp only [Option.some.injEq, Prod.mk.injEq] at h
      rw [← h.2]
      have e1 : d1.nBuckets = d.nBuckets := by
        unfold Dial.top at h1
        split at h1
        · simp at h1
        · simp only at h1
          split at h1
          · simp at h1
          · simp only [Option.some.injEq, Prod.mk.injEq] at h1
            rw [← h1.2]; rfl
      have e2 : d2.nBuckets = d1.nBuckets := by
        unfold Dial.pop at h2
        split at h2
        · simp at h2
        · simp only at h2
          split at h2
          · have := Option.some.inj h2
            rw [← this]; simp [Dial.nBuckets]
          · simp at h2
      rw [e2, e1]

theorem expand_capped {maxDist : Nat} {l : Label} {s s' : State} {e : Edge}
    (h : expand maxDist l s e = some s') :
    s'.pq.nBuckets = s.pq.nBuckets ∧ Capped maxDist s.pq.nBuckets s.dists s'.dists := by
  unfold expand at h
  split at h
  · simp at h
  · rename_i cur hcur
    simp only at h
    split at h
    · rename_i hlt
      split at h
      · simp at h
      · rename_i pq' hpq
        have := Option.some.inj h
        subst this
        refine ⟨push_nBuckets hpq, ?_⟩
        intro v
        by_cases hv : e.target = v
        · subst hv
          have : e.target < s.dists.length := by
            rw [List.getElem?_eq_some_iff] at hcur; exact hcur.1
          exact .inr ⟨_, List.getElem?_set_self this, hlt.2.1, hlt.2.2⟩
        · exact .inl (List.getElem?_set_ne hv)
    · have := Option.some.inj h
      subst this
      exact ⟨rfl, fun v => .inl rfl⟩

theorem expandAll_capped {maxDist : Nat} {l : Label} : ∀ {es : List Edge} {s s' : State},
    expandAll maxDist l s es = some s' →
    s'.pq.nBuckets = s.pq.nBuckets ∧ Capped maxDist s.pq.nBuckets s.dists s'.dists := by
  intro es
  induction es with
  | nil => intro s s' h; have := Option.some.inj h; subst this; exact ⟨rfl, fun v => .inl rfl⟩
  | cons e es ih =>
    intro s s' h
    rw [expandAll] at h
    split at h
    · simp at h
    · rename_i s1 h1
      obtain ⟨a1, a2⟩ := expand_capped h1
      obtain ⟨b1, b2⟩ := ih h
      rw [a1] at b1 b2
      exact ⟨b1, a2.trans b2⟩

theorem loop_capped {edges : Nat → List Edge} {maxDist : Nat} : ∀ {n : Nat} {s s' : State},
    loop edges maxDist n s = some s' → Capped maxDist s.pq.nBuckets s.dists s'.dists := by
  intro n
  induction n with
  | zero =>
    intro s s' h
    rw [loop] at h
    split at h
    · have := Option.some.inj h; subst this; exact fun v => .inl rfl
    · simp at h
  | succ n ih =>
    intro s s' h
    rw [loop] at h
    split at h
    · have := Option.some.inj h; subst this; exact fun v => .inl rfl
    · split at h
      · simp at h
      · rename_i s1 h1
        have key : s1.pq.nBuckets = s.pq.nBuckets ∧ Capped maxDist s.pq.nBuckets s.dists s1.dists := by
          unfold iterate at h1
          split at h1
          · simp at h1
          · rename_i l pq' ht
            have hnb := take_nBuckets ht
            split at h1
            · simp at h1
            · split at h1
              · have := Option.some.inj h1; subst this; exact ⟨hnb, fun v => .inl rfl⟩
              · obtain ⟨a1, a2⟩ := expandAll_capped h1
                simp only at a1 a2
                rw [hnb] at a1 a2
                exact ⟨a1, a2⟩
        have := ih h
        rw [key.1] at this
        exact key.2.trans this

end Nigiri.Dijkstra
