import Verif.Model.FastestDirect
import Verif.Proofs.Dijkstra
/-!
# Property C39: the fastest direct connection
-/

namespace Nigiri.FastestDirect
open Dijkstra Dial

/-- Specification: a way from the origin to a location: a start offset (of a start location or one
of its equivalent/child stops), then footpaths, each leading to a destination stop. -/
inductive Way (q : Input) : Nat → Nat → Prop
  | start {t dur m} : (t, dur) ∈ q.start → m ∈ q.metas t → Way q m dur
  | walk {u d e o} : Way q u d → e ∈ q.footpaths u → (e.target, o) ∈ q.dest → Way q e.target (d + q.adj e.duration)

/-- Specification: a direct connection of duration `D`: a way to a destination and its offset. -/
def Direct (q : Input) (D : Nat) : Prop := ∃ v d o, Way q v d ∧ (v, o) ∈ q.dest ∧ D = d + o

/-- Valid input: location indices in range, the end station is no stop, start offsets fit the queue. -/
structure Ok (q : Input) : Prop where
  startIdx : ∀ s ∈ q.start, ∀ m ∈ q.metas s.1, m < q.n
  destIdx : ∀ o ∈ q.dest, o.1 < q.n
  noEnd : ∀ s ∈ q.start, ∀ m ∈ q.metas s.1, m ≠ q.kEnd
  noEnd' : ∀ o ∈ q.dest, o.1 ≠ q.kEnd
  startDur : ∀ s ∈ q.start, s.2 < 32767 ∧ s.2 < q.maxDist

/-- The iteration order of the hash map: every start stop once. -/
structure Keys (q : Input) (keys : List Nat) : Prop where
  nodup : keys.Nodup
  mem : ∀ m, m ∈ keys ↔ ∃ s ∈ q.start, m ∈ q.metas s.1

/-! ### Destination offsets -/

theorem lookup_map_self (m : List (Nat × Nat)) (k d : Nat) (k' : Nat) :
    (m.map (fun p => if p.1 = k then (p.1, d) else p)).lookup k' =
      if k' = k then (m.lookup k').map (fun _ => d) else m.lookup k' := by
  induction m with
  | nil => simp
  | cons p m ih =>
    obtain ⟨a, b⟩ := p
    by_cases ha : a = k
    · subst ha
      simp only [List.map_cons, if_true, List.lookup_cons, ih]
      by_cases hk : k' = a
      · subst hk; simp
      · have : (k' == a) = false := by simpa using hk
        simp [hk, this]
    · simp only [List.map_cons, if_neg ha, List.lookup_cons, ih]
      by_cases hk : k' = k
      · subst hk
        have : (k' == a) = false := by simp; exact fun h => ha h.symm
        simp [this]
      · simp [hk]

theorem lookup_snoc (m : List (Nat × Nat)) (p : Nat × Nat) (k : Nat) :
    (m ++ [p]).lookup k = match m.lookup k with | some d => some d | none => if k = p.1 then some p.2 else none := by
  induction m with
  | nil =>
    obtain ⟨a, b⟩ := p
    simp only [List.nil_append, List.lookup_cons, List.lookup_nil]
    by_cases h : k = a
    · simp [h]
    · have : (k == a) = false := by simpa using h
      simp [this, h]
  | cons x m ih =>
    obtain ⟨a, b⟩ := x
    simp only [List.cons_append, List.lookup_cons]
    by_cases h : k = a
    · simp [h]
    · have : (k == a) = false := by simpa using h
      simp [this, ih]

theorem addDest_lookup (m : List (Nat × Nat)) (o : Nat × Nat) (k : Nat) :
    (addDest m o).lookup k = if k = o.1 then some (match m.lookup k with | some d => min d o.2 | none => o.2)
      else m.lookup k := by
  unfold addDest
  by_cases hk : k = o.1
  · subst hk
    rw [if_pos rfl]
    split
    · rename_i d hd
      split
      · rename_i h
        rw [lookup_map_self, if_pos rfl, hd]
        simp only [Option.map_some]; congr 1; omega
      · rename_i h; rw [hd]; simp only; congr 1; omega
    · rename_i hd
      rw [lookup_snoc, hd]; simp
  · rw [if_neg hk]
    split
    · split
      · rw [lookup_map_self, if_neg hk]
      · rfl
    · rw [lookup_snoc]; cases m.lookup k <;> simp [hk]

/-- The shortest offset of each destination. -/
theorem destOffsets_spec (q : Input) (k : Nat) :
    (∀ d, (destOffsets q).lookup k = some d → (k, d) ∈ q.dest) ∧
    (∀ o, (k, o) ∈ q.dest → ∃ d, (destOffsets q).lookup k = some d ∧ d ≤ o) := by
  have key : ∀ (ds : List (Nat × Nat)) (m : List (Nat × Nat)),
      (∀ d, (ds.foldl addDest m).lookup k = some d → (k, d) ∈ ds ∨ m.lookup k = some d) ∧
      (∀ o, ((k, o) ∈ ds ∨ m.lookup k = some o) → ∃ d, (ds.foldl addDest m).lookup k = some d ∧ d ≤ o) := by
    intro ds
    induction ds with
    | nil => intro m; exact ⟨fun d h => Or.inr h, fun o h => ⟨o, by simpa using h, Nat.le_refl _⟩⟩
    | cons p ds ih =>
      intro m
      rw [List.foldl_cons]
      obtain ⟨h1, h2⟩ := ih (addDest m p)
      constructor
      · intro d hd
        rcases h1 d hd with h | h
        · exact Or.inl (List.mem_cons_of_mem _ h)
        · rw [addDest_lookup] at h
          split at h
          · rename_i hk
            have hd := Option.some.inj h
            obtain ⟨a, b⟩ := p
            simp only at hk hd
            cases hm : m.lookup k with
            | none => rw [hm] at hd; left; simp at hd; rw [hk, ← hd]; simp
            | some x =>
              rw [hm] at hd
              simp only at hd
              rcases Nat.le_total x b with hxb | hxb
              · right; rw [← hd, Nat.min_eq_left hxb]
              · left; rw [← hd, Nat.min_eq_right hxb, hk]; simp
          · exact Or.inr h
      · intro o ho
        have : ∃ o', (addDest m p).lookup k = some o' ∧ o' ≤ o ∨ (k, o) ∈ ds := by
          rcases ho with ho | ho
          · rcases List.mem_cons.mp ho with ho | ho
            · refine ⟨_, Or.inl ⟨by rw [addDest_lookup, if_pos (by rw [← ho])], ?_⟩⟩
              rw [← ho]
              cases m.lookup k <;> simp <;> omega
            · exact ⟨0, Or.inr ho⟩
          · by_cases hk : k = p.1
            · refine ⟨min o p.2, Or.inl ⟨by rw [addDest_lookup, if_pos hk, ho], by omega⟩⟩
            · exact ⟨o, Or.inl ⟨by rw [addDest_lookup, if_neg hk, ho], Nat.le_refl _⟩⟩
        obtain ⟨o', h | h⟩ := this
        · obtain ⟨d, hd, hle⟩ := h2 o' (Or.inr h.1)
          exact ⟨d, hd, by omega⟩
        · exact h2 o (Or.inl h)
  obtain ⟨h1, h2⟩ := key q.dest []
  exact ⟨fun d hd => by simpa using h1 d hd, fun o ho => h2 o (Or.inl ho)⟩

theorem edges_spec {q : Input} {u : Nat} {e : Edge} :
    e ∈ edges q u ↔ ∃ f o, f ∈ q.footpaths u ∧ (f.target, o) ∈ q.dest ∧ e = ⟨f.target, q.adj f.duration⟩ := by
  simp only [edges, List.mem_filterMap]
  constructor
  · rintro ⟨f, hf, he⟩
    split at he
    · rename_i h
      obtain ⟨d, hd⟩ := Option.isSome_iff_exists.mp h
      exact ⟨f, d, hf, (destOffsets_spec q f.target).1 d hd, (Option.some.inj he).symm⟩
    · cases he
  · rintro ⟨f, o, hf, ho, rfl⟩
    obtain ⟨d, hd, _⟩ := (destOffsets_spec q f.target).2 o ho
    exact ⟨f, hf, by rw [if_pos (by rw [hd]; rfl)]⟩

/-! ### Start distances -/

theorem initOne_spec (d : List Nat) (m dur v : Nat) (hd : ∀ x ∈ d, x ≤ unreachable) (hm : m < d.length) :
    (initOne d m dur).length = d.length ∧ (∀ x ∈ initOne d m dur, x ≤ unreachable) ∧
    (initOne d m dur)[v]? = if v = m then (d[v]?).map (fun x => min dur x) else d[v]? := by
  unfold initOne
  have hget : d.getD m unreachable = d[m] := by
    rw [List.getD_eq_getElem?_getD, List.getElem?_eq_getElem hm]; rfl
  have hle := hd d[m] (List.getElem_mem _)
  refine ⟨by simp, ?_, ?_⟩
  · intro x hx
    rcases List.mem_or_eq_of_mem_set hx with h | h
    · exact hd x h
    · rw [hget] at h; omega
  · by_cases hv : v = m
    · subst hv
      rw [if_pos rfl, List.getElem?_set_self hm, hget, List.getElem?_eq_getElem hm]; rfl
    · rw [if_neg hv, List.getElem?_set_ne (fun h => hv h.symm)]

/-- Value of a location after taking the minimum with a list of (location, duration). -/
theorem initList_spec (v : Nat) : ∀ (ps : List (Nat × Nat)) (d : List Nat),
    (∀ x ∈ d, x ≤ unreachable) → (∀ p ∈ ps, p.1 < d.length) →
    (ps.foldl (fun d p => initOne d p.1 p.2) d).length = d.length ∧
    (∀ x ∈ ps.foldl (fun d p => initOne d p.1 p.2) d, x ≤ unreachable) ∧
    ∀ x, d[v]? = some x → ∃ y, (ps.foldl (fun d p => initOne d p.1 p.2) d)[v]? = some y ∧ y ≤ x ∧
      (y = x ∨ (v, y) ∈ ps) ∧ ∀ dur, (v, dur) ∈ ps → y ≤ dur := by
  intro ps
  induction ps with
  | nil => intro d h1 _; exact ⟨rfl, h1, fun x hx => ⟨x, hx, Nat.le_refl _, Or.inl rfl, by simp⟩⟩
  | cons p ps ih =>
    intro d h1 h2
    obtain ⟨a, b, c⟩ := initOne_spec d p.1 p.2 v h1 (h2 p (by simp))
    obtain ⟨h3, h4, h5⟩ := ih (initOne d p.1 p.2) b (fun p' hp' => by rw [a]; exact h2 p' (by simp [hp']))
    rw [List.foldl_cons]
    refine ⟨by rw [h3, a], h4, ?_⟩
    intro x hx
    rw [hx] at c
    by_cases hv : v = p.1
    · rw [if_pos hv] at c
      obtain ⟨y, hy, hyx, hyp, hle⟩ := h5 (min p.2 x) c
      refine ⟨y, hy, by omega, ?_, ?_⟩
      · rcases hyp with rfl | h
        · rcases Nat.le_total p.2 x with h | h
          · right; rw [Nat.min_eq_left h, hv]; simp
          · left; exact Nat.min_eq_right h
        · right; simp [h]
      · intro dur hdur
        rcases List.mem_cons.mp hdur with h | h
        · have : p.2 = dur := by rw [← h]
          omega
        · exact hle dur h
    · rw [if_neg hv] at c
      obtain ⟨y, hy, hyx, hyp, hle⟩ := h5 _ c
      refine ⟨y, hy, hyx, ?_, ?_⟩
      · rcases hyp with rfl | h
        · exact Or.inl rfl
        · right; simp [h]
      · intro dur hdur
        rcases List.mem_cons.mp hdur with h | h
        · exact absurd (by rw [← h]) hv
        · exact hle dur h

/-- Start stops with durations, flattened. -/
def startList (q : Input) : List (Nat × Nat) := q.start.flatMap fun s => (q.metas s.1).map fun m => (m, s.2)

theorem initDists_eq (q : Input) :
    initDists q = (startList q).foldl (fun d p => initOne d p.1 p.2) (List.replicate q.n unreachable) := by
  unfold initDists startList
  generalize List.replicate q.n unreachable = d
  induction q.start generalizing d with
  | nil => rfl
  | cons s ss ih =>
    simp only [List.foldl_cons, List.flatMap_cons, List.foldl_append, ih]
    congr 1
    rw [List.foldl_map]

theorem mem_startList {q : Input} {m dur : Nat} :
    (m, dur) ∈ startList q ↔ ∃ t, (t, dur) ∈ q.start ∧ m ∈ q.metas t := by
  simp only [startList, List.mem_flatMap, List.mem_map, Prod.mk.injEq, Prod.exists]
  constructor
  · rintro ⟨a, b, h1, c, h2, rfl, rfl⟩; exact ⟨a, h1, h2⟩
  · rintro ⟨t, h1, h2⟩; exact ⟨t, dur, h1, m, h2, rfl, rfl⟩

theorem initDists_spec {q : Input} (h : Ok q) :
    (initDists q).length = q.n ∧ (∀ x ∈ initDists q, x ≤ unreachable) ∧
    ∀ v, v < q.n → ∃ y, (initDists q)[v]? = some y ∧
      (y = unreachable ∨ ∃ t, (t, y) ∈ q.start ∧ v ∈ q.metas t) ∧
      ∀ t dur, (t, dur) ∈ q.start → v ∈ q.metas t → y ≤ dur := by
  rw [initDists_eq]
  have hidx : ∀ p ∈ startList q, p.1 < (List.replicate q.n unreachable).length := by
    intro p hp
    obtain ⟨m, dur⟩ := p
    obtain ⟨t, h1, h2⟩ := mem_startList.mp hp
    simpa using h.startIdx _ h1 m h2
  have hle : ∀ x ∈ List.replicate q.n unreachable, x ≤ unreachable := by
    intro x hx; rw [(List.mem_replicate.mp hx).2]; exact Nat.le_refl _
  refine ⟨by rw [(initList_spec 0 _ _ hle hidx).1]; simp, (initList_spec 0 _ _ hle hidx).2.1, ?_⟩
  intro v hv
  obtain ⟨y, h1, _, h3, h4⟩ := (initList_spec v _ _ hle hidx).2.2 unreachable (by
    rw [List.getElem?_replicate, if_pos hv])
  refine ⟨y, h1, ?_, ?_⟩
  · rcases h3 with h | h
    · exact Or.inl h
    · exact Or.inr (mem_startList.mp h)
  · intro t dur ht hm
    exact h4 dur (mem_startList.mpr ⟨t, ht, hm⟩)

theorem pushAll_spec (dists : List Nat) (nb : Nat) : ∀ (keys : List Nat) (pq : Dial Label),
    Dial.Inv Label.bucket pq → pq.nBuckets = nb → (∀ k ∈ keys, dists.getD k unreachable < nb) →
    ∃ pq', pushAll dists keys pq = some pq' ∧ Dial.Inv Label.bucket pq' ∧ pq'.nBuckets = nb ∧
      ∀ x, x ∈ contents pq' ↔ x ∈ contents pq ∨ (x.l ∈ keys ∧ x.d = dists.getD x.l unreachable) := by
  intro keys
  induction keys with
  | nil => intro pq h1 h2 _; exact ⟨pq, rfl, h1, h2, by simp⟩
  | cons k ks ih =>
    intro pq h1 h2 h3
    obtain ⟨pq1, a, b, c, d⟩ := push_spec h1 (⟨k, dists.getD k unreachable⟩ : Label) (by
      rw [h2]; exact h3 k (by simp))
    obtain ⟨pq2, a', b', c', d'⟩ := ih pq1 b (c.trans h2) (fun k' hk' => h3 k' (by simp [hk']))
    refine ⟨pq2, by simp only [pushAll, a, a'], b', c', ?_⟩
    intro x
    rw [d', d.mem_iff]
    obtain ⟨xl, xd⟩ := x
    simp only [List.mem_cons, Label.mk.injEq]
    constructor
    · rintro ((⟨rfl, rfl⟩ | h) | ⟨h1, h2⟩)
      · exact Or.inr ⟨Or.inl rfl, rfl⟩
      · exact Or.inl h
      · exact Or.inr ⟨Or.inr h1, h2⟩
    · rintro (h | ⟨rfl | h1, h2⟩)
      · exact Or.inl (Or.inr h)
      · exact Or.inl (Or.inl ⟨rfl, h2⟩)
      · exact Or.inr ⟨h1, h2⟩

/-! ### The loop -/

theorem expand_changed {maxDist : Nat} {l : Label} {s s' : State} {e : Edge} (h : Dial.Inv Label.bucket s.pq)
    (he : expand maxDist l s e = some s') :
    Dial.Inv Label.bucket s'.pq ∧ (∀ x ∈ contents s.pq, x ∈ contents s'.pq) ∧
    (∀ x ∈ contents s'.pq, x ∈ contents s.pq ∨ x.l = e.target) ∧
    ∀ (v d : Nat), s'.dists[v]? = some d → s.dists[v]? = some d ∨ ⟨v, d⟩ ∈ contents s'.pq := by
  unfold expand at he
  split at he
  · cases he
  · rename_i cur hcur
    simp only at he
    split at he
    · rename_i hc
      obtain ⟨pq', a, b, _, d⟩ := push_spec h (⟨e.target, l.d + e.duration⟩ : Label) hc.2.1
      rw [a] at he
      simp only [Option.some.injEq] at he
      subst he
      refine ⟨b, fun x hx => d.mem_iff.mpr (List.mem_cons_of_mem _ hx), ?_, ?_⟩
      · intro x hx
        rcases List.mem_cons.mp (d.mem_iff.mp hx) with rfl | h
        · exact Or.inr rfl
        · exact Or.inl h
      · intro v dd hv
        simp only at hv
        rw [List.getElem?_set] at hv
        split at hv
        · rename_i heq
          split at hv
          · subst heq
            have := Option.some.inj hv
            subst this
            exact Or.inr (d.mem_iff.mpr (List.mem_cons_self))
          · cases hv
        · exact Or.inl hv
    · cases he
      exact ⟨h, fun x hx => hx, fun x hx => Or.inl hx, fun v d hv => Or.inl hv⟩

theorem expandAll_changed {maxDist : Nat} {l : Label} : ∀ (es : List Edge) (s s' : State),
    Dial.Inv Label.bucket s.pq → expandAll maxDist l s es = some s' →
    (∀ x ∈ contents s.pq, x ∈ contents s'.pq) ∧
    (∀ x ∈ contents s'.pq, x ∈ contents s.pq ∨ ∃ e ∈ es, x.l = e.target) ∧
    ∀ (v d : Nat), s'.dists[v]? = some d → s.dists[v]? = some d ∨ ⟨v, d⟩ ∈ contents s'.pq := by
  intro es
  induction es with
  | nil =>
    intro s s' _ h
    simp only [expandAll, Option.some.injEq] at h
    subst h
    exact ⟨fun x hx => hx, fun x hx => Or.inl hx, fun v d hv => Or.inl hv⟩
  | cons e es ih =>
    intro s s' hi h
    simp only [expandAll] at h
    split at h
    · cases h
    · rename_i s1 h1
      obtain ⟨a, b, b', c⟩ := expand_changed hi h1
      obtain ⟨b2, b2', c2⟩ := ih s1 s' a h
      refine ⟨fun x hx => b2 x (b x hx), ?_, ?_⟩
      · intro x hx
        rcases b2' x hx with h | ⟨e', he', h⟩
        · rcases b' x h with h | h
          · exact Or.inl h
          · exact Or.inr ⟨e, by simp, h⟩
        · exact Or.inr ⟨e', by simp [he'], h⟩
      · intro v d hv
        rcases c2 v d hv with h | h
        · rcases c v d h with h | h
          · exact Or.inl h
          · exact Or.inr (b2 _ h)
        · exact Or.inr h

/-- Invariant about `end_dist`. -/
structure EInv (q : Input) (start : List Nat) (s : State) (e : Nat) : Prop where
  le : e ≤ unreachable
  sound : e < unreachable → e < q.maxDist ∧ ∃ v d o, Walk unreachable (edges q) start v d ∧
    (destOffsets q).lookup v = some o ∧ e = d + o
  done : ∀ (v d : Nat), s.dists[v]? = some d → d < unreachable → ⟨v, d⟩ ∈ contents s.pq ∨
    ∀ o, (destOffsets q).lookup v = some o → d + o < q.maxDist → d + o < unreachable → e ≤ d + o

theorem updEnd_le (q : Input) (l : Label) (e : Nat) : updEnd q l e ≤ e := by
  unfold updEnd
  split
  · split <;> omega
  · exact Nat.le_refl _

theorem loop_spec {q : Input} {start : List Nat}
    (hstart : ∀ d ∈ start, d ≤ unreachable) (hedges : ∀ v e, e ∈ edges q v → e.target < start.length)
    (hend : ∀ v e, e ∈ edges q v → e.target ≠ q.kEnd) :
    ∀ (n : Nat) (s : State) (e : Nat), Dijkstra.Inv unreachable (edges q) q.maxDist start q.maxDist s →
      EInv q start s e → (∀ x ∈ contents s.pq, x.l ≠ q.kEnd) → s.dists.sum + s.pq.size ≤ n →
      ∃ s' e', loop q n s e = some e' ∧ Dijkstra.Inv unreachable (edges q) q.maxDist start q.maxDist s' ∧
        EInv q start s' e' ∧ contents s'.pq = [] := by
  have hM : ∀ d ∈ start, ∀ x, x < d → x < q.maxDist → x < unreachable := by
    intro d hd x hx _; have := hstart d hd; omega
  have hcap : q.maxDist = min q.maxDist q.maxDist := by omega
  intro n
  induction n with
  | zero =>
    intro s e h he _ hb
    have h0 : s.pq.size = 0 := by omega
    have hem : s.pq.empty = true := by simp [empty, h0]
    exact ⟨s, e, by simp [loop, hem], h, he, (empty_iff h.pq).mp hem⟩
  | succ n ih =>
    intro s e h he hk hb
    by_cases hem : s.pq.empty = true
    · exact ⟨s, e, by simp [loop, hem], h, he, (empty_iff h.pq).mp hem⟩
    · have hne : contents s.pq ≠ [] := fun hc => hem ((empty_iff h.pq).mpr hc)
      obtain ⟨s1, hit, hI1, hlt1⟩ := iterate_spec hM hcap hedges h hne
      obtain ⟨l, pq', ht, hinv, hn, hperm, -⟩ := take_spec h.pq hne
      have hlmem : l ∈ contents s.pq := by rw [hperm.mem_iff]; simp
      have hmem : ∀ x, x ∈ contents s.pq ↔ x = l ∨ x ∈ contents pq' := by
        intro x; rw [hperm.mem_iff]; simp
      obtain ⟨cur, hcur, hcurle⟩ := h.queued l hlmem
      have hgd : s.dists.getD l.l unreachable = cur := by
        rw [List.getD_eq_getElem?_getD, hcur]; rfl
      simp only [iterate, ht, hcur] at hit
      simp only [loop, hem, Bool.false_eq_true, if_false, ht, if_neg (hk l hlmem), hgd]
      by_cases hst : cur < l.d
      · rw [if_pos hst] at hit ⊢
        have hs1 := Option.some.inj hit
        subst hs1
        refine ih _ e hI1 ⟨he.le, he.sound, ?_⟩ (fun x hx => hk x ((hmem x).mpr (Or.inr hx))) (by omega)
        intro v d hv hd
        simp only at hv
        rcases he.done v d hv hd with hq | hq
        · rcases (hmem _).mp hq with hq | hq
          · rw [← hq] at hcur hst
            simp only at hcur hst
            rw [hv] at hcur
            have := Option.some.inj hcur
            omega
          · exact Or.inl hq
        · exact Or.inr hq
      · rw [if_neg hst] at hit ⊢
        rw [hit]
        simp only
        have hcl : cur = l.d := by omega
        subst hcl
        obtain ⟨g1, g2, g3⟩ := expandAll_changed _ _ _ hinv hit
        simp only at g1 g2 g3
        have hlM : l.d < unreachable := h.lab l hlmem
        have hw := h.sound l.l l.d hcur hlM
        refine ih _ _ hI1 ⟨by have := updEnd_le q l e; have := he.le; omega, ?_, ?_⟩ ?_ (by omega)
        · intro hlt
          unfold updEnd at hlt ⊢
          cases ho : (destOffsets q).lookup l.l with
          | none => simp only [ho] at hlt ⊢; exact he.sound hlt
          | some o =>
            simp only [ho] at hlt ⊢
            by_cases hc : l.d + o < q.maxDist ∧ l.d + o < e
            · rw [if_pos hc]
              exact ⟨hc.1, l.l, l.d, o, hw, ho, rfl⟩
            · rw [if_neg hc] at hlt ⊢
              exact he.sound hlt
        · intro v d hv hd
          rcases g3 v d hv with h1 | h1
          · rcases he.done v d h1 hd with hq | hq
            · rcases (hmem _).mp hq with hq | hq
              · right
                intro o ho hom hou
                subst hq
                simp only [updEnd, ho]
                by_cases hc : d + o < q.maxDist ∧ d + o < e
                · rw [if_pos hc]; exact Nat.le_refl _
                · rw [if_neg hc]; omega
              · exact Or.inl (g1 _ hq)
            · right
              intro o ho hom hou
              have := hq o ho hom hou
              have := updEnd_le q l e
              omega
          · exact Or.inl h1
        · intro x hx
          rcases g2 x hx with h1 | ⟨e', he', h1⟩
          · exact hk x ((hmem x).mpr (Or.inr h1))
          · rw [h1]; exact hend _ _ he'

theorem walk_way {q : Input} (h : Ok q) {v d : Nat} (hw : Walk unreachable (edges q) (initDists q) v d) : Way q v d := by
  induction hw with
  | @start v d hs hd =>
    have hv : v < q.n := by
      have := (List.getElem?_eq_some_iff.mp hs).1
      rwa [(initDists_spec h).1] at this
    obtain ⟨y, h1, h2, _⟩ := (initDists_spec h).2.2 v hv
    rw [hs] at h1
    have := Option.some.inj h1
    subst this
    rcases h2 with h2 | ⟨t, ht, hm⟩
    · omega
    · exact Way.start ht hm
  | @step u d e hw he ih =>
    obtain ⟨f, o, hf, ho, rfl⟩ := edges_spec.mp he
    exact Way.walk ih hf ho

theorem way_walk {q : Input} (h : Ok q) {v d : Nat} (hw : Way q v d) :
    ∃ d', d' ≤ d ∧ Walk unreachable (edges q) (initDists q) v d' := by
  induction hw with
  | @start t dur m hs hm =>
    obtain ⟨y, h1, h2, h3⟩ := (initDists_spec h).2.2 m (h.startIdx _ hs m hm)
    have hle := h3 t dur hs hm
    have := (h.startDur _ hs).1
    exact ⟨y, hle, Walk.start h1 (by simp only [unreachable] at *; omega)⟩
  | @walk u d e o _ hf ho ih =>
    obtain ⟨d', hle, hw'⟩ := ih
    exact ⟨d' + q.adj e.duration, by omega, Walk.step (e := ⟨e.target, q.adj e.duration⟩) hw' (edges_spec.mpr ⟨e, o, hf, ho, rfl⟩)⟩

/-- **C39.** For every query the computation ends without undefined behaviour and yields: the scaled
length of the shortest direct connection below the limits, or "unreachable" (32767) if there is
none. -/
theorem C39_fastest_direct {q : Input} (h : Ok q) {keys : List Nat} (hk : Keys q keys) (hf : q.fixed = none) :
    ∃ e, fastestDirect q keys = some (if e = 32767 then 32767 else q.scale e) ∧
      (e ≠ 32767 → Direct q e ∧ e < q.maxDist ∧ e < 32767) ∧
      ∀ D, Direct q D → D < q.maxDist → D < 32767 → e ≤ D := by
  obtain ⟨hlen, hle, hv⟩ := initDists_spec h
  have hkeys : ∀ k ∈ keys, ∃ t y, (t, y) ∈ q.start ∧ k ∈ q.metas t ∧ (initDists q)[k]? = some y := by
    intro k hkk
    obtain ⟨s, hs, hm⟩ := (hk.mem k).mp hkk
    obtain ⟨y, h1, h2, h3⟩ := hv k (h.startIdx s hs k hm)
    rcases h2 with h2 | ⟨t, ht, hmt⟩
    · have := h3 s.1 s.2 hs hm
      have := (h.startDur s hs).1
      simp only [unreachable] at h2; omega
    · exact ⟨t, y, ht, hmt, h1⟩
  have hgd : ∀ k y, (initDists q)[k]? = some y → (initDists q).getD k unreachable = y := by
    intro k y hy; rw [List.getD_eq_getElem?_getD, hy]; rfl
  obtain ⟨pq, hp1, hp2, hp3, hp4⟩ := pushAll_spec (initDists q) q.maxDist keys (ofBuckets q.maxDist)
    (inv_ofBuckets _) (by simp [ofBuckets, nBuckets]) (by
      intro k hkk
      obtain ⟨t, y, ht, _, hy⟩ := hkeys k hkk
      rw [hgd k y hy]
      exact (h.startDur _ ht).2)
  rw [contents_ofBuckets] at hp4
  have hlabmem : ∀ x, x ∈ contents pq → x.l ∈ keys ∧ x.d = (initDists q).getD x.l unreachable := by
    intro x hx
    rcases (hp4 x).mp hx with h | h
    · simp at h
    · exact h
  have hqueue : ∀ (v d : Nat), (initDists q)[v]? = some d → d < unreachable → ⟨v, d⟩ ∈ contents pq := by
    intro v d hvd hd
    have hvn : v < q.n := by have := (List.getElem?_eq_some_iff.mp hvd).1; omega
    obtain ⟨y, h1, h2, _⟩ := hv v hvn
    rw [hvd] at h1
    have := Option.some.inj h1
    subst this
    rcases h2 with h2 | ⟨t, ht, hm⟩
    · omega
    · exact (hp4 _).mpr (Or.inr ⟨(hk.mem v).mpr ⟨_, ht, hm⟩, (hgd v d hvd).symm⟩)
  have hI : Dijkstra.Inv unreachable (edges q) q.maxDist (initDists q) q.maxDist ⟨pq, initDists q⟩ := by
    refine ⟨hp2, hp3, rfl, ?_, ?_, ?_, ?_, ?_⟩
    · intro v hv'; exact ⟨(initDists q)[v], by simp, Nat.le_refl _⟩
    · intro x hx
      obtain ⟨h1, h2⟩ := hlabmem x hx
      obtain ⟨t, y, _, _, hy⟩ := hkeys _ h1
      exact ⟨y, hy, by rw [h2, hgd _ _ hy]; exact Nat.le_refl _⟩
    · intro x hx
      obtain ⟨h1, h2⟩ := hlabmem x hx
      obtain ⟨t, y, ht, _, hy⟩ := hkeys _ h1
      rw [h2, hgd _ _ hy]
      exact (h.startDur _ ht).1
    · intro v d hvd hd; exact Walk.start hvd hd
    · intro v d hvd hd; exact Or.inl (hqueue v d hvd hd)
  have hE : EInv q (initDists q) ⟨pq, initDists q⟩ unreachable :=
    ⟨Nat.le_refl _, fun hh => absurd hh (Nat.lt_irrefl _), fun v d hvd hd => Or.inl (hqueue v d hvd hd)⟩
  have hedges : ∀ v e, e ∈ edges q v → e.target < (initDists q).length := by
    intro v e he
    obtain ⟨f, o, _, ho, rfl⟩ := edges_spec.mp he
    rw [hlen]; exact h.destIdx _ ho
  have hend : ∀ v e, e ∈ edges q v → e.target ≠ q.kEnd := by
    intro v e he
    obtain ⟨f, o, _, ho, rfl⟩ := edges_spec.mp he
    exact h.noEnd' _ ho
  obtain ⟨s', e', hl1, hI', hE', hnil⟩ := loop_spec hle hedges hend (budget ⟨pq, initDists q⟩) ⟨pq, initDists q⟩
    unreachable hI hE (by
      intro x hx
      obtain ⟨s, hs, hm⟩ := (hk.mem x.l).mp (hlabmem x hx).1
      exact h.noEnd s hs _ hm) (Nat.le_refl _)
  refine ⟨e', ?_, ?_, ?_⟩
  · simp only [fastestDirect, hf, hp1, hl1, Option.map_some]
    rfl
  · intro hne
    have hlt : e' < unreachable := by have := hE'.le; simp only [unreachable] at *; omega
    obtain ⟨h1, v, d, o, hw, ho, rfl⟩ := hE'.sound hlt
    exact ⟨⟨v, d, o, walk_way h hw, (destOffsets_spec q v).1 o ho, rfl⟩, h1, hlt⟩
  · rintro D ⟨v, d, o, hw, ho, rfl⟩ hD1 hD2
    obtain ⟨d', hd', hw'⟩ := way_walk h hw
    obtain ⟨o', ho', hoo⟩ := (destOffsets_spec q v).2 o ho
    -- the final distance of `v`
    have key : ∀ {v d}, Walk unreachable (edges q) (initDists q) v d → d < q.maxDist → d < unreachable →
        ∃ t, s'.dists[v]? = some t ∧ t ≤ d := by
      intro v d hw
      induction hw with
      | @start v d hs hd =>
        intro _ _
        have hvl : v < (initDists q).length := (List.getElem?_eq_some_iff.mp hs).1
        obtain ⟨t, ht, ht'⟩ := hI'.mono v hvl
        have := (List.getElem?_eq_some_iff.mp hs).2
        exact ⟨t, ht, by omega⟩
      | @step u d e hw he' ih =>
        intro h1 h2
        obtain ⟨t, ht, ht'⟩ := ih (by omega) (by omega)
        rcases hI'.settled u t ht (by omega) with hq | hset
        · rw [hnil] at hq; simp at hq
        · obtain ⟨t', h3, h4⟩ := hset e he' (by omega)
          exact ⟨t', h3, by omega⟩
    obtain ⟨t, ht, htd⟩ := key hw' (by omega) (by simp only [unreachable]; omega)
    rcases hE'.done v t ht (by simp only [unreachable]; omega) with hq | hq
    · rw [hnil] at hq; simp at hq
    · have := hq o' ho' (by omega) (by simp only [unreachable]; omega)
      omega

/-- **C39 (given value).** A value given with the query is used as it is. -/
theorem C39_given (q : Input) (keys : List Nat) {d : Int} (h : q.fixed = some d) :
    fastestDirect q keys = some d := by simp [fastestDirect, h]

/-! ### Example -/

namespace Demo

/-- Stop 0 with child 1 as origin, 2 and 3 as destinations. -/
def q : Input where
  n := 10
  fixed := none
  start := [(4, 5), (4, 7)]
  metas := fun l => if l = 4 then [4, 5] else [l]
  dest := [(6, 9), (7, 1), (6, 3)]
  footpaths := fun l => if l = 5 then [⟨6, 10⟩, ⟨8, 1⟩] else if l = 6 then [⟨7, 1⟩] else if l = 8 then [⟨7, 1⟩] else []
  adj := fun d => d + 1
  maxDist := 65535
  kEnd := 1
  scale := fun d => d

theorem ok : Ok q := ⟨by decide, by decide, by decide, by decide, by decide⟩

theorem keys : Keys q [5, 4] := ⟨by decide, by
  intro m
  simp only [q, List.mem_cons, List.not_mem_nil, or_false]
  constructor
  · rintro (rfl | rfl) <;> exact ⟨(4, 5), Or.inl rfl, by simp⟩
  · rintro ⟨s, rfl | rfl, hm⟩ <;> simp at hm <;> omega⟩

/-- 5 + 11 to stop 6, its offset 3 (not 9); over 6 to 7: 5 + 11 + 2 + 1. -/
example : Direct q 19 := ⟨6, 16, 3, .walk (u := 5) (d := 5) (e := ⟨6, 10⟩) (o := 3) (.start (t := 4) (by simp [q]) (by simp [q])) (by simp [q]) (by simp [q]), by simp [q], rfl⟩

/-- **C39 (limitation).** A walk over a stop which is not a destination (5 - 8 - 7, 5 + 2 + 2 + 1 = 10
minutes) is not considered: the computation relies on footpaths being transitively closed. -/
theorem C39_intermediate_counterexample :
    ∀ D, Direct q D → D ≠ 10 := by
  have hway : ∀ v d, Way q v d → (v = 4 ∨ v = 5 ∨ v = 6 ∨ v = 7) ∧ (v = 6 → 16 ≤ d) ∧ (v = 7 → 18 ≤ d) := by
    intro v d h
    induction h with
    | @start t dur m hs hm =>
      simp only [q, List.mem_cons, Prod.mk.injEq, List.not_mem_nil, or_false] at hs
      rcases hs with ⟨rfl, rfl⟩ | ⟨rfl, rfl⟩ <;> simp [q] at hm <;> omega
    | @walk u d e o hw hf ho ih =>
      have hd5 : u = 5 → 5 ≤ d := by
        intro hu
        cases hw with
        | @start t dur m hs hm =>
          simp only [q, List.mem_cons, Prod.mk.injEq, List.not_mem_nil, or_false] at hs
          omega
        | @walk u' d' e' o' hw' hf' ho' => 
          simp only [q, List.mem_cons, Prod.mk.injEq, List.not_mem_nil, or_false] at ho'
          omega
      simp only [q] at hf ho ⊢
      split at hf
      · simp only [List.mem_cons, List.not_mem_nil, or_false] at hf
        rcases hf with rfl | rfl
        · simp; rename_i hu; have := hd5 hu; omega
        · simp at ho
      · split at hf
        · simp only [List.mem_cons, List.not_mem_nil, or_false] at hf
          subst hf
          rename_i hu
          have := ih.2.1 hu
          simp; omega
        · split at hf
          · rename_i hu; have := ih.1; omega
          · simp at hf
  rintro D ⟨v, d, o, hw, ho, rfl⟩
  obtain ⟨h1, h2, h3⟩ := hway v d hw
  simp only [q, List.mem_cons, Prod.mk.injEq, List.not_mem_nil, or_false] at ho
  omega

end Demo

end Nigiri.FastestDirect
