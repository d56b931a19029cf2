import Verif.Spec.Hrd

namespace Nigiri.Hrd

theorem any_iff (b : Bitfield) : Seated.any b = true ↔ ∃ d, d < kMaxDays ∧ b d = true := by
  simp [Seated.any]

theorem any_false_iff (b : Bitfield) : Seated.any b = false ↔ ∀ d, d < kMaxDays → b d = false := by
  constructor
  · intro h d hd
    cases hb : b d with
    | false => rfl
    | true => rw [(any_iff b).2 ⟨d, hd, hb⟩] at h; cases h
  · intro h
    cases ha : Seated.any b with
    | false => rfl
    | true => obtain ⟨d, hd, hb⟩ := (any_iff b).1 ha; rw [h d hd] at hb; cases hb

/-- `b` is contained in every section of the run. -/
theorem splitRun_spec (b : Bitfield) (i : Nat) (secs : List Bitfield) :
    i ≤ (splitRun b i secs).2 ∧ (splitRun b i secs).2 ≤ i + secs.length ∧
    (∀ d, (splitRun b i secs).1 d = true → b d = true ∧
      ∀ k, i + k < (splitRun b i secs).2 → ∃ s, secs[k]? = some s ∧ s d = true) := by
  induction secs generalizing b i with
  | nil => exact ⟨(by simp [splitRun]), (by simp [splitRun]), fun d h => ⟨h, fun k hk => by simp [splitRun] at hk; omega⟩⟩
  | cons s secs ih =>
    unfold splitRun
    by_cases hn : (!Seated.any (band b s)) = true
    · rw [if_pos hn]
      exact ⟨Nat.le_refl _, (by simp), fun d h => ⟨h, fun k hk => by simp at hk; omega⟩⟩
    · rw [if_neg hn]
      obtain ⟨h1, h2, h3⟩ := ih (band b s) (i + 1)
      refine ⟨(by omega), (by simp; omega), ?_⟩
      intro d hd
      obtain ⟨h4, h5⟩ := h3 d hd
      simp only [band, Bool.and_eq_true] at h4
      refine ⟨h4.1, ?_⟩
      intro k hk
      cases k with
      | zero => exact ⟨s, rfl, h4.2⟩
      | succ k =>
        obtain ⟨s', hs', hd'⟩ := h5 k (by omega)
        exact ⟨s', (by simpa using hs'), hd'⟩

theorem length_consumeAndRemove (st : ExpandState) (a b : Nat) (c : Bitfield) :
    (consumeAndRemove st a b c).secs.length = st.secs.length := by
  unfold consumeAndRemove
  split
  · dsimp only
    split <;> simp
  · rfl

theorem length_split (st : ExpandState) (i : Nat) : (split st i).secs.length = st.secs.length := by
  unfold split
  split
  · rfl
  · exact length_consumeAndRemove _ _ _ _

/-- The section bitfields after removing days. -/
theorem secs_removed (secs : List Bitfield) (start pos : Nat) (c : Bitfield) (k : Nat) (b : Bitfield) :
    (secs.zipIdx.map fun (b, i) => if start ≤ i ∧ i < pos then bdiff b c else b)[k]? = some b ↔
      ∃ b0, secs[k]? = some b0 ∧ b = if start ≤ k ∧ k < pos then bdiff b0 c else b0 := by
  rw [List.getElem?_map, List.getElem?_zipIdx]
  cases secs[k]? with
  | none => simp
  | some b0 => simp [eq_comm]

/-- Invariant of the day splitting: `B` are the bitfields of the sections. -/
structure SplitInv (B : List Bitfield) (i : Nat) (st : ExpandState) : Prop where
  len : st.secs.length = B.length
  sub : ∀ (k : Nat) (b : Bitfield), st.secs[k]? = some b → ∃ b0 : Bitfield, B[k]? = some b0 ∧ ∀ d, b d = true → b0 d = true
  froms : ∀ (j : Nat) (p : Part), st.out[j]? = some p → p.from' = j
  outLen : st.out.length ≤ i
  notThrew : st.threw = false → st.out.length = i
  ok : ∀ p ∈ st.out, p.from' < p.to' ∧ p.to' ≤ B.length ∧ Seated.any p.days = true ∧
    ∀ k, p.from' ≤ k → k < p.to' → ∃ b : Bitfield, B[k]? = some b ∧ ∀ d, p.days d = true → b d = true
  consumed : ∀ d, st.consumed d = true ↔ ∃ p ∈ st.out, p.days d = true
  disjoint : ∀ (a b : Nat) (p q : Part), st.out[a]? = some p → st.out[b]? = some q → a ≠ b →
    ∀ d, d < kMaxDays → ¬ (p.days d = true ∧ q.days d = true)

theorem snoc_cases {α : Type} {l : List α} {x y : α} {j : Nat} (h : (l ++ [x])[j]? = some y) :
    l[j]? = some y ∨ (j = l.length ∧ y = x) := by
  by_cases hj : j < l.length
  · rw [List.getElem?_append_left hj] at h; exact Or.inl h
  · rw [List.getElem?_append_right (by omega)] at h
    by_cases h2 : j - l.length = 0
    · rw [h2] at h
      simp at h
      exact Or.inr ⟨(by omega), h.symm⟩
    · rw [List.getElem?_eq_none (by simp; omega)] at h
      cases h

theorem split_inv {B : List Bitfield} {i : Nat} {st : ExpandState} {b : Bitfield}
    (h : SplitInv B i st) (hi : st.secs[i]? = some b) (ha : Seated.any b = true)
    (ht : st.threw = false) : SplitInv B (i + 1) (split st i) := by
  have hlen := h.notThrew ht
  have hiB : i < B.length := by
    have := (List.getElem?_eq_some_iff.1 hi).1; rw [h.len] at this; exact this
  have hdrop : (st.secs.drop (i + 1)).length = B.length - (i + 1) := by rw [List.length_drop, h.len]
  obtain ⟨r1, r2, r3⟩ := splitRun_spec b (i + 1) (st.secs.drop (i + 1))
  have hany : ∀ (b : Bitfield) i secs, Seated.any b = true → Seated.any (splitRun b i secs).1 = true := by
    intro b i secs hb
    induction secs generalizing b i with
    | nil => exact hb
    | cons s secs ih =>
      unfold splitRun
      by_cases hn : (!Seated.any (band b s)) = true
      · rw [if_pos hn]; exact hb
      · rw [if_neg hn]; exact ih _ _ (by simpa using hn)
  have hr := hany b (i + 1) (st.secs.drop (i + 1)) ha
  unfold split
  rw [hi]
  show SplitInv B (i + 1) (consumeAndRemove st i (splitRun b (i + 1) (st.secs.drop (i + 1))).2
    (splitRun b (i + 1) (st.secs.drop (i + 1))).1)
  generalize hR : splitRun b (i + 1) (st.secs.drop (i + 1)) = R at *
  obtain ⟨c, e⟩ := R
  simp only at r1 r2 r3 hr ⊢
  have hcov : ∀ k, i ≤ k → k < e → ∃ b0 : Bitfield, B[k]? = some b0 ∧ ∀ d, c d = true → b0 d = true := by
    intro k hk hke
    by_cases hki : k = i
    · subst hki
      obtain ⟨b0, h0, hs⟩ := h.sub k b hi
      exact ⟨b0, h0, fun d hd => hs d (r3 d hd).1⟩
    · have hkl : k < B.length := by omega
      have hks : k < st.secs.length := by rw [h.len]; exact hkl
      obtain ⟨b0, h0, hs⟩ := h.sub k _ (List.getElem?_eq_getElem hks)
      refine ⟨b0, h0, fun d hd => ?_⟩
      obtain ⟨s, hs1, hs2⟩ := (r3 d hd).2 (k - (i + 1)) (by omega)
      rw [List.getElem?_drop, show i + 1 + (k - (i + 1)) = k by omega,
        List.getElem?_eq_getElem hks] at hs1
      cases hs1
      exact hs d hs2
  unfold consumeAndRemove
  rw [hr]
  rw [show (true && decide (i < e)) = true by simp; omega]
  simp only [if_true]
  have hsub : ∀ (k : Nat) (b : Bitfield), (st.secs.zipIdx.map fun (b, j) => if i ≤ j ∧ j < e then bdiff b c else b)[k]? = some b →
      ∃ b0 : Bitfield, B[k]? = some b0 ∧ ∀ d, b d = true → b0 d = true := by
    intro k b' hb'
    obtain ⟨b1, h1, h2⟩ := (secs_removed st.secs i e c k b').1 hb'
    obtain ⟨b0, h0, hs⟩ := h.sub k b1 h1
    refine ⟨b0, h0, fun d hd => ?_⟩
    rw [h2] at hd
    split at hd
    · simp only [bdiff, Bool.and_eq_true] at hd; exact hs d hd.1
    · exact hs d hd
  by_cases hov : Seated.any (band c st.consumed) = true
  · rw [if_pos hov]
    exact ⟨(by simp [h.len]), hsub, h.froms, (by show st.out.length ≤ i + 1; omega), (by intro h; cases h), h.ok, h.consumed, h.disjoint⟩
  · rw [if_neg hov]
    have hov' : Seated.any (band c st.consumed) = false := by simpa using hov
    rw [any_false_iff] at hov'
    refine ⟨(by simp [h.len]), hsub, ?_, (by simp; omega), (by intro _; simp [hlen]), ?_, ?_, ?_⟩
    · intro j p hp
      rcases snoc_cases hp with hp | ⟨h1, h2⟩
      · exact h.froms j p hp
      · rw [h2, h1]; exact hlen.symm
    · intro p hp
      rcases List.mem_append.1 hp with hp | hp
      · exact h.ok p hp
      · simp at hp; subst hp
        exact ⟨(by show i < e; omega), (by show e ≤ B.length; omega), hr, hcov⟩
    · intro d
      simp only [bor, Bool.or_eq_true, h.consumed d]
      constructor
      · rintro (⟨p, hp, hd⟩ | hd)
        · exact ⟨p, List.mem_append_left _ hp, hd⟩
        · exact ⟨_, List.mem_append_right _ (List.mem_singleton.2 rfl), hd⟩
      · rintro ⟨p, hp, hd⟩
        rcases List.mem_append.1 hp with hp | hp
        · exact Or.inl ⟨p, hp, hd⟩
        · simp at hp; subst hp; exact Or.inr hd
    · have hnew : ∀ (a : Nat) p, st.out[a]? = some p → ∀ d, d < kMaxDays → ¬ (p.days d = true ∧ c d = true) := by
        rintro a p hp d hd ⟨h1, h2⟩
        have := hov' d hd
        simp only [band, h2, Bool.true_and] at this
        rw [(h.consumed d).2 ⟨p, List.mem_of_getElem? hp, h1⟩] at this
        cases this
      intro a b' p q hp hq hab d hd
      rcases snoc_cases hp with hp | ⟨h1, h2⟩ <;> rcases snoc_cases hq with hq | ⟨h3, h4⟩
      · exact h.disjoint a b' p q hp hq hab d hd
      · rw [h4]; exact hnew a p hp d hd
      · rw [h2]; exact fun ⟨x, y⟩ => hnew b' q hq d hd ⟨y, x⟩
      · omega

theorem loop_inv {B : List Bitfield} (n : Nat) {st : ExpandState} (hn : n ≤ B.length)
    (h : SplitInv B (B.length - n) st) (ht : st.threw = false) :
    ∃ i, SplitInv B i (expandLoop n st) := by
  induction n generalizing st with
  | zero => exact ⟨_, h⟩
  | succ n ih =>
    unfold expandLoop
    dsimp only
    rw [h.len]
    cases hb : st.secs[B.length - (n + 1)]? with
    | none => exact ⟨_, h⟩
    | some b =>
      dsimp only
      by_cases hn' : (!Seated.any b) = true
      · rw [if_pos hn']; exact ⟨_, h⟩
      · rw [if_neg hn']
        have h2 := split_inv h hb (by simpa using hn') ht
        by_cases ht2 : (split st (B.length - (n + 1))).threw = true
        · rw [if_pos ht2]; exact ⟨_, h2⟩
        · rw [if_neg ht2]
          refine ih (by omega) ?_ (by simpa using ht2)
          rw [show B.length - n = B.length - (n + 1) + 1 by omega]
          exact h2

theorem expand_inv (B : List Bitfield) : ∃ i, SplitInv B i (expandTrafficDays B) := by
  refine loop_inv B.length (Nat.le_refl _) ?_ rfl
  refine ⟨rfl, fun k b h => ⟨b, h, fun _ h => h⟩, (by intro j p h; simp at h), (by simp), (by simp), (by intro p h; simp at h),
    (by intro d; simp [Bitfield.empty]), (by intro a b p q h; simp at h)⟩

/-! ## recovering a decomposition -/

/-- `D` is a decomposition into part services with disjoint days, the `i`-th starting at section
`i`. -/
structure Decomp (B : List Bitfield) (D : List Part) : Prop where
  from_eq : ∀ (i : Nat) (p : Part), D[i]? = some p → p.from' = i
  range : ∀ (i : Nat) (p : Part), D[i]? = some p → p.from' < p.to' ∧ p.to' ≤ B.length ∧ Seated.any p.days = true
  disjoint : ∀ (i j : Nat) (p q : Part), D[i]? = some p → D[j]? = some q → i ≠ j →
    ∀ d, ¬ (p.days d = true ∧ q.days d = true)
  cover : ∀ (k : Nat) (b : Bitfield), B[k]? = some b → ∀ d, b d = true ↔
    ∃ (i : Nat) (p : Part), D[i]? = some p ∧ i ≤ k ∧ k < p.to' ∧ p.days d = true

/-- state when section `i` is visited -/
structure RecInv (B : List Bitfield) (D : List Part) (i : Nat) (st : ExpandState) : Prop where
  len : st.secs.length = B.length
  out : st.out = D.take i
  threw : st.threw = false
  secs : ∀ (k : Nat) (b : Bitfield), st.secs[k]? = some b → ∀ d, b d = true ↔
    ∃ (j : Nat) (p : Part), D[j]? = some p ∧ i ≤ j ∧ j ≤ k ∧ k < p.to' ∧ p.days d = true
  consumed : ∀ d, st.consumed d = true ↔ ∃ (j : Nat) (p : Part), D[j]? = some p ∧ j < i ∧ p.days d = true

theorem splitRun_exact (N : Bitfield) (e : Nat) (hN : Seated.any N = true) (secs : List Bitfield) (i : Nat)
    (hie : i ≤ e) (hel : e ≤ i + secs.length)
    (hin : ∀ k s, secs[k]? = some s → i + k < e → ∀ d, N d = true → s d = true)
    (hout : ∀ s, secs[e - i]? = some s → ∀ d, N d = true → s d = false) :
    splitRun N i secs = (N, e) := by
  induction secs generalizing i with
  | nil => simp at hel; simp [splitRun]; omega
  | cons s secs ih =>
    unfold splitRun
    by_cases h : i < e
    · have hs : band N s = N := by
        funext d
        simp only [band]
        cases hd : N d with
        | false => rfl
        | true => rw [hin 0 s rfl (by omega) d hd]; rfl
      rw [hs, hN]
      simp only [Bool.not_true, Bool.false_eq_true, if_false]
      refine ih (i + 1) (by omega) (by simp at hel; omega) ?_ ?_
      · intro k s' hk hlt d hd
        exact hin (k + 1) s' (by simpa using hk) (by omega) d hd
      · intro s' hs' d hd
        refine hout s' ?_ d hd
        rw [show e - i = (e - (i + 1)) + 1 by omega]; simpa using hs'
    · have : i = e := by omega
      subst this
      have hs : Seated.any (band N s) = false := by
        rw [any_false_iff]
        intro d _
        simp only [band]
        cases hd : N d with
        | false => rfl
        | true => rw [hout s (by simp) d hd]; rfl
      rw [hs]; rfl

theorem rec_step {B : List Bitfield} {D : List Part} (hD : Decomp B D) {i : Nat} {st : ExpandState}
    (h : RecInv B D i st) {P : Part} (hP : D[i]? = some P) : RecInv B D (i + 1) (split st i) ∧
      ∃ b, st.secs[i]? = some b ∧ Seated.any b = true := by
  obtain ⟨hlt, hle, hany⟩ := hD.range i P hP
  have hfrom := hD.from_eq i P hP
  rw [hfrom] at hlt
  have hil : i < st.secs.length := by rw [h.len]; omega
  have hb := List.getElem?_eq_getElem hil
  have hbN : st.secs[i] = P.days := by
    funext d
    have := h.secs i _ hb d
    cases hd : P.days d with
    | true => exact this.2 ⟨i, P, hP, Nat.le_refl _, Nat.le_refl _, hlt, hd⟩
    | false =>
      cases hc : st.secs[i] d with
      | false => rfl
      | true =>
        obtain ⟨j, p, hp, h1, h2, _, h4⟩ := this.1 hc
        have : j = i := by omega
        subst this
        rw [hP] at hp; cases hp
        rw [hd] at h4; cases h4
  rw [hbN] at hb
  refine ⟨?_, P.days, hb, hany⟩
  have hrun : splitRun P.days (i + 1) (st.secs.drop (i + 1)) = (P.days, P.to') := by
    refine splitRun_exact P.days P.to' hany _ _ (by omega) (by rw [List.length_drop, h.len]; omega) ?_ ?_
    · intro k s hk hke d hd
      rw [List.getElem?_drop] at hk
      exact (h.secs _ s hk d).2 ⟨i, P, hP, Nat.le_refl _, (by omega), hke, hd⟩
    · intro s hs d hd
      rw [List.getElem?_drop] at hs
      rw [show i + 1 + (P.to' - (i + 1)) = P.to' by omega] at hs
      cases hc : s d with
      | false => rfl
      | true =>
        obtain ⟨j, p, hp, h1, h2, h3, h4⟩ := (h.secs _ s hs d).1 hc
        by_cases hji : j = i
        · subst hji; rw [hP] at hp; cases hp; omega
        · exact absurd ⟨h4, hd⟩ (hD.disjoint j i p P hp hP hji d)
  unfold split
  rw [hb]
  show RecInv B D (i + 1) (consumeAndRemove st i (splitRun P.days (i + 1) (st.secs.drop (i + 1))).2
    (splitRun P.days (i + 1) (st.secs.drop (i + 1))).1)
  rw [hrun]
  unfold consumeAndRemove
  rw [hany, show (true && decide (i < P.to')) = true by simp; omega]
  simp only [if_true]
  have hov : Seated.any (band P.days st.consumed) = false := by
    rw [any_false_iff]
    intro d _
    simp only [band]
    cases hd : P.days d with
    | false => rfl
    | true =>
      cases hc : st.consumed d with
      | false => rfl
      | true =>
        obtain ⟨j, p, hp, h1, h2⟩ := (h.consumed d).1 hc
        exact absurd ⟨h2, hd⟩ (hD.disjoint j i p P hp hP (by omega) d)
  rw [hov]
  simp only [Bool.false_eq_true, if_false]
  refine ⟨(by simp [h.len]), ?_, h.threw, ?_, ?_⟩
  · show st.out ++ [⟨P.days, i, P.to'⟩] = D.take (i + 1)
    rw [h.out]
    have hlt' : i < D.length := (List.getElem?_eq_some_iff.1 hP).1
    rw [List.take_succ_eq_append_getElem hlt']
    have : D[i] = P := (List.getElem?_eq_some_iff.1 hP).2
    rw [this]
    cases P; simp_all
  · intro k b' hb' d
    obtain ⟨b0, h0, heq⟩ := (secs_removed st.secs i P.to' P.days k b').1 hb'
    have hs := h.secs k b0 h0 d
    constructor
    · intro hd
      rw [heq] at hd
      by_cases hr : i ≤ k ∧ k < P.to'
      · rw [if_pos hr] at hd
        simp only [bdiff, Bool.and_eq_true, Bool.not_eq_true'] at hd
        obtain ⟨j, p, hp, h1, h2, h3, h4⟩ := hs.1 hd.1
        refine ⟨j, p, hp, ?_, h2, h3, h4⟩
        by_cases hji : j = i
        · subst hji; rw [hP] at hp; cases hp; rw [hd.2] at h4; cases h4
        · omega
      · rw [if_neg hr] at hd
        obtain ⟨j, p, hp, h1, h2, h3, h4⟩ := hs.1 hd
        refine ⟨j, p, hp, ?_, h2, h3, h4⟩
        by_cases hji : j = i
        · subst hji; rw [hP] at hp; cases hp; exact absurd ⟨h2, h3⟩ hr
        · omega
    · rintro ⟨j, p, hp, h1, h2, h3, h4⟩
      have hb0 := hs.2 ⟨j, p, hp, (by omega), h2, h3, h4⟩
      rw [heq]
      by_cases hr : i ≤ k ∧ k < P.to'
      · rw [if_pos hr]
        simp only [bdiff, Bool.and_eq_true, Bool.not_eq_true']
        refine ⟨hb0, ?_⟩
        cases hd : P.days d with
        | false => rfl
        | true => exact absurd ⟨h4, hd⟩ (hD.disjoint j i p P hp hP (by omega) d)
      · rw [if_neg hr]; exact hb0
  · intro d
    simp only [bor, Bool.or_eq_true, h.consumed d]
    constructor
    · rintro (⟨j, p, hp, h1, h2⟩ | hd)
      · exact ⟨j, p, hp, (by omega), h2⟩
      · exact ⟨i, P, hP, (by omega), hd⟩
    · rintro ⟨j, p, hp, h1, h2⟩
      by_cases hji : j = i
      · subst hji; rw [hP] at hp; cases hp; exact Or.inr h2
      · exact Or.inl ⟨j, p, hp, (by omega), h2⟩

theorem rec_loop {B : List Bitfield} {D : List Part} (hD : Decomp B D) (n : Nat) {st : ExpandState}
    (hn : n ≤ B.length) (h : RecInv B D (B.length - n) st) :
    (expandLoop n st).out = D ∧ (expandLoop n st).threw = false := by
  have hlenD : D.length ≤ B.length := by
    refine Classical.byContradiction fun hgt => ?_
    have hp := List.getElem?_eq_getElem (l := D) (i := B.length) (by omega)
    obtain ⟨h1, h2, _⟩ := hD.range _ _ hp
    rw [hD.from_eq _ _ hp] at h1
    omega
  have hdone : ∀ i st, RecInv B D i st → D[i]? = none → st.out = D ∧ st.threw = false := by
    intro i st h hd
    refine ⟨?_, h.threw⟩
    rw [h.out, List.take_of_length_le]
    exact List.getElem?_eq_none_iff.1 hd
  induction n generalizing st with
  | zero =>
    refine hdone _ st h (List.getElem?_eq_none (by omega))
  | succ n ih =>
    unfold expandLoop
    dsimp only
    rw [h.len]
    cases hP : D[B.length - (n + 1)]? with
    | some P =>
      obtain ⟨h2, b, hb, ha⟩ := rec_step hD h hP
      rw [hb]
      simp only [ha, Bool.not_true, Bool.false_eq_true, if_false]
      rw [h2.threw]
      simp only [Bool.false_eq_true, if_false]
      refine ih (by omega) ?_
      rw [show B.length - n = B.length - (n + 1) + 1 by omega]
      exact h2
    | none =>
      cases hb : st.secs[B.length - (n + 1)]? with
      | none => exact hdone _ st h hP
      | some b =>
        have ha : Seated.any b = false := by
          rw [any_false_iff]
          intro d _
          cases hc : b d with
          | false => rfl
          | true =>
            obtain ⟨j, p, hp, h1, _⟩ := (h.secs _ b hb d).1 hc
            have := List.getElem?_eq_none_iff.1 hP
            have := (List.getElem?_eq_some_iff.1 hp).1
            omega
        simp only [ha, Bool.not_false, if_true]
        exact hdone _ st h hP

theorem expand_decomp {B : List Bitfield} {D : List Part} (hD : Decomp B D) :
    (expandTrafficDays B).out = D ∧ (expandTrafficDays B).threw = false := by
  refine rec_loop hD B.length (Nat.le_refl _) ?_
  rw [Nat.sub_self]
  refine ⟨rfl, (by simp), rfl, ?_, ?_⟩
  · intro k b hb d
    rw [hD.cover k b hb d]
    constructor
    · rintro ⟨i, p, h1, h2, h3, h4⟩; exact ⟨i, p, h1, (by omega), h2, h3, h4⟩
    · rintro ⟨i, p, h1, _, h2, h3, h4⟩; exact ⟨i, p, h1, h2, h3, h4⟩
  · intro d
    simp [Bitfield.empty]

end Nigiri.Hrd
