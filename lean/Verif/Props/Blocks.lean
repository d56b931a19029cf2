import Verif.Model.Blocks
/-!
# Property C16: block trips are combined per day without loss or duplication
-/

namespace Nigiri.Blocks

/-- Number of combinations of `cs` that contain trip `i` and run on day `d`. -/
def coverCount (cs : List Combo) (i d : Nat) : Nat := (cs.filter fun c => decide (i ∈ c.trips) && c.days d).length

/-- Consecutive trips of a chain: later in departure order, starting where the previous one ends. -/
def Linked (ts : List Trip) (l : List Nat) : Prop :=
  ∀ k a b, l[k]? = some a → l[k + 1]? = some b → a < b ∧ (trip ts a).last = (trip ts b).first

private theorem succLoop_spec (ts : List Trip) (rem : Nat → Bitfield) (cur : Nat) (coll : List Nat) (js : List Nat)
    (hnd : js.Nodup) (td : Bitfield) :
    let r := succLoop ts rem cur coll js td
    (∀ d, r.2 d = true ↔ td d = true ∧ ∀ j ∈ js, (trip ts cur).last = (trip ts j).first → rem j d = false) ∧
    (∀ e ∈ r.1, e.cur ∈ js ∧ (trip ts cur).last = (trip ts e.cur).first ∧ e.collected = coll ∧
      ∀ d, e.days d = true → td d = true ∧ rem e.cur d = true) ∧
    (∀ d, d < kMaxDays → td d = true → r.2 d = false → ∃ e ∈ r.1, e.days d = true) ∧
    (∀ d, r.1.Pairwise (fun e e' => ¬ (e.days d = true ∧ e'.days d = true))) ∧
    (∀ e ∈ r.1, ∀ d, e.days d = true → r.2 d = false) := by
  induction js generalizing td with
  | nil => simp [succLoop]
  | cons j js ih =>
    have hnd' : js.Nodup := by rw [List.nodup_cons] at hnd; exact hnd.2
    simp only
    unfold succLoop
    split
    · rename_i hl
      obtain ⟨h1, h2, h3, h4, h5⟩ := ih hnd' td
      refine ⟨?_, ?_, h3, h4, h5⟩
      · intro d; rw [h1]
        constructor
        · rintro ⟨a, b⟩
          refine ⟨a, ?_⟩
          intro x hx hxl
          rcases List.mem_cons.mp hx with rfl | hx
          · exact absurd hxl hl
          · exact b x hx hxl
        · rintro ⟨a, b⟩
          exact ⟨a, fun x hx => b x (by simp [hx])⟩
      · intro e he
        obtain ⟨a, b⟩ := h2 e he
        exact ⟨by simp [a], b⟩
    · rename_i hl
      have hl : (trip ts cur).last = (trip ts j).first := by
        apply Classical.byContradiction; exact hl
      simp only
      obtain ⟨h1, h2, h3, h4, h5⟩ := ih hnd' (fun d => td d && !rem j d)
      generalize hr : succLoop ts rem cur coll js (fun d => td d && !rem j d) = r at *
      have hnew : ∀ e : Entry, (e ∈ (if any (fun d => td d && rem j d) = true then
          ({ cur := j, collected := coll, days := fun d => td d && rem j d } : Entry) :: r.1 else r.1)) →
          e = { cur := j, collected := coll, days := fun d => td d && rem j d } ∨ e ∈ r.1 := by
        intro e he
        split at he
        · simpa using he
        · right; exact he
      refine ⟨?_, ?_, ?_, ?_, ?_⟩
      · intro d; rw [h1]
        simp only [Bool.and_eq_true, Bool.not_eq_true']
        constructor
        · rintro ⟨⟨a, a'⟩, b⟩
          refine ⟨a, ?_⟩
          intro x hx hxl
          rcases List.mem_cons.mp hx with rfl | hx
          · exact a'
          · exact b x hx hxl
        · rintro ⟨a, b⟩
          exact ⟨⟨a, b j (by simp) hl⟩, fun x hx => b x (by simp [hx])⟩
      · intro e he
        rcases hnew e he with rfl | he
        · refine ⟨by simp, hl, rfl, ?_⟩
          intro d hd; simpa using hd
        · obtain ⟨a, b, c, d⟩ := h2 e he
          refine ⟨by simp [a], b, c, ?_⟩
          intro x hx
          have := d x hx
          simp at this
          exact ⟨this.1.1, this.2⟩
      · intro d hdk hd hd'
        cases hrem : rem j d with
        | true =>
          have ha : any (fun d => td d && rem j d) = true := by
            unfold any; rw [List.any_eq_true]; exact ⟨d, by simpa using hdk, by simp [hd, hrem]⟩
          rw [if_pos ha]
          exact ⟨_, List.mem_cons_self, by simp [hd, hrem]⟩
        | false =>
          obtain ⟨e, he, hed⟩ := h3 d hdk (by simp [hd, hrem]) hd'
          refine ⟨e, ?_, hed⟩
          split
          · simp [he]
          · exact he
      · intro d
        split
        · rw [List.pairwise_cons]
          refine ⟨?_, h4 d⟩
          rintro e he ⟨ha, hb⟩
          have := (h2 e he).2.2.2 d hb
          simp at ha this
          rw [ha.2] at this
          simp at this
        · exact h4 d
      · intro e he d hd
        rcases hnew e he with rfl | he
        · simp at hd
          cases hx : r.2 d with
          | false => rfl
          | true =>
            have := (h1 d).mp hx
            simp [hd.2] at this
        · exact h5 e he d hd

/-- Invariant of the remaining days and the combinations found (`lo`: smallest possible first trip of
the combinations still to come). -/
private structure Inv (ts : List Trip) (lo : Nat) (st : St) : Prop where
  cover : ∀ i d, i < ts.length → d < kMaxDays →
    coverCount st.combos i d = if (trip ts i).days d && !st.rem i d then 1 else 0
  sub : ∀ i d, st.rem i d = true → (trip ts i).days d = true
  linked : ∀ c ∈ st.combos, c.trips ≠ [] ∧ Linked ts c.trips ∧ (∀ i ∈ c.trips, i < ts.length) ∧
    ∃ d, d < kMaxDays ∧ c.days d = true
  maximal : ∀ c ∈ st.combos, ∀ d, c.days d = true → ∀ i j, c.trips.getLast? = some i → i < j → j < ts.length →
    (trip ts i).last = (trip ts j).first → st.rem j d = false
  headLe : ∀ c ∈ st.combos, ∀ i, c.trips.head? = some i → i ≤ lo
  pair : st.combos.Pairwise fun c c' => ∀ d, c.days d = true → c'.days d = true →
    (∀ a b, c.trips.head? = some a → c'.trips.head? = some b → a ≤ b) ∧
    (∀ i j, c.trips.getLast? = some i → c'.trips.head? = some j → i < j → (trip ts i).last ≠ (trip ts j).first)

private structure EntryOk (ts : List Trip) (s : Nat) (st : St) (e : Entry) : Prop where
  cur : e.cur < ts.length
  linked : Linked ts (e.collected ++ [e.cur])
  head : (e.collected ++ [e.cur]).head? = some s
  mem : ∀ i ∈ e.collected ++ [e.cur], i < ts.length
  days : ∀ d, e.days d = true → ∀ i ∈ e.collected ++ [e.cur], st.rem i d = true

private structure StackInv (ts : List Trip) (s : Nat) (st : St) (q : List Entry) : Prop where
  ok : ∀ e ∈ q, EntryOk ts s st e
  disj : ∀ d, q.Pairwise fun e e' => ¬ (e.days d = true ∧ e'.days d = true)
  all : ∀ d, d < kMaxDays → st.rem s d = true → ∃ e ∈ q, e.days d = true

private theorem linked_snoc (ts : List Trip) (l : List Nat) (a b : Nat) (h : Linked ts (l ++ [a])) (hab : a < b)
    (hl : (trip ts a).last = (trip ts b).first) : Linked ts ((l ++ [a]) ++ [b]) := by
  intro k x y hx hy
  by_cases hk : k + 1 < (l ++ [a]).length
  · rw [List.getElem?_append_left (by omega)] at hx
    rw [List.getElem?_append_left hk] at hy
    exact h k x y hx hy
  · have hk2 : k + 1 < ((l ++ [a]) ++ [b]).length := by
      rw [List.getElem?_eq_some_iff] at hy; exact hy.1
    simp at hk hk2
    have hkl : k = l.length := by omega
    subst hkl
    simp at hx
    rw [List.getElem?_append_right (by simp)] at hy
    simp at hy
    subst hx; subst hy
    exact ⟨hab, hl⟩

private theorem linked_sorted (ts : List Trip) (l : List Nat) (h : Linked ts l) : l.Pairwise (· < ·) := by
  rw [List.pairwise_iff_getElem]
  intro i j hi hj hij
  have key : ∀ k, ∀ (hk : i + 1 + k < l.length), l[i] < l[i + 1 + k] := by
    intro k
    induction k with
    | zero =>
      intro hk
      exact (h i l[i] l[i + 1] (List.getElem?_eq_getElem hi) (List.getElem?_eq_getElem hk)).1
    | succ k ih =>
      intro hk
      have h1 := ih (by omega)
      have h2 := (h (i + 1 + k) l[i + 1 + k] l[i + 1 + k + 1] (List.getElem?_eq_getElem (by omega))
        (List.getElem?_eq_getElem hk)).1
      exact Nat.lt_trans h1 h2
  have := key (j - (i + 1)) (by omega)
  have e : l[i + 1 + (j - (i + 1))]'(by omega) = l[j] := by congr 1; omega
  rw [e] at this; exact this

private theorem coverCount_snoc (cs : List Combo) (c : Combo) (i d : Nat) :
    coverCount (cs ++ [c]) i d = coverCount cs i d + if decide (i ∈ c.trips) && c.days d then 1 else 0 := by
  unfold coverCount
  rw [List.filter_append, List.length_append]
  congr 1
  by_cases h : (decide (i ∈ c.trips) && c.days d) = true
  · simp only [h, List.filter_cons, if_true, List.filter_nil, List.length_singleton]
  · simp only [h, List.filter_cons, List.filter_nil]; rfl

private theorem step_inv (ts : List Trip) (s : Nat) (st : St) (e : Entry) (rest : List Entry)
    (hI : Inv ts s st) (hS : StackInv ts s st (e :: rest)) :
    let coll := e.collected ++ [e.cur]
    let r := succLoop ts st.rem e.cur coll (List.range' (e.cur + 1) (ts.length - (e.cur + 1))) e.days
    Inv ts s (emit st coll r.2) ∧ StackInv ts s (emit st coll r.2) (r.1.reverse ++ rest) := by
  intro coll r
  have heok := hS.ok e (by simp)
  obtain ⟨h1, h2, h3, h4, h5⟩ := succLoop_spec ts st.rem e.cur coll
    (List.range' (e.cur + 1) (ts.length - (e.cur + 1))) (List.nodup_range' ..) e.days
  change (∀ d, r.2 d = true ↔ _) at h1
  change (∀ e' ∈ r.1, _) at h2
  have hjs : ∀ j, j ∈ List.range' (e.cur + 1) (ts.length - (e.cur + 1)) ↔ e.cur < j ∧ j < ts.length := by
    intro j; rw [List.mem_range'_1]; have := heok.cur; omega
  have hdisj := hS.disj
  -- days of the other entries are untouched by `emit`
  have hremOther : ∀ i d, r.2 d = false → (emit st coll r.2).rem i d = st.rem i d := by
    intro i d hd
    unfold emit
    split
    · simp only; split <;> simp [hd]
    · rfl
  have hremSub : ∀ i d, (emit st coll r.2).rem i d = true → st.rem i d = true := by
    intro i d hd
    unfold emit at hd
    split at hd
    · simp only at hd; split at hd
      · simp at hd; exact hd.1
      · exact hd
    · exact hd
  have hrestFree : ∀ e' ∈ rest, ∀ d, e'.days d = true → r.2 d = false := by
    intro e' he' d hd
    cases hx : r.2 d with
    | false => rfl
    | true =>
      have := (List.pairwise_cons.mp (hdisj d)).1 e' he'
      exact absurd ⟨((h1 d).mp hx).1, hd⟩ this
  have hany : any r.2 = true ↔ ∃ d, d < kMaxDays ∧ r.2 d = true := by
    unfold any; rw [List.any_eq_true]; simp
  constructor
  · -- Inv
    by_cases ha : any r.2 = true
    · have hem : emit st coll r.2 =
        { rem := fun i => if i ∈ coll then fun d => st.rem i d && !r.2 d else st.rem i
          combos := st.combos ++ [{ trips := coll, days := r.2 }] } := by unfold emit; rw [if_pos ha]
      have hcollDays : ∀ i d, i ∈ coll → r.2 d = true → st.rem i d = true := fun i d hi hd =>
        heok.days d ((h1 d).mp hd).1 i hi
      rw [hem]
      refine ⟨?_, ?_, ?_, ?_, ?_, ?_⟩
      · intro i d hi hd
        simp only
        rw [coverCount_snoc, hI.cover i d hi hd]
        by_cases hc : i ∈ coll
        · simp only [hc, if_true, decide_true, Bool.true_and]
          cases hx : r.2 d with
          | false => simp
          | true =>
            have hr := hcollDays i d hc hx
            have := hI.sub i d hr
            simp [hr, this]
        · simp [hc]
      · intro i d hd
        apply hI.sub
        simp only at hd
        split at hd
        · simp at hd; exact hd.1
        · exact hd
      · intro c hc
        simp only [List.mem_append, List.mem_singleton] at hc
        rcases hc with hc | rfl
        · exact hI.linked c hc
        · exact ⟨by simp [coll], heok.linked, heok.mem, hany.mp ha⟩
      · intro c hc d hd i j hi hij hj hl
        simp only [List.mem_append, List.mem_singleton] at hc
        have hgoal : st.rem j d = false → (if j ∈ coll then fun d => st.rem j d && !r.2 d else st.rem j) d = false := by
          intro h; split <;> simp [h]
        apply hgoal
        rcases hc with hc | rfl
        · exact hI.maximal c hc d hd i j hi hij hj hl
        · simp only [coll, List.getLast?_append, List.getLast?_singleton, Option.some_or, Option.some.injEq] at hi
          subst hi
          exact ((h1 d).mp hd).2 j ((hjs j).mpr ⟨hij, hj⟩) hl
      · intro c hc i hi
        simp only [List.mem_append, List.mem_singleton] at hc
        rcases hc with hc | rfl
        · exact hI.headLe c hc i hi
        · rw [show ({ trips := coll, days := r.2 } : Combo).trips = coll from rfl, heok.head] at hi
          simp at hi; omega
      · rw [List.pairwise_append]
        refine ⟨hI.pair, by simp, ?_⟩
        intro c hc c' hc' d hd hd'
        simp only [List.mem_singleton] at hc'
        subst hc'
        simp only at hd'
        have hhead : coll.head? = some s := heok.head
        refine ⟨?_, ?_⟩
        · intro a b ha' hb
          simp only [hhead, Option.some.injEq] at hb
          subst hb
          exact hI.headLe c hc a ha'
        · intro i j hi hj hij hl
          simp only [hhead, Option.some.injEq] at hj
          subst hj
          have hsm : s ∈ coll := List.mem_of_head? hhead
          have hr : st.rem s d = true := hcollDays s d hsm hd'
          have := hI.maximal c hc d hd i s hi hij (heok.mem s hsm) hl
          rw [hr] at this; simp at this
    · have hem : emit st coll r.2 = st := by unfold emit; rw [if_neg ha]
      rw [hem]; exact hI
  · -- StackInv
    refine ⟨?_, ?_, ?_⟩
    · intro e' he'
      rw [List.mem_append, List.mem_reverse] at he'
      rcases he' with he' | he'
      · obtain ⟨g1, g2, g3, g4⟩ := h2 e' he'
        obtain ⟨c1, c2⟩ := (hjs _).mp g1
        refine ⟨c2, ?_, ?_, ?_, ?_⟩
        · rw [g3]; exact linked_snoc ts e.collected e.cur e'.cur heok.linked c1 g2
        · rw [g3, List.head?_append]; rw [show coll.head? = some s from heok.head]; rfl
        · intro i hi
          rw [g3, List.mem_append] at hi
          rcases hi with hi | hi
          · exact heok.mem i hi
          · simp at hi; omega
        · intro d hd i hi
          rw [hremOther i d (h5 e' he' d hd)]
          obtain ⟨k1, k2⟩ := g4 d hd
          rw [g3, List.mem_append] at hi
          rcases hi with hi | hi
          · exact heok.days d k1 i hi
          · simp at hi; rw [hi]; exact k2
      · have hok := hS.ok e' (by simp [he'])
        refine ⟨hok.cur, hok.linked, hok.head, hok.mem, ?_⟩
        intro d hd i hi
        rw [hremOther i d (hrestFree e' he' d hd)]
        exact hok.days d hd i hi
    · intro d
      rw [List.pairwise_append]
      have hc := List.pairwise_cons.mp (hdisj d)
      refine ⟨?_, hc.2, ?_⟩
      · rw [List.pairwise_reverse]
        exact (h4 d).imp (fun h h' => h ⟨h'.2, h'.1⟩)
      · intro a ha b hb
        rw [List.mem_reverse] at ha
        rintro ⟨k1, k2⟩
        exact hc.1 b hb ⟨((h2 a ha).2.2.2 d k1).1, k2⟩
    · intro d hd hs
      have hs0 := hremSub s d hs
      obtain ⟨e', he', hd'⟩ := hS.all d hd hs0
      rcases List.mem_cons.mp he' with rfl | he'
      · cases hx : r.2 d with
        | false =>
          obtain ⟨e'', he'', hd''⟩ := h3 d hd hd' hx
          exact ⟨e'', by rw [List.mem_append, List.mem_reverse]; left; exact he'', hd''⟩
        | true =>
          exfalso
          have ha : any r.2 = true := hany.mpr ⟨d, hd, hx⟩
          have hsm : s ∈ coll := List.mem_of_head? heok.head
          unfold emit at hs
          rw [if_pos ha] at hs
          simp [hsm, hx] at hs
      · exact ⟨e', by simp [he'], hd'⟩

private theorem runStack_inv (ts : List Trip) (s : Nat) :
    ∀ (m : Nat) (st : St) (q : List Entry), stackMeasure ts.length q ≤ m → Inv ts s st → StackInv ts s st q →
    Inv ts s (runStack ts st q) ∧ (∀ d, d < kMaxDays → (runStack ts st q).rem s d = false) ∧
    (∀ i d, (runStack ts st q).rem i d = true → st.rem i d = true) := by
  intro m
  induction m with
  | zero =>
    intro st q hm hI hS
    cases q with
    | nil =>
      unfold runStack
      refine ⟨hI, ?_, fun _ _ h => h⟩
      intro d hd
      cases hx : st.rem s d with
      | false => rfl
      | true => obtain ⟨e, he, -⟩ := hS.all d hd hx; simp at he
    | cons e rest =>
      simp only [stackMeasure, List.map_cons, List.sum_cons] at hm
      have := Nat.two_pow_pos (ts.length - e.cur)
      omega
  | succ m ih =>
    intro st q hm hI hS
    cases q with
    | nil =>
      unfold runStack
      refine ⟨hI, ?_, fun _ _ h => h⟩
      intro d hd
      cases hx : st.rem s d with
      | false => rfl
      | true => obtain ⟨e, he, -⟩ := hS.all d hd hx; simp at he
    | cons e rest =>
      unfold runStack
      obtain ⟨h1, h2⟩ := step_inv ts s st e rest hI hS
      have hcur := (hS.ok e (by simp)).cur
      have hmeas : stackMeasure ts.length ((succLoop ts st.rem e.cur (e.collected ++ [e.cur])
          (List.range' (e.cur + 1) (ts.length - (e.cur + 1))) e.days).1.reverse ++ rest) ≤ m := by
        have := succLoop_measure ts st.rem e.cur (e.collected ++ [e.cur]) ts.length (ts.length - (e.cur + 1)) (e.cur + 1)
          e.days (by omega)
        simp only [stackMeasure, List.map_append, List.map_reverse, List.sum_append, sum_reverse, List.map_cons,
          List.sum_cons] at hm this ⊢
        have e1 : ts.length - (e.cur + 1) + 1 = ts.length - e.cur := by omega
        rw [e1] at this
        omega
      obtain ⟨g1, g2, g3⟩ := ih _ _ hmeas h1 h2
      refine ⟨g1, g2, ?_⟩
      intro i d hd
      have := g3 i d hd
      unfold emit at this
      split at this
      · simp only at this; split at this
        · simp at this; exact this.1
        · exact this
      · exact this

private theorem outer_inv (ts : List Trip) : ∀ (k s : Nat) (st : St), s + k = ts.length →
    Inv ts s st → (∀ i d, i < s → d < kMaxDays → st.rem i d = false) →
    ∃ lo, Inv ts lo (outer ts (List.range' s k) st) ∧
      ∀ i d, i < ts.length → d < kMaxDays → (outer ts (List.range' s k) st).rem i d = false := by
  intro k
  induction k with
  | zero =>
    intro s st hk hI hz
    exact ⟨s, hI, fun i d hi hd => hz i d (by omega) hd⟩
  | succ k ih =>
    intro s st hk hI hz
    rw [List.range'_succ]
    simp only [outer]
    have hS : StackInv ts s st [{ cur := s, collected := [], days := st.rem s }] := by
      refine ⟨?_, by simp, ?_⟩
      · intro e he
        simp at he; subst he
        refine ⟨by simp; omega, ?_, rfl, by simp; omega, ?_⟩
        · intro k a b _ hb; simp at hb
        · intro d hd i hi
          simp at hi; subst hi; exact hd
      · intro d _ hr; exact ⟨_, by simp; rfl, hr⟩
    obtain ⟨h1, h2, h3⟩ := runStack_inv ts s _ st _ (Nat.le_refl _) hI hS
    have h1' : Inv ts (s + 1) (runStack ts st [{ cur := s, collected := [], days := st.rem s }]) :=
      ⟨h1.cover, h1.sub, h1.linked, h1.maximal, fun c hc i hi => Nat.le_succ_of_le (h1.headLe c hc i hi), h1.pair⟩
    refine ih (s + 1) _ (by omega) h1' ?_
    intro i d hi hd
    by_cases his : i = s
    · rw [his]; exact h2 d hd
    · cases hx : (runStack ts st [{ cur := s, collected := [], days := st.rem s }]).rem i d with
      | false => rfl
      | true =>
        have := h3 i d hx
        rw [hz i d (by omega) hd] at this; simp at this

private theorem ruleServices_inv (ts : List Trip) (hlen : ts.length ≠ 1) :
    ∃ lo st, ruleServices ts = st.combos ∧ Inv ts lo st ∧
      ∀ i d, i < ts.length → d < kMaxDays → st.rem i d = false := by
  unfold ruleServices
  rw [if_neg hlen]
  have h0 : Inv ts 0 { rem := fun i => (trip ts i).days, combos := [] } := by
    refine ⟨?_, fun _ _ h => h, ?_, ?_, ?_, List.Pairwise.nil⟩
    · intro i d _ _
      simp [coverCount]
    · intro c hc; simp at hc
    · intro c hc; simp at hc
    · intro c hc; simp at hc
  rw [List.range_eq_range']
  obtain ⟨lo, h1, h2⟩ := outer_inv ts ts.length 0 _ (by omega) h0 (fun i d hi _ => by omega)
  exact ⟨lo, _, rfl, h1, h2⟩

/-- C16 (no loss, no duplication): for every block, every trip `i` of it and every day `d`, the
number of combined services that contain `i` and run on `d` is one if the trip runs on that day and
zero otherwise. -/
theorem C16_partition (ts : List Trip) (i d : Nat) (hi : i < ts.length) (hd : d < 512) :
    coverCount (ruleServices ts) i d = if (trip ts i).days d then 1 else 0 := by
  by_cases hlen : ts.length = 1
  · have hi0 : i = 0 := by omega
    subst hi0
    unfold ruleServices coverCount
    rw [if_pos hlen]
    cases hx : (trip ts 0).days d <;> simp [hx]
  · obtain ⟨lo, st, h1, h2, h3⟩ := ruleServices_inv ts hlen
    rw [h1, h2.cover i d hi hd, h3 i d hi hd]
    simp

/-- C16 (actual chain): the trips of a combined service are in departure order, each starts at the
stop where the previous one ends, and every one of them runs on each day of the combined service. -/
theorem C16_chain (ts : List Trip) (c : Combo) (hc : c ∈ ruleServices ts) :
    c.trips ≠ [] ∧ Linked ts c.trips ∧ c.trips.Pairwise (· < ·) ∧
    (∀ i ∈ c.trips, i < ts.length ∧ ∀ d, d < 512 → c.days d = true → (trip ts i).days d = true) := by
  by_cases hlen : ts.length = 1
  · unfold ruleServices at hc
    rw [if_pos hlen] at hc
    simp at hc; subst hc
    refine ⟨by simp, ?_, by simp, ?_⟩
    · intro k a b _ hb; simp at hb
    · intro i hi
      simp at hi; subst hi
      exact ⟨by omega, fun _ _ h => h⟩
  · obtain ⟨lo, st, h1, h2, h3⟩ := ruleServices_inv ts hlen
    have hl := h2.linked c (by rw [← h1]; exact hc)
    refine ⟨hl.1, hl.2.1, linked_sorted ts _ hl.2.1, ?_⟩
    intro i hi
    have hi' := hl.2.2.1 i hi
    refine ⟨hi', ?_⟩
    intro d hd hcd
    have hcov := C16_partition ts i d hi' hd
    have hpos : 0 < coverCount (ruleServices ts) i d := by
      unfold coverCount
      rw [List.length_pos_iff_exists_mem]
      exact ⟨c, by simp [List.mem_filter, hc, hi, hcd]⟩
    rw [hcov] at hpos
    split at hpos
    · assumption
    · omega

/-- C16 (maximality): on no day can one combined service be prolonged by another one of the same
block: no two different combined services of that day are such that the second starts, later in
departure order, where the first ends. -/
theorem C16_maximal (ts : List Trip) (x y : Nat) (c c' : Combo) (hc : (ruleServices ts)[x]? = some c)
    (hc' : (ruleServices ts)[y]? = some c') (hxy : x ≠ y) (d : Nat) (hcd : c.days d = true) (hcd' : c'.days d = true)
    (i j : Nat) (hi : c.trips.getLast? = some i) (hj : c'.trips.head? = some j) (hij : i < j) :
    (trip ts i).last ≠ (trip ts j).first := by
  by_cases hlen : ts.length = 1
  · unfold ruleServices at hc hc'
    rw [if_pos hlen, List.getElem?_eq_some_iff] at hc hc'
    obtain ⟨a, -⟩ := hc; obtain ⟨b, -⟩ := hc'
    simp at a b; omega
  · obtain ⟨lo, st, h1, h2, h3⟩ := ruleServices_inv ts hlen
    have hmem : c ∈ ruleServices ts := List.mem_of_getElem? hc
    have hsort := (C16_chain ts c hmem).2.2.1
    rw [h1, List.getElem?_eq_some_iff] at hc hc'
    obtain ⟨hx1, hx2⟩ := hc
    obtain ⟨hy1, hy2⟩ := hc'
    have hp := List.pairwise_iff_getElem.mp h2.pair
    rcases Nat.lt_or_gt_of_ne hxy with h | h
    · have := hp x y hx1 hy1 h d (by rw [hx2]; exact hcd) (by rw [hy2]; exact hcd')
      rw [hx2, hy2] at this
      exact this.2 i j hi hj hij
    · have := hp y x hy1 hx1 h d (by rw [hy2]; exact hcd') (by rw [hx2]; exact hcd)
      rw [hx2, hy2] at this
      -- the head of c' is not larger than the head of c, which is not larger than its last element
      cases hh : c.trips.head? with
      | none => rw [List.head?_eq_none_iff] at hh; rw [hh] at hi; simp at hi
      | some a =>
        have h4 := this.1 j a hj hh
        have hai : a ≤ i := by
          cases hct : c.trips with
          | nil => rw [hct] at hh; simp at hh
          | cons z zs =>
            rw [hct] at hh hi hsort
            simp at hh; subst hh
            rw [List.pairwise_cons] at hsort
            have := List.mem_of_getLast? hi
            rcases List.mem_cons.mp this with rfl | hm
            · exact Nat.le_refl _
            · exact Nat.le_of_lt (hsort.1 i hm)
        omega

/-! ### Non-vacuity -/

/-- A: 1→2 days 0,1; B: 2→3 days 1,2; C: 2→4 days 0,1. -/
def exBlock : List Trip :=
  [⟨1, 2, fun d => d = 0 || d = 1⟩, ⟨2, 3, fun d => d = 1 || d = 2⟩, ⟨2, 4, fun d => d = 0 || d = 1⟩]

def exShow (cs : List Combo) : List (List Nat × List Bool) := cs.map fun c => (c.trips, (List.range 4).map c.days)

example : exShow (ruleServices exBlock) =
    [([0, 2], [true, false, false, false]), ([0, 1], [false, true, false, false]),
     ([1], [false, false, true, false]), ([2], [false, true, false, false])] := by decide +kernel

end Nigiri.Blocks
