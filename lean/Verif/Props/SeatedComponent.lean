import Verif.Spec.Seated
/-!
# Stay-seated transfers: the component of a trip
-/

namespace Nigiri.Seated
open Nigiri.Raptor (Adj adj_cons adj_append foldl_inv)

/-- All days of the bitfield exist. -/
def Bounded (b : Bitfield) : Prop := ∀ d, b d = true → d < kMaxDays

theorem any_iff {b : Bitfield} (hb : Bounded b) : any b = true ↔ ∃ d, b d = true := by
  unfold any
  rw [List.any_eq_true]
  constructor
  · rintro ⟨d, -, h⟩; exact ⟨d, h⟩
  · rintro ⟨d, h⟩; exact ⟨d, List.mem_range.2 (hb d h), h⟩

theorem shift_iff {b : Bitfield} (hb : Bounded b) (o : Int) (d : Nat) :
    shift b o d = true ↔ d < kMaxDays ∧ ∃ e : Nat, (e : Int) = d - o ∧ b e = true := by
  unfold shift
  by_cases ho : 0 < o
  · rw [if_pos ho]
    simp only [Bool.and_eq_true, decide_eq_true_eq]
    constructor
    · rintro ⟨⟨h1, h2⟩, h3⟩; exact ⟨h2, _, by omega, h3⟩
    · rintro ⟨h1, e, h2, h3⟩
      have : d - o.toNat = e := by omega
      exact ⟨⟨by omega, h1⟩, by rw [this]; exact h3⟩
  · rw [if_neg ho]
    simp only [Bool.and_eq_true, decide_eq_true_eq]
    constructor
    · rintro ⟨h1, h2⟩; exact ⟨by omega, _, by omega, h2⟩
    · rintro ⟨h1, e, h2, h3⟩
      have : d + (-o).toNat = e := by omega
      exact ⟨by rw [this]; exact hb e h3, by rw [this]; exact h3⟩

/-! ### The queue -/

theorem hasKey_iff {m : List (Nat × Int)} {k : Nat} : hasKey m k = true ↔ k ∈ m.map (·.1) := by
  unfold hasKey
  simp only [List.any_eq_true, decide_eq_true_eq, List.mem_map]

theorem mem_emplace {m : List (Nat × Int)} {x y : Nat × Int} : y ∈ emplace m x → y ∈ m ∨ y = x := by
  unfold emplace
  split
  · exact .inl
  · intro h; simpa using h

theorem mem_emplace_of_mem {m : List (Nat × Int)} {x y : Nat × Int} (h : y ∈ m) : y ∈ emplace m x := by
  unfold emplace
  split
  · exact h
  · simp [h]

theorem emplace_nodup {m : List (Nat × Int)} {x : Nat × Int} (h : (m.map (·.1)).Nodup) : ((emplace m x).map (·.1)).Nodup := by
  unfold emplace
  by_cases hk : hasKey m x.1 = true
  · rw [if_pos hk]; exact h
  · rw [if_neg hk, List.map_append, List.nodup_append]
    refine ⟨h, by simp, ?_⟩
    intro a ha b hb he
    have : b = x.1 := by simpa using hb
    subst he
    subst this
    exact hk (hasKey_iff.2 ha)

theorem emplace_hasKey (m : List (Nat × Int)) (x : Nat × Int) : hasKey (emplace m x) x.1 = true := by
  unfold emplace
  by_cases hk : hasKey m x.1 = true
  · rw [if_pos hk]; exact hk
  · rw [if_neg hk, hasKey_iff]; simp

theorem mem_foldl_emplace {y : Nat × Int} : ∀ (l m : List (Nat × Int)), y ∈ l.foldl emplace m → y ∈ m ∨ y ∈ l
  | [], m, h => .inl h
  | x :: l, m, h => by
    rcases mem_foldl_emplace l (emplace m x) h with h | h
    · rcases mem_emplace h with h | h
      · exact .inl h
      · exact .inr (by simp [h])
    · exact .inr (by simp [h])

theorem mem_foldl_of_mem {y : Nat × Int} : ∀ (l m : List (Nat × Int)), y ∈ m → y ∈ l.foldl emplace m
  | [], m, h => h
  | x :: l, m, h => mem_foldl_of_mem l (emplace m x) (mem_emplace_of_mem h)

theorem foldl_emplace_nodup : ∀ (l m : List (Nat × Int)), (m.map (·.1)).Nodup → ((l.foldl emplace m).map (·.1)).Nodup
  | [], m, h => h
  | x :: l, m, h => foldl_emplace_nodup l (emplace m x) (emplace_nodup h)

theorem hasKey_mono {m m' : List (Nat × Int)} (h : ∀ x ∈ m, x ∈ m') {k : Nat} (hk : hasKey m k = true) : hasKey m' k = true := by
  rw [hasKey_iff, List.mem_map] at *
  obtain ⟨x, hx, rfl⟩ := hk
  exact ⟨x, h x hx, rfl⟩

theorem foldl_emplace_hasKey {x : Nat × Int} : ∀ (l m : List (Nat × Int)), x ∈ l → hasKey (l.foldl emplace m) x.1 = true
  | [], m, h => by simp at h
  | y :: l, m, h => by
    rw [List.foldl_cons]
    rcases List.mem_cons.1 h with rfl | h
    · exact hasKey_mono (fun z hz => mem_foldl_of_mem l _ hz) (emplace_hasKey m x)
    · exact foldl_emplace_hasKey l _ h

theorem mem_remaining {inp : Input} {r i : Nat} : i ∈ inp.remaining r ↔ i < inp.vs.length ∧ (inp.var i).rule = r := by
  unfold Input.remaining
  simp [List.mem_filter]

theorem var_eq {inp : Input} {i : Nat} {v : Variant} (h : inp.vs[i]? = some v) : inp.var i = v := by
  unfold Input.var
  rw [List.getD_eq_getElem?_getD, h]; rfl

theorem var_get {inp : Input} {i : Nat} (h : i < inp.vs.length) : inp.vs[i]? = some (inp.var i) := by
  unfold Input.var
  rw [List.getD_eq_getElem?_getD, List.getElem?_eq_getElem h]; rfl

theorem rule_iff {inp : Input} {i j : Nat} : inp.Rule i j ↔
    i < inp.vs.length ∧ j < inp.vs.length ∧ (inp.var j).rule ∈ inp.sOut (inp.var i).rule := by
  unfold Input.Rule
  constructor
  · rintro ⟨v, w, h1, h2, h3⟩
    have e1 := List.getElem?_eq_some_iff.1 h1
    have e2 := List.getElem?_eq_some_iff.1 h2
    rw [var_eq h1, var_eq h2]
    exact ⟨e1.1, e2.1, h3⟩
  · rintro ⟨h1, h2, h3⟩
    exact ⟨_, _, var_get h1, var_get h2, h3⟩

/-- A neighbour of `curr` not yet in the component. -/
theorem mem_neighbours {inp : Input} (hm : ∀ a b, b ∈ inp.sOut a ↔ a ∈ inp.sIn b) {comp : List (Nat × Int)} {curr : Nat} {offset : Int}
    (hc : curr < inp.vs.length) {x : Nat × Int} : x ∈ neighbours inp comp curr offset ↔ hasKey comp x.1 = false ∧
      ((inp.Rule curr x.1 ∧ validDwell (inp.var curr) (inp.var x.1) = true ∧ x.2 = offset + dayChange (inp.var curr) (inp.var x.1)) ∨
       (inp.Rule x.1 curr ∧ validDwell (inp.var x.1) (inp.var curr) = true ∧ x.2 = offset - dayChange (inp.var x.1) (inp.var curr))) := by
  unfold neighbours
  rw [List.mem_append, List.mem_filterMap, List.mem_filterMap]
  simp only [List.mem_flatMap, mem_remaining, rule_iff]
  obtain ⟨x1, x2⟩ := x
  dsimp only
  constructor
  · rintro (⟨a, ⟨r, h1, h2, rfl⟩, h3⟩ | ⟨a, ⟨r, h1, h2, rfl⟩, h3⟩)
    · by_cases hh : (hasKey comp a || !validDwell (inp.var curr) (inp.var a)) = true
      · rw [if_pos hh] at h3; cases h3
      · rw [if_neg hh] at h3
        cases h3
        simp only [Bool.or_eq_true, Bool.not_eq_true', not_or, Bool.not_eq_true, Bool.not_eq_false] at hh
        exact ⟨hh.1, .inl ⟨⟨hc, h2, h1⟩, hh.2, rfl⟩⟩
    · by_cases hh : (hasKey comp a || !validDwell (inp.var a) (inp.var curr)) = true
      · rw [if_pos hh] at h3; cases h3
      · rw [if_neg hh] at h3
        cases h3
        simp only [Bool.or_eq_true, Bool.not_eq_true', not_or, Bool.not_eq_true, Bool.not_eq_false] at hh
        exact ⟨hh.1, .inr ⟨⟨h2, hc, (hm _ _).2 h1⟩, hh.2, rfl⟩⟩
  · rintro ⟨h1, ⟨⟨h2, h3, h4⟩, h5, h6⟩ | ⟨⟨h2, h3, h4⟩, h5, h6⟩⟩
    · refine .inl ⟨x1, ⟨_, h4, h3, rfl⟩, ?_⟩
      rw [h1, h5, h6]; rfl
    · refine .inr ⟨x1, ⟨_, (hm _ _).1 h4, h2, rfl⟩, ?_⟩
      rw [h1, h5, h6]; rfl

/-! ### Invariant of part 1 -/

structure Inv (inp : Input) (rem : Nat → Bitfield) (root : Nat) (st : P1) : Prop where
  q_lt : ∀ x ∈ st.q, x.1 < inp.vs.length
  c_lt : ∀ x ∈ st.comp, x.1 < inp.vs.length
  q_nodup : (st.q.map (·.1)).Nodup
  c_nodup : (st.comp.map (·.1)).Nodup
  disj : ∀ x ∈ st.q, hasKey st.comp x.1 = false
  bounded : Bounded st.days
  runs : ∀ x ∈ st.comp, ∀ d, st.days d = true → ∃ e : Nat, (e : Int) = d + x.2 ∧ rem x.1 e = true
  some_day : ∃ d, st.days d = true
  root : (st.comp = [] ∧ st.q = [(root, 0)] ∧ st.days = rem root) ∨ (root, 0) ∈ st.comp

/-- Work left. -/
def work (inp : Input) (st : P1) : Nat := (inp.vs.length + 1) * (inp.vs.length - st.comp.length) + st.q.length

theorem nodup_length {l : List Nat} {n : Nat} (h : l.Nodup) (hlt : ∀ x ∈ l, x < n) : l.length ≤ n := by
  have : l ⊆ List.range n := fun x hx => List.mem_range.2 (hlt x hx)
  have := h.length_le_of_subset this
  simpa using this

/-- What one step does. -/
theorem p1Step_cases (inp : Input) (rem : Nat → Bitfield) (hr : ∀ i, Bounded (rem i)) (k : Nat) (st : P1) (hq : st.q ≠ []) (hb : Bounded st.days) :
    ∃ pre post curr offset, st.q = pre ++ (curr, offset) :: post ∧
      ((∃ d, st.days d = true ∧ ∃ e : Nat, (e : Int) = d + offset ∧ rem curr e = true) ∧
        (∀ d, (p1Step inp rem k st).days d = true ↔ st.days d = true ∧ ∃ e : Nat, (e : Int) = d + offset ∧ rem curr e = true) ∧
        (p1Step inp rem k st).comp = emplace st.comp (curr, offset) ∧
        (p1Step inp rem k st).q = (neighbours inp (emplace st.comp (curr, offset)) curr offset).foldl emplace (pre ++ post) ∨
       (∀ d, st.days d = true → ∀ e : Nat, (e : Int) = d + offset → rem curr e = false) ∧
        p1Step inp rem k st = { st with q := pre ++ post }) := by
  have hlen : 0 < st.q.length := List.length_pos_iff.2 hq
  have hi : k % st.q.length < st.q.length := Nat.mod_lt _ hlen
  obtain ⟨⟨curr, offset⟩, hco⟩ : ∃ x, st.q[k % st.q.length] = x := ⟨_, rfl⟩
  refine ⟨st.q.take (k % st.q.length), st.q.drop (k % st.q.length + 1), curr, offset, ?_, ?_⟩
  · rw [← hco, ← List.drop_eq_getElem_cons hi, List.take_append_drop]
  · have hE : st.q[k % st.q.length]? = some (curr, offset) := by rw [List.getElem?_eq_getElem hi, hco]
    have hstep : p1Step inp rem k st = (if any (fun d => shift (rem curr) (-offset) d && st.days d) then
        { q := (neighbours inp (emplace st.comp (curr, offset)) curr offset).foldl emplace (st.q.eraseIdx (k % st.q.length)),
          comp := emplace st.comp (curr, offset), days := fun d => shift (rem curr) (-offset) d && st.days d }
        else { st with q := st.q.eraseIdx (k % st.q.length) }) := by
      unfold p1Step; rw [hE]
    rw [List.eraseIdx_eq_take_drop_succ] at hstep
    have hnb : Bounded (fun d => shift (rem curr) (-offset) d && st.days d) := by
      intro d hd; simp only [Bool.and_eq_true] at hd; exact hb d hd.2
    have key : ∀ d, (shift (rem curr) (-offset) d && st.days d) = true ↔
        st.days d = true ∧ ∃ e : Nat, (e : Int) = d + offset ∧ rem curr e = true := by
      intro d
      rw [Bool.and_eq_true, shift_iff (hr curr)]
      constructor
      · rintro ⟨⟨-, e, h1, h2⟩, h3⟩; exact ⟨h3, e, by omega, h2⟩
      · rintro ⟨h3, e, h1, h2⟩; exact ⟨⟨hb d h3, e, by omega, h2⟩, h3⟩
    by_cases ha : any (fun d => shift (rem curr) (-offset) d && st.days d) = true
    · rw [if_pos ha] at hstep
      rw [hstep]
      obtain ⟨d, hd⟩ := (any_iff hnb).1 ha
      exact .inl ⟨⟨d, (key d).1 hd⟩, key, rfl, rfl⟩
    · rw [if_neg ha] at hstep
      refine .inr ⟨?_, hstep⟩
      intro d hd e he
      cases hre : rem curr e with
      | false => rfl
      | true => exact absurd ((any_iff hnb).2 ⟨d, (key d).2 ⟨hd, e, he, hre⟩⟩) ha

theorem inv_step {inp : Input} (hm : ∀ a b, b ∈ inp.sOut a ↔ a ∈ inp.sIn b) {rem : Nat → Bitfield} (hr : ∀ i, Bounded (rem i))
    {root : Nat} (k : Nat) {st : P1} (h : Inv inp rem root st) (hq : st.q ≠ []) :
    Inv inp rem root (p1Step inp rem k st) ∧ work inp (p1Step inp rem k st) < work inp st := by
  obtain ⟨pre, post, curr, offset, hsp, hcase⟩ := p1Step_cases inp rem hr k st hq h.bounded
  have hcm : (curr, offset) ∈ st.q := by rw [hsp]; simp
  have hsub : ∀ x ∈ pre ++ post, x ∈ st.q := by
    intro x hx; rw [hsp]
    rcases List.mem_append.1 hx with hx | hx
    · simp [hx]
    · simp [hx]
  have hnd : ((pre ++ post).map (·.1)).Nodup := by
    have : (pre ++ post).Sublist st.q := by
      rw [hsp]; exact List.Sublist.append_left (List.sublist_cons_self _ _) _
    exact h.q_nodup.sublist (this.map _)
  have hnotin : ∀ x ∈ pre ++ post, x.1 ≠ curr := by
    intro x hx he
    have h1 := h.q_nodup
    rw [hsp, List.map_append, List.map_cons, List.nodup_append, List.nodup_cons] at h1
    rcases List.mem_append.1 hx with hx | hx
    · exact h1.2.2 x.1 (List.mem_map.2 ⟨x, hx, rfl⟩) curr (by simp) he
    · exact h1.2.1.1 (by rw [← he]; exact List.mem_map.2 ⟨x, hx, rfl⟩)
  have hlen : (pre ++ post).length + 1 = st.q.length := by rw [hsp]; simp; omega
  have hclen : st.comp.length ≤ inp.vs.length := by
    have := nodup_length (n := inp.vs.length) h.c_nodup (by
      intro x hx; obtain ⟨y, hy, rfl⟩ := List.mem_map.1 hx; exact h.c_lt y hy)
    simpa using this
  rcases hcase with ⟨⟨d0, hd0⟩, hdays, hcomp, hqq⟩ | ⟨hno, hst⟩
  · have hcurr : curr < inp.vs.length := h.q_lt _ hcm
    have hck := h.disj _ hcm
    have hce : emplace st.comp (curr, offset) = st.comp ++ [(curr, offset)] := by
      unfold emplace; rw [if_neg (by simpa using hck)]
    have hqlt : ∀ x ∈ (p1Step inp rem k st).q, x.1 < inp.vs.length ∧ hasKey (emplace st.comp (curr, offset)) x.1 = false := by
      intro x hx
      rw [hqq] at hx
      rcases mem_foldl_emplace _ _ hx with hx | hx
      · refine ⟨h.q_lt x (hsub x hx), ?_⟩
        have hd := h.disj x (hsub x hx)
        rw [hce]
        refine Bool.eq_false_iff.2 fun hn => ?_
        rw [hasKey_iff] at hn
        simp only [List.map_append, List.map_cons, List.map_nil, List.mem_append, List.mem_singleton] at hn
        rcases hn with hn | hn
        · rw [hasKey_iff.2 hn] at hd; cases hd
        · exact hnotin x hx hn
      · rw [mem_neighbours hm hcurr] at hx
        refine ⟨?_, hx.1⟩
        rcases hx.2 with ⟨h1, -⟩ | ⟨h1, -⟩
        · exact (rule_iff.1 h1).2.1
        · exact (rule_iff.1 h1).1
    have hI : Inv inp rem root (p1Step inp rem k st) := by
      constructor
      · exact fun x hx => (hqlt x hx).1
      · rw [hcomp, hce]; intro x hx
        rcases List.mem_append.1 hx with hx | hx
        · exact h.c_lt x hx
        · have : x = (curr, offset) := by simpa using hx
          subst this; exact hcurr
      · rw [hqq]; exact foldl_emplace_nodup _ _ hnd
      · rw [hcomp]; exact emplace_nodup h.c_nodup
      · rw [hcomp]; exact fun x hx => (hqlt x hx).2
      · intro d hd; exact h.bounded d ((hdays d).1 hd).1
      · rw [hcomp, hce]; intro x hx d hd
        rw [hdays] at hd
        rcases List.mem_append.1 hx with hx | hx
        · exact h.runs x hx d hd.1
        · have : x = (curr, offset) := by simpa using hx
          subst this; exact hd.2
      · exact ⟨d0, (hdays d0).2 hd0⟩
      · right
        rw [hcomp, hce]
        rcases h.root with ⟨-, h2, -⟩ | h2
        · rw [h2] at hcm
          have : (curr, offset) = (root, 0) := by simpa using hcm
          rw [this]; simp
        · exact List.mem_append_left _ h2
    refine ⟨hI, ?_⟩
    have hql : (p1Step inp rem k st).q.length ≤ inp.vs.length := by
      have := nodup_length (n := inp.vs.length) hI.q_nodup (by
        intro x hx; obtain ⟨y, hy, rfl⟩ := List.mem_map.1 hx; exact hI.q_lt y hy)
      simpa using this
    have hcl : (p1Step inp rem k st).comp.length = st.comp.length + 1 := by rw [hcomp, hce]; simp
    have hcl' : (p1Step inp rem k st).comp.length ≤ inp.vs.length := by
      have := nodup_length (n := inp.vs.length) hI.c_nodup (by
        intro x hx; obtain ⟨y, hy, rfl⟩ := List.mem_map.1 hx; exact hI.c_lt y hy)
      simpa using this
    unfold work
    rw [hcl]
    rw [hcl] at hcl'
    obtain ⟨m, hm'⟩ : ∃ m, inp.vs.length - st.comp.length = m + 1 := ⟨inp.vs.length - st.comp.length - 1, by omega⟩
    have : inp.vs.length - (st.comp.length + 1) = m := by omega
    rw [this, hm', Nat.mul_add]
    omega
  · rw [hst]
    refine ⟨?_, ?_⟩
    · constructor
      · exact fun x hx => h.q_lt x (hsub x hx)
      · exact h.c_lt
      · exact hnd
      · exact h.c_nodup
      · exact fun x hx => h.disj x (hsub x hx)
      · exact h.bounded
      · exact h.runs
      · exact h.some_day
      · rcases h.root with ⟨h1, h2, h3⟩ | h2
        · exfalso
          rw [h2] at hcm
          have : (curr, offset) = (root, 0) := by simpa using hcm
          cases this
          obtain ⟨d, hd⟩ := h.some_day
          have := hno d hd d (by omega)
          rw [h3] at hd
          rw [hd] at this; cases this
        · exact .inr h2
    · unfold work
      show _ * (_ - st.comp.length) + (pre ++ post).length < _
      omega

theorem inv_loop {inp : Input} (hm : ∀ a b, b ∈ inp.sOut a ↔ a ∈ inp.sIn b) {rem : Nat → Bitfield} (hr : ∀ i, Bounded (rem i))
    {root : Nat} (ch : Nat → Nat) : ∀ (n : Nat) (st : P1), Inv inp rem root st → work inp st ≤ n →
    Inv inp rem root (p1Loop inp rem ch n st) ∧ (p1Loop inp rem ch n st).q = []
  | 0, st, h, hw => ⟨h, by
      unfold work at hw
      have : st.q.length = 0 := by omega
      exact List.length_eq_zero_iff.1 this⟩
  | n + 1, st, h, hw => by
    unfold p1Loop
    by_cases hq : st.q = []
    · rw [if_pos (by simp [hq])]; exact ⟨h, hq⟩
    · rw [if_neg (by simpa using hq)]
      obtain ⟨h1, h2⟩ := inv_step hm hr (ch n) h hq
      exact inv_loop hm hr ch n _ h1 (by omega)

theorem inv_init {inp : Input} {rem : Nat → Bitfield} (hr : ∀ i, Bounded (rem i)) {root : Nat} (hroot : root < inp.vs.length)
    (hd : ∃ d, rem root d = true) : Inv inp rem root { q := [(root, 0)], comp := [], days := rem root } := by
  constructor
  · intro x hx
    have : x = (root, 0) := by simpa using hx
    subst this; exact hroot
  · simp
  · simp
  · simp
  · intro x _; rfl
  · exact hr root
  · simp
  · exact hd
  · exact .inl ⟨rfl, rfl, rfl⟩

/-- Part 1 always ends, and its result is fine. -/
theorem component_done {inp : Input} (hm : ∀ a b, b ∈ inp.sOut a ↔ a ∈ inp.sIn b) {rem : Nat → Bitfield} (hr : ∀ i, Bounded (rem i))
    (ch : Nat → Nat) {root : Nat} (hroot : root < inp.vs.length) (hd : ∃ d, rem root d = true) :
    Inv inp rem root (component inp rem ch root) ∧ (component inp rem ch root).q = [] ∧ (root, 0) ∈ (component inp rem ch root).comp := by
  obtain ⟨h1, h2⟩ := inv_loop hm hr ch (p1Fuel inp.vs.length) _ (inv_init hr hroot hd) (by unfold work p1Fuel; simp)
  refine ⟨h1, h2, ?_⟩
  rcases h1.root with ⟨-, h3, -⟩ | h3
  · rw [h2] at h3; simp at h3
  · exact h3

/-! ### Consistent days -/

theorem ok_var {inp : Input} (hok : inp.Ok) {i : Nat} (hi : i < inp.vs.length) :
    (inp.var i).times ≠ [] ∧ (inp.var i).times.Pairwise (· ≤ ·) ∧ 0 ≤ (inp.var i).firstDep ∧ (inp.var i).firstDep < 1440 :=
  hok.times _ (List.mem_of_getElem? (var_get hi))

theorem le_last : ∀ (l : List Int), l ≠ [] → l.Pairwise (· ≤ ·) → l.headD 0 ≤ l.getLastD 0
  | [a], _, _ => Int.le_refl _
  | a :: b :: l, _, h => by
    have h1 := le_last (b :: l) (by simp) (List.pairwise_cons.1 h).2
    have h2 := (List.pairwise_cons.1 h).1 b (by simp)
    show a ≤ _
    simp only [List.headD_cons] at h1
    have h3 : (b :: l).getLastD 0 = (a :: b :: l).getLastD 0 := by simp
    omega

theorem firstDep_le {inp : Input} (hok : inp.Ok) {i : Nat} (hi : i < inp.vs.length) : (inp.var i).firstDep ≤ (inp.var i).lastArr :=
  le_last _ (ok_var hok hi).1 (ok_var hok hi).2.1

/-- The offset is right: a rule with a valid dwell time means that passengers can stay seated, for
exactly one number of days. -/
theorem stay_iff {inp : Input} (hok : inp.Ok) {i j : Nat} {o : Int} : inp.Stay i j o ↔
    inp.Rule i j ∧ validDwell (inp.var i) (inp.var j) = true ∧ o = dayChange (inp.var i) (inp.var j) := by
  unfold Input.Stay
  refine and_congr_right fun hr => ?_
  obtain ⟨hi, hj, -⟩ := rule_iff.1 hr
  have h1 := firstDep_le hok hi
  obtain ⟨-, -, h2, h3⟩ := ok_var hok hi
  obtain ⟨-, -, h4, h5⟩ := ok_var hok hj
  unfold Input.wait validDwell dayChange
  generalize (inp.var i).firstDep = a at *
  generalize (inp.var i).lastArr = b at *
  generalize (inp.var j).firstDep = c at *
  have e1 : a.tdiv 1440 = 0 := by
    rw [Int.tdiv_eq_ediv_of_nonneg h2]; omega
  have e2 : b.tdiv 1440 = b / 1440 := Int.tdiv_eq_ediv_of_nonneg (by omega)
  have e3 : b.tmod 1440 = b % 1440 := Int.tmod_eq_emod_of_nonneg (by omega)
  rw [e1, e2, e3]
  simp only [decide_eq_true_eq]
  by_cases hc : c < b % 1440
  · rw [if_pos hc, if_pos (by omega)]; omega
  · rw [if_neg hc, if_neg (by omega)]; omega

structure Inv2 (inp : Input) (off : Nat → Int) (rem : Nat → Bitfield) (root : Nat) (st : P1) : Prop where
  q_off : ∀ x ∈ st.q, x.2 = off x.1 - off root
  c_off : ∀ x ∈ st.comp, x.2 = off x.1 - off root
  closed : ∀ x ∈ st.comp, ∀ j, (inp.Stay x.1 j (off j - off x.1) ∨ inp.Stay j x.1 (off x.1 - off j)) →
    hasKey st.comp j = true ∨ hasKey st.q j = true ∨
      ∀ d, st.days d = true → ∀ e : Nat, (e : Int) = d + (off j - off root) → rem j e = false

theorem inv2_step {inp : Input} (hok : inp.Ok) {off : Nat → Int} {rank : Nat → Nat} (hcon : inp.Consistent off rank)
    {rem : Nat → Bitfield} (hr : ∀ i, Bounded (rem i)) {root : Nat} (k : Nat) {st : P1} (h : Inv inp rem root st) (h2 : Inv2 inp off rem root st)
    (hq : st.q ≠ []) : Inv2 inp off rem root (p1Step inp rem k st) := by
  have hm := hok.mirror
  obtain ⟨pre, post, curr, offset, hsp, hcase⟩ := p1Step_cases inp rem hr k st hq h.bounded
  have hcm : (curr, offset) ∈ st.q := by rw [hsp]; simp
  have hsub : ∀ x ∈ pre ++ post, x ∈ st.q := by
    intro x hx; rw [hsp]
    rcases List.mem_append.1 hx with hx | hx
    · simp [hx]
    · simp [hx]
  have hsup : ∀ x ∈ st.q, x ∈ pre ++ post ∨ x = (curr, offset) := by
    intro x hx; rw [hsp] at hx
    rcases List.mem_append.1 hx with hx | hx
    · exact .inl (List.mem_append_left _ hx)
    · rcases List.mem_cons.1 hx with hx | hx
      · exact .inr hx
      · exact .inl (List.mem_append_right _ hx)
  have hoff : offset = off curr - off root := h2.q_off _ hcm
  have hcurr : curr < inp.vs.length := h.q_lt _ hcm
  rcases hcase with ⟨-, hdays, hcomp, hqq⟩ | ⟨hno, hst⟩
  · have hcmem : ∀ x ∈ (p1Step inp rem k st).comp, x ∈ st.comp ∨ x = (curr, offset) := by
      rw [hcomp]; intro x hx; exact mem_emplace hx
    constructor
    · intro x hx
      rw [hqq] at hx
      rcases mem_foldl_emplace _ _ hx with hx | hx
      · exact h2.q_off x (hsub x hx)
      · rw [mem_neighbours hm hcurr] at hx
        obtain ⟨-, ⟨e1, e2, e3⟩ | ⟨e1, e2, e3⟩⟩ := hx
        · have := hcon.same_day _ _ _ ((stay_iff hok).2 ⟨e1, e2, rfl⟩); omega
        · have := hcon.same_day _ _ _ ((stay_iff hok).2 ⟨e1, e2, rfl⟩); omega
    · intro x hx
      rcases hcmem x hx with hx | rfl
      · exact h2.c_off x hx
      · exact hoff
    · intro x hx j hj
      rcases hcmem x hx with hx | rfl
      · rcases h2.closed x hx j hj with h3 | h3 | h3
        · left; rw [hcomp]; exact hasKey_mono (fun z hz => mem_emplace_of_mem hz) h3
        · rw [hasKey_iff, List.mem_map] at h3
          obtain ⟨y, hy, rfl⟩ := h3
          rcases hsup y hy with hy | rfl
          · right; left
            rw [hqq, hasKey_iff, List.mem_map]
            exact ⟨y, mem_foldl_of_mem _ _ hy, rfl⟩
          · left; rw [hcomp]; exact emplace_hasKey _ _
        · right; right
          intro d hd e he
          exact h3 d ((hdays d).1 hd).1 e he
      · by_cases hk : hasKey (emplace st.comp (curr, offset)) j = true
        · left; rw [hcomp]; exact hk
        · right; left
          rw [hqq]
          have hk' : hasKey (emplace st.comp (curr, offset)) j = false := by simpa using hk
          rcases hj with hj | hj
          · obtain ⟨e1, e2, e3⟩ := (stay_iff hok).1 hj
            exact foldl_emplace_hasKey (x := (j, offset + dayChange (inp.var curr) (inp.var j))) _ _
              ((mem_neighbours hm hcurr).2 ⟨hk', .inl ⟨e1, e2, rfl⟩⟩)
          · obtain ⟨e1, e2, e3⟩ := (stay_iff hok).1 hj
            exact foldl_emplace_hasKey (x := (j, offset - dayChange (inp.var j) (inp.var curr))) _ _
              ((mem_neighbours hm hcurr).2 ⟨hk', .inr ⟨e1, e2, rfl⟩⟩)
  · rw [hst]
    constructor
    · exact fun x hx => h2.q_off x (hsub x hx)
    · exact h2.c_off
    · intro x hx j hj
      rcases h2.closed x hx j hj with h3 | h3 | h3
      · exact .inl h3
      · rw [hasKey_iff, List.mem_map] at h3
        obtain ⟨y, hy, rfl⟩ := h3
        rcases hsup y hy with hy | rfl
        · right; left
          show hasKey (pre ++ post) _ = true
          rw [hasKey_iff, List.mem_map]
          exact ⟨y, hy, rfl⟩
        · right; right
          intro d hd e he
          exact hno d hd e (by rw [hoff]; exact he)
      · exact .inr (.inr h3)

theorem inv2_loop {inp : Input} (hok : inp.Ok) {off : Nat → Int} {rank : Nat → Nat} (hcon : inp.Consistent off rank)
    {rem : Nat → Bitfield} (hr : ∀ i, Bounded (rem i)) {root : Nat} (ch : Nat → Nat) : ∀ (n : Nat) (st : P1), Inv inp rem root st →
    Inv2 inp off rem root st → Inv2 inp off rem root (p1Loop inp rem ch n st)
  | 0, _, _, h2 => h2
  | n + 1, st, h, h2 => by
    unfold p1Loop
    by_cases hq : st.q = []
    · rw [if_pos (by simp [hq])]; exact h2
    · rw [if_neg (by simpa using hq)]
      exact inv2_loop hok hcon hr ch n _ (inv_step hok.mirror hr (ch n) h hq).1 (inv2_step hok hcon hr (ch n) h h2 hq)

/-- The result of part 1: the offsets are those of the service days; a trip that can be joined with one of
the component is part of it, or does not run on its days. -/
theorem component_closed {inp : Input} (hok : inp.Ok) {off : Nat → Int} {rank : Nat → Nat} (hcon : inp.Consistent off rank)
    {rem : Nat → Bitfield} (hr : ∀ i, Bounded (rem i)) {root : Nat} (hroot : root < inp.vs.length) (hd : ∃ d, rem root d = true) (ch : Nat → Nat) :
    (∀ x ∈ (component inp rem ch root).comp, x.2 = off x.1 - off root) ∧
    ∀ x ∈ (component inp rem ch root).comp, ∀ j, (inp.Stay x.1 j (off j - off x.1) ∨ inp.Stay j x.1 (off x.1 - off j)) →
      hasKey (component inp rem ch root).comp j = true ∨
      ∀ d, (component inp rem ch root).days d = true → ∀ e : Nat, (e : Int) = d + (off j - off root) → rem j e = false := by
  have h2 : Inv2 inp off rem root (component inp rem ch root) := by
    refine inv2_loop hok hcon hr ch _ _ (inv_init hr hroot hd) ⟨?_, by simp, by simp⟩
    intro x hx
    have : x = (root, 0) := by simpa using hx
    subst this; show (0 : Int) = off root - off root; omega
  refine ⟨h2.c_off, fun x hx j hj => ?_⟩
  rcases h2.closed x hx j hj with h | h | h
  · exact .inl h
  · rw [(component_done hok.mirror hr ch hroot hd).2.1] at h; cases h
  · exact .inr h

end Nigiri.Seated
