import Verif.Props.SeatedComponent
/-!
# Properties C82, C83: stay-seated transfers

C82: every transport written for stay-seated transfers is made of trips of the feed as they run.
C83: every run of every trip is part of one, and whoever may stay seated can do so.
-/

namespace Nigiri.Seated
open Nigiri.Raptor (Adj adj_cons adj_append adj_map foldl_inv)

/-! ### Chains -/

/-- Entry `e` of the queue is a chain of elements of the component. -/
structure EOk (inp : Input) (comp : List (Nat × Int)) (days : Bitfield) (e : Entry) (chain : List (Nat × Int)) : Prop where
  mem : ∀ x ∈ chain, x ∈ comp
  trips : e.t.trips = chain.map fun x => (inp.var x.1).trip
  times : e.t.times = (chain.map fun x => (inp.var x.1).times.map (· + (e.off + x.2) * 1440)).flatten
  stops : e.t.stops = joinStops (chain.map fun x => (inp.var x.1).stops)
  rules : Adj (fun x y => inp.Rule x.1 y.1) chain
  last : chain.getLast?.map (fun x => (inp.var x.1).rule) = some e.last
  first : chain.head?.map (fun x => -x.2) = some e.off
  days : e.t.days = shift days (-e.off)

theorem joinStops_snoc (l : List (List Stop)) (s : List Stop) (h : l ≠ []) : joinStops (l ++ [s]) = joinStops l ++ s.drop 1 := by
  match l, h with
  | a :: l, _ => simp [joinStops]

theorem rep_mem {inp : Input} {comp : List (Nat × Int)} {r : Nat} {x : Nat × Int} (h : rep inp comp r = some x) :
    x ∈ comp ∧ (inp.var x.1).rule = r := by
  unfold rep at h
  exact ⟨List.mem_of_find?_eq_some h, by simpa using List.find?_some h⟩

theorem rep_none {inp : Input} {comp : List (Nat × Int)} {r : Nat} (h : rep inp comp r = none) :
    ∀ x ∈ comp, (inp.var x.1).rule ≠ r := by
  unfold rep at h
  rw [List.find?_eq_none] at h
  intro x hx; simpa using h x hx

theorem mem_next {inp : Input} {comp : List (Nat × Int)} {e e' : Entry} : e' ∈ e.next inp comp ↔
    ∃ r ∈ inp.sOut e.last, ∃ x, rep inp comp r = some x ∧ e' = e.extend inp x := by
  unfold Entry.next
  rw [List.mem_filterMap]
  refine exists_congr fun r => and_congr_right fun _ => ?_
  rw [Option.map_eq_some_iff]
  exact exists_congr fun x => and_congr_right fun _ => eq_comm

theorem eok_extend {inp : Input} {comp : List (Nat × Int)} {days : Bitfield} (hlt : ∀ x ∈ comp, x.1 < inp.vs.length) {e : Entry} {chain : List (Nat × Int)}
    (h : EOk inp comp days e chain) {r : Nat} (hr : r ∈ inp.sOut e.last) {x : Nat × Int} (hx : rep inp comp r = some x) :
    EOk inp comp days (e.extend inp x) (chain ++ [x]) := by
  obtain ⟨hxm, hxr⟩ := rep_mem hx
  have hne : chain ≠ [] := by
    intro h0; have := h.first; rw [h0] at this; simp at this
  constructor
  · intro y hy
    rcases List.mem_append.1 hy with hy | hy
    · exact h.mem y hy
    · have : y = x := by simpa using hy
      subst this; exact hxm
  · show e.t.trips ++ _ = _
    rw [h.trips]; simp
  · show e.t.times ++ _ = (List.map (fun y : Nat × Int => (inp.var y.1).times.map (· + (e.off + y.2) * 1440)) _).flatten
    rw [h.times]; simp
  · show e.t.stops ++ _ = _
    rw [h.stops, List.map_append, List.map_cons, List.map_nil, joinStops_snoc _ _ (by simpa using hne)]
  · rw [adj_append]
    refine ⟨h.rules, by simp [Adj], ?_⟩
    intro y z hy hz
    have : x = z := by simpa using hz
    subst this
    have hl := h.last
    rw [hy] at hl
    have hl : (inp.var y.1).rule = e.last := by simpa using hl
    exact rule_iff.2 ⟨hlt y (h.mem y (List.mem_of_getLast? hy)), hlt x hxm, by rw [hl, hxr]; exact hr⟩
  · rw [List.getLast?_concat]; rfl
  · show _ = some e.off
    rw [List.head?_append, ← h.first]
    cases chain with
    | nil => exact absurd rfl hne
    | cons a l => rfl
  · exact h.days

theorem eok_start {inp : Input} {comp : List (Nat × Int)} {days : Bitfield} {e : Entry} (h : e ∈ starts inp comp days) :
    ∃ x ∈ comp, isEntry inp comp x.1 = true ∧ EOk inp comp days e [x] := by
  unfold starts at h
  obtain ⟨x, hx, h⟩ := List.mem_filterMap.1 h
  by_cases hi : isEntry inp comp x.1 = true
  · rw [if_pos hi] at h
    have h := (Option.some.inj h).symm
    subst h
    refine ⟨x, hx, hi, ?_⟩
    constructor
    · intro y hy
      have : y = x := by simpa using hy
      subst this; exact hx
    · rfl
    · simp [show -x.2 + x.2 = 0 by omega]
    · simp [joinStops]
    · simp [Adj]
    · rfl
    · rfl
    · simp
  · rw [if_neg hi] at h; cases h

/-- What is reached from an entry by appending trips. -/
inductive Reach (inp : Input) (comp : List (Nat × Int)) : Entry → Entry → Prop
  | refl (e : Entry) : Reach inp comp e e
  | step {e e' e'' : Entry} : e' ∈ e.next inp comp → Reach inp comp e' e'' → Reach inp comp e e''

theorem Reach.trans {inp : Input} {comp : List (Nat × Int)} {a b c : Entry} (h : Reach inp comp a b) (h' : Reach inp comp b c) : Reach inp comp a c := by
  induction h with
  | refl => exact h'
  | step h1 _ ih => exact .step h1 (ih h')

theorem eok_reach {inp : Input} {comp : List (Nat × Int)} {days : Bitfield} (hlt : ∀ x ∈ comp, x.1 < inp.vs.length) {e e' : Entry}
    (hr : Reach inp comp e e') : ∀ {chain : List (Nat × Int)}, EOk inp comp days e chain →
    ∃ more, EOk inp comp days e' (chain ++ more) := by
  induction hr with
  | refl => intro chain h; exact ⟨[], by simpa using h⟩
  | step h1 _ ih =>
    intro chain h
    obtain ⟨r, hr, x, hx, rfl⟩ := mem_next.1 h1
    obtain ⟨more, h2⟩ := ih (eok_extend hlt h hr hx)
    exact ⟨x :: more, by simpa using h2⟩

theorem dfs_sound {inp : Input} {comp : List (Nat × Int)} : ∀ (n : Nat) (stack : List Entry) (out : List Transport), dfs inp comp n stack = some out →
    ∀ t ∈ out, ∃ e ∈ stack, ∃ e', Reach inp comp e e' ∧ e'.t = t
  | n, [], out, h, t, ht => by
    have : out = [] := by cases n <;> simpa [dfs] using h.symm
    subst this; simp at ht
  | 0, _ :: _, _, h, _, _ => by simp [dfs] at h
  | n + 1, e :: rest, out, h, t, ht => by
    unfold dfs at h
    by_cases hk : (e.next inp comp).isEmpty = true
    · rw [if_pos hk, Option.map_eq_some_iff] at h
      obtain ⟨out', h1, rfl⟩ := h
      rcases List.mem_cons.1 ht with rfl | ht
      · exact ⟨e, by simp, e, .refl e, rfl⟩
      · obtain ⟨e1, h2, h3⟩ := dfs_sound n rest out' h1 t ht
        exact ⟨e1, by simp [h2], h3⟩
    · rw [if_neg hk] at h
      obtain ⟨e1, h2, e', h3, h4⟩ := dfs_sound n _ out h t ht
      rcases List.mem_append.1 h2 with h2 | h2
      · exact ⟨e, by simp, e', .step (List.mem_reverse.1 h2) h3, h4⟩
      · exact ⟨e1, by simp [h2], e', h3, h4⟩

theorem dfs_complete {inp : Input} {comp : List (Nat × Int)} : ∀ (n : Nat) (stack : List Entry) (out : List Transport), dfs inp comp n stack = some out →
    ∀ e ∈ stack, ∀ e', Reach inp comp e e' → ∃ e'', Reach inp comp e' e'' ∧ e''.t ∈ out
  | n, [], out, h, e, he, _, _ => by simp at he
  | 0, _ :: _, _, h, _, _, _, _ => by simp [dfs] at h
  | n + 1, e0 :: rest, out, h, e, he, e', hr => by
    unfold dfs at h
    by_cases hk : (e0.next inp comp).isEmpty = true
    · rw [if_pos hk, Option.map_eq_some_iff] at h
      obtain ⟨out', h1, rfl⟩ := h
      rcases List.mem_cons.1 he with rfl | he
      · cases hr with
        | refl => exact ⟨e, .refl e, by simp⟩
        | step h2 _ =>
          have : e.next inp comp = [] := by simpa using hk
          rw [this] at h2; simp at h2
      · obtain ⟨e1, h2, h3⟩ := dfs_complete n rest out' h1 e he e' hr
        exact ⟨e1, h2, by simp [h3]⟩
    · rw [if_neg hk] at h
      rcases List.mem_cons.1 he with rfl | he
      · cases hr with
        | refl =>
          have hne : e.next inp comp ≠ [] := by simpa using hk
          obtain ⟨k, ks, hkk⟩ := List.exists_cons_of_ne_nil hne
          have hkm : k ∈ e.next inp comp := by rw [hkk]; simp
          obtain ⟨e1, h2, h3⟩ := dfs_complete n _ out h k (List.mem_append_left _ (List.mem_reverse.2 hkm)) k (.refl k)
          exact ⟨e1, .step hkm h2, h3⟩
        | step h2 h3 => exact dfs_complete n _ out h _ (List.mem_append_left _ (List.mem_reverse.2 h2)) e' h3
      · exact dfs_complete n _ out h e (List.mem_append_right _ he) e' hr

/-! ### The transports of one component -/

/-- What the main loop knows about its state. -/
structure Good (inp : Input) (rem : Nat → Bitfield) : Prop where
  sub : ∀ i d, rem i d = true → (inp.var i).days d = true
  bounded : ∀ i, Bounded (rem i)

theorem runs_of {inp : Input} {rem : Nat → Bitfield} (hg : Good inp rem) {i : Nat} (hi : i < inp.vs.length) {e : Nat} (h : rem i e = true) {d : Int}
    (he : (e : Int) = d) : inp.Runs i d := ⟨_, var_get hi, e, he, hg.sub i e h⟩

theorem describes {inp : Input} {rem : Nat → Bitfield} (hg : Good inp rem) {comp : List (Nat × Int)} {days : Bitfield} (hb : Bounded days)
    (hlt : ∀ x ∈ comp, x.1 < inp.vs.length) (hruns : ∀ x ∈ comp, ∀ d, days d = true → ∃ e : Nat, (e : Int) = d + x.2 ∧ rem x.1 e = true)
    (hsome : ∃ d, days d = true) {e : Entry} {chain : List (Nat × Int)} (h : EOk inp comp days e chain) :
    Describes inp e.t (chain.map fun x => (x.1, e.off + x.2)) := by
  have hfirst := h.first
  constructor
  · cases chain with
    | nil => simp at hfirst
    | cons a l =>
      have : -a.2 = e.off := by simpa using hfirst
      simp; omega
  · rw [h.trips, List.map_map]; rfl
  · rw [h.times, List.map_map]; rfl
  · rw [h.stops, List.map_map]; rfl
  · rw [adj_map]; exact h.rules
  · intro d hd x hx
    obtain ⟨y, hy, rfl⟩ := List.mem_map.1 hx
    rw [h.days, shift_iff hb] at hd
    obtain ⟨-, e0, h1, h2⟩ := hd
    obtain ⟨e1, h3, h4⟩ := hruns y (h.mem y hy) e0 h2
    exact runs_of hg (hlt y (h.mem y hy)) h4 (by show (e1 : Int) = d + (e.off + y.2); omega)
  · obtain ⟨d, hd⟩ := hsome
    cases chain with
    | nil => simp at hfirst
    | cons a l =>
      have ha : -a.2 = e.off := by simpa using hfirst
      have hm := h.mem a (by simp)
      obtain ⟨e1, h3, h4⟩ := hruns a hm d hd
      refine ⟨e1, ?_⟩
      rw [h.days, shift_iff hb]
      exact ⟨hg.bounded _ _ h4, d, by omega, hd⟩

/-- One iteration of the main loop. -/
structure Iter (inp : Input) (rem : Nat → Bitfield) (comp : List (Nat × Int)) (days : Bitfield) : Prop where
  lt : ∀ x ∈ comp, x.1 < inp.vs.length
  nodup : (comp.map (·.1)).Nodup
  bounded : Bounded days
  runs : ∀ x ∈ comp, ∀ d, days d = true → ∃ e : Nat, (e : Int) = d + x.2 ∧ rem x.1 e = true
  some_day : ∃ d, days d = true

theorem iter_of {inp : Input} {rem : Nat → Bitfield} {root : Nat} {st : P1} (h : Inv inp rem root st) {comp : List (Nat × Int)} (hp : comp.Perm st.comp) :
    Iter inp rem comp st.days :=
  ⟨fun x hx => h.c_lt x (hp.mem_iff.1 hx), (hp.map _).nodup_iff.2 h.c_nodup, h.bounded, fun x hx => h.runs x (hp.mem_iff.1 hx), h.some_day⟩

theorem iter_sound {inp : Input} {rem : Nat → Bitfield} {comp : List (Nat × Int)} {days : Bitfield}
    (hI : Iter inp rem comp days) {n : Nat} {out : List Transport} (h : dfs inp comp n (starts inp comp days).reverse = some out) :
    ∀ t ∈ out, ∃ e chain, e.t = t ∧ EOk inp comp days e chain := by
  intro t ht
  obtain ⟨e, he, e', hr, rfl⟩ := dfs_sound n _ out h t ht
  obtain ⟨x, -, -, hx⟩ := eok_start (List.mem_reverse.1 he)
  obtain ⟨more, hm⟩ := eok_reach hI.lt hr hx
  exact ⟨e', _, rfl, hm⟩

/-- No trip is part of the component twice. -/
def Unique (inp : Input) (comp : List (Nat × Int)) : Prop :=
  ∀ x ∈ comp, ∀ y ∈ comp, (inp.var x.1).rule = (inp.var y.1).rule → x = y

theorem rep_unique {inp : Input} {comp : List (Nat × Int)} (hu : Unique inp comp) {x : Nat × Int} (hx : x ∈ comp) :
    rep inp comp (inp.var x.1).rule = some x := by
  cases h : rep inp comp (inp.var x.1).rule with
  | none => exact absurd rfl (rep_none h x hx)
  | some y =>
    obtain ⟨h1, h2⟩ := rep_mem h
    rw [hu y h1 x hx h2]

/-- Every element of the component is the end of a chain that starts at an entry. -/
theorem chain_to {inp : Input} (hm : ∀ a b, b ∈ inp.sOut a ↔ a ∈ inp.sIn b) {comp : List (Nat × Int)} {days : Bitfield} {rank : Nat → Nat}
    (hlt : ∀ x ∈ comp, x.1 < inp.vs.length) (hac : ∀ i j, inp.Rule i j → rank (inp.var i).rule < rank (inp.var j).rule) (hu : Unique inp comp) :
    ∀ (k : Nat) (x : Nat × Int), x ∈ comp → rank (inp.var x.1).rule ≤ k →
      ∃ s ∈ starts inp comp days, ∃ e chain, Reach inp comp s e ∧ EOk inp comp days e (chain ++ [x]) := by
  intro k
  induction k with
  | zero =>
    intro x hx hk
    by_cases hi : isEntry inp comp x.1 = true
    · have : (⟨⟨[(inp.var x.1).trip], (inp.var x.1).times, (inp.var x.1).stops, shift days x.2⟩, (inp.var x.1).rule, -x.2⟩ : Entry) ∈ starts inp comp days :=
        List.mem_filterMap.2 ⟨x, hx, by rw [if_pos hi]⟩
      obtain ⟨y, hy, -, hok⟩ := eok_start this
      refine ⟨_, this, _, [], .refl _, ?_⟩
      have hxy : y = x := by
        refine hu y hy x hx ?_
        have := hok.last; simpa using this
      rw [hxy] at hok; exact hok
    · unfold isEntry at hi
      simp only [Bool.not_eq_true, List.all_eq_false, Option.isNone_iff_eq_none] at hi
      obtain ⟨r, hr, hne⟩ := hi
      obtain ⟨y, hy⟩ := Option.ne_none_iff_exists'.1 hne
      obtain ⟨h1, h2⟩ := rep_mem hy
      have := hac y.1 x.1 (rule_iff.2 ⟨hlt y h1, hlt x hx, by rw [h2]; exact (hm _ _).2 hr⟩)
      omega
  | succ k ih =>
    intro x hx hk
    by_cases hi : isEntry inp comp x.1 = true
    · have : (⟨⟨[(inp.var x.1).trip], (inp.var x.1).times, (inp.var x.1).stops, shift days x.2⟩, (inp.var x.1).rule, -x.2⟩ : Entry) ∈ starts inp comp days :=
        List.mem_filterMap.2 ⟨x, hx, by rw [if_pos hi]⟩
      obtain ⟨y, hy, -, hok⟩ := eok_start this
      refine ⟨_, this, _, [], .refl _, ?_⟩
      have hxy : y = x := by
        refine hu y hy x hx ?_
        have := hok.last; simpa using this
      rw [hxy] at hok; exact hok
    · unfold isEntry at hi
      simp only [Bool.not_eq_true, List.all_eq_false, Option.isNone_iff_eq_none] at hi
      obtain ⟨r, hr, hne⟩ := hi
      obtain ⟨y, hy⟩ := Option.ne_none_iff_exists'.1 hne
      obtain ⟨h1, h2⟩ := rep_mem hy
      have hrule : (inp.var x.1).rule ∈ inp.sOut (inp.var y.1).rule := by rw [h2]; exact (hm _ _).2 hr
      have := hac y.1 x.1 (rule_iff.2 ⟨hlt y h1, hlt x hx, hrule⟩)
      obtain ⟨s, hs, e, chain, h3, h4⟩ := ih y h1 (by omega)
      have hl : e.last = (inp.var y.1).rule := by
        have := h4.last
        rw [List.getLast?_concat] at this
        exact (Option.some.inj this).symm
      have hrx := rep_unique hu hx
      refine ⟨s, hs, e.extend inp x, chain ++ [y], h3.trans (.step (mem_next.2 ⟨_, by rw [hl]; exact hrule, x, hrx, rfl⟩) (.refl _)), ?_⟩
      exact eok_extend hlt h4 (by rw [hl]; exact hrule) hrx

theorem iter_covered {inp : Input} (hm : ∀ a b, b ∈ inp.sOut a ↔ a ∈ inp.sIn b) {rem : Nat → Bitfield} {comp : List (Nat × Int)} {days : Bitfield}
    (hI : Iter inp rem comp days) {rank : Nat → Nat} (hac : ∀ i j, inp.Rule i j → rank (inp.var i).rule < rank (inp.var j).rule) (hu : Unique inp comp)
    {n : Nat} {out : List Transport} (h : dfs inp comp n (starts inp comp days).reverse = some out) :
    (∀ x ∈ comp, ∃ e chain, e.t ∈ out ∧ EOk inp comp days e chain ∧ x ∈ chain) ∧
    (∀ x ∈ comp, ∀ y ∈ comp, inp.Rule x.1 y.1 → ∃ e pre post, e.t ∈ out ∧ EOk inp comp days e (pre ++ x :: y :: post)) := by
  constructor
  · intro x hx
    obtain ⟨s, hs, e, chain, h1, h2⟩ := chain_to hm (days := days) hI.lt hac hu _ x hx (Nat.le_refl _)
    obtain ⟨e', h3, h4⟩ := dfs_complete n _ out h s (List.mem_reverse.2 hs) e h1
    obtain ⟨more, h5⟩ := eok_reach hI.lt h3 h2
    exact ⟨e', _, h4, h5, by simp⟩
  · intro x hx y hy hr
    obtain ⟨s, hs, e, chain, h1, h2⟩ := chain_to hm (days := days) hI.lt hac hu _ x hx (Nat.le_refl _)
    have hl : e.last = (inp.var x.1).rule := by
      have := h2.last
      rw [List.getLast?_concat] at this
      exact (Option.some.inj this).symm
    have hrule := (rule_iff.1 hr).2.2
    have hry := rep_unique hu hy
    have h1' := h1.trans (.step (mem_next.2 ⟨_, by rw [hl]; exact hrule, y, hry, rfl⟩) (.refl _))
    have h2' := eok_extend hI.lt h2 (by rw [hl]; exact hrule) hry
    obtain ⟨e', h3, h4⟩ := dfs_complete n _ out h s (List.mem_reverse.2 hs) _ h1'
    obtain ⟨more, h5⟩ := eok_reach hI.lt h3 h2'
    exact ⟨e', chain, more, h4, by simpa using h5⟩

/-! ### Part 4 -/

theorem clear_rem (days : Bitfield) : ∀ (comp : List (Nat × Int)) (st : St) (i d : Nat),
    (comp.foldl (clear days) st).rem i d = true ↔ st.rem i d = true ∧ ∀ x ∈ comp, x.1 = i → shift days x.2 d = false
  | [], st, i, d => by simp
  | x :: l, st, i, d => by
    rw [List.foldl_cons, clear_rem days l]
    unfold clear
    dsimp only
    by_cases h : i = x.1
    · rw [if_pos h]
      simp only [Bool.and_eq_true, Bool.not_eq_true', List.mem_cons, forall_eq_or_imp, ← h]
      constructor
      · rintro ⟨⟨h1, h2⟩, h3⟩; exact ⟨h1, fun _ => h2, h3⟩
      · rintro ⟨h1, h2, h3⟩; exact ⟨⟨h1, h2 trivial⟩, h3⟩
    · rw [if_neg h]
      simp only [List.mem_cons, forall_eq_or_imp]
      constructor
      · rintro ⟨h1, h2⟩; exact ⟨h1, fun h3 => absurd h3.symm h, h2⟩
      · rintro ⟨h1, -, h2⟩; exact ⟨h1, h2⟩

/-- Bits are set exactly for trips with days left. -/
def BitsOk (inp : Input) (st : St) : Prop := ∀ i, i < inp.vs.length → (st.bits i = true ↔ ∃ d, st.rem i d = true)

theorem clear_bits {inp : Input} {days : Bitfield} : ∀ (comp : List (Nat × Int)) (st : St), (∀ i, Bounded (st.rem i)) → BitsOk inp st →
    BitsOk inp (comp.foldl (clear days) st)
  | [], st, _, h => h
  | x :: l, st, hb, h => by
    rw [List.foldl_cons]
    have hbd : Bounded (fun d => st.rem x.1 d && !shift days x.2 d) := by
      intro d hd; simp only [Bool.and_eq_true] at hd; exact hb _ d hd.1
    refine clear_bits l _ ?_ ?_
    · intro i d hd
      unfold clear at hd
      dsimp only at hd
      split at hd
      · exact hbd d hd
      · exact hb i d hd
    · intro i hi
      unfold clear
      dsimp only
      by_cases ha : any (fun d => st.rem x.1 d && !shift days x.2 d) = true
      · rw [if_pos ha]
        by_cases he : i = x.1
        · rw [if_pos he]
          obtain ⟨d, hd⟩ := (any_iff hbd).1 ha
          have hd' := hd
          simp only [Bool.and_eq_true] at hd'
          exact ⟨fun _ => ⟨d, hd⟩, fun _ => (h i hi).2 ⟨d, by rw [he]; exact hd'.1⟩⟩
        · rw [if_neg he]; exact h i hi
      · rw [if_neg ha]
        by_cases he : i = x.1
        · rw [if_pos he, if_pos he]
          constructor
          · intro h0; cases h0
          · rintro ⟨d, hd⟩; exact absurd ((any_iff hbd).2 ⟨d, hd⟩) ha
        · rw [if_neg he, if_neg he]; exact h i hi

theorem nextSet_some {n : Nat} {bits : Nat → Bool} {i j : Nat} (h : nextSet n bits i = some j) : i ≤ j ∧ j < n ∧ bits j = true := by
  unfold nextSet at h
  have h1 := List.mem_of_find?_eq_some h
  have h2 := List.find?_some h
  rw [List.mem_range'_1] at h1
  exact ⟨h1.1, by omega, h2⟩

theorem nextSet_none {n : Nat} {bits : Nat → Bool} {i : Nat} (h : nextSet n bits i = none) : ∀ j, i ≤ j → j < n → bits j = false := by
  unfold nextSet at h
  rw [List.find?_eq_none] at h
  intro j h1 h2
  have := h j (List.mem_range'_1.2 ⟨h1, by omega⟩)
  simpa using this

theorem nextSet_before {n : Nat} {bits : Nat → Bool} {i j : Nat} (h : nextSet n bits i = some j) : ∀ k, i ≤ k → k < j → bits k = false := by
  unfold nextSet at h
  rw [List.find?_eq_some_iff_append] at h
  obtain ⟨-, as, bs, h1, h2⟩ := h
  intro k hk hk'
  have hj : ∀ a ∈ as, bits a = false := fun a ha => by simpa using h2 a ha
  have hmem : k ∈ List.range' i (n - i) := by
    have hjm : j ∈ List.range' i (n - i) := by rw [h1]; simp
    rw [List.mem_range'_1] at *
    omega
  rw [h1] at hmem
  rcases List.mem_append.1 hmem with hm | hm
  · exact hj k hm
  · exfalso
    have hs : (List.range' i (n - i)).Pairwise (· < ·) := List.pairwise_lt_range'
    rw [h1, List.pairwise_append] at hs
    rcases List.mem_cons.1 hm with rfl | hm
    · omega
    · have := (List.pairwise_cons.1 hs.2.1).1 k hm
      omega

/-! ### The main loop -/

/-- Invariant: trips before `next_remaining` have no days left. -/
structure MInv (inp : Input) (nxt : Option Nat) (st : St) : Prop where
  good : Good inp st.rem
  bits : BitsOk inp st
  done : ∀ i, i < inp.vs.length → (∀ j, nxt = some j → i < j) → ∀ d, st.rem i d = false
  nxt : ∀ j, nxt = some j → j < inp.vs.length ∧ st.bits j = true

theorem minv_init {inp : Input} (hok : inp.Ok) :
    MInv inp (nextSet inp.vs.length (fun _ => true) 0) { rem := fun i => (inp.var i).days, bits := fun _ => true } := by
  constructor
  · constructor
    · exact fun _ _ h => h
    · intro i d h
      by_cases hi : i < inp.vs.length
      · exact hok.bounded _ (List.mem_of_getElem? (var_get hi)) d h
      · have : inp.var i = Variant.default := by
          unfold Input.var
          rw [List.getD_eq_getElem?_getD, List.getElem?_eq_none (by omega)]; rfl
        change (inp.var i).days d = true at h
        rw [this] at h; cases h
  · intro i hi
    exact ⟨fun _ => hok.nonempty _ (List.mem_of_getElem? (var_get hi)), fun _ => rfl⟩
  · intro i hi h
    exfalso
    cases hn : nextSet inp.vs.length (fun _ => true) 0 with
    | none => have := nextSet_none hn i (Nat.zero_le _) hi; cases this
    | some j => have := nextSet_before hn i (Nat.zero_le _) (h j hn); cases this
  · intro j h; exact (nextSet_some h).2

theorem minv_step {inp : Input} {i : Nat} {st : St} (h : MInv inp (some i) st) (days : Bitfield) (comp : List (Nat × Int)) :
    MInv inp (nextSet inp.vs.length (comp.foldl (clear days) st).bits i) (comp.foldl (clear days) st) := by
  have hb := clear_bits (days := days) comp st h.good.bounded h.bits
  constructor
  · constructor
    · intro k d hd; exact h.good.sub k d ((clear_rem days comp st k d).1 hd).1
    · intro k d hd; exact h.good.bounded k d ((clear_rem days comp st k d).1 hd).1
  · exact hb
  · intro k hk hlt d
    refine Bool.eq_false_iff.2 fun hd => ?_
    by_cases hki : k < i
    · have h0 := h.done k hk (fun j hj => by cases hj; exact hki) d
      rw [((clear_rem days comp st k d).1 hd).1] at h0; cases h0
    · have hbit := (hb k hk).2 ⟨d, hd⟩
      cases hn : nextSet inp.vs.length (comp.foldl (clear days) st).bits i with
      | none => have := nextSet_none hn k (by omega) hk; rw [this] at hbit; cases hbit
      | some j => have := nextSet_before hn k (by omega) (hlt j hn); rw [this] at hbit; cases hbit
  · intro j hj; exact (nextSet_some hj).2

/-- Invariants at one iteration. -/
theorem minv_iter {inp : Input} (hok : inp.Ok) {i : Nat} {st : St} (h : MInv inp (some i) st) (ch : Nat → Nat) {comp : List (Nat × Int)}
    (hp : comp.Perm (component inp st.rem ch i).comp) : Iter inp st.rem comp (component inp st.rem ch i).days ∧ (i, 0) ∈ comp := by
  obtain ⟨h1, h2⟩ := h.nxt i rfl
  have hd := (h.bits i h1).1 h2
  obtain ⟨h3, -, h4⟩ := component_done hok.mirror h.good.bounded ch h1 hd
  exact ⟨iter_of h3 hp, hp.mem_iff.2 h4⟩

theorem mainLoop_sound {inp : Input} (hok : inp.Ok) {c : Nat → Choice} (hc : Fair c) : ∀ (n : Nat) (nxt : Option Nat) (st : St) (out : List Transport),
    MInv inp nxt st → mainLoop inp c n nxt st = some out → ∀ t ∈ out, ∃ chain, Describes inp t chain
  | n, none, st, out, _, h, t, ht => by
    have : out = [] := by cases n <;> simpa [mainLoop] using h.symm
    subst this; simp at ht
  | 0, some _, _, _, _, h, _, _ => by simp [mainLoop] at h
  | n + 1, some i, st, out, hI, h, t, ht => by
    unfold mainLoop at h
    dsimp only at h
    obtain ⟨hit, -⟩ := minv_iter hok hI (c n).ch (hc n (component inp st.rem (c n).ch i).comp)
    have hms := minv_step hI (component inp st.rem (c n).ch i).days ((c n).ord (component inp st.rem (c n).ch i).comp)
    cases hd : dfs inp ((c n).ord (component inp st.rem (c n).ch i).comp) n
        (starts inp ((c n).ord (component inp st.rem (c n).ch i).comp) (component inp st.rem (c n).ch i).days).reverse with
    | none => rw [hd] at h; cases h
    | some o =>
      rw [hd] at h
      dsimp only at h
      rw [Option.map_eq_some_iff] at h
      obtain ⟨rest, h1, rfl⟩ := h
      rcases List.mem_append.1 ht with ht | ht
      · obtain ⟨e, chain, rfl, h2⟩ := iter_sound hit hd t ht
        exact ⟨_, describes hI.good hit.bounded hit.lt hit.runs hit.some_day h2⟩
      · exact mainLoop_sound hok hc n _ _ rest hms h1 t ht

/-- **C82.** Whatever the rules are — also circles, also trips with several variants — and in whatever
order the hash maps are walked: every transport written is a run through trips of the feed, each with its own
times, on days on which each of them runs, each followed by one that a rule names as its successor. -/
theorem C82_sound (inp : Input) (hok : inp.Ok) (c : Nat → Choice) (hc : Fair c) (fuel : Nat) (out : List Transport)
    (h : build inp c fuel = some out) : ∀ t ∈ out, ∃ chain, Describes inp t chain :=
  mainLoop_sound hok hc fuel _ _ out (minv_init hok) h

/-! ### Consistent feeds -/

/-- The state of an iteration in a consistent feed. -/
structure Cons (inp : Input) (off : Nat → Int) (rem : Nat → Bitfield) (i : Nat) (comp : List (Nat × Int)) (days : Bitfield) : Prop where
  off_eq : ∀ x ∈ comp, x.2 = off x.1 - off i
  closed : ∀ x ∈ comp, ∀ j, (inp.Stay x.1 j (off j - off x.1) ∨ inp.Stay j x.1 (off x.1 - off j)) →
    (∃ y ∈ comp, y.1 = j) ∨ ∀ d, days d = true → ∀ e : Nat, (e : Int) = d + (off j - off i) → rem j e = false
  unique : Unique inp comp
  stay : ∀ x ∈ comp, ∀ y ∈ comp, inp.Rule x.1 y.1 → inp.Stay x.1 y.1 (y.2 - x.2)

theorem minv_cons {inp : Input} (hok : inp.Ok) {off : Nat → Int} {rank : Nat → Nat} (hcon : inp.Consistent off rank) {i : Nat} {st : St}
    (h : MInv inp (some i) st) (ch : Nat → Nat) {comp : List (Nat × Int)} (hp : comp.Perm (component inp st.rem ch i).comp) :
    Cons inp off st.rem i comp (component inp st.rem ch i).days := by
  obtain ⟨h1, h2⟩ := h.nxt i rfl
  have hd := (h.bits i h1).1 h2
  obtain ⟨hc1, hc2⟩ := component_closed hok hcon h.good.bounded h1 hd ch
  obtain ⟨hit, -⟩ := minv_iter hok h ch hp
  obtain ⟨d, hdd⟩ := hit.some_day
  have hoff : ∀ x ∈ comp, x.2 = off x.1 - off i := fun x hx => hc1 x (hp.mem_iff.1 hx)
  have hrun : ∀ x ∈ comp, inp.Runs x.1 ((d - off i) + off x.1) := by
    intro x hx
    obtain ⟨e, he, hr⟩ := hit.runs x hx d hdd
    have := hoff x hx
    exact runs_of h.good (hit.lt x hx) hr (by omega)
  constructor
  · exact hoff
  · intro x hx j hj
    rcases hc2 x (hp.mem_iff.1 hx) j hj with h3 | h3
    · rw [hasKey_iff, List.mem_map] at h3
      obtain ⟨y, hy, rfl⟩ := h3
      exact .inl ⟨y, hp.mem_iff.2 hy, rfl⟩
    · exact .inr h3
  · intro x hx y hy hxy
    by_cases he : x.1 = y.1
    · have h3 := hoff x hx
      have h4 := hoff y hy
      obtain ⟨x1, x2⟩ := x
      obtain ⟨y1, y2⟩ := y
      dsimp only at *
      subst he
      rw [h3, h4]
    · exact absurd (hrun y hy) (hcon.once x.1 y.1 (hit.lt x hx) (hit.lt y hy) hxy he _ (hrun x hx))
  · intro x hx y hy hr
    have := hcon.stays x.1 y.1 hr _ (hrun x hx) (hrun y hy)
    have h3 := hoff x hx
    have h4 := hoff y hy
    rw [show y.2 - x.2 = off y.1 - off x.1 by omega]
    exact this

/-- Unfolding one iteration. -/
theorem mainLoop_cases {inp : Input} {c : Nat → Choice} {n i : Nat} {st : St} {out : List Transport}
    (h : mainLoop inp c (n + 1) (some i) st = some out) : ∃ o rest,
      dfs inp ((c n).ord (component inp st.rem (c n).ch i).comp) n
        (starts inp ((c n).ord (component inp st.rem (c n).ch i).comp) (component inp st.rem (c n).ch i).days).reverse = some o ∧
      mainLoop inp c n (nextSet inp.vs.length
        (((c n).ord (component inp st.rem (c n).ch i).comp).foldl (clear (component inp st.rem (c n).ch i).days) st).bits i)
        (((c n).ord (component inp st.rem (c n).ch i).comp).foldl (clear (component inp st.rem (c n).ch i).days) st) = some rest ∧
      out = o ++ rest := by
  unfold mainLoop at h
  dsimp only at h
  cases hd : dfs inp ((c n).ord (component inp st.rem (c n).ch i).comp) n
      (starts inp ((c n).ord (component inp st.rem (c n).ch i).comp) (component inp st.rem (c n).ch i).days).reverse with
  | none => rw [hd] at h; cases h
  | some o =>
    rw [hd] at h
    dsimp only at h
    rw [Option.map_eq_some_iff] at h
    obtain ⟨rest, h1, rfl⟩ := h
    exact ⟨o, rest, rfl, h1, rfl⟩

/-- Day `d` of trip `i` is removed only if it belongs to the component. -/
theorem removed {inp : Input} {rem : Nat → Bitfield} {comp : List (Nat × Int)} {days : Bitfield} (hI : Iter inp rem comp days) {st : St} {i d : Nat}
    (h : st.rem i d = true) (h' : (comp.foldl (clear days) st).rem i d = false) :
    ∃ x ∈ comp, x.1 = i ∧ d < kMaxDays ∧ ∃ e : Nat, (e : Int) = d - x.2 ∧ days e = true := by
  have hno : ¬ (st.rem i d = true ∧ ∀ x ∈ comp, x.1 = i → shift days x.2 d = false) := by
    rw [← clear_rem, h']; simp
  simp only [h, true_and] at hno
  by_cases hex : ∃ x ∈ comp, x.1 = i ∧ shift days x.2 d = true
  · obtain ⟨x, hx, hxi, hs⟩ := hex
    exact ⟨x, hx, hxi, (shift_iff hI.bounded _ _).1 hs⟩
  · exfalso
    refine hno fun x hx hxi => Bool.eq_false_iff.2 fun hs => hex ⟨x, hx, hxi, hs⟩

theorem mainLoop_covered {inp : Input} (hok : inp.Ok) {off : Nat → Int} {rank : Nat → Nat} (hcon : inp.Consistent off rank) {c : Nat → Choice}
    (hc : Fair c) : ∀ (n : Nat) (nxt : Option Nat) (st : St) (out : List Transport), MInv inp nxt st → mainLoop inp c n nxt st = some out →
    ∀ i d : Nat, i < inp.vs.length → st.rem i d = true →
      ∃ t ∈ out, ∃ chain, Describes inp t chain ∧ ∃ o, (i, o) ∈ chain ∧ ∃ e : Nat, (e : Int) = d - o ∧ t.days e = true
  | n, none, st, out, hI, h, i, d, hi, hd => by
    have := hI.done i hi (by intro j hj; cases hj) d
    rw [this] at hd; cases hd
  | 0, some _, _, _, _, h, _, _, _, _ => by simp [mainLoop] at h
  | n + 1, some k, st, out, hI, h, i, d, hi, hd => by
    obtain ⟨o, rest, h1, h2, rfl⟩ := mainLoop_cases h
    have hp := hc n (component inp st.rem (c n).ch k).comp
    have hms := minv_step hI (component inp st.rem (c n).ch k).days ((c n).ord (component inp st.rem (c n).ch k).comp)
    obtain ⟨hit, -⟩ := minv_iter hok hI (c n).ch hp
    have hcs := minv_cons hok hcon hI (c n).ch hp
    cases hr : (((c n).ord (component inp st.rem (c n).ch k).comp).foldl (clear (component inp st.rem (c n).ch k).days) st).rem i d with
    | true =>
      obtain ⟨t, ht, h3⟩ := mainLoop_covered hok hcon hc n _ _ rest hms h2 i d hi hr
      exact ⟨t, List.mem_append_right _ ht, h3⟩
    | false =>
      obtain ⟨x, hx, rfl, hdl, e0, he0, hde⟩ := removed hit hd hr
      obtain ⟨e, chain, h3, h4, h5⟩ := (iter_covered hok.mirror hit hcon.acyclic hcs.unique h1).1 x hx
      refine ⟨e.t, List.mem_append_left _ h3, _, describes hI.good hit.bounded hit.lt hit.runs hit.some_day h4, e.off + x.2,
        List.mem_map.2 ⟨x, h5, rfl⟩, ?_⟩
      obtain ⟨f, hf⟩ : ∃ f, chain.head? = some f := by
        cases chain with
        | nil => simp at h5
        | cons a l => exact ⟨a, rfl⟩
      have hfo : -f.2 = e.off := by
        have := h4.first; rw [hf] at this; exact Option.some.inj this
      obtain ⟨e1, he1, hr1⟩ := hit.runs f (h4.mem f (List.mem_of_head? hf)) e0 hde
      refine ⟨e1, by omega, ?_⟩
      rw [h4.days, shift_iff hit.bounded]
      exact ⟨hI.good.bounded _ _ hr1, e0, by omega, hde⟩

theorem mainLoop_joined {inp : Input} (hok : inp.Ok) {off : Nat → Int} {rank : Nat → Nat} (hcon : inp.Consistent off rank) {c : Nat → Choice}
    (hc : Fair c) : ∀ (n : Nat) (nxt : Option Nat) (st : St) (out : List Transport), MInv inp nxt st → mainLoop inp c n nxt st = some out →
    ∀ (i j : Nat) (o : Int) (d d' : Nat), inp.Stay i j o → st.rem i d = true → (d' : Int) = d + o → st.rem j d' = true →
      ∃ t ∈ out, ∃ chain, Describes inp t chain ∧ ∃ pre post o', chain = pre ++ (i, o') :: (j, o' + o) :: post ∧
        ∃ e : Nat, (e : Int) = d - o' ∧ t.days e = true
  | n, none, st, out, hI, h, i, j, o, d, d', hs, hd, _, _ => by
    have := hI.done i (rule_iff.1 hs.1).1 (by intro j hj; cases hj) d
    rw [this] at hd; cases hd
  | 0, some _, _, _, _, h, _, _, _, _, _, _, _, _, _ => by simp [mainLoop] at h
  | n + 1, some k, st, out, hI, h, i, j, o, d, d', hs, hd, hdd, hd' => by
    obtain ⟨o1, rest, h1, h2, rfl⟩ := mainLoop_cases h
    have hp := hc n (component inp st.rem (c n).ch k).comp
    have hms := minv_step hI (component inp st.rem (c n).ch k).days ((c n).ord (component inp st.rem (c n).ch k).comp)
    obtain ⟨hit, -⟩ := minv_iter hok hI (c n).ch hp
    have hcs := minv_cons hok hcon hI (c n).ch hp
    have hsd := hcon.same_day _ _ _ hs
    generalize hgc : (c n).ord (component inp st.rem (c n).ch k).comp = comp at *
    generalize hgd : (component inp st.rem (c n).ch k).days = days at *
    -- both in the component
    have key : ∀ x ∈ comp, ∀ y ∈ comp, x.1 = i → y.1 = j → (∃ e0 : Nat, (e0 : Int) = d - x.2 ∧ days e0 = true) →
        ∃ t ∈ o1 ++ rest, ∃ chain, Describes inp t chain ∧ ∃ pre post o', chain = pre ++ (i, o') :: (j, o' + o) :: post ∧
        ∃ e : Nat, (e : Int) = d - o' ∧ t.days e = true := by
      rintro x hx y hy rfl rfl ⟨e0, he0, hde⟩
      obtain ⟨e, pre, post, h3, h4⟩ := (iter_covered hok.mirror hit hcon.acyclic hcs.unique h1).2 x hx y hy hs.1
      have hxo := hcs.off_eq x hx
      have hyo := hcs.off_eq y hy
      refine ⟨e.t, List.mem_append_left _ h3, _, describes hI.good hit.bounded hit.lt hit.runs hit.some_day h4,
        pre.map (fun z => (z.1, e.off + z.2)), post.map (fun z => (z.1, e.off + z.2)), e.off + x.2, ?_, ?_⟩
      · rw [List.map_append, List.map_cons, List.map_cons]
        rw [show e.off + x.2 + o = e.off + y.2 by omega]
      obtain ⟨f, hf⟩ : ∃ f, (pre ++ x :: y :: post).head? = some f := by
        cases pre with
        | nil => exact ⟨x, rfl⟩
        | cons a l => exact ⟨a, rfl⟩
      have hfo : -f.2 = e.off := by
        have := h4.first; rw [hf] at this; exact Option.some.inj this
      obtain ⟨e1, he1, hr1⟩ := hit.runs f (h4.mem f (List.mem_of_head? hf)) e0 hde
      refine ⟨e1, by omega, ?_⟩
      rw [h4.days, shift_iff hit.bounded]
      exact ⟨hI.good.bounded _ _ hr1, e0, by omega, hde⟩
    cases hri : (comp.foldl (clear days) st).rem i d with
    | false =>
      obtain ⟨x, hx, hxi, -, e0, he0, hde⟩ := removed hit hd hri
      have hxo := hcs.off_eq x hx
      rcases hcs.closed x hx j (.inl (by rw [hxi, show off j - off i = o by omega]; exact hs)) with ⟨y, hy, hyj⟩ | hno
      · exact key x hx y hy hxi hyj ⟨e0, he0, hde⟩
      · have := hno e0 hde d' (by rw [hxi] at hxo; omega)
        rw [this] at hd'; cases hd'
    | true =>
      cases hrj : (comp.foldl (clear days) st).rem j d' with
      | false =>
        obtain ⟨y, hy, hyj, -, e0, he0, hde⟩ := removed hit hd' hrj
        have hyo := hcs.off_eq y hy
        rcases hcs.closed y hy i (.inr (by rw [hyj, show off j - off i = o by omega]; exact hs)) with ⟨x, hx, hxi⟩ | hno
        · have hxo := hcs.off_eq x hx
          exact key x hx y hy hxi hyj ⟨e0, by rw [hxi] at hxo; rw [hyj] at hyo; omega, hde⟩
        · have := hno e0 hde d (by rw [hyj] at hyo; omega)
          rw [this] at hd; cases hd
      | true =>
        obtain ⟨t, ht, h3⟩ := mainLoop_joined hok hcon hc n _ _ rest hms h2 i j o d d' hs hri hdd hrj
        exact ⟨t, List.mem_append_right _ ht, h3⟩

/-! ### Times -/

/-- Times of joined trips are sorted. -/
theorem sorted_chain {inp : Input} (hok : inp.Ok) : ∀ (chain : List (Nat × Int)), (∀ x ∈ chain, x.1 < inp.vs.length) →
    Adj (fun x y => inp.Stay x.1 y.1 (y.2 - x.2)) chain →
    (chain.map fun x => (inp.var x.1).times.map (· + x.2 * 1440)).flatten.Pairwise (· ≤ ·) ∧
    ∀ x, chain.head? = some x → ∀ t ∈ (chain.map fun x => (inp.var x.1).times.map (· + x.2 * 1440)).flatten,
      (inp.var x.1).firstDep + x.2 * 1440 ≤ t
  | [], _, _ => by simp
  | x :: l, hlt, ha => by
    rw [adj_cons] at ha
    obtain ⟨ih1, ih2⟩ := sorted_chain hok l (fun y hy => hlt y (List.mem_cons_of_mem _ hy)) ha.2
    obtain ⟨hne, hs, -, -⟩ := ok_var hok (hlt x (by simp))
    have hhead : ∀ (l : List Int), l.Pairwise (· ≤ ·) → ∀ t ∈ l, l.headD 0 ≤ t ∧ t ≤ l.getLastD 0 := by
      intro l
      induction l with
      | nil => intro _ t ht; simp at ht
      | cons a l ih =>
        intro h t ht
        have h1 := List.pairwise_cons.1 h
        have hla : a ≤ (a :: l).getLastD 0 := le_last (a :: l) (by simp) h
        rcases List.mem_cons.1 ht with rfl | ht
        · exact ⟨Int.le_refl _, hla⟩
        · refine ⟨h1.1 t ht, ?_⟩
          have := (ih h1.2 t ht).2
          cases l with
          | nil => simp at ht
          | cons b l => simpa using this
    have hx : ∀ t ∈ (inp.var x.1).times.map (· + x.2 * 1440), (inp.var x.1).firstDep + x.2 * 1440 ≤ t ∧ t ≤ (inp.var x.1).lastArr + x.2 * 1440 := by
      intro t ht
      obtain ⟨t0, ht0, rfl⟩ := List.mem_map.1 ht
      have := hhead _ hs t0 ht0
      unfold Variant.firstDep Variant.lastArr
      omega
    have hfl := firstDep_le hok (hlt x (by simp))
    have hlater : ∀ t ∈ (l.map fun x => (inp.var x.1).times.map (· + x.2 * 1440)).flatten, (inp.var x.1).lastArr + x.2 * 1440 ≤ t := by
      intro t ht
      cases l with
      | nil => simp at ht
      | cons y l =>
        have h1 := ha.1 y rfl
        have h2 := ih2 y rfl t ht
        have h3 := h1.2.1
        unfold Input.wait at h3
        have : (y.2 - x.2) * 1440 = y.2 * 1440 - x.2 * 1440 := by omega
        omega
    rw [List.map_cons, List.flatten_cons]
    refine ⟨?_, ?_⟩
    · rw [List.pairwise_append]
      refine ⟨?_, ih1, ?_⟩
      · rw [List.pairwise_map]
        exact hs.imp (by intro a b h; omega)
      · intro a h1 b h2
        have := (hx a h1).2
        have := hlater b h2
        omega
    · intro x' hx' t ht
      have : x = x' := by simpa using hx'
      subst this
      rcases List.mem_append.1 ht with ht | ht
      · exact (hx t ht).1
      · have := hlater t ht; omega

theorem adj_imp {α : Type} {r s : α → α → Prop} : ∀ {l : List α}, (∀ x ∈ l, ∀ y ∈ l, r x y → s x y) → Adj r l → Adj s l
  | [], _, _ => trivial
  | [_], _, _ => trivial
  | x :: y :: l, h, h2 => ⟨h x (by simp) y (by simp) h2.1,
      adj_imp (fun a ha b hb => h a (List.mem_cons_of_mem _ ha) b (List.mem_cons_of_mem _ hb)) h2.2⟩

theorem mainLoop_times {inp : Input} (hok : inp.Ok) {off : Nat → Int} {rank : Nat → Nat} (hcon : inp.Consistent off rank) {c : Nat → Choice}
    (hc : Fair c) : ∀ (n : Nat) (nxt : Option Nat) (st : St) (out : List Transport), MInv inp nxt st → mainLoop inp c n nxt st = some out →
    ∀ t ∈ out, ∃ chain, Describes inp t chain ∧ Adj (fun x y => inp.Stay x.1 y.1 (y.2 - x.2)) chain ∧ t.times.Pairwise (· ≤ ·)
  | n, none, st, out, _, h, t, ht => by
    have : out = [] := by cases n <;> simpa [mainLoop] using h.symm
    subst this; simp at ht
  | 0, some _, _, _, _, h, _, _ => by simp [mainLoop] at h
  | n + 1, some i, st, out, hI, h, t, ht => by
    obtain ⟨o1, rest, h1, h2, rfl⟩ := mainLoop_cases h
    have hp := hc n (component inp st.rem (c n).ch i).comp
    have hms := minv_step hI (component inp st.rem (c n).ch i).days ((c n).ord (component inp st.rem (c n).ch i).comp)
    obtain ⟨hit, -⟩ := minv_iter hok hI (c n).ch hp
    have hcs := minv_cons hok hcon hI (c n).ch hp
    rcases List.mem_append.1 ht with ht | ht
    · obtain ⟨e, chain, rfl, h3⟩ := iter_sound hit h1 t ht
      have hD := describes hI.good hit.bounded hit.lt hit.runs hit.some_day h3
      have hA : Adj (fun x y => inp.Stay x.1 y.1 (y.2 - x.2)) (chain.map fun x => (x.1, e.off + x.2)) := by
        rw [adj_map]
        refine adj_imp (fun x hx y hy hr => ?_) h3.rules
        have := hcs.stay x (h3.mem x hx) y (h3.mem y hy) hr
        show inp.Stay x.1 y.1 (e.off + y.2 - (e.off + x.2))
        rw [show e.off + y.2 - (e.off + x.2) = y.2 - x.2 by omega]
        exact this
      refine ⟨_, hD, hA, ?_⟩
      rw [hD.times]
      refine (sorted_chain hok _ ?_ hA).1
      intro x hx
      obtain ⟨y, hy, rfl⟩ := List.mem_map.1 hx
      exact hit.lt y (h3.mem y hy)
    · exact mainLoop_times hok hcon hc n _ _ rest hms h2 t ht

end Nigiri.Seated
