import Verif.Props.FareTransfers
/-!
# C72 (the whole journey), C73 (leg rules), C74 (timeframes)
-/

namespace Nigiri.Fares

open Nigiri.Raptor (Adj adj_cons adj_append adj_iff)

/-! ## Leg rules -/

theorem mem_opts {v : Option Nat} {c : List Nat} {x : Option Nat} : x ∈ opts v c ↔ FieldFits x v c := by
  unfold opts FieldFits
  cases v with
  | none => simp
  | some y =>
    by_cases h : y ∈ c
    · simp [h]
    · simp [h]

theorem mem_eachArea {tt : TT} {l : Nat} {a : Option Nat} : a ∈ eachArea tt l ↔ AreaOf tt l a := by
  unfold eachArea AreaOf
  rw [getAreas_eq]
  cases h : areasAt tt l with
  | nil => simp
  | cons x xs =>
    simp only [List.isEmpty_cons, Bool.false_eq_true, if_false, List.mem_map, reduceCtorEq, and_false, or_false]
    constructor
    · rintro ⟨y, hy, rfl⟩; exact ⟨y, rfl, hy⟩
    · rintro ⟨y, rfl, hy⟩; exact ⟨y, hy, rfl⟩

theorem fits_loaded {hp : Bool} {f : Data} {field : Rule → Option Nat} {r : Rule} {v : Option Nat} :
    FieldFits (field r) v (concreteOf hp f.rules field) ↔ Fits hp f field r v := by
  unfold FieldFits Fits Named concreteOf
  cases hp <;> simp

theorem areaSet_iff {tt : TT} {k : LegKey} {r : Rule} : areaSetMatches tt k.stops r = true ↔
    (∀ s, r.contains = some s → ∀ x ∈ s, Visits tt k x) ∧ (∀ s, r.exactly = some s → ∀ x, x ∈ s ↔ Visits tt k x) := by
  have hv : ∀ x, hasArea tt k.stops x = true ↔ Visits tt k x := by
    intro x; simp [hasArea, Visits, getAreas_eq]
  have ho : ∀ s, hasOtherArea tt k.stops s = false ↔ ∀ x, Visits tt k x → x ∈ s := by
    intro s
    simp only [hasOtherArea, Visits, List.any_eq_false, Bool.not_eq_true, Bool.not_eq_false', List.contains_iff_mem]
    constructor
    · rintro h x ⟨q, hq, hx⟩; exact h q hq x (by rw [getAreas_eq]; exact hx)
    · intro h q hq x hx; exact h x ⟨q, hq, by rw [getAreas_eq] at hx; exact hx⟩
  unfold areaSetMatches
  rw [Bool.and_eq_true]
  refine and_congr ?_ ?_
  · cases r.contains with
    | none => simp
    | some s => simp [hv]
  · cases r.exactly with
    | none => simp
    | some s =>
      simp only [Bool.and_eq_true, List.all_eq_true, hv, Bool.not_eq_true', ho, Option.some.injEq, forall_eq']
      constructor
      · rintro ⟨h1, h2⟩ x; exact ⟨h1 x, h2 x⟩
      · intro h; exact ⟨fun x => (h x).1, fun x => (h x).2⟩

theorem mem_candidates {tt : TT} {f : Data} {hp : Bool} (hl : Loaded f hp) {k : LegKey} {r : Rule} :
    r ∈ candidates tt f k ↔ r ∈ f.rules ∧ Applies tt hp f k r := by
  unfold candidates rulesOf
  rw [hl.nets, hl.frm, hl.to]
  simp only [List.mem_flatMap, List.mem_filter, Bool.and_eq_true, decide_eq_true_eq, mem_opts, mem_eachArea, areaSet_iff]
  have htf : ∀ (x v : Option Nat), FieldFits x v [] ↔ (x = none ∨ x = v) := by
    intro x v; simp [FieldFits]; exact Or.comm
  constructor
  · rintro ⟨fa, hfa, ta, hta, nw, hnw, fa', hfa', ta', hta', t1, ht1, t2, ht2, ⟨hr, ⟨⟨⟨h1, h2⟩, h3⟩, h4⟩, h5⟩, h6, h7⟩
    subst h1; subst h2; subst h3; subst h4; subst h5
    exact ⟨hr, fits_loaded.1 hnw, ⟨fa, hfa, fits_loaded.1 hfa'⟩, ⟨ta, hta, fits_loaded.1 hta'⟩, (htf _ _).1 ht1, (htf _ _).1 ht2, h6, h7⟩
  · rintro ⟨hr, hnw, ⟨fa, hfa, hfa'⟩, ⟨ta, hta, hta'⟩, ht1, ht2, h6, h7⟩
    exact ⟨fa, hfa, ta, hta, _, fits_loaded.2 hnw, _, fits_loaded.2 hfa', _, fits_loaded.2 hta', _, (htf _ _).2 ht1, _, (htf _ _).2 ht2,
      ⟨hr, ⟨⟨⟨⟨rfl, rfl⟩, rfl⟩, rfl⟩, rfl⟩⟩, h6, h7⟩

theorem mem_insertRule {r x : Rule} {l : List Rule} : x ∈ insertRule r l ↔ x = r ∨ x ∈ l := by
  induction l with
  | nil => simp [insertRule]
  | cons y ys ih =>
    unfold insertRule
    split
    · simp
    · simp [ih]; grind

theorem mem_sortRules {x : Rule} {l : List Rule} : x ∈ sortRules l ↔ x ∈ l := by
  induction l with
  | nil => simp [sortRules]
  | cons y ys ih =>
    show x ∈ insertRule y (sortRules ys) ↔ _
    rw [mem_insertRule, ih]; simp

/-- The order of the result: higher priority first, then lower rank. -/
def RuleLe (a b : Rule) : Prop := b.prio < a.prio ∨ (a.prio = b.prio ∧ a.rank ≤ b.rank)

theorem insertRule_sorted {r : Rule} {l : List Rule} (h : l.Pairwise RuleLe) : (insertRule r l).Pairwise RuleLe := by
  induction l with
  | nil => simp [insertRule]
  | cons y ys ih =>
    unfold insertRule
    rw [List.pairwise_cons] at h
    by_cases hc : ruleLt r y = true
    · rw [if_pos hc, List.pairwise_cons, List.pairwise_cons]
      have hry : RuleLe r y := by
        unfold ruleLt at hc; unfold RuleLe
        simp at hc; omega
      refine ⟨?_, h⟩
      intro z hz
      rcases List.mem_cons.1 hz with rfl | hz
      · exact hry
      · have := h.1 z hz
        unfold RuleLe at *; omega
    · rw [if_neg hc, List.pairwise_cons]
      refine ⟨?_, ih h.2⟩
      intro z hz
      rcases mem_insertRule.1 hz with rfl | hz
      · unfold ruleLt at hc; unfold RuleLe
        simp at hc; omega
      · exact h.1 z hz

theorem sortRules_sorted (l : List Rule) : (sortRules l).Pairwise RuleLe := by
  induction l with
  | nil => simp [sortRules]
  | cons y ys ih => exact insertRule_sorted ih

theorem mem_matchRules {tt : TT} {f : Data} {k : LegKey} {r : Rule} :
    r ∈ matchRules tt f k ↔ r ∈ candidates tt f k ∧ ∀ q ∈ candidates tt f k, q.prio ≤ r.prio := by
  unfold matchRules
  have hs := sortRules_sorted (candidates tt f k)
  have hm : ∀ x, x ∈ sortRules (candidates tt f k) ↔ x ∈ candidates tt f k := fun x => mem_sortRules
  cases hc : sortRules (candidates tt f k) with
  | nil => rw [hc] at hm; simp at hm; simp; intro h; exact absurd h (hm r)
  | cons a as =>
    rw [hc] at hs hm
    simp only [List.mem_filter, hm, Bool.not_eq_true', decide_eq_false_iff_not, Int.not_lt]
    refine and_congr_right fun hr => ?_
    constructor
    · intro h q hq
      rcases List.mem_cons.1 ((hm q).2 hq) with rfl | hq'
      · exact h
      · have := List.rel_of_pairwise_cons hs hq'
        unfold RuleLe at this; omega
    · intro h; exact h a ((hm a).1 (by simp))

/-- **C73.** The leg rules reported for an effective leg are exactly the rules of the feed that apply to it
and have the highest priority among those that do. -/
theorem C73_rules (tt : TT) (f : Data) (hp : Bool) (hl : Loaded f hp) (k : LegKey) (r : Rule) :
    r ∈ matchRules tt f k ↔
      r ∈ f.rules ∧ Applies tt hp f k r ∧ ∀ q ∈ f.rules, Applies tt hp f k q → q.prio ≤ r.prio := by
  rw [mem_matchRules, mem_candidates hl]
  constructor
  · rintro ⟨⟨h1, h2⟩, h3⟩
    exact ⟨h1, h2, fun q hq ha => h3 q ((mem_candidates hl).2 ⟨hq, ha⟩)⟩
  · rintro ⟨h1, h2, h3⟩
    exact ⟨⟨h1, h2⟩, fun q hq => h3 q ((mem_candidates hl).1 hq).1 ((mem_candidates hl).1 hq).2⟩

/-- **C73 (the decisive rule).** The first of them — the one whose leg group decides about transfers — has
the lowest rank (default rider category first, then the amount). -/
theorem C73_first (tt : TT) (f : Data) (k : LegKey) (r : Rule) (h : (matchRules tt f k).head? = some r) :
    ∀ q ∈ matchRules tt f k, q.prio = r.prio ∧ r.rank ≤ q.rank := by
  have hsort : (matchRules tt f k).Pairwise RuleLe := by
    unfold matchRules
    have := sortRules_sorted (candidates tt f k)
    split
    · simp
    · rename_i hc; rw [hc] at this; exact this.filter _
  intro q hq
  cases hm : matchRules tt f k with
  | nil => rw [hm] at h; simp at h
  | cons a as =>
    rw [hm] at h; simp at h; subst h
    have h1 := (mem_matchRules.1 hq).2 a (mem_matchRules.1 (hm ▸ List.mem_cons_self)).1
    have h2 := (mem_matchRules (tt := tt) (f := f) (k := k) (r := a)).1 (hm ▸ List.mem_cons_self)
    have h3 := h2.2 q (mem_matchRules.1 hq).1
    refine ⟨by omega, ?_⟩
    rw [hm] at hq hsort
    rcases List.mem_cons.1 hq with rfl | hq
    · omega
    · have := List.rel_of_pairwise_cons hsort hq
      unfold RuleLe at this; omega

/-- A feed with two stops: stop 1 in areas 1 and 2, stop 2 in area 3; one rule for area 1, one for
every other area, one with a higher rank for network 7. -/
def tt1 : TT where
  parent := fun _ => none
  areas := fun l => if l = 1 then [1] else if l = 2 then [3] else if l = 4 then [5, 6] else []
  fares := fun _ => ⟨[], [], [], [], [], [], []⟩

def rule1 : Rule := ⟨0, none, some 1, none, none, none, some 1, none, none, 5⟩
def rule2 : Rule := ⟨0, none, none, none, none, none, some 2, none, none, 3⟩
def rule3 : Rule := ⟨0, some 7, some 1, some 3, none, none, some 3, none, some [3], 9⟩

def feed1 : Data := ⟨[], [rule1, rule2, rule3], [], [], [7], [1, 1], [3]⟩

def key1 : LegKey := ⟨some 7, 1, 2, none, none, [1, 2]⟩

theorem C73_hypotheses : Loaded feed1 false ∧ matchRules tt1 feed1 key1 = [rule3] ∧
    matchRules tt1 feed1 { key1 with network := some 8, toStop := 3, stops := [1, 3] } = [rule1] := by
  refine ⟨⟨by decide, by decide, by decide⟩, by decide, by decide⟩

/-- The result can list one rule twice: once for each area of the stop. -/
theorem C73_twice : Loaded feed1 false ∧
    matchRules tt1 feed1 ⟨some 8, 4, 3, none, none, [4, 3]⟩ = [rule2, rule2] := by
  refine ⟨⟨by decide, by decide, by decide⟩, by decide⟩

/-! ## Timeframes -/

theorem contains_iff (f : Data) (tz : Int → Int) (t : Int) (h0 : 0 ≤ tz 0) (h1 : tz 0 < 1440) :
    matchTimeframe f tz t = f.timeframes.findIdx? fun g => g.any fun tf =>
      let lt := t + tz t
      decide (lt / 1440 * 1440 + tf.start ≤ lt) && decide (lt < lt / 1440 * 1440 + tf.stop) &&
      decide (0 ≤ lt / 1440) && decide (lt / 1440 < kMaxDays) && tf.service (lt / 1440).toNat := by
  unfold matchTimeframe
  have : (0 + tz 0) / 1440 = 0 := by omega
  simp only [this, Int.sub_zero]

theorem inTimeframe_iff (tf : Timeframe) (lt : Int) :
    (decide (lt / 1440 * 1440 + tf.start ≤ lt) && decide (lt < lt / 1440 * 1440 + tf.stop) &&
      decide (0 ≤ lt / 1440) && decide (lt / 1440 < kMaxDays) && tf.service (lt / 1440).toNat) = true ↔ tf.Contains lt := by
  unfold Timeframe.Contains
  simp only [Bool.and_eq_true, decide_eq_true_eq]
  constructor
  · rintro ⟨⟨⟨⟨h1, h2⟩, h3⟩, h4⟩, h5⟩
    refine ⟨(lt / 1440).toNat, lt % 1440, ?_, ?_, ?_, ?_, h5, ?_, ?_⟩
    · omega
    · omega
    · omega
    · omega
    · omega
    · omega
  · rintro ⟨day, m, h1, h2, h3, h4, h5, h6, h7⟩
    have h8 : lt / 1440 = day := by omega
    rw [h8]
    refine ⟨⟨⟨⟨by omega, by omega⟩, by omega⟩, by omega⟩, ?_⟩
    simpa using h5

/-- **C74 (partial).** If the timezone of the stop is not west of UTC (at the first timetable day), the
timeframe group of an event is the first one of the feed that contains its local time. -/
theorem C74_timeframe_partial (f : Data) (tz : Int → Int) (t : Int) (h0 : 0 ≤ tz 0) (h1 : tz 0 < 1440) :
    (∀ i, matchTimeframe f tz t = some i ↔
      ∃ g, f.timeframes[i]? = some g ∧ (∃ tf ∈ g, tf.Contains (t + tz t)) ∧
        ∀ j < i, ∀ g', f.timeframes[j]? = some g' → ∀ tf ∈ g', ¬ tf.Contains (t + tz t)) ∧
    (matchTimeframe f tz t = none ↔ ∀ g ∈ f.timeframes, ∀ tf ∈ g, ¬ tf.Contains (t + tz t)) := by
  rw [contains_iff f tz t h0 h1]
  have key : ∀ g : List Timeframe, (g.any fun tf =>
      let lt := t + tz t
      decide (lt / 1440 * 1440 + tf.start ≤ lt) && decide (lt < lt / 1440 * 1440 + tf.stop) &&
      decide (0 ≤ lt / 1440) && decide (lt / 1440 < kMaxDays) && tf.service (lt / 1440).toNat) = true ↔ ∃ tf ∈ g, tf.Contains (t + tz t) := by
    intro g
    rw [List.any_eq_true]
    refine exists_congr fun tf => and_congr_right fun _ => ?_
    exact inTimeframe_iff tf (t + tz t)
  constructor
  · intro i
    rw [List.findIdx?_eq_some_iff_getElem]
    constructor
    · rintro ⟨hi, hg, hj⟩
      refine ⟨_, List.getElem?_eq_getElem hi, (key _).1 hg, fun j hj' g' hg' tf htf hc => ?_⟩
      obtain ⟨hjl, rfl⟩ := List.getElem?_eq_some_iff.1 hg'
      exact hj j hj' ((key _).2 ⟨tf, htf, hc⟩)
    · rintro ⟨g, hg, hc, hj⟩
      obtain ⟨hi, rfl⟩ := List.getElem?_eq_some_iff.1 hg
      refine ⟨hi, (key _).2 hc, fun j hj' hn => ?_⟩
      obtain ⟨tf, htf, hc'⟩ := (key _).1 hn
      exact hj j hj' _ (List.getElem?_eq_getElem (by omega)) tf htf hc'
  · rw [List.findIdx?_eq_none_iff]
    constructor
    · intro h g hg tf htf hc
      have := h g hg
      rw [(key g).2 ⟨tf, htf, hc⟩] at this
      cases this
    · intro h g hg
      refine Bool.eq_false_iff.2 fun hn => ?_
      obtain ⟨tf, htf, hc⟩ := (key g).1 hn
      exact h g hg tf htf hc

/-- Peak hours 7–9 on days 1 to 5. -/
def peak : Timeframe := ⟨420, 540, fun d => decide (1 ≤ d ∧ d ≤ 5)⟩
/-- All day on days 1 to 5. -/
def allDay : Timeframe := ⟨0, 1440, fun d => decide (1 ≤ d ∧ d ≤ 5)⟩

def feed2 : Data := ⟨[], [], [], [[peak], [allDay]], [], [], []⟩

theorem C74_hypotheses : (0 : Int) ≤ (fun _ : Int => (60 : Int)) 0 ∧
    matchTimeframe feed2 (fun _ => 60) (1440 + 400) = some 0 ∧ matchTimeframe feed2 (fun _ => 60) (1440 + 540) = some 1 ∧
    matchTimeframe feed2 (fun _ => 60) 400 = none := by
  refine ⟨by decide, by decide, by decide, by decide⟩

/-- West of UTC the service day is one too late: 8:00 on day 5 (a service day) is in no timeframe, 8:00 on
day 0 (no service day) is. -/
theorem C74_west : peak.Contains (5 * 1440 + 480) ∧ ¬ peak.Contains 480 ∧
    matchTimeframe feed2 (fun _ => -300) (5 * 1440 + 480 + 300) = none ∧
    matchTimeframe feed2 (fun _ => -300) (480 + 300) = some 0 := by
  refine ⟨⟨5, 480, by decide, by decide, by decide, by decide, by decide, by decide, by decide⟩, ?_, by decide, by decide⟩
  rintro ⟨day, m, h1, h2, h3, h4, h5, -⟩
  have hd : day = 0 := by omega
  subst hd
  simp [peak] at h5

/-- Only the first group counts: 8:00 on day 1 is in both timeframes, a rule that requires the second one
does not apply. -/
theorem C74_overlap : peak.Contains (1440 + 480) ∧ allDay.Contains (1440 + 480) ∧
    matchTimeframe feed2 (fun _ => 0) (1440 + 480) = some 0 ∧
    matchRules tt1 { feed2 with rules := [⟨0, none, none, none, some 1, none, none, none, none, 0⟩] }
      ⟨none, 1, 2, some 0, none, [1, 2]⟩ = [] := by
  refine ⟨⟨1, 480, by decide, by decide, by decide, by decide, by decide, by decide, by decide⟩,
    ⟨1, 480, by decide, by decide, by decide, by decide, by decide, by decide, by decide⟩, by decide, by decide⟩

end Nigiri.Fares
