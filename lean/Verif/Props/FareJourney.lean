import Verif.Props.FareRules
/-!
# C72: the fares of a whole journey
-/

namespace Nigiri.Fares

open Nigiri.Raptor (Adj adj_cons adj_append adj_iff)

/-- The effective legs of a journey with their leg rules. -/
def effective (tt : TT) (tz : Leg → Nat → Int → Int) (legs : List Leg) : List FareLeg :=
  (joinLegs tt legs).map (fareLeg tt tz)

theorem fareLeg_joined (tt : TT) (tz : Leg → Nat → Int → Int) (g : List Leg) : (fareLeg tt tz g).joined = g := by
  unfold fareLeg
  split
  · split <;> rfl
  · rfl

/-- The transfers of a list of ranges. -/
theorem mapM_ranges (tt : TT) (fuel : Nat) (ranges : List (List FareLeg)) (outs : List (List Transfer))
    (h : ranges.mapM (transferRange tt fuel) = some outs) :
    outs.length = ranges.length ∧ ∀ (i : Nat) g o, ranges[i]? = some g → outs[i]? = some o → transferRange tt fuel g = some o := by
  induction ranges generalizing outs with
  | nil => simp at h; subst h; simp
  | cons g gs ih =>
    rw [List.mapM_cons] at h
    cases hg : transferRange tt fuel g with
    | none => rw [hg] at h; cases h
    | some o =>
      cases hgs : gs.mapM (transferRange tt fuel) with
      | none => rw [hg, hgs] at h; cases h
      | some os =>
        rw [hg, hgs] at h
        cases h
        obtain ⟨h1, h2⟩ := ih os hgs
        refine ⟨by simp [h1], ?_⟩
        intro i a b ha hb
        cases i with
        | zero => simp at ha hb; subst ha; subst hb; exact hg
        | succ i => exact h2 i a b (by simpa using ha) (by simpa using hb)

/-- A list of ranges with sources: consecutive effective legs of one source. -/
structure BySource (legs : List FareLeg) (ranges : List (List FareLeg)) : Prop where
  all : ranges.flatten = legs
  nonempty : ∀ g ∈ ranges, g ≠ []
  same : ∀ g ∈ ranges, ∀ a ∈ g, ∀ b ∈ g, a.src = b.src
  change : Adj (fun g h => ∀ a b, g.getLast? = some a → h.head? = some b → a.src ≠ b.src) ranges

theorem bySource (legs : List FareLeg) :
    BySource legs (equalRanges (fun a b => decide (a.src = b.src)) legs) := by
  have hm := equalRanges_mem (fun a b : FareLeg => decide (a.src = b.src)) legs
  have hsame : ∀ g ∈ equalRanges (fun a b : FareLeg => decide (a.src = b.src)) legs, ∀ a ∈ g, ∀ b ∈ g, a.src = b.src := by
    intro g hg a ha b hb
    obtain ⟨x, ys, rfl, h⟩ := hm g hg
    have h' : ∀ y ∈ x :: ys, x.src = y.src := by
      intro y hy
      rcases List.mem_cons.1 hy with rfl | hy
      · rfl
      · exact of_decide_eq_true (h y hy)
    rw [← h' a ha, ← h' b hb]
  refine ⟨equalRanges_flatten _ _, ?_, hsame, ?_⟩
  · intro g hg; obtain ⟨x, ys, rfl, -⟩ := hm g hg; simp
  · refine adj_mem (equalRanges_adj _ _) fun g hg h _ hr a b ha hb he => ?_
    obtain ⟨x, ys, rfl, -⟩ := hm g hg
    have := hr x b rfl hb
    have hx := hsame _ hg x (by simp) a (List.mem_of_getLast? ha)
    exact of_decide_eq_false this (hx.trans he)

/-- **C72 (partial).** If `get_fares` answers, the effective legs of the journey are priced source by
source: in order, each one alone (no rule fits the change into the next one) or in a transfer group formed
by the first fitting rule, as long as that rule admits. Missing for the full property: a leg can be priced
twice (`C72_twice`), and a rule with the transfer count 0 makes the call endless (`C72_endless`). -/
theorem C72_transfers_partial (tt : TT) (tz : Leg → Nat → Int → Int) (fuel : Nat) (legs : List Leg)
    (hd : Distinct legs) (out : List Transfer) (ho : getFares tt tz fuel legs = some out) :
    ∃ (ranges : List (List FareLeg)) (outs : List (List Transfer)),
      BySource (effective tt tz legs) ranges ∧ out = outs.flatten ∧ outs.length = ranges.length ∧
      ∀ (i : Nat) g o x, ranges[i]? = some g → outs[i]? = some o → x ∈ g → Priced (tt.fares x.src) g o := by
  have hne := (C72_effective_legs tt legs hd).nonempty
  unfold getFares joinTransfers at ho
  rw [Option.map_eq_some_iff] at ho
  obtain ⟨outs, ho, rfl⟩ := ho
  obtain ⟨h1, h2⟩ := mapM_ranges tt fuel _ outs ho
  have hb := bySource (effective tt tz legs)
  refine ⟨_, outs, hb, rfl, h1, fun i g o x hg hO hx => ?_⟩
  have hgm := List.mem_of_getElem? hg
  have := h2 i g o hg hO
  cases g with
  | nil => simp at hx
  | cons a as =>
    rw [hb.same _ hgm x hx a (by simp)]
    refine transferRange_priced tt fuel a as ?_ o this
    intro l hl
    have : l ∈ effective tt tz legs := by rw [← hb.all]; exact List.mem_flatten.2 ⟨_, hgm, hl⟩
    obtain ⟨grp, hgrp, rfl⟩ := List.mem_map.1 this
    rw [fareLeg_joined]
    exact hne grp hgrp

/-- Spans that follow each other leave no gap. -/
theorem spans_cover {f : Data} {legs : List FareLeg} (spans : List Span) (hok : ∀ sp ∈ spans, SpanOk f legs sp)
    (hadj : Adj Follows spans) (s : Nat) (hh : ∀ sp, spans.head? = some sp → sp.s = s)
    (e : Nat) (hl : ∀ sp, spans.getLast? = some sp → sp.s + sp.n = e) (hne : spans ≠ []) :
    ∀ i, s ≤ i → i < e → ∃ sp ∈ spans, sp.s ≤ i ∧ i < sp.s + sp.n := by
  induction spans generalizing s with
  | nil => contradiction
  | cons p ps ih =>
    intro i hs hi
    have hp := hh p rfl
    by_cases hlt : i < p.s + p.n
    · exact ⟨p, by simp, by omega, hlt⟩
    · cases ps with
      | nil => have := hl p rfl; omega
      | cons q qs =>
        obtain ⟨h1, h2⟩ := adj_cons.1 hadj
        have hf := h1 q rfl
        obtain ⟨sp, h3, h4⟩ := ih (fun sp h => hok sp (List.mem_cons_of_mem _ h)) h2 q.s
          (fun sp h => by simp at h; rw [h]) (fun sp h => hl sp (by simpa using h)) (by simp) i
          (by rcases hf with hf | ⟨-, hf⟩ <;> omega) hi
        exact ⟨sp, List.mem_cons_of_mem _ h3, h4⟩

/-- Everything priced is covered, nothing else. -/
theorem priced_cover {f : Data} {legs : List FareLeg} {out : List Transfer} (h : Priced f legs out) (l : FareLeg) :
    l ∈ legs ↔ ∃ t ∈ out, l ∈ t.legs := by
  obtain ⟨spans, rfl, h2, h3, h4, h5, h6⟩ := h
  constructor
  · intro hl
    obtain ⟨i, hi, rfl⟩ := List.mem_iff_getElem.1 hl
    obtain ⟨sp, hsp, h7, h8⟩ := spans_cover spans h2 h3 0 h4 legs.length h5 (h6 (List.ne_nil_of_mem hl)) i (by omega) hi
    refine ⟨_, List.mem_map.2 ⟨sp, hsp, rfl⟩, ?_⟩
    refine List.mem_of_getElem? (i := i - sp.s) ?_
    show ((legs.drop sp.s).take sp.n)[i - sp.s]? = _
    rw [List.getElem?_take_of_lt (by omega), List.getElem?_drop, Nat.add_sub_cancel' h7]
    exact List.getElem?_eq_getElem hi
  · rintro ⟨t, ht, hl⟩
    obtain ⟨sp, -, rfl⟩ := List.mem_map.1 ht
    exact List.mem_of_mem_drop (List.mem_of_mem_take hl)

/-- **C72 (no leg is lost).** The legs priced by the answer are exactly the transit legs of the journey. -/
theorem C72_every_leg (tt : TT) (tz : Leg → Nat → Int → Int) (fuel : Nat) (legs : List Leg)
    (hd : Distinct legs) (out : List Transfer) (ho : getFares tt tz fuel legs = some out) (l : Leg) :
    l ∈ legs ↔ ∃ t ∈ out, ∃ fl ∈ t.legs, l ∈ fl.joined := by
  obtain ⟨ranges, outs, hb, rfl, hlen, hp⟩ := C72_transfers_partial tt tz fuel legs hd out ho
  have hE := C72_effective_legs tt legs hd
  have h1 : l ∈ legs ↔ ∃ fl ∈ effective tt tz legs, l ∈ fl.joined := by
    have hin : l ∈ legs ↔ l ∈ (joinLegs tt legs).flatten := by rw [hE.all]
    rw [hin]
    constructor
    · intro h
      obtain ⟨g, hg, hl⟩ := List.mem_flatten.1 h
      exact ⟨_, List.mem_map.2 ⟨g, hg, rfl⟩, by rw [fareLeg_joined]; exact hl⟩
    · rintro ⟨fl, hfl, hl⟩
      obtain ⟨g, hg, rfl⟩ := List.mem_map.1 hfl
      rw [fareLeg_joined] at hl
      exact List.mem_flatten.2 ⟨g, hg, hl⟩
  rw [h1, ← hb.all]
  constructor
  · rintro ⟨fl, hfl, hl⟩
    obtain ⟨g, hg, hfg⟩ := List.mem_flatten.1 hfl
    obtain ⟨i, hi, rfl⟩ := List.mem_iff_getElem.1 hg
    have hio : i < outs.length := by omega
    have := hp i _ _ fl (List.getElem?_eq_getElem hi) (List.getElem?_eq_getElem hio) hfg
    obtain ⟨t, ht, hft⟩ := (priced_cover this fl).1 hfg
    exact ⟨t, List.mem_flatten.2 ⟨_, List.getElem_mem hio, ht⟩, fl, hft, hl⟩
  · rintro ⟨t, ht, fl, hft, hl⟩
    obtain ⟨o, ho', hto⟩ := List.mem_flatten.1 ht
    obtain ⟨i, hi, rfl⟩ := List.mem_iff_getElem.1 ho'
    have hir : i < ranges.length := by omega
    obtain ⟨x, xs, hx⟩ := List.exists_cons_of_ne_nil (hb.nonempty _ (List.getElem_mem hir))
    have := hp i _ _ x (List.getElem?_eq_getElem hir) (List.getElem?_eq_getElem hi) (by rw [hx]; simp)
    exact ⟨fl, List.mem_flatten.2 ⟨_, List.getElem_mem hir, (priced_cover this fl).2 ⟨t, hto, hft⟩⟩, hl⟩

/-- In a sequence of spans an index is in at most two, the second time as the first leg of the span. -/
theorem spans_twice {f : Data} {legs : List FareLeg} (spans : List Span) (hok : ∀ sp ∈ spans, SpanOk f legs sp)
    (hadj : Adj Follows spans) (i : Nat) :
    (spans.countP fun sp => decide (sp.s ≤ i ∧ i < sp.s + sp.n)) ≤ 2 ∧
    ((∀ sp, spans.head? = some sp → i ≤ sp.s) → (spans.countP fun sp => decide (sp.s ≤ i ∧ i < sp.s + sp.n)) ≤ 1) ∧
    ((∀ sp, spans.head? = some sp → i < sp.s) → (spans.countP fun sp => decide (sp.s ≤ i ∧ i < sp.s + sp.n)) = 0) := by
  induction spans with
  | nil => simp
  | cons p ps ih =>
    obtain ⟨h1, h2⟩ := adj_cons.1 hadj
    obtain ⟨i1, i2, i3⟩ := ih (fun sp h => hok sp (List.mem_cons_of_mem _ h)) h2
    have hp := hok p (by simp)
    have hn : (p.rule = none ∧ p.n = 1) ∨ (p.rule ≠ none ∧ 2 ≤ p.n) := by
      obtain ⟨-, hp⟩ := hp
      cases hr : p.rule with
      | none => rw [hr] at hp; exact .inl ⟨rfl, hp.1⟩
      | some r => rw [hr] at hp; exact .inr ⟨by simp, hp.1⟩
    rw [List.countP_cons]
    by_cases hc : p.s ≤ i ∧ i < p.s + p.n
    · rw [if_pos (decide_eq_true hc)]
      have hnext : ∀ sp, ps.head? = some sp → i ≤ sp.s ∧ (i = p.s → i < sp.s) := by
        intro sp hsp
        rcases h1 sp hsp with h | ⟨h, h'⟩
        · omega
        · rcases hn with ⟨hn, -⟩ | ⟨-, hn⟩
          · exact absurd hn h
          · omega
      have := i2 (fun sp h => (hnext sp h).1)
      refine ⟨by omega, fun h => ?_, fun h => ?_⟩
      · have hi : i = p.s := by have := h p rfl; omega
        have := i3 (fun sp h => (hnext sp h).2 hi)
        omega
      · have := h p rfl; omega
    · rw [if_neg (by simpa using hc)]
      have hgt : ∀ sp, ps.head? = some sp → p.s < sp.s := by
        intro sp hsp
        rcases h1 sp hsp with h | ⟨h0, h⟩ <;> rcases hn with ⟨hn0, hn⟩ | ⟨-, hn⟩
        · omega
        · omega
        · exact absurd hn0 h0
        · omega
      refine ⟨by omega, fun h => ?_, fun h => ?_⟩
      · have := i2 (fun sp hsp => by have := h p rfl; have := hgt sp hsp; omega); omega
      · have := i3 (fun sp hsp => by have := h p rfl; have := hgt sp hsp; omega); omega

/-- **C72 (at most twice).** No effective leg is in more than two of the transfer groups of its source. -/
theorem C72_at_most_twice {f : Data} {legs : List FareLeg} {out : List Transfer} (h : Priced f legs out)
    (hn : legs.Nodup) (l : FareLeg) : (out.countP fun t => decide (l ∈ t.legs)) ≤ 2 := by
  obtain ⟨spans, rfl, h2, h3, -, -, -⟩ := h
  by_cases hl : l ∈ legs
  · obtain ⟨i, hi, rfl⟩ := List.mem_iff_getElem.1 hl
    rw [List.countP_map]
    refine Nat.le_trans (List.countP_mono_left ?_) (spans_twice spans h2 h3 i).1
    intro sp _ hm
    simp only [Function.comp, decide_eq_true_eq] at hm ⊢
    obtain ⟨j, hj, he⟩ := List.mem_iff_getElem.1 hm
    simp only [List.getElem_take, List.getElem_drop] at he
    have : sp.s + j = i := (List.getElem_inj hn).1 he
    simp at hj; omega
  · rw [List.countP_eq_zero.2]
    · omega
    · intro t ht
      obtain ⟨sp, -, rfl⟩ := List.mem_map.1 ht
      simp only [decide_eq_true_eq]
      exact fun hm => hl (List.mem_of_mem_drop (List.mem_of_mem_take hm))

/-- **C72 (answer).** If no transfer rule has the count 0, `get_fares` ends. -/
theorem C72_ends_partial (tt : TT) (tz : Leg → Nat → Int → Int) (legs : List Leg)
    (h0 : ∀ src, ∀ r ∈ (tt.fares src).transferRules, r.count ≠ 0) (fuel : Nat)
    (hf : (effective tt tz legs).length ≤ fuel) : (getFares tt tz fuel legs).isSome := by
  unfold getFares joinTransfers
  rw [Option.isSome_map]
  show (List.mapM (transferRange tt fuel) (equalRanges _ (effective tt tz legs))).isSome = true
  have hb := (bySource (effective tt tz legs)).all
  have hlen : ∀ g ∈ equalRanges (fun a b : FareLeg => decide (a.src = b.src)) (effective tt tz legs), g.length ≤ fuel := by
    intro g hg
    have := (List.sublist_flatten_of_mem hg).length_le
    rw [hb] at this; omega
  clear hb hf
  generalize equalRanges (fun a b : FareLeg => decide (a.src = b.src)) (effective tt tz legs) = gs at *
  induction gs with
  | nil => rfl
  | cons g gs ih =>
    rw [List.mapM_cons]
    have h1 : (transferRange tt fuel g).isSome := by
      have hg := hlen g (by simp)
      cases g with
      | nil => rfl
      | cons x xs =>
        cases xs with
        | nil => rfl
        | cons y ys => exact transferLoop_ends _ (h0 x.src) fuel x (y :: ys) false (by simp at hg ⊢; omega)
    have h2 := ih (fun g' hg' => hlen g' (List.mem_cons_of_mem _ hg'))
    obtain ⟨o, ho⟩ := Option.isSome_iff_exists.1 h1
    obtain ⟨os, hos⟩ := Option.isSome_iff_exists.1 h2
    rw [ho, hos]; rfl

/-- **C73 (of a journey).** The rules of an effective leg that starts with leg `a` and ends with leg `z`,
both of the timetable: those of the feed of `a` that apply from the first stop of `a` at its departure to the
last stop of `z` at its arrival, in the network of `a` and `z` if they are of the same one, over all the
stops of the joined legs. -/
theorem C73_journey (tt : TT) (tz : Leg → Nat → Int → Int) (hp : Bool) (g : List Leg) (a z : Leg)
    (hl : Loaded (tt.fares a.src) hp) (ha : g.head? = some a) (hz : g.getLast? = some z)
    (hsa : a.scheduled = true) (hsz : z.scheduled = true) (k : LegKey)
    (hn : a.network = z.network → k.network = a.network) (hn' : a.network ≠ z.network → k.network = none)
    (hfs : k.fromStop = a.boards) (hts : k.toStop = z.alights)
    (hft : k.fromTf = matchTimeframe (tt.fares a.src) (tz a a.boards) a.dep)
    (htt : k.toTf = matchTimeframe (tt.fares a.src) (tz z z.alights) z.arr)
    (hst : k.stops = (g.map (·.stops)).flatten) (r : Rule) :
    (fareLeg tt tz g).src = a.src ∧ (r ∈ (fareLeg tt tz g).rules ↔ r ∈ (tt.fares a.src).rules ∧
      Applies tt hp (tt.fares a.src) k r ∧
      ∀ q ∈ (tt.fares a.src).rules, Applies tt hp (tt.fares a.src) k q → q.prio ≤ r.prio) := by
  have hk : legKey (tt.fares a.src) tz a z g = k := by
    unfold legKey
    rw [fromStop_eq, toStop_eq]
    obtain ⟨k1, k2, k3, k4, k5, k6⟩ := k
    simp only at hn hn' hfs hts hft htt hst
    subst hfs; subst hts; subst hft; subst htt; subst hst
    by_cases h : a.network = z.network
    · rw [if_pos h, hn h]; rfl
    · rw [if_neg h, hn' h]; rfl
  have hf : fareLeg tt tz g = ⟨a.src, g, matchRules tt (tt.fares a.src) k⟩ := by
    unfold fareLeg
    rw [ha, hz]
    simp only [hsa, hsz, hk]
    rfl
  rw [hf]
  exact ⟨rfl, C73_rules tt (tt.fares a.src) hp hl k r⟩

/-- A leg that is not of the timetable (added in real time) has no leg rules. -/
theorem C73_added (tt : TT) (tz : Leg → Nat → Int → Int) (g : List Leg) (a z : Leg)
    (ha : g.head? = some a) (hz : g.getLast? = some z) (h : a.scheduled = false ∨ z.scheduled = false) :
    (fareLeg tt tz g).rules = [] := by
  unfold fareLeg
  rw [ha, hz]
  rcases h with h | h <;> simp [h]

/-! ## Examples -/

/-- Legs 1 → 2, 2 → 3, 3 → 4 in networks `1`, `1`, `2`. -/
def legA : Leg := ⟨1, true, 0, some 1, [1, 2], 0, 10⟩
def legB : Leg := ⟨2, true, 0, some 1, [2, 3], 20, 30⟩
def legC : Leg := ⟨3, true, 0, some 2, [3, 4], 40, 50⟩

def ruleN1 : Rule := ⟨0, some 1, none, none, none, none, some 1, none, none, 0⟩
def ruleN2 : Rule := ⟨0, some 2, none, none, none, none, some 2, none, none, 0⟩

/-- A feed: a leg rule per network, one transfer rule within group 1. -/
def feed3 (count : Int) : Data :=
  ⟨[], [ruleN1, ruleN2], [⟨some 1, some 1, count, none, .depArr⟩], [], [1, 2], [], []⟩

def tt3 (count : Int) : TT := ⟨fun _ => none, fun _ => [], fun _ => feed3 count⟩

/-- A feed that joins legs within network 1. -/
def tt4 : TT := ⟨fun _ => none, fun _ => [], fun _ => { feed3 1 with joinRules := [⟨1, 1, none, none⟩] }⟩

theorem C72_hypotheses : Distinct [legA, legB, legC] ∧
    joinLegs tt4 [legA, legB, legC] = [[legA, legB], [legC]] ∧
    (getFares (tt3 1) (fun _ _ _ => 0) 5 [legA, legB]).map (·.map fun t => t.legs.map (·.joined)) = some [[[legA], [legB]]] ∧
    (getFares (tt3 1) (fun _ _ _ => 0) 5 [legC, legA, legB]).map (·.map fun t => t.legs.map (·.joined)) =
      some [[[legC]], [[legA], [legB]]] := by
  refine ⟨by unfold Distinct; decide, by decide +kernel, by decide +kernel, by decide +kernel⟩

/-- A leg that is priced with its predecessor is priced again alone, if no rule leads on to the next. -/
theorem C72_twice : (getFares (tt3 1) (fun _ _ _ => 0) 5 [legA, legB, legC]).map (·.map fun t => t.legs.map (·.joined)) =
    some [[[legA], [legB]], [[legB]], [[legC]]] := by
  decide +kernel

/-- `transfer_count` 256 passes the check of the loader and is stored as 0: the call never ends. -/
theorem C72_endless : loadCount 256 = some 0 ∧ ∀ fuel, getFares (tt3 0) (fun _ _ _ => 0) fuel [legA, legB] = none := by
  refine ⟨by decide, fun fuel => ?_⟩
  have he : (joinLegs (tt3 0) [legA, legB]).map (fareLeg (tt3 0) (fun _ _ _ => 0)) =
      [⟨0, [legA], [ruleN1]⟩, ⟨0, [legB], [ruleN1]⟩] := by decide +kernel
  have hr : equalRanges (fun a b : FareLeg => decide (a.src = b.src)) [⟨0, [legA], [ruleN1]⟩, ⟨0, [legB], [ruleN1]⟩] =
      [[⟨0, [legA], [ruleN1]⟩, ⟨0, [legB], [ruleN1]⟩]] := by decide +kernel
  unfold getFares joinTransfers
  rw [he, hr, List.mapM_cons]
  have : transferRange (tt3 0) fuel [⟨0, [legA], [ruleN1]⟩, ⟨0, [legB], [ruleN1]⟩] = none :=
    transferLoop_stuck _ _ _ _ ⟨some 1, some 1, 0, none, .depArr⟩ (by decide +kernel) rfl fuel false
  rw [this]; rfl

/-- The count of the other values below 128 is kept. -/
theorem C72_count (v : Int) (h : -128 ≤ v) (h' : v < 128) (h0 : v ≠ 0) : loadCount v = some v := by
  unfold loadCount
  rw [if_neg h0]
  congr 1; omega

end Nigiri.Fares
