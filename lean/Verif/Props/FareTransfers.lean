import Verif.Props.Fares
/-!
# C72: transfers
-/

namespace Nigiri.Fares

open Nigiri.Raptor (Adj adj_cons adj_append adj_iff)

theorem fits_iff {x v : Option Nat} {named : List (Option Nat)} :
    groupOk x v (named.filterMap id) = true ↔ GroupFits x v named := by
  unfold GroupFits groupOk notNamed
  cases v with
  | none => simp only [Bool.and_true, Bool.or_eq_true, decide_eq_true_eq]; constructor
            · rintro (h | h) <;> exact .inl h
            · rintro (h | h)
              · exact .inl h
              · exact .inl h.1
  | some y =>
    simp only [Bool.or_eq_true, Bool.and_eq_true, decide_eq_true_eq, Bool.not_eq_true', ← Bool.not_eq_true, List.contains_iff_mem, List.mem_filterMap, id]
    constructor
    · rintro (⟨h1, h2⟩ | h)
      · refine .inr ⟨h1, fun h => h2 ⟨_, h, rfl⟩⟩
      · exact .inl h
    · rintro (h | ⟨h1, h2⟩)
      · exact .inr h
      · refine .inl ⟨h1, ?_⟩
        rintro ⟨z, h, rfl⟩
        exact h2 h

theorem tMatches_iff (f : Data) (r : TransferRule) (frm a b : FareLeg) (hf : frm.joined ≠ []) (hb : b.joined ≠ []) :
    tMatches f r frm a b = true ↔ Transfers f r frm a b := by
  unfold tMatches Transfers
  cases ha : a.rules.head? with
  | none => simp
  | some ra =>
    cases hb' : b.rules.head? with
    | none => simp
    | some rb =>
      have e1 : ∀ (g : TransferRule → Option Nat), f.transferRules.filterMap g = (f.transferRules.map g).filterMap id := by
        intro g; rw [List.filterMap_map]; rfl
      simp only [e1, Bool.and_eq_true]
      rw [fits_iff, fits_iff]
      have hlim : limitOk r frm b = true ↔
        ∀ lim, r.limit = some lim → ∀ s e, limitFrom r frm = some s → limitTo r b = some e → e - s ≤ lim := by
        obtain ⟨f0, fs, hfe⟩ := List.exists_cons_of_ne_nil hf
        obtain ⟨b0, bs, hbe⟩ := List.exists_cons_of_ne_nil hb
        obtain ⟨fl, hfl⟩ : ∃ z, frm.joined.getLast? = some z := by rw [hfe]; exact ⟨_, List.getLast?_eq_some_getLast (by simp)⟩
        obtain ⟨bl, hbl⟩ : ∃ z, b.joined.getLast? = some z := by rw [hbe]; exact ⟨_, List.getLast?_eq_some_getLast (by simp)⟩
        have hf0 : frm.joined.head? = some f0 := by rw [hfe]; rfl
        have hb0 : b.joined.head? = some b0 := by rw [hbe]; rfl
        cases hl : r.limit with
        | none => simp [limitOk, hl]
        | some l =>
          unfold limitFrom limitTo limitOk startTime endTime
          cases hT : r.limitType <;> simp [hl, hT, hf0, hb0, hfl, hbl]
      constructor
      · rintro ⟨⟨h1, h2⟩, h3⟩
        exact ⟨⟨ra, rb, rfl, rfl, h2, h3⟩, hlim.1 h1⟩
      · rintro ⟨⟨ra', rb', h1, h2, h3, h4⟩, h5⟩
        cases h1; cases h2
        exact ⟨⟨hlim.2 h5, h3⟩, h4⟩

/-- What the inner loop appends. -/
theorem extend_ok (f : Data) (r : TransferRule) (frm : FareLeg) (rem : Int) (it : FareLeg) (rest : List FareLeg) :
    (extend f r frm rem it rest) = rest.take (extend f r frm rem it rest).length ∧
    (extend f r frm rem it rest).length ≤ rest.length ∧
    (∀ (i : Nat), i < (extend f r frm rem it rest).length → ∀ x y, (it :: rest)[i]? = some x → (it :: rest)[i + 1]? = some y →
      tMatches f r frm x y = true) ∧
    (0 ≤ rem → ((extend f r frm rem it rest).length : Int) ≤ rem) ∧
    ((extend f r frm rem it rest).length = rest.length ∨ ((extend f r frm rem it rest).length : Int) = rem ∨
      ∀ x y, (it :: rest)[(extend f r frm rem it rest).length]? = some x →
        (it :: rest)[(extend f r frm rem it rest).length + 1]? = some y → tMatches f r frm x y = false) := by
  induction rest generalizing rem it with
  | nil => simp [extend]
  | cons x xs ih =>
    unfold extend
    by_cases hc : rem ≠ 0 ∧ tMatches f r frm it x = true
    · rw [if_pos hc]
      obtain ⟨h1, h2, h3, h4, h5⟩ := ih (rem - 1) x
      generalize extend f r frm (rem - 1) x xs = e at *
      refine ⟨?_, ?_, ?_, ?_, ?_⟩
      · simp only [List.length_cons, List.take_succ_cons]; rw [← h1]
      · simp only [List.length_cons]; omega
      · intro i hi a b ha hb
        cases i with
        | zero => simp at ha hb; subst ha; subst hb; exact hc.2
        | succ i => exact h3 i (by simp at hi; omega) a b ha hb
      · intro h; simp only [List.length_cons]; have := h4 (by omega); omega
      · simp only [List.length_cons]
        rcases h5 with h5 | h5 | h5
        · exact .inl (by omega)
        · exact .inr (.inl (by omega))
        · exact .inr (.inr h5)
    · rw [if_neg hc]
      refine ⟨rfl, by simp, by simp, fun h => by simpa using h, ?_⟩
      by_cases h0 : rem = 0
      · exact .inr (.inl (by simp [h0]))
      · refine .inr (.inr ?_)
        intro a b ha hb
        simp at ha hb
        subst ha; subst hb
        simpa [h0] using hc

/-- A matching rule that admits no transfer keeps the loop where it is. -/
theorem transferLoop_stuck (f : Data) (it x : FareLeg) (xs : List FareLeg) (r : TransferRule)
    (hr : f.transferRules.find? (fun r => tMatches f r it it x) = some r) (h0 : r.count = 0) (fuel : Nat) (lm : Bool) :
    transferLoop f fuel it (x :: xs) lm = none := by
  induction fuel generalizing lm with
  | zero => rfl
  | succ n ih =>
    unfold transferLoop
    rw [hr]
    have he : extend f r it r.count it (x :: xs) = [] := by unfold extend; rw [if_neg (by simp [h0])]
    simp [he, ih]

/-- The spans of the loop, from leg `s` on. -/
theorem transferLoop_spans (f : Data) (legs : List FareLeg) (hne : ∀ l ∈ legs, l.joined ≠ []) (fuel : Nat) :
    ∀ (it : FareLeg) (rest : List FareLeg) (lm : Bool) (s : Nat) (out : List Transfer),
      legs[s]? = some it → rest = legs.drop (s + 1) → transferLoop f fuel it rest lm = some out →
      ∃ spans : List Span, out = spans.map (fun sp => ⟨sp.rule, (legs.drop sp.s).take sp.n⟩) ∧
        (∀ sp ∈ spans, SpanOk f legs sp) ∧ Adj Follows spans ∧ (∀ sp, spans.head? = some sp → sp.s = s) ∧
        (spans = [] → rest = [] ∧ lm = true) ∧ (∀ sp, spans.getLast? = some sp → sp.s + sp.n = legs.length) := by
  induction fuel with
  | zero =>
    intro it rest lm s out hs hr ho
    cases rest with
    | cons x xs => simp [transferLoop] at ho
    | nil =>
      have hlen : legs.length = s + 1 := by
        have h1 := (List.getElem?_eq_some_iff.1 hs).1
        have h2 : legs.length ≤ s + 1 := List.drop_eq_nil_iff.1 hr.symm
        omega
      simp only [transferLoop, Option.some.injEq] at ho
      cases lm with
      | true => simp at ho; subst ho; exact ⟨[], rfl, by simp, trivial, by simp, by simp, by simp⟩
      | false =>
        simp at ho; subst ho
        refine ⟨[⟨s, 1, none⟩], ?_, ?_, trivial, by simp, by simp, by simp; omega⟩
        · simp [List.take_one, hs]
        · intro sp hsp
          simp at hsp; subst hsp
          refine ⟨by simp; omega, ?_⟩
          refine ⟨rfl, fun a b _ hb => ?_⟩
          have := (List.getElem?_eq_some_iff.1 hb).1
          simp at this; omega
  | succ n ih =>
    intro it rest lm s out hs hr ho
    have hslt := (List.getElem?_eq_some_iff.1 hs).1
    cases rest with
    | nil =>
      have hlen : legs.length = s + 1 := by
        have h2 : legs.length ≤ s + 1 := List.drop_eq_nil_iff.1 hr.symm
        omega
      simp only [transferLoop, Option.some.injEq] at ho
      cases lm with
      | true => simp at ho; subst ho; exact ⟨[], rfl, by simp, trivial, by simp, by simp, by simp⟩
      | false =>
        simp at ho; subst ho
        refine ⟨[⟨s, 1, none⟩], ?_, ?_, trivial, by simp, by simp, by simp; omega⟩
        · simp [List.take_one, hs]
        · intro sp hsp
          simp at hsp; subst hsp
          refine ⟨by simp; omega, ?_⟩
          refine ⟨rfl, fun a b _ hb => ?_⟩
          have := (List.getElem?_eq_some_iff.1 hb).1
          simp at this; omega
    | cons x xs =>
      have hx : legs[s + 1]? = some x := by
        have : (legs.drop (s + 1))[0]? = some x := by rw [← hr]; rfl
        simpa using this
      have hdrop : legs.drop s = it :: x :: xs := by
        rw [hr]
        obtain ⟨h, rfl⟩ := List.getElem?_eq_some_iff.1 hs
        exact List.drop_eq_getElem_cons h
      have hxs : xs = legs.drop (s + 2) := by
        have := congrArg (List.drop 1) hr
        simpa [List.drop_drop, Nat.add_assoc] using this
      have hitne := hne it (List.mem_of_getElem? hs)
      have hidx : ∀ (i : Nat), (it :: x :: xs)[i]? = legs[s + i]? := by
        intro i; rw [← hdrop]; simp
      unfold transferLoop at ho
      cases hfind : f.transferRules.find? (fun r => tMatches f r it it x) with
      | none =>
        simp only [hfind, Option.map_eq_some_iff] at ho
        obtain ⟨o, ho, rfl⟩ := ho
        obtain ⟨spans, h1, h2, h3, h4, h5, h6⟩ := ih x xs false (s + 1) o hx hxs ho
        have hsne : spans ≠ [] := fun h => by cases (h5 h).2
        refine ⟨⟨s, 1, none⟩ :: spans, ?_, ?_, ?_, by simp, by simp, ?_⟩
        · simp [h1, List.take_one, hs]
        · intro sp hsp
          rcases List.mem_cons.1 hsp with rfl | hsp
          · refine ⟨by simp; omega, rfl, ?_⟩
            intro a b ha hb r hrm hT
            simp only [hs, hx] at ha hb
            cases ha; cases hb
            have := List.find?_eq_none.1 hfind r hrm
            exact this ((tMatches_iff f r _ _ _ hitne (hne _ (List.mem_of_getElem? hx))).2 hT)
          · exact h2 sp hsp
        · refine adj_cons.2 ⟨fun sp hsp => .inl ?_, h3⟩
          rw [h4 sp hsp]
        · intro sp hsp
          obtain ⟨z, zs, rfl⟩ := List.exists_cons_of_ne_nil hsne
          exact h6 sp (by simpa using hsp)
      | some r =>
        have hcount : r.count ≠ 0 := by
          intro h0
          have := transferLoop_stuck f it x xs r hfind h0 (n + 1) lm
          unfold transferLoop at this
          rw [this] at ho
          cases ho
        simp only [hfind, Option.map_eq_some_iff] at ho
        obtain ⟨o, ho, rfl⟩ := ho
        obtain ⟨e1, e2, e3, e4, e5⟩ := extend_ok f r it r.count it (x :: xs)
        have hm := List.find?_some hfind
        have hpos : 1 ≤ (extend f r it r.count it (x :: xs)).length := by
          unfold extend
          rw [if_pos ⟨hcount, hm⟩]
          simp
        generalize hE : extend f r it r.count it (x :: xs) = E at *
        have hlen : s + E.length < legs.length := by
          have := congrArg List.length hdrop
          simp at this e2; omega
        have hlast : legs[s + E.length]? = some (E.getLastD it) := by
          rw [← hidx]
          obtain ⟨m, hm⟩ : ∃ m, E.length = m + 1 := ⟨E.length - 1, by omega⟩
          rw [hm, List.getElem?_cons_succ]
          have h1 : (E)[m]? = (x :: xs)[m]? := by
            rw [e1, List.getElem?_take_of_lt (by omega)]
          rw [← h1, List.getLastD_eq_getLast?, List.getLast?_eq_getElem?, hm]
          simp
          have : m < E.length := by omega
          rw [List.getElem?_eq_getElem this]; rfl
        obtain ⟨spans, h1, h2, h3, h4, h5, h6⟩ := ih (E.getLastD it) ((x :: xs).drop E.length) true (s + E.length) o hlast
          (by rw [hr, List.drop_drop]; congr 1; omega) ho
        refine ⟨⟨s, E.length + 1, some r⟩ :: spans, ?_, ?_, ?_, by simp, by simp, ?_⟩
        · simp only [List.map_cons, h1]
          congr 2
          rw [hdrop, List.take_succ_cons, ← e1]
        · intro sp hsp
          rcases List.mem_cons.1 hsp with rfl | hsp
          · refine ⟨by simp; omega, by simp; omega, it, x, hs, hx, ?_, ?_, ?_, ?_⟩
            · obtain ⟨-, pre, post, hp, hq⟩ := List.find?_eq_some_iff_append.1 hfind
              refine ⟨pre, post, hp, (tMatches_iff f r _ _ _ hitne (hne _ (List.mem_of_getElem? hx))).1 hm, fun q hq' hT => ?_⟩
              have := hq q hq'
              rw [(tMatches_iff f q _ _ _ hitne (hne _ (List.mem_of_getElem? hx))).2 hT] at this
              cases this
            · intro i hi a b ha hb
              refine (tMatches_iff f r _ _ _ hitne (hne _ (List.mem_of_getElem? hb))).1 ?_
              refine e3 i (by simp at hi; omega) a b ?_ ?_
              · rw [hidx]; exact ha
              · rw [hidx]; exact hb
            · intro h; have := e4 h; simp; omega
            · rcases e5 with e5 | e5 | e5
              · left
                have := congrArg List.length hdrop
                simp at this e5 ⊢; omega
              · right; left; simp; omega
              · right; right
                intro a b ha hb hT
                have ha' : legs[s + E.length]? = some a := ha
                have hb' : legs[s + (E.length + 1)]? = some b := hb
                have := e5 a b (by rw [hidx]; exact ha') (by rw [hidx]; exact hb')
                rw [(tMatches_iff f r _ _ _ hitne (hne _ (List.mem_of_getElem? hb'))).2 hT] at this
                cases this
          · exact h2 sp hsp
        · refine adj_cons.2 ⟨fun sp hsp => .inr ⟨by simp, ?_⟩, h3⟩
          rw [h4 sp hsp]; simp; omega
        · intro sp hsp
          cases spans with
          | nil =>
            simp at hsp; subst hsp
            have h7 := (h5 rfl).1
            have h8 := congrArg List.length hdrop
            have h9 := List.drop_eq_nil_iff.1 h7
            simp at h8 h9 e2 ⊢; omega
          | cons z zs => exact h6 sp (by simpa using hsp)

theorem transferRange_priced (tt : TT) (fuel : Nat) (x : FareLeg) (xs : List FareLeg)
    (hne : ∀ l ∈ x :: xs, l.joined ≠ []) (out : List Transfer) (ho : transferRange tt fuel (x :: xs) = some out) :
    Priced (tt.fares x.src) (x :: xs) out := by
  cases xs with
  | nil =>
    simp [transferRange] at ho; subst ho
    refine ⟨[⟨0, 1, none⟩], by simp, ?_, trivial, by simp, by simp, by simp⟩
    intro sp hsp
    simp at hsp; subst hsp
    exact ⟨by simp, rfl, by simp⟩
  | cons y ys =>
    simp only [transferRange] at ho
    obtain ⟨spans, h1, h2, h3, h4, h5, h6⟩ := transferLoop_spans (tt.fares x.src) (x :: y :: ys) hne fuel x (y :: ys) false 0 out rfl rfl ho
    refine ⟨spans, h1, h2, h3, h4, h6, fun _ h => ?_⟩
    cases (h5 h).2

/-- Enough fuel if no rule has the transfer count 0. -/
theorem transferLoop_ends (f : Data) (h0 : ∀ r ∈ f.transferRules, r.count ≠ 0) (fuel : Nat) :
    ∀ (it : FareLeg) (rest : List FareLeg) (lm : Bool), rest.length ≤ fuel → (transferLoop f fuel it rest lm).isSome := by
  induction fuel with
  | zero =>
    intro it rest lm h
    have : rest = [] := by simpa using h
    subst this; rfl
  | succ n ih =>
    intro it rest lm h
    cases rest with
    | nil => rfl
    | cons x xs =>
      unfold transferLoop
      simp at h
      cases hfind : f.transferRules.find? (fun r => tMatches f r it it x) with
      | none => simp only [Option.isSome_map]; exact ih x xs false h
      | some r =>
        simp only [Option.isSome_map]
        refine ih _ _ _ ?_
        unfold extend
        have hm := List.find?_some hfind
        rw [if_pos ⟨h0 r (List.mem_of_find?_eq_some hfind), hm⟩]
        simp; omega

end Nigiri.Fares
