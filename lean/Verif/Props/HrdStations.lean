import Verif.Spec.HrdStations
/-!
# C146: HRD stations, equivalences and footpaths
-/

namespace Nigiri.HrdStations

/-- A station as it is before the file of equivalences and footpaths. -/
def Fresh (m : Map) : Prop := ∀ e s, m e = some s → s.equivalent = [] ∧ s.foot = fun _ => none

theorem names_fold (lines : List (Nat × String)) : ∀ m : Map, Fresh m →
    Fresh (parseNames m lines) ∧
    (∀ e, (parseNames m lines e).isSome = true ↔ (m e).isSome = true ∨ ∃ l ∈ lines, l.1 = e) ∧
    (∀ e, (∃ l ∈ lines, l.1 = e) → ∀ s, parseNames m lines e = some s → s.id = e) ∧
    (∀ e, (¬ ∃ l ∈ lines, l.1 = e) → parseNames m lines e = m e) := by
  induction lines with
  | nil => intro m h; exact ⟨h, fun e => by simp [parseNames], fun e he => by simp at he, fun e _ => rfl⟩
  | cons l lines ih =>
    intro m h
    unfold parseNames
    rw [List.foldl_cons]
    have hf : Fresh (put m l.1 fun s => { s with name := l.2, id := l.1 }) := by
      intro e s hs
      unfold put at hs
      split at hs
      · cases hs
        cases hm : m l.1 with
        | none => exact ⟨rfl, rfl⟩
        | some s0 =>
          have h9 := h _ s0 hm
          exact ⟨h9.1, h9.2⟩
      · exact h _ _ hs
    obtain ⟨a1, a2, a3, a4⟩ := ih _ hf
    unfold parseNames at a1 a2 a3 a4
    refine ⟨a1, ?_, ?_, ?_⟩
    · intro e
      rw [a2]
      unfold put
      by_cases he : e = l.1
      · rw [if_pos he]; simp [he]
      · rw [if_neg he]
        have : l.1 ≠ e := fun hc => he hc.symm
        simp [this]
    · rintro e ⟨q, hq, he⟩ s hs
      by_cases hx : ∃ l ∈ lines, l.1 = e
      · exact a3 e hx s hs
      · rw [a4 e hx] at hs
        have : q = l := by
          rcases List.mem_cons.1 hq with h | h
          · exact h
          · exact absurd ⟨q, h, he⟩ hx
        subst this
        unfold put at hs
        rw [if_pos he.symm] at hs
        cases hs
        exact he
    · intro e he
      have h1 : ¬ ∃ l ∈ lines, l.1 = e := fun ⟨q, hq, h⟩ => he ⟨q, List.mem_cons_of_mem _ hq, h⟩
      have h2 : e ≠ l.1 := fun hc => he ⟨l, List.mem_cons_self .., hc.symm⟩
      rw [a4 e h1]
      unfold put
      rw [if_neg h2]

theorem coords_fold (lines : List (Nat × Int × Int)) : ∀ m : Map, Fresh m →
    Fresh (parseCoords m lines) ∧
    (∀ e, (parseCoords m lines e).isSome = true ↔ (m e).isSome = true ∨ ∃ l ∈ lines, l.1 = e) ∧
    (∀ e s0, m e = some s0 → ∀ s, parseCoords m lines e = some s → s.id = s0.id ∧ s.name = s0.name) := by
  induction lines with
  | nil =>
    intro m h
    refine ⟨h, fun e => by simp [parseCoords], fun e s0 h0 s hs => ?_⟩
    have hs : m e = some s := hs
    rw [h0] at hs; cases hs; exact ⟨rfl, rfl⟩
  | cons l lines ih =>
    intro m h
    unfold parseCoords
    rw [List.foldl_cons]
    have hf : Fresh (put m l.1 fun s => { s with pos := some l.2 }) := by
      intro e s hs
      unfold put at hs
      split at hs
      · cases hs
        cases hm : m l.1 with
        | none => exact ⟨rfl, rfl⟩
        | some s0 =>
          have h9 := h _ s0 hm
          exact ⟨h9.1, h9.2⟩
      · exact h _ _ hs
    obtain ⟨a1, a2, a3⟩ := ih _ hf
    unfold parseCoords at a1 a2 a3
    refine ⟨a1, ?_, ?_⟩
    · intro e
      rw [a2]
      unfold put
      by_cases he : e = l.1
      · rw [if_pos he]; simp [he]
      · rw [if_neg he]
        have : l.1 ≠ e := fun hc => he hc.symm
        simp [this]
    · intro e s0 h0 s hs
      by_cases he : e = l.1
      · subst he
        have hp : put m l.1 (fun s => { s with pos := some l.2 }) l.1 = some { s0 with pos := some l.2 } := by
          unfold put; rw [if_pos rfl, h0]; rfl
        exact a3 _ _ hp s hs
      · have hp : put m l.1 (fun s => { s with pos := some l.2 }) e = some s0 := by
          unfold put; rw [if_neg he, h0]
        exact a3 _ _ hp s hs

theorem mem_plain (tokens : List (Option Nat)) (x : Nat) : x ∈ plain tokens ↔ x ≠ 0 ∧ some x ∈ tokens := by
  unfold plain
  rw [List.mem_filterMap]
  constructor
  · rintro ⟨t, ht, h⟩
    obtain ⟨h1, h2⟩ := Option.filter_eq_some_iff.1 h
    subst h1
    exact ⟨by simpa using h2, ht⟩
  · rintro ⟨h0, ht⟩
    exact ⟨some x, ht, Option.filter_eq_some_iff.2 ⟨rfl, by simpa using h0⟩⟩

theorem equiv_fold (lines : List MetaLine) : ∀ m : Map,
    (∀ e, m e = none → parseEquivalent m lines e = none) ∧
    (∀ e s, m e = some s → ∃ s', parseEquivalent m lines e = some s' ∧ s'.id = s.id ∧ s'.name = s.name ∧ s'.foot = s.foot ∧
      ∀ x, x ∈ s'.equivalent ↔ x ∈ s.equivalent ∨ Declared lines e x) := by
  induction lines with
  | nil =>
    intro m
    refine ⟨fun e h => h, fun e s h => ⟨s, h, rfl, rfl, rfl, fun x => ?_⟩⟩
    simp [Declared]
  | cons l lines ih =>
    intro m
    unfold parseEquivalent
    rw [List.foldl_cons]
    cases l with
    | foot f t d b =>
      obtain ⟨a1, a2⟩ := ih m
      unfold parseEquivalent at a1 a2
      refine ⟨a1, fun e s h => ?_⟩
      obtain ⟨s', b1, b2, b3, b4, b5⟩ := a2 e s h
      refine ⟨s', b1, b2, b3, b4, fun x => ?_⟩
      rw [b5]
      unfold Declared
      simp
    | equiv eva tokens =>
      obtain ⟨a1, a2⟩ := ih (modify m eva fun s => { s with equivalent := s.equivalent ++ plain tokens })
      unfold parseEquivalent at a1 a2
      refine ⟨fun e h => a1 e ?_, fun e s h => ?_⟩
      · unfold modify
        split
        · rename_i he; subst he; rw [h]; rfl
        · exact h
      · by_cases he : e = eva
        · subst he
          have hm : modify m e (fun s => { s with equivalent := s.equivalent ++ plain tokens }) e =
              some { s with equivalent := s.equivalent ++ plain tokens } := by
            unfold modify; rw [if_pos rfl, h]; rfl
          obtain ⟨s', b1, b2, b3, b4, b5⟩ := a2 e _ hm
          refine ⟨s', b1, b2, b3, b4, fun x => ?_⟩
          rw [b5]
          unfold Declared
          simp only [List.mem_append, mem_plain, List.mem_cons, MetaLine.equiv.injEq, true_and]
          constructor
          · rintro ((h1 | h1) | ⟨h1, t, h2, h3⟩)
            · exact Or.inl h1
            · exact Or.inr ⟨h1.1, tokens, Or.inl rfl, h1.2⟩
            · exact Or.inr ⟨h1, t, Or.inr h2, h3⟩
          · rintro (h1 | ⟨h1, t, rfl | h2, h3⟩)
            · exact Or.inl (Or.inl h1)
            · exact Or.inl (Or.inr ⟨h1, h3⟩)
            · exact Or.inr ⟨h1, t, h2, h3⟩
        · have hm : modify m eva (fun s => { s with equivalent := s.equivalent ++ plain tokens }) e = some s := by
            unfold modify; rw [if_neg he, h]
          obtain ⟨s', b1, b2, b3, b4, b5⟩ := a2 e _ hm
          refine ⟨s', b1, b2, b3, b4, fun x => ?_⟩
          rw [b5]
          unfold Declared
          simp [he]

/-- Every station of the map has its own number. -/
def Ids (m : Map) : Prop := ∀ e s, m e = some s → s.id = e

/-- The durations of the footpath lines from `e` to `x`, if `x` is known. -/
def durs (known : Nat → Bool) (lines : List MetaLine) (e x : Nat) : List Nat :=
  lines.filterMap fun l => match l with
    | .foot f t d _ => if f = e ∧ t = x ∧ known x = true then some d else none
    | .equiv .. => none

def minAll (o : Option Nat) (l : List Nat) : Option Nat :=
  l.foldl (fun o d => some (match o with | some y => min y d | none => d)) o

theorem mem_durs (known : Nat → Bool) (lines : List MetaLine) (e x d : Nat) :
    d ∈ durs known lines e x ↔ known x = true ∧ ∃ f, FootLine lines e x d f := by
  unfold durs FootLine
  rw [List.mem_filterMap]
  constructor
  · rintro ⟨l, hl, h⟩
    cases l with
    | equiv => cases h
    | foot f t d' b =>
      simp only at h
      split at h
      · rename_i hc
        obtain ⟨rfl, rfl, hk⟩ := hc
        cases h
        exact ⟨hk, b, hl⟩
      · cases h
  · rintro ⟨hk, b, hl⟩
    refine ⟨_, hl, ?_⟩
    simp [hk]

theorem minAll_some (l : List Nat) (y : Nat) : minAll (some y) l = some (l.foldl min y) := by
  induction l generalizing y with
  | nil => rfl
  | cons a l ih => exact ih (min y a)

theorem foldl_min_spec (l : List Nat) (a : Nat) : l.foldl min a ≤ a ∧ (∀ x ∈ l, l.foldl min a ≤ x) ∧
    (l.foldl min a = a ∨ l.foldl min a ∈ l) := by
  induction l generalizing a with
  | nil => exact ⟨Nat.le_refl _, by simp, Or.inl rfl⟩
  | cons x l ih =>
    obtain ⟨h1, h2, h3⟩ := ih (min a x)
    rw [List.foldl_cons]
    refine ⟨by omega, ?_, ?_⟩
    · intro y hy
      rcases List.mem_cons.1 hy with rfl | hy
      · omega
      · exact h2 y hy
    · rcases h3 with h3 | h3
      · rcases Nat.le_total a x with h | h
        · left; rw [h3]; omega
        · right; rw [h3, Nat.min_eq_right h]; exact List.mem_cons_self ..
      · exact Or.inr (List.mem_cons_of_mem _ h3)

theorem minAll_none (l : List Nat) (d : Nat) : minAll none l = some d ↔ d ∈ l ∧ ∀ x ∈ l, d ≤ x := by
  cases l with
  | nil => simp [minAll]
  | cons a l =>
    show minAll (some a) l = some d ↔ _
    rw [minAll_some]
    obtain ⟨h1, h2, h3⟩ := foldl_min_spec l a
    constructor
    · intro h
      have h : l.foldl min a = d := Option.some.inj h
      rw [h] at h1 h2 h3
      refine ⟨?_, ?_⟩
      · rcases h3 with h3 | h3
        · rw [h3]; exact List.mem_cons_self ..
        · exact List.mem_cons_of_mem _ h3
      · intro x hx
        rcases List.mem_cons.1 hx with rfl | hx
        · exact h1
        · exact h2 x hx
    · rintro ⟨h4, h5⟩
      congr 1
      have h6 : d ≤ l.foldl min a := by
        rcases h3 with h3 | h3
        · rw [h3]; exact h5 a (List.mem_cons_self ..)
        · exact h5 _ (List.mem_cons_of_mem _ h3)
      have h7 : l.foldl min a ≤ d := by
        rcases List.mem_cons.1 h4 with rfl | h4
        · exact h1
        · exact h2 d h4
      omega

/-- What the footpath lines `lines` make of the station `s` with number `e`. -/
def FootInv (is26 : Bool) (known : Nat → Bool) (lines : List MetaLine) (e : Nat) (s s' : St) : Prop :=
  s'.id = s.id ∧ s'.name = s.name ∧ (∀ x, s'.foot x = minAll (s.foot x) (durs known lines e x)) ∧
  (∀ x, x ∈ s'.equivalent ↔ x ∈ s.equivalent ∧ ¬ (is26 = true ∧ known x = true ∧ ∃ d, FootLine lines e x d true))

theorem footInv_nil (is26 : Bool) (known : Nat → Bool) (e : Nat) (s : St) : FootInv is26 known [] e s s :=
  ⟨rfl, rfl, fun _ => rfl, fun x => by simp [FootLine]⟩

theorem footInv_trans {is26 : Bool} {known : Nat → Bool} {l : MetaLine} {lines : List MetaLine} {e : Nat} {s s1 s2 : St}
    (h1 : FootInv is26 known [l] e s s1) (h2 : FootInv is26 known lines e s1 s2) :
    FootInv is26 known (l :: lines) e s s2 := by
  obtain ⟨a1, a2, a3, a4⟩ := h1
  obtain ⟨b1, b2, b3, b4⟩ := h2
  refine ⟨b1.trans a1, b2.trans a2, fun x => ?_, fun x => ?_⟩
  · rw [b3, a3]
    have : durs known (l :: lines) e x = durs known [l] e x ++ durs known lines e x := by
      unfold durs
      rw [← List.filterMap_append]; rfl
    rw [this]
    unfold minAll
    rw [List.foldl_append]
  · rw [b4, a4]
    unfold FootLine
    simp only [List.mem_cons, List.not_mem_nil, or_false]
    constructor
    · rintro ⟨⟨h, n1⟩, n2⟩
      refine ⟨h, ?_⟩
      rintro ⟨k1, k2, d, h3 | h3⟩
      · exact n1 ⟨k1, k2, d, h3⟩
      · exact n2 ⟨k1, k2, d, h3⟩
    · rintro ⟨h, n⟩
      exact ⟨⟨h, fun ⟨k1, k2, d, h3⟩ => n ⟨k1, k2, d, Or.inl h3⟩⟩, fun ⟨k1, k2, d, h3⟩ => n ⟨k1, k2, d, Or.inr h3⟩⟩

theorem footStep_inv {is26 : Bool} {m m' : Map} {l : MetaLine} (h : footStep is26 m l = some m')
    (ids : ∀ e s, m e = some s → (∃ d f x, l = .foot x e d f ∧ (m x).isSome = true) → s.id = e) :
    (∀ e, m e = none → m' e = none) ∧
    (∀ e s, m e = some s → ∃ s', m' e = some s' ∧ FootInv is26 (fun x => (m x).isSome) [l] e s s') := by
  unfold footStep at h
  cases l with
  | equiv eva tokens =>
    cases h
    refine ⟨fun e h => h, fun e s hs => ⟨s, hs, rfl, rfl, fun x => rfl, fun x => ?_⟩⟩
    simp [FootLine]
  | foot f t d b =>
    simp only at h
    have skip : (m f = none ∨ m t = none) → ∀ e s, m e = some s →
        FootInv is26 (fun x => (m x).isSome) [MetaLine.foot f t d b] e s s := by
      intro hn e s hs
      have hne : ∀ x, ¬ (f = e ∧ t = x ∧ (m x).isSome = true) := by
        rintro x ⟨rfl, rfl, hk⟩
        rcases hn with hn | hn
        · rw [hn] at hs; cases hs
        · rw [hn] at hk; cases hk
      refine ⟨rfl, rfl, fun x => ?_, fun x => ?_⟩
      · have : durs (fun x => (m x).isSome) [MetaLine.foot f t d b] e x = [] := by
          unfold durs
          simp only [List.filterMap_cons, List.filterMap_nil]
          rw [if_neg (hne x)]
        rw [this]; rfl
      · constructor
        · intro hx
          refine ⟨hx, ?_⟩
          rintro ⟨_, hk, d', hl⟩
          unfold FootLine at hl
          simp only [List.mem_cons, List.not_mem_nil, or_false, MetaLine.foot.injEq] at hl
          exact hne x ⟨hl.1.symm, hl.2.1.symm, hk⟩
        · exact fun hx => hx.1
    cases hf : m f with
    | none =>
      rw [hf] at h
      have h : m = m' := Option.some.inj h
      subst h
      exact ⟨fun e h => h, fun e s hs => ⟨s, hs, skip (Or.inl hf) e s hs⟩⟩
    | some sf =>
      cases htt : m t with
      | none =>
        rw [hf, htt] at h
        have h : m = m' := Option.some.inj h
        subst h
        exact ⟨fun e h => h, fun e s hs => ⟨s, hs, skip (Or.inr htt) e s hs⟩⟩
      | some st =>
        rw [hf, htt] at h
        simp only at h
        split at h
        · cases h
        · have h : (modify m f fun s => { s with
              foot := addFoot s.foot st.id d
              equivalent := if is26 && b then s.equivalent.filter (· ≠ st.id) else s.equivalent }) = m' := Option.some.inj h
          subst h
          have hid : st.id = t := ids t st htt ⟨d, b, f, rfl, by rw [hf]; rfl⟩
          rw [hid]
          refine ⟨fun e he => ?_, fun e s hs => ?_⟩
          · unfold modify
            split
            · rename_i hc; subst hc; rw [he]; rfl
            · exact he
          · by_cases he : e = f
            · subst he
              refine ⟨{ s with foot := addFoot s.foot t d, equivalent := if is26 && b then s.equivalent.filter (· ≠ t) else s.equivalent }, by unfold modify; rw [if_pos rfl, hs]; rfl, rfl, rfl, fun x => ?_, fun x => ?_⟩
              · show addFoot s.foot t d x = _
                unfold addFoot durs
                simp only [List.filterMap_cons, List.filterMap_nil]
                by_cases hx : x = t
                · subst hx
                  have hk : (m x).isSome = true := by rw [htt]; rfl
                  simp only [hk, and_self, if_true]
                  rfl
                · rw [if_neg hx, if_neg (fun hc => hx hc.2.1.symm)]
                  rfl
              · show x ∈ (if is26 && b then s.equivalent.filter (· ≠ t) else s.equivalent) ↔ _
                unfold FootLine
                simp only [List.mem_cons, List.not_mem_nil, or_false, MetaLine.foot.injEq, true_and]
                by_cases hb : (is26 && b) = true
                · rw [if_pos hb, List.mem_filter]
                  obtain ⟨h1, h2⟩ := Bool.and_eq_true_iff.1 hb
                  subst h1 h2
                  constructor
                  · rintro ⟨hx, hne⟩
                    refine ⟨hx, ?_⟩
                    rintro ⟨_, _, d', rfl, _⟩
                    simp at hne
                  · rintro ⟨hx, hn⟩
                    refine ⟨hx, ?_⟩
                    refine decide_eq_true fun hxt => hn ⟨rfl, ?_, d, hxt, rfl, rfl⟩
                    rw [hxt, htt]; rfl
                · rw [if_neg hb]
                  constructor
                  · intro hx
                    refine ⟨hx, ?_⟩
                    rintro ⟨h1, _, d', _, _, h2⟩
                    exact hb (by rw [h1, ← h2]; rfl)
                  · exact fun hx => hx.1
            · refine ⟨s, by unfold modify; rw [if_neg he, hs], rfl, rfl, fun x => ?_, fun x => ?_⟩
              · have : durs (fun x => (m x).isSome) [MetaLine.foot f t d b] e x = [] := by
                  unfold durs
                  simp only [List.filterMap_cons, List.filterMap_nil]
                  rw [if_neg (fun hc => he hc.1.symm)]
                rw [this]; rfl
              · unfold FootLine
                simp only [List.mem_cons, List.not_mem_nil, or_false, MetaLine.foot.injEq]
                constructor
                · exact fun hx => ⟨hx, fun ⟨_, _, _, h1, _⟩ => he h1⟩
                · exact fun hx => hx.1

theorem foot_fold (is26 : Bool) (lines : List MetaLine) : ∀ (m m' : Map), parseFootpaths is26 m lines = some m' →
    (∀ e s, m e = some s → (∃ d f x, MetaLine.foot x e d f ∈ lines ∧ (m x).isSome = true) → s.id = e) →
    (∀ e, m e = none → m' e = none) ∧
    (∀ e s, m e = some s → ∃ s', m' e = some s' ∧ FootInv is26 (fun x => (m x).isSome) lines e s s') := by
  induction lines with
  | nil =>
    intro m m' h _
    cases h
    exact ⟨fun e h => h, fun e s hs => ⟨s, hs, footInv_nil _ _ _ _⟩⟩
  | cons l lines ih =>
    intro m m' h ids
    unfold parseFootpaths at h
    rw [List.foldlM_cons] at h
    obtain ⟨m1, h1, h2⟩ := Option.bind_eq_some_iff.1 h
    obtain ⟨a1, a2⟩ := footStep_inv h1 (fun e s hs ⟨d, f, x, hl, hx⟩ => ids e s hs ⟨d, f, x, by rw [hl]; exact List.mem_cons_self .., hx⟩)
    have hk : (fun x => (m1 x).isSome) = fun x => (m x).isSome := by
      funext x
      cases hm : m x with
      | none => rw [a1 x hm]
      | some s => obtain ⟨s', h3, _⟩ := a2 x s hm; rw [h3]; rfl
    obtain ⟨b1, b2⟩ := ih m1 m' h2 (by
      rintro e s hs ⟨d, f, x, hl, hx⟩
      cases hm : m e with
      | none => rw [a1 e hm] at hs; cases hs
      | some s0 =>
        obtain ⟨s', h3, h4⟩ := a2 e s0 hm
        rw [hs] at h3; cases h3
        rw [h4.1]
        refine ids e s0 hm ⟨d, f, x, List.mem_cons_of_mem _ hl, ?_⟩
        rw [congrFun hk x] at hx
        exact hx)
    refine ⟨fun e he => b1 e (a1 e he), fun e s hs => ?_⟩
    obtain ⟨s1, h3, h4⟩ := a2 e s hs
    obtain ⟨s2, h5, h6⟩ := b2 e s1 h3
    rw [hk] at h6
    exact ⟨s2, h5, footInv_trans h4 h6⟩

section
variable {is26 : Bool} {names : List (Nat × String)} {coords : List (Nat × Int × Int)} {metas : List MetaLine} {m : Map}
  (h : readStations is26 names coords metas = some m)
  (hn : ∀ x e d f, FootLine metas x e d f → Known names coords x → Known names coords e → ∃ l ∈ names, l.1 = e)
include h hn

/-- What is known after reading all files. -/
theorem read_spec : (∀ e, (m e).isSome = true ↔ Known names coords e) ∧
    ∀ e s, m e = some s →
      (∀ x d, s.foot x = some d ↔ Known names coords x ∧ Shortest metas e x d) ∧
      (∀ x, x ∈ s.equivalent ↔ Declared metas e x ∧ ¬ (is26 = true ∧ Known names coords x ∧ ∃ d, FootLine metas e x d true)) := by
  unfold readStations at h
  obtain ⟨n1, n2, n3, _⟩ := names_fold names (fun _ => none) (fun e s hs => by cases hs)
  obtain ⟨c1, c2, c3⟩ := coords_fold coords _ n1
  have hknown : ∀ e, (parseCoords (parseNames (fun _ => none) names) coords e).isSome = true ↔ Known names coords e := by
    intro e
    rw [c2, n2]
    unfold Known
    simp
  obtain ⟨q1, q2⟩ := equiv_fold metas (parseCoords (parseNames (fun _ => none) names) coords)
  have hk2 : ∀ e, (parseEquivalent (parseCoords (parseNames (fun _ => none) names) coords) metas e).isSome = true ↔
      Known names coords e := by
    intro e
    rw [← hknown]
    cases hm : parseCoords (parseNames (fun _ => none) names) coords e with
    | none => rw [q1 e hm]
    | some s => obtain ⟨s', h3, _⟩ := q2 e s hm; rw [h3]; simp
  obtain ⟨f1, f2⟩ := foot_fold is26 metas _ m h (by
    rintro e s hs ⟨d, f, x, hl, hx⟩
    have hke : Known names coords e := (hk2 e).1 (by rw [hs]; rfl)
    obtain ⟨ln, hln, hle⟩ := hn x e d f hl ((hk2 x).1 hx) hke
    cases hm : parseCoords (parseNames (fun _ => none) names) coords e with
    | none => rw [q1 e hm] at hs; cases hs
    | some s1 =>
      obtain ⟨s', h3, h4, _⟩ := q2 e s1 hm
      rw [hs] at h3; cases h3
      have hne : (parseNames (fun _ => none) names e).isSome = true := (n2 e).2 (Or.inr ⟨ln, hln, hle⟩)
      obtain ⟨s0, hs0⟩ := Option.isSome_iff_exists.1 hne
      rw [h4, (c3 e s0 hs0 s1 hm).1]
      exact n3 e ⟨ln, hln, hle⟩ s0 hs0)
  have hmk : ∀ e, (m e).isSome = true ↔ Known names coords e := by
    intro e
    rw [← hk2]
    cases hm : parseEquivalent (parseCoords (parseNames (fun _ => none) names) coords) metas e with
    | none => rw [f1 e hm]
    | some s => obtain ⟨s', h3, _⟩ := f2 e s hm; rw [h3]; simp
  refine ⟨hmk, fun e s hs => ?_⟩
  cases hm : parseEquivalent (parseCoords (parseNames (fun _ => none) names) coords) metas e with
  | none => rw [f1 e hm] at hs; cases hs
  | some s1 =>
    obtain ⟨s', h3, h4, h5, h6, h7⟩ := f2 e s1 hm
    rw [hs] at h3; cases h3
    cases hc : parseCoords (parseNames (fun _ => none) names) coords e with
    | none => rw [q1 e hc] at hm; cases hm
    | some s0 =>
      obtain ⟨s'', g1, g2, g3, g4, g5⟩ := q2 e s0 hc
      rw [hm] at g1; cases g1
      obtain ⟨e1, e2⟩ := c1 e s0 hc
      refine ⟨fun x d => ?_, fun x => ?_⟩
      · rw [h6, g4, e2, minAll_none]
        unfold Shortest
        simp only [mem_durs, hk2]
        constructor
        · rintro ⟨⟨hk, hex⟩, hall⟩
          exact ⟨hk, hex, fun d' f hf => hall d' ⟨hk, f, hf⟩⟩
        · rintro ⟨hk, hex, hall⟩
          exact ⟨⟨hk, hex⟩, fun d' ⟨_, f, hf⟩ => hall d' f hf⟩
      · rw [h7, g5, e1, hk2]
        simp

/-- **C146** (equivalences).  The stations stored as equivalent to `e` are exactly the known stations that a
line of the file declares to be equivalent to it, in version 5.20.26 without those to which a footpath line
from `e` has the mark "F".  Partial: every known station to which a footpath line leads has a line in the
file of names (`C146_unnamed_false`). -/
theorem C146_equivalences_partial (e : Nat) (he : Known names coords e) (x : Nat) :
    x ∈ equivalences m e ↔ Known names coords x ∧ Declared metas e x ∧
      ¬ (is26 = true ∧ ∃ d, FootLine metas e x d true) := by
  obtain ⟨a1, a2⟩ := read_spec h hn
  obtain ⟨s, hs⟩ := Option.isSome_iff_exists.1 ((a1 e).2 he)
  unfold equivalences
  rw [hs]
  show x ∈ s.equivalent.filter _ ↔ _
  rw [List.mem_filter, (a2 e s hs).2, a1]
  constructor
  · rintro ⟨⟨h1, h2⟩, h3⟩
    exact ⟨h3, h1, fun ⟨h4, h5⟩ => h2 ⟨h4, h3, h5⟩⟩
  · rintro ⟨h3, h1, h2⟩
    exact ⟨⟨h1, fun ⟨h4, _, h5⟩ => h2 ⟨h4, h5⟩⟩, h3⟩

/-- **C146** (footpaths).  There is a footpath from `e` to `x` iff a line gives one and both stations are
known; it takes the shortest of the durations given, but not less than the transfer times of both stations.
Partial as above. -/
theorem C146_footpaths_partial (e : Nat) (he : Known names coords e) (x : Nat) :
    ∃ o, footpath m e x = some o ∧
      ∀ t, o = some t ↔ Known names coords x ∧ ∃ d, Shortest metas e x d ∧ t = max (max (transferTime e) (transferTime x)) d := by
  obtain ⟨a1, a2⟩ := read_spec h hn
  obtain ⟨s, hs⟩ := Option.isSome_iff_exists.1 ((a1 e).2 he)
  have hf := (a2 e s hs).1 x
  unfold footpath
  rw [hs]
  cases hd : s.foot x with
  | none =>
    refine ⟨none, by simp [hd], fun t => ?_⟩
    constructor
    · intro hc; cases hc
    · rintro ⟨hk, d, h1, _⟩
      have := (hf d).2 ⟨hk, h1⟩
      rw [hd] at this; cases this
  | some d =>
    obtain ⟨hk, h1⟩ := (hf d).1 hd
    obtain ⟨sx, hsx⟩ := Option.isSome_iff_exists.1 ((a1 x).2 hk)
    refine ⟨some (max (max (transferTime e) (transferTime x)) d), by simp [hd, hsx], fun t => ?_⟩
    constructor
    · intro hc; cases hc; exact ⟨hk, d, h1, rfl⟩
    · rintro ⟨_, d', h2, rfl⟩
      have := (hf d').2 ⟨hk, h2⟩
      rw [hd] at this; cases this; rfl

/-- **C146** (stations).  The stations are those of the two files. -/
theorem C146_stations (e : Nat) : (m e).isSome = true ↔ Known names coords e := (read_spec h hn).1 e

end

/-! ## Names and positions -/

/-- The value of the last line for `e`, or `d`. -/
def lastVal {α : Type} (d : α) (lines : List (Nat × α)) (e : Nat) : α :=
  lines.foldl (fun d l => if l.1 = e then l.2 else d) d

theorem lastVal_none {α : Type} (d : α) (lines : List (Nat × α)) (e : Nat) (h : ∀ l ∈ lines, l.1 ≠ e) :
    lastVal d lines e = d := by
  induction lines with
  | nil => rfl
  | cons l lines ih =>
    unfold lastVal
    rw [List.foldl_cons, if_neg (h l (List.mem_cons_self ..))]
    exact ih fun q hq => h q (List.mem_cons_of_mem _ hq)

theorem lastVal_last {α : Type} (d : α) {lines : List (Nat × α)} {e : Nat} {a : α} (h : LastFor lines e a) :
    lastVal d lines e = a := by
  obtain ⟨pre, post, rfl, hp⟩ := h
  unfold lastVal
  rw [List.foldl_append, List.foldl_cons, if_pos rfl]
  exact lastVal_none _ _ _ hp

theorem put_map {β : Type} (g : St → β) (m : Map) (k : Nat) (f : St → St) (hf : ∀ s, g (f s) = g s) (e : Nat)
    (b : β) (h : ∀ s, m e = some s → g s = b) (hd : m e = none → g {} = b) :
    ∀ s, put m k f e = some s → g s = b := by
  intro s hs
  unfold put at hs
  split at hs
  · rename_i he
    subst he
    cases hs
    rw [hf]
    cases hm : m e with
    | none => exact hd hm
    | some s0 => exact h s0 hm
  · exact h s hs

theorem modify_map {β : Type} (g : St → β) (m : Map) (k : Nat) (f : St → St) (hf : ∀ s, g (f s) = g s) (e : Nat) :
    (modify m k f e).map g = (m e).map g := by
  unfold modify
  split
  · rename_i he
    subst he
    cases m e with
    | none => rfl
    | some s => exact congrArg some (hf s)
  · rfl

theorem names_name (lines : List (Nat × String)) : ∀ (m : Map) (e : Nat) (d : String),
    (∀ s, m e = some s → s.name = d) → (m e = none → d = "") →
    ∀ s, parseNames m lines e = some s → s.name = lastVal d lines e := by
  induction lines with
  | nil => intro m e d h _ s hs; exact h s hs
  | cons l lines ih =>
    intro m e d h hn s hs
    unfold parseNames at hs
    rw [List.foldl_cons] at hs
    unfold lastVal
    rw [List.foldl_cons]
    refine ih (put m l.1 fun s => { s with name := l.2, id := l.1 }) e (if l.1 = e then l.2 else d) ?_ ?_ s hs
    · intro s1 h1
      unfold put at h1
      split at h1
      · rename_i he
        cases h1
        rw [if_pos he.symm]
      · rename_i he
        rw [if_neg fun hc => he hc.symm]
        exact h s1 h1
    · intro h1
      unfold put at h1
      split at h1
      · cases h1
      · rename_i he
        rw [if_neg fun hc => he hc.symm]
        exact hn h1

theorem coords_pos (lines : List (Nat × Int × Int)) : ∀ (m : Map) (e : Nat) (d : Option (Int × Int)),
    (∀ s, m e = some s → s.pos = d) → (m e = none → d = none) →
    ∀ s, parseCoords m lines e = some s → s.pos = lastVal d (lines.map fun l => (l.1, some l.2)) e := by
  induction lines with
  | nil => intro m e d h _ s hs; exact h s hs
  | cons l lines ih =>
    intro m e d h hn s hs
    unfold parseCoords at hs
    rw [List.foldl_cons] at hs
    unfold lastVal
    rw [List.map_cons, List.foldl_cons]
    refine ih (put m l.1 fun s => { s with pos := some l.2 }) e (if l.1 = e then some l.2 else d) ?_ ?_ s hs
    · intro s1 h1
      unfold put at h1
      split at h1
      · rename_i he
        cases h1
        rw [if_pos he.symm]
      · rename_i he
        rw [if_neg fun hc => he hc.symm]
        exact h s1 h1
    · intro h1
      unfold put at h1
      split at h1
      · cases h1
      · rename_i he
        rw [if_neg fun hc => he hc.symm]
        exact hn h1

theorem names_pos (lines : List (Nat × String)) : ∀ (m : Map) (e : Nat),
    (∀ s, m e = some s → s.pos = none) → ∀ s, parseNames m lines e = some s → s.pos = none := by
  induction lines with
  | nil => intro m e h s hs; exact h s hs
  | cons l lines ih =>
    intro m e h s hs
    unfold parseNames at hs
    rw [List.foldl_cons] at hs
    exact ih _ e (put_map St.pos m l.1 (fun s => { s with name := l.2, id := l.1 }) (fun _ => rfl) e none h fun _ => rfl) s hs

theorem coords_name (lines : List (Nat × Int × Int)) : ∀ (m : Map) (e : Nat) (d : String),
    (∀ s, m e = some s → s.name = d) → (m e = none → d = "") → ∀ s, parseCoords m lines e = some s → s.name = d := by
  induction lines with
  | nil => intro m e d h _ s hs; exact h s hs
  | cons l lines ih =>
    intro m e d h hn s hs
    unfold parseCoords at hs
    rw [List.foldl_cons] at hs
    refine ih _ e d (put_map St.name m l.1 (fun s => { s with pos := some l.2 }) (fun _ => rfl) e d h fun h1 => (hn h1).symm) ?_ s hs
    intro h1
    unfold put at h1
    split at h1
    · cases h1
    · exact hn h1

theorem equiv_attrs (lines : List MetaLine) : ∀ (m : Map) (e : Nat),
    (parseEquivalent m lines e).map (fun s => (s.name, s.pos)) = (m e).map (fun s => (s.name, s.pos)) := by
  induction lines with
  | nil => intro m e; rfl
  | cons l lines ih =>
    intro m e
    unfold parseEquivalent
    rw [List.foldl_cons]
    cases l with
    | foot => exact ih m e
    | equiv eva tokens =>
      refine (ih _ e).trans ?_
      exact modify_map (fun s => (s.name, s.pos)) m eva (fun s => { s with equivalent := s.equivalent ++ plain tokens }) (fun _ => rfl) e

theorem foot_attrs (is26 : Bool) (lines : List MetaLine) : ∀ (m m' : Map) (e : Nat), parseFootpaths is26 m lines = some m' →
    (m' e).map (fun s => (s.name, s.pos)) = (m e).map (fun s => (s.name, s.pos)) := by
  induction lines with
  | nil => intro m m' e h; cases h; rfl
  | cons l lines ih =>
    intro m m' e h
    unfold parseFootpaths at h
    rw [List.foldlM_cons] at h
    obtain ⟨m1, h1, h2⟩ := Option.bind_eq_some_iff.1 h
    refine (ih m1 m' e h2).trans ?_
    cases l with
    | equiv => cases h1; rfl
    | foot f t d b =>
      unfold footStep at h1
      simp only at h1
      split at h1
      · rename_i st _ _
        split at h1
        · cases h1
        · cases h1
          exact modify_map (fun s => (s.name, s.pos)) m f (fun s => { s with foot := addFoot s.foot _ d, equivalent := if is26 && b then s.equivalent.filter (· ≠ _) else s.equivalent }) (fun _ => rfl) e
      · cases h1; rfl

theorem attrs_back {is26 : Bool} {names : List (Nat × String)} {coords : List (Nat × Int × Int)} {metas : List MetaLine} {m : Map}
    (h : readStations is26 names coords metas = some m) {e : Nat} {s : St} (hs : m e = some s) :
    ∃ s', parseCoords (parseNames (fun _ => none) names) coords e = some s' ∧ s.name = s'.name ∧ s.pos = s'.pos := by
  have h1 := (foot_attrs is26 metas _ m e h).trans (equiv_attrs metas _ e)
  rw [hs] at h1
  obtain ⟨s', h2, h3⟩ := Option.map_eq_some_iff.1 h1.symm
  injection h3 with h4 h5
  exact ⟨s', h2, h4.symm, h5.symm⟩

theorem name_of {is26 : Bool} {names : List (Nat × String)} {coords : List (Nat × Int × Int)} {metas : List MetaLine} {m : Map}
    (h : readStations is26 names coords metas = some m) {e : Nat} {s : St} (hs : m e = some s) :
    s.name = lastVal "" names e := by
  obtain ⟨s', h1, h2, _⟩ := attrs_back h hs
  rw [h2]
  refine coords_name coords _ e _ (names_name names _ e "" (fun s hs => by cases hs) fun _ => rfl) ?_ s' h1
  intro hnone
  have := (names_fold names (fun _ => none) (fun _ _ h => by cases h)).2.1 e
  refine lastVal_none _ _ _ fun l hl hle => ?_
  rw [hnone] at this
  exact Bool.false_ne_true (this.2 (Or.inr ⟨l, hl, hle⟩))

theorem pos_of {is26 : Bool} {names : List (Nat × String)} {coords : List (Nat × Int × Int)} {metas : List MetaLine} {m : Map}
    (h : readStations is26 names coords metas = some m) {e : Nat} {s : St} (hs : m e = some s) :
    s.pos = lastVal none (coords.map fun l => (l.1, some l.2)) e := by
  obtain ⟨s', h1, _, h2⟩ := attrs_back h hs
  rw [h2]
  exact coords_pos coords _ e none (names_pos names _ e fun s hs => by cases hs) (fun _ => rfl) s' h1

/-- **C146** (names).  A station has the name of its last line in the file of the names. -/
theorem C146_name {is26 : Bool} {names : List (Nat × String)} {coords : List (Nat × Int × Int)} {metas : List MetaLine} {m : Map}
    (h : readStations is26 names coords metas = some m) {e : Nat} {s : St} (hs : m e = some s) {n : String}
    (hn : LastFor names e n) : s.name = n := by
  rw [name_of h hs, lastVal_last _ hn]

/-- **C146** (positions).  A station lies where its last line in the file of the coordinates puts it. -/
theorem C146_position {is26 : Bool} {names : List (Nat × String)} {coords : List (Nat × Int × Int)} {metas : List MetaLine} {m : Map}
    (h : readStations is26 names coords metas = some m) {e : Nat} {s : St} (hs : m e = some s) {p : Int × Int}
    (hn : LastFor coords e p) : s.pos = some p := by
  rw [pos_of h hs]
  obtain ⟨pre, post, rfl, hp⟩ := hn
  refine lastVal_last _ ⟨pre.map fun l => (l.1, some l.2), post.map fun l => (l.1, some l.2), by rw [List.map_append, List.map_cons], ?_⟩
  intro l hl
  obtain ⟨q, hq, rfl⟩ := List.mem_map.1 hl
  exact hp q hq

example : ∃ m s, readStations false [(8, "A"), (8, "B"), (9, "C")] [(8, 1, 2), (8, 3, 4)] [] = some m ∧ m 8 = some s ∧
    s.name = "B" ∧ s.pos = some (3, 4) := by
  obtain ⟨m, hm⟩ := Option.isSome_iff_exists.1
    (show (readStations false [(8, "A"), (8, "B"), (9, "C")] [(8, 1, 2), (8, 3, 4)] []).isSome = true by decide +kernel)
  have hs : (m 8).isSome = true :=
    (C146_stations hm (fun _ _ _ _ h => by cases h) 8).2 (Or.inl ⟨_, List.mem_cons_self .., rfl⟩)
  obtain ⟨s, hs⟩ := Option.isSome_iff_exists.1 hs
  exact ⟨m, s, hm, hs, C146_name hm hs ⟨[(8, "A")], [(9, "C")], rfl, by simp⟩, C146_position hm hs ⟨[(8, 1, 2)], [], rfl, by simp⟩⟩

/-! ## Examples -/

def exNames : List (Nat × String) := [(8000001, "A"), (8000002, "B"), (500, "C")]
def exMetas : List MetaLine :=
  [.foot 8000001 8000002 9 false, .equiv 8000001 [none, some 8000002, some 500, some 7], .foot 8000001 8000002 7 false,
   .foot 500 500 1 false, .foot 8000001 500 3 true, .foot 8000001 77 3 true]

theorem ex_read : (readStations true exNames [] exMetas).isSome = true := by decide +kernel

theorem ex_named : ∀ x e d f, FootLine exMetas x e d f → Known exNames [] x → Known exNames [] e → ∃ l ∈ exNames, l.1 = e := by
  rintro x e d f _ _ (h | ⟨l, hl, _⟩)
  · exact h
  · cases hl

example : ∃ m, readStations true exNames [] exMetas = some m ∧ 8000002 ∈ equivalences m 8000001 ∧ 500 ∉ equivalences m 8000001 := by
  obtain ⟨m, hm⟩ := Option.isSome_iff_exists.1 ex_read
  refine ⟨m, hm, ?_, ?_⟩
  · refine (C146_equivalences_partial hm ex_named 8000001 (Or.inl ⟨_, List.mem_cons_self .., rfl⟩) 8000002).2
      ⟨Or.inl ⟨(8000002, "B"), by simp [exNames], rfl⟩, ⟨by decide, _, by simp [exMetas]; rfl, by simp⟩, ?_⟩
    rintro ⟨_, d, hd⟩
    simp [FootLine, exMetas] at hd
  · intro hc
    exact ((C146_equivalences_partial hm ex_named 8000001 (Or.inl ⟨_, List.mem_cons_self .., rfl⟩) 500).1 hc).2.2
      ⟨rfl, 3, by simp [FootLine, exMetas]⟩

example : (readStations true exNames [] exMetas).map (fun m => [footpath m 8000001 8000002, footpath m 500 500, footpath m 8000001 77]) =
    some [some (some 7), some (some 2), some none] := by decide +kernel

/-- Full claim false: station 9 stands in the file of coordinates, but not in that of the names; its number is
not set, the footpath to it is stored as one to station 0, and the import fails there. -/
theorem C146_unnamed_false :
    (readStations false [(8000001, "A")] [(9, 1, 1)] [.foot 8000001 9 3 false]).map
      (fun m => ((m 9).isSome, footpath m 8000001 9, footpath m 8000001 0)) = some (true, some none, none) := by
  decide +kernel

end Nigiri.HrdStations
