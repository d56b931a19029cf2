import Verif.Proofs.TbLine
/-!
# Trip-based preprocessing: what the reduction keeps
-/

namespace Nigiri.TB
open Raptor (Loc StopData)

/-- There is a label for day `d` not later than `τ`. -/
def Lab (es : List Rr) (d τ : Nat) : Prop := ∃ e ∈ es, e.bf.testBit d = true ∧ e.time ≤ τ

structure ScanSpec (time : Nat) (bf : Bits) (pre es : List Rr) (s : RrScan) : Prop where
  keep : ∀ e ∈ es, ∀ d, d < nBits → e.bf.testBit d = true →
    (∃ e' ∈ s.es, e'.time = e.time ∧ e'.bf.testBit d = true) ∨ (time < e.time ∧ bf.testBit d = true)
  stay : ∀ e ∈ pre, e ∈ s.es
  orig : ∀ e' ∈ s.es, e' ∈ pre ∨ ∃ e ∈ es, e.time = e'.time ∧ Sub e'.bf e.bf
  dom : ∀ d, d < nBits → bf.testBit d = true → s.bf.testBit d = false →
    ∃ e' ∈ s.es, e'.time ≤ time ∧ e'.bf.testBit d = true ∧ ∃ e ∈ es, e.time = e'.time ∧ e.bf.testBit d = true
  same : ∀ p, s.same = some p → ∃ e, s.es[p]? = some e ∧ e.time = time
  over : ∀ p, s.over = some p → ∃ e, s.es[p]? = some e ∧ e.bf = 0
  ret : s.ret = true → s.bf = 0

theorem rrScan_spec (time : Nat) : ∀ (es : List Rr) (i : Nat) (bf : Bits) (same over : Option Nat) (pre : List Rr), i = pre.length →
    (∀ p, same = some p → ∃ e, pre[p]? = some e ∧ e.time = time) → (∀ p, over = some p → ∃ e, pre[p]? = some e ∧ e.bf = 0) →
    ScanSpec time bf pre es (rrScan time i bf same over pre es)
  | [], i, bf, same, over, pre, _, hs, ho => by
    unfold rrScan
    exact ⟨by simp, fun e h => h, fun e h => Or.inl h, fun d _ h h' => by rw [h] at h'; simp at h', hs, ho, by simp⟩
  | e :: es, i, bf, same, over, pre, hi, hs, ho => by
    have ext : ∀ (x : Rr) (f : Rr → Prop) (o : Option Nat), (∀ p, o = some p → ∃ e, pre[p]? = some e ∧ f e) →
        ∀ p, o = some p → ∃ e, (pre ++ [x])[p]? = some e ∧ f e := by
      intro x f o h p hp
      obtain ⟨e, h1, h2⟩ := h p hp
      refine ⟨e, ?_, h2⟩
      rw [List.getElem?_append_left (List.getElem?_eq_some_iff.1 h1).1]
      exact h1
    have new : ∀ (x : Rr), (pre ++ [x])[i]? = some x := by
      intro x; rw [hi]; simp
    unfold rrScan
    by_cases h0 : bf = 0
    · rw [if_pos h0]
      refine ⟨?_, ?_, ?_, ?_, ?_, ?_, fun _ => h0⟩
      · intro e' he' d _ hd
        exact Or.inl ⟨e', by simp only [List.mem_append]; exact Or.inr he', rfl, hd⟩
      · intro e' he'; simp only [List.mem_append]; exact Or.inl he'
      · intro e' he'
        simp only [List.mem_append] at he'
        rcases he' with h | h
        · exact Or.inl h
        · exact Or.inr ⟨e', h, rfl, Sub.refl _⟩
      · intro d _ h; rw [h0] at h; simp at h
      · intro p hp
        obtain ⟨e', h1, h2⟩ := hs p hp
        refine ⟨e', ?_, h2⟩
        simp only
        rw [List.getElem?_append_left (List.getElem?_eq_some_iff.1 h1).1]; exact h1
      · intro p hp
        obtain ⟨e', h1, h2⟩ := ho p hp
        refine ⟨e', ?_, h2⟩
        simp only
        rw [List.getElem?_append_left (List.getElem?_eq_some_iff.1 h1).1]; exact h1
    · rw [if_neg h0]
      by_cases h1 : time < e.time
      · rw [if_pos h1]
        simp only
        have ih := rrScan_spec time es (i + 1) bf same (if andNot e.bf bf = 0 then some i else over)
          (pre ++ [{ e with bf := andNot e.bf bf }]) (by simp [hi]) (ext _ _ _ hs) (by
            split
            · rename_i hz
              intro p hp
              injection hp with hp
              subst hp
              exact ⟨_, new _, hz⟩
            · exact ext _ _ _ ho)
        refine ⟨?_, ?_, ?_, ?_, ih.same, ih.over, ih.ret⟩
        · intro e' he' d hdn hd
          rcases List.mem_cons.1 he' with rfl | he'
          · cases hb : bf.testBit d with
            | true => exact Or.inr ⟨h1, rfl⟩
            | false => exact Or.inl ⟨_, ih.stay { e' with bf := andNot e'.bf bf } (by simp), rfl, andNot_testBit hdn hd hb⟩
          · exact ih.keep e' he' d hdn hd
        · intro e' he'; exact ih.stay e' (List.mem_append_left _ he')
        · intro e' he'
          rcases ih.orig e' he' with h | ⟨e'', h2, h3⟩
          · simp only [List.mem_append, List.mem_singleton] at h
            rcases h with h | rfl
            · exact Or.inl h
            · exact Or.inr ⟨e, by simp, rfl, Sub.andNot⟩
          · exact Or.inr ⟨e'', List.mem_cons_of_mem _ h2, h3⟩
        · intro d hdn hd hd'
          obtain ⟨e', a, b, c, e'', a', b'⟩ := ih.dom d hdn hd hd'
          exact ⟨e', a, b, c, e'', List.mem_cons_of_mem _ a', b'⟩
      · rw [if_neg h1]
        have ih := rrScan_spec time es (i + 1) (andNot bf e.bf) (if time = e.time then some i else same)
          (if e.bf = 0 then some i else over) (pre ++ [e]) (by simp [hi]) (by
            split
            · rename_i hz
              intro p hp
              injection hp with hp
              subst hp
              exact ⟨_, new _, hz.symm⟩
            · exact ext _ _ _ hs) (by
            split
            · rename_i hz
              intro p hp
              injection hp with hp
              subst hp
              exact ⟨_, new _, hz⟩
            · exact ext _ _ _ ho)
        refine ⟨?_, ?_, ?_, ?_, ih.same, ih.over, ih.ret⟩
        · intro e' he' d hdn hd
          rcases List.mem_cons.1 he' with rfl | he'
          · exact Or.inl ⟨e', ih.stay e' (by simp), rfl, hd⟩
          · rcases ih.keep e' he' d hdn hd with h | ⟨h2, h3⟩
            · exact Or.inl h
            · exact Or.inr ⟨h2, Sub.andNot d h3⟩
        · intro e' he'; exact ih.stay e' (List.mem_append_left _ he')
        · intro e' he'
          rcases ih.orig e' he' with h | ⟨e'', h2, h3⟩
          · simp only [List.mem_append, List.mem_singleton] at h
            rcases h with h | rfl
            · exact Or.inl h
            · exact Or.inr ⟨e', by simp, rfl, Sub.refl _⟩
          · exact Or.inr ⟨e'', List.mem_cons_of_mem _ h2, h3⟩
        · intro d hdn hd hd'
          cases hb : e.bf.testBit d with
          | true => exact ⟨e, ih.stay e (by simp), by omega, hb, e, by simp, rfl, hb⟩
          | false =>
            obtain ⟨e', a, b, c, e'', a', b'⟩ := ih.dom d hdn (andNot_testBit hdn hd hb) hd'
            exact ⟨e', a, b, c, e'', List.mem_cons_of_mem _ a', b'⟩

/-- What `reached_reduction::update` does: `impr` are the days on which the new time is an improvement. -/
structure UpdSpec (es : List Rr) (time : Nat) (bf : Bits) (es' : List Rr) (impr : Bits) : Prop where
  keep : ∀ d τ, d < nBits → Lab es d τ → Lab es' d τ
  cov : ∀ d, d < nBits → bf.testBit d = true → impr.testBit d = true ∨ Lab es d time
  orig : ∀ e' ∈ es', ∀ d, e'.bf.testBit d = true → (∃ e ∈ es, e.time = e'.time ∧ e.bf.testBit d = true) ∨
    (e'.time = time ∧ impr.testBit d = true)

theorem rrUpdate_spec (es : List Rr) (time : Nat) (bf : Bits) : UpdSpec es time bf (rrUpdate es time bf).1 (rrUpdate es time bf).2 := by
  have hs := rrScan_spec time es 0 bf none none [] rfl (by simp) (by simp)
  have horig : ∀ e' ∈ (rrScan time 0 bf none none [] es).es, ∀ d, e'.bf.testBit d = true → ∃ e ∈ es, e.time = e'.time ∧ e.bf.testBit d = true := by
    intro e' he' d hd
    rcases hs.orig e' he' with h | ⟨e, h1, h2, h3⟩
    · simp at h
    · exact ⟨e, h1, h2, h3 d hd⟩
  have hcov : ∀ d, d < nBits → bf.testBit d = true → (rrScan time 0 bf none none [] es).bf.testBit d = true ∨ Lab es d time := by
    intro d hdn hd
    cases hb : (rrScan time 0 bf none none [] es).bf.testBit d with
    | true => exact Or.inl rfl
    | false =>
      obtain ⟨e', _, b, _, e, a, b', c'⟩ := hs.dom d hdn hd hb
      exact Or.inr ⟨e, a, c', by omega⟩
  -- labels survive if the new time is present for the days in the result
  have hkeep : ∀ es' : List Rr, (∀ e ∈ (rrScan time 0 bf none none [] es).es, ∀ d, e.bf.testBit d = true → Lab es' d e.time) →
      (∀ d, (rrScan time 0 bf none none [] es).bf.testBit d = true → Lab es' d time) →
      ∀ d τ, d < nBits → Lab es d τ → Lab es' d τ := by
    intro es' h1 h2 d τ hdn ⟨e, he, hd, hτ⟩
    have up : ∀ τ', τ' ≤ τ → Lab es' d τ' → Lab es' d τ := by
      rintro τ' h ⟨x, hx, hb, ht⟩
      exact ⟨x, hx, hb, by omega⟩
    rcases hs.keep e he d hdn hd with ⟨e', he', ht, hd'⟩ | ⟨hlt, hb⟩
    · exact up _ (by omega) (h1 e' he' d hd')
    · cases hb' : (rrScan time 0 bf none none [] es).bf.testBit d with
      | true => exact up time (by omega) (h2 d hb')
      | false =>
        obtain ⟨e', a, b, c, _⟩ := hs.dom d hdn hb hb'
        exact up _ (by omega) (h1 e' a d c)
  unfold rrUpdate
  simp only
  by_cases hc : ((rrScan time 0 bf none none [] es).ret || decide ((rrScan time 0 bf none none [] es).bf = 0)) = true
  · rw [if_pos hc]
    have hz : (rrScan time 0 bf none none [] es).bf = 0 := by
      rw [Bool.or_eq_true, decide_eq_true_eq] at hc
      exact hc.elim hs.ret id
    refine ⟨hkeep _ (fun e he d hd => ⟨e, he, hd, Nat.le_refl _⟩) (fun d hd => by rw [hz] at hd; simp at hd), ?_, ?_⟩
    · intro d hdn hd
      have := hcov d hdn hd
      rw [hz] at this
      exact this
    · intro e' he' d hd
      exact Or.inl (horig e' he' d hd)
  · rw [if_neg hc]
    split
    · rename_i _ _ i hsame
      obtain ⟨e0, h0, ht⟩ := hs.same i hsame
      have hlt := (List.getElem?_eq_some_iff.1 h0).1
      refine ⟨hkeep _ ?_ ?_, hcov, ?_⟩
      · intro e he d hd
        obtain ⟨p, hp⟩ := List.mem_iff_getElem?.1 he
        by_cases hpi : p = i
        · subst hpi
          rw [h0] at hp
          injection hp with hp
          subst hp
          refine ⟨{ e0 with bf := e0.bf ||| (rrScan time 0 bf none none [] es).bf }, ?_, ?_, Nat.le_refl _⟩
          · apply List.mem_iff_getElem?.2
            refine ⟨p, ?_⟩
            rw [List.getElem?_modify, h0]
            simp
          · simp only [Nat.testBit_or, hd, Bool.true_or]
        · refine ⟨e, ?_, hd, Nat.le_refl _⟩
          apply List.mem_iff_getElem?.2
          refine ⟨p, ?_⟩
          rw [List.getElem?_modify, hp]
          simp only [Option.map_eq_map, Option.map_some, Option.some.injEq]
          rw [if_neg (fun e => hpi e.symm)]
      · intro d hd
        refine ⟨{ e0 with bf := e0.bf ||| (rrScan time 0 bf none none [] es).bf }, ?_, ?_, by simp only; omega⟩
        · apply List.mem_iff_getElem?.2
          refine ⟨i, ?_⟩
          rw [List.getElem?_modify, h0]
          simp
        · simp only [Nat.testBit_or, hd, Bool.or_true]
      · intro e' he' d hd
        obtain ⟨p, hp⟩ := List.mem_iff_getElem?.1 he'
        rw [List.getElem?_modify] at hp
        by_cases hpi : i = p
        · subst hpi
          rw [h0] at hp
          simp only [if_true, Option.map_eq_map, Option.map_some, Option.some.injEq] at hp
          subst hp
          simp only [Nat.testBit_or, Bool.or_eq_true] at hd
          rcases hd with hd | hd
          · exact Or.inl (horig e0 (List.mem_of_getElem? h0) d hd)
          · exact Or.inr ⟨ht, hd⟩
        · simp only [hpi, if_false] at hp
          exact Or.inl (horig e' (List.mem_of_getElem? (i := p) (by simpa using hp)) d hd)
    · rename_i _ _ i _ hover
      obtain ⟨e0, h0, hz⟩ := hs.over i hover
      have hlt := (List.getElem?_eq_some_iff.1 h0).1
      refine ⟨hkeep _ ?_ ?_, hcov, ?_⟩
      · intro e he d hd
        obtain ⟨p, hp⟩ := List.mem_iff_getElem?.1 he
        by_cases hpi : p = i
        · subst hpi
          rw [h0] at hp
          injection hp with hp
          subst hp
          rw [hz] at hd
          simp at hd
        · refine ⟨e, ?_, hd, Nat.le_refl _⟩
          apply List.mem_iff_getElem?.2
          refine ⟨p, ?_⟩
          rw [List.getElem?_set_ne (fun e => hpi e.symm)]
          exact hp
      · intro d hd
        refine ⟨⟨time, (rrScan time 0 bf none none [] es).bf⟩, ?_, hd, Nat.le_refl _⟩
        apply List.mem_iff_getElem?.2
        exact ⟨i, List.getElem?_set_self hlt⟩
      · intro e' he' d hd
        rcases List.mem_or_eq_of_mem_set he' with h | h
        · exact Or.inl (horig e' h d hd)
        · subst h
          exact Or.inr ⟨rfl, hd⟩
    · refine ⟨hkeep _ ?_ ?_, hcov, ?_⟩
      · intro e he d hd
        exact ⟨e, List.mem_append_left _ he, hd, Nat.le_refl _⟩
      · intro d hd
        exact ⟨⟨time, (rrScan time 0 bf none none [] es).bf⟩, by simp, hd, Nat.le_refl _⟩
      · intro e' he' d hd
        rw [List.mem_append, List.mem_singleton] at he'
        rcases he' with h | rfl
        · exact Or.inl (horig e' h d hd)
        · exact Or.inr ⟨rfl, hd⟩

/-! ## Labels of a state -/

/-- Being at `l` at `τ` after arriving at `m` at `a`. -/
def ArrVia (fps : Loc → List (Loc × Nat)) (m : Loc) (a : Nat) (l : Loc) (τ : Nat) : Prop :=
  (l = m ∧ τ = a) ∨ ∃ w, (l, w) ∈ fps m ∧ τ = a + w

/-- Being ready to board at `l` at `τ` after arriving at `m` at `a`. -/
def ChVia (tt : TT) (fps : Loc → List (Loc × Nat)) (m : Loc) (a : Nat) (l : Loc) (τ : Nat) : Prop :=
  (l = m ∧ τ = a + tt.transfer m) ∨ ∃ w, (l, w) ∈ fps m ∧ τ = a + w

/-- The effect of updates for the arrivals `A` and changes `C` on the days `bf`. -/
structure RStep (bf : Bits) (A C : Loc → Nat → Prop) (S S' : RedSt) : Prop where
  arrKeep : ∀ l d τ, d < nBits → Lab (S.arr l) d τ → Lab (S'.arr l) d τ
  chKeep : ∀ l d τ, d < nBits → Lab (S.ch l) d τ → Lab (S'.ch l) d τ
  impr : Sub S.impr S'.impr
  arrCov : ∀ l τ d, A l τ → d < nBits → bf.testBit d = true → S'.impr.testBit d = true ∨ Lab (S.arr l) d τ
  chCov : ∀ l τ d, C l τ → d < nBits → bf.testBit d = true → S'.impr.testBit d = true ∨ Lab (S.ch l) d τ
  arrOrig : ∀ l, ∀ e ∈ S'.arr l, ∀ d, e.bf.testBit d = true → (∃ e0 ∈ S.arr l, e0.time = e.time ∧ e0.bf.testBit d = true) ∨
    (S'.impr.testBit d = true ∧ bf.testBit d = true ∧ A l e.time)
  chOrig : ∀ l, ∀ e ∈ S'.ch l, ∀ d, e.bf.testBit d = true → (∃ e0 ∈ S.ch l, e0.time = e.time ∧ e0.bf.testBit d = true) ∨
    (S'.impr.testBit d = true ∧ bf.testBit d = true ∧ C l e.time)

theorem RStep.refl (bf : Bits) (S : RedSt) : RStep bf (fun _ _ => False) (fun _ _ => False) S S :=
  ⟨fun _ _ _ _ h => h, fun _ _ _ _ h => h, Sub.refl _, fun _ _ _ h => h.elim, fun _ _ _ h => h.elim,
    fun _ e he _ hd => Or.inl ⟨e, he, rfl, hd⟩, fun _ e he _ hd => Or.inl ⟨e, he, rfl, hd⟩⟩

theorem RStep.trans {bf : Bits} {A C A' C' : Loc → Nat → Prop} {S S' S'' : RedSt} (h : RStep bf A C S S') (h' : RStep bf A' C' S' S'') :
    RStep bf (fun l τ => A l τ ∨ A' l τ) (fun l τ => C l τ ∨ C' l τ) S S'' := by
  have backA : ∀ l d τ, Lab (S'.arr l) d τ → S''.impr.testBit d = true ∨ Lab (S.arr l) d τ := by
    rintro l d τ ⟨e, he, hd, ht⟩
    rcases h.arrOrig l e he d hd with ⟨e0, h0, h1, h2⟩ | ⟨h1, _⟩
    · exact Or.inr ⟨e0, h0, h2, by omega⟩
    · exact Or.inl (h'.impr d h1)
  have backC : ∀ l d τ, Lab (S'.ch l) d τ → S''.impr.testBit d = true ∨ Lab (S.ch l) d τ := by
    rintro l d τ ⟨e, he, hd, ht⟩
    rcases h.chOrig l e he d hd with ⟨e0, h0, h1, h2⟩ | ⟨h1, _⟩
    · exact Or.inr ⟨e0, h0, h2, by omega⟩
    · exact Or.inl (h'.impr d h1)
  refine ⟨fun l d τ hd hl => h'.arrKeep l d τ hd (h.arrKeep l d τ hd hl), fun l d τ hd hl => h'.chKeep l d τ hd (h.chKeep l d τ hd hl),
    h.impr.trans h'.impr, ?_, ?_, ?_, ?_⟩
  · rintro l τ d (ha | ha) hd hb
    · rcases h.arrCov l τ d ha hd hb with h1 | h1
      · exact Or.inl (h'.impr d h1)
      · exact Or.inr h1
    · rcases h'.arrCov l τ d ha hd hb with h1 | h1
      · exact Or.inl h1
      · exact backA l d τ h1
  · rintro l τ d (ha | ha) hd hb
    · rcases h.chCov l τ d ha hd hb with h1 | h1
      · exact Or.inl (h'.impr d h1)
      · exact Or.inr h1
    · rcases h'.chCov l τ d ha hd hb with h1 | h1
      · exact Or.inl h1
      · exact backC l d τ h1
  · intro l e he d hd
    rcases h'.arrOrig l e he d hd with ⟨e0, h0, h1, h2⟩ | ⟨h1, hb, h2⟩
    · rcases h.arrOrig l e0 h0 d h2 with ⟨e1, h3, h4, h5⟩ | ⟨h3, hb, h4⟩
      · exact Or.inl ⟨e1, h3, by omega, h5⟩
      · exact Or.inr ⟨h'.impr d h3, hb, Or.inl (h1 ▸ h4)⟩
    · exact Or.inr ⟨h1, hb, Or.inr h2⟩
  · intro l e he d hd
    rcases h'.chOrig l e he d hd with ⟨e0, h0, h1, h2⟩ | ⟨h1, hb, h2⟩
    · rcases h.chOrig l e0 h0 d h2 with ⟨e1, h3, h4, h5⟩ | ⟨h3, hb, h4⟩
      · exact Or.inl ⟨e1, h3, by omega, h5⟩
      · exact Or.inr ⟨h'.impr d h3, hb, Or.inl (h1 ▸ h4)⟩
    · exact Or.inr ⟨h1, hb, Or.inr h2⟩

theorem RStep.congr {bf : Bits} {A C A' C' : Loc → Nat → Prop} {S S' : RedSt} (h : RStep bf A C S S')
    (ha : ∀ l τ, A l τ ↔ A' l τ) (hc : ∀ l τ, C l τ ↔ C' l τ) : RStep bf A' C' S S' := by
  have e1 : A = A' := by funext l τ; exact propext (ha l τ)
  have e2 : C = C' := by funext l τ; exact propext (hc l τ)
  rw [← e1, ← e2]; exact h

theorem updArr_step (S : RedSt) (l : Loc) (time : Nat) (bf : Bits) (ht : time < 65536) :
    RStep bf (fun l' τ => l' = l ∧ τ = time) (fun _ _ => False) S (S.updArr l time bf) := by
  have hu := rrUpdate_spec (S.arr l) (time % 65536) bf
  have e : time % 65536 = time := by omega
  refine ⟨?_, fun _ _ _ _ h => h, ?_, ?_, fun _ _ _ h => h.elim, ?_, fun _ e he _ hd => Or.inl ⟨e, he, rfl, hd⟩⟩
  · intro l' d τ hd h
    simp only [RedSt.updArr, rrMapUpdate, Raptor.upd]
    by_cases hl : l' = l
    · rw [if_pos hl]; rw [hl] at h; exact hu.keep d τ hd h
    · rw [if_neg hl]; exact h
  · intro d hd
    simp only [RedSt.updArr, Nat.testBit_or, hd, Bool.true_or]
  · rintro l' τ d ⟨rfl, rfl⟩ hd hb
    rcases hu.cov d hd hb with h | h
    · left
      simp only [RedSt.updArr, rrMapUpdate, Nat.testBit_or, h, Bool.or_true]
    · rw [e] at h; exact Or.inr h
  · intro l' e' he' d hd
    simp only [RedSt.updArr, rrMapUpdate, Raptor.upd] at he'
    by_cases hl : l' = l
    · rw [if_pos hl] at he'
      rcases hu.orig e' he' d hd with ⟨e0, h0, h1, h2⟩ | ⟨h1, h2⟩
      · exact Or.inl ⟨e0, hl ▸ h0, h1, h2⟩
      · refine Or.inr ⟨?_, rrUpdate_sub _ _ _ d h2, hl, by omega⟩
        simp only [RedSt.updArr, rrMapUpdate, Nat.testBit_or, h2, Bool.or_true]
    · rw [if_neg hl] at he'
      exact Or.inl ⟨e', he', rfl, hd⟩

theorem updCh_step (S : RedSt) (l : Loc) (time : Nat) (bf : Bits) (ht : time < 65536) :
    RStep bf (fun _ _ => False) (fun l' τ => l' = l ∧ τ = time) S (S.updCh l time bf) := by
  have hu := rrUpdate_spec (S.ch l) (time % 65536) bf
  have e : time % 65536 = time := by omega
  refine ⟨fun _ _ _ _ h => h, ?_, ?_, fun _ _ _ h => h.elim, ?_, fun _ e he _ hd => Or.inl ⟨e, he, rfl, hd⟩, ?_⟩
  · intro l' d τ hd h
    simp only [RedSt.updCh, rrMapUpdate, Raptor.upd]
    by_cases hl : l' = l
    · rw [if_pos hl]; rw [hl] at h; exact hu.keep d τ hd h
    · rw [if_neg hl]; exact h
  · intro d hd
    simp only [RedSt.updCh, Nat.testBit_or, hd, Bool.true_or]
  · rintro l' τ d ⟨rfl, rfl⟩ hd hb
    rcases hu.cov d hd hb with h | h
    · left
      simp only [RedSt.updCh, rrMapUpdate, Nat.testBit_or, h, Bool.or_true]
    · rw [e] at h; exact Or.inr h
  · intro l' e' he' d hd
    simp only [RedSt.updCh, rrMapUpdate, Raptor.upd] at he'
    by_cases hl : l' = l
    · rw [if_pos hl] at he'
      rcases hu.orig e' he' d hd with ⟨e0, h0, h1, h2⟩ | ⟨h1, h2⟩
      · exact Or.inl ⟨e0, hl ▸ h0, h1, h2⟩
      · refine Or.inr ⟨?_, rrUpdate_sub _ _ _ d h2, hl, by omega⟩
        simp only [RedSt.updCh, rrMapUpdate, Nat.testBit_or, h2, Bool.or_true]
    · rw [if_neg hl] at he'
      exact Or.inl ⟨e', he', rfl, hd⟩

/-- A fold of steps. -/
theorem fold_step {α : Type} (bf : Bits) (f : RedSt → α → RedSt) (A C : α → Loc → Nat → Prop) : ∀ (xs : List α) (S : RedSt),
    (∀ x ∈ xs, ∀ S, RStep bf (A x) (C x) S (f S x)) →
    RStep bf (fun l τ => ∃ x ∈ xs, A x l τ) (fun l τ => ∃ x ∈ xs, C x l τ) S (xs.foldl f S)
  | [], S, _ => (RStep.refl bf S).congr (by simp) (by simp)
  | x :: xs, S, h => by
    rw [List.foldl_cons]
    have h1 := h x (by simp) S
    have h2 := fold_step bf f A C xs (f S x) (fun y hy => h y (List.mem_cons_of_mem _ hy))
    exact (h1.trans h2).congr (by simp) (by simp)

theorem reachStop_step (tt : TT) (fps : Loc → List (Loc × Nat)) (l : Loc) (time : Nat) (bf : Bits) (S : RedSt)
    (ht : time < 30000) (htr : tt.transfer l ≤ 30000) (hf : ∀ x ∈ fps l, x.2 ≤ 30000) :
    RStep bf (ArrVia fps l time) (ChVia tt fps l time) S (reachStop tt fps l time bf S) := by
  unfold reachStop
  simp only
  have h1 := updArr_step S l time bf (by omega)
  have h2 := updCh_step (S.updArr l time bf) l (time + tt.transfer l) bf (by omega)
  have h3 := fold_step bf (fun S (fp : Loc × Nat) => (S.updArr fp.1 (time + fp.2) bf).updCh fp.1 (time + fp.2) bf)
    (fun fp l' τ => (l' = fp.1 ∧ τ = time + fp.2) ∨ False) (fun fp l' τ => False ∨ (l' = fp.1 ∧ τ = time + fp.2)) (fps l)
    ((S.updArr l time bf).updCh l (time + tt.transfer l) bf) (by
      intro x hx S
      have := hf x hx
      exact (updArr_step S x.1 (time + x.2) bf (by omega)).trans (updCh_step _ x.1 (time + x.2) bf (by omega)))
  refine ((h1.trans h2).trans h3).congr ?_ ?_
  · intro l' τ
    unfold ArrVia
    constructor
    · rintro ((h | h) | ⟨x, hx, (⟨rfl, rfl⟩ | h)⟩)
      · exact Or.inl h
      · exact h.elim
      · exact Or.inr ⟨x.2, hx, rfl⟩
      · exact h.elim
    · rintro (h | ⟨w, hw, h⟩)
      · exact Or.inl (Or.inl h)
      · exact Or.inr ⟨(l', w), hw, Or.inl ⟨rfl, h⟩⟩
  · intro l' τ
    unfold ChVia
    constructor
    · rintro ((h | h) | ⟨x, hx, (h | ⟨rfl, rfl⟩)⟩)
      · exact h.elim
      · exact Or.inl h
      · exact h.elim
      · exact Or.inr ⟨x.2, hx, rfl⟩
    · rintro (h | ⟨w, hw, h⟩)
      · exact Or.inl (Or.inr h)
      · exact Or.inr ⟨(l', w), hw, Or.inr ⟨rfl, h⟩⟩

/-! ## The transfers of a trip -/

/-- Arrival of the target trip of `x` at its stop `q`, in minutes after the midnight of the first trip's day. -/
def Xfer.at (tt : TT) (x : Xfer) (q : Nat) : Nat := (x.dayOff * 1440 + ((tt.route x.route).arr x.tr q : Nat)).toNat

/-- Being at `l` at `τ` with the target trip of `x`. -/
def XArr (tt : TT) (x : Xfer) (l : Loc) (τ : Nat) : Prop :=
  ∃ q, x.stopTo < q ∧ q < (tt.route x.route).stops.length ∧ ArrVia (tt.fpsOut 0) ((tt.route x.route).stop q).loc (x.at tt q) l τ

def XCh (tt : TT) (x : Xfer) (l : Loc) (τ : Nat) : Prop :=
  ∃ q, x.stopTo < q ∧ q < (tt.route x.route).stops.length ∧ ChVia tt (tt.fpsOut 0) ((tt.route x.route).stop q).loc (x.at tt q) l τ

/-- The times fit. -/
structure TimesFit (tt : TT) : Prop where
  transfer : ∀ l, tt.transfer l ≤ 30000
  fps : ∀ prf l, ∀ x ∈ tt.fpsOut prf l, x.2 ≤ 30000

def XFit (tt : TT) (x : Xfer) : Prop := ∀ q, x.stopTo < q → q < (tt.route x.route).stops.length →
  0 ≤ x.dayOff * 1440 + ((tt.route x.route).arr x.tr q : Nat) ∧ x.dayOff * 1440 + ((tt.route x.route).arr x.tr q : Nat) < 30000

theorem reduceOne_step {tt : TT} (hf : TimesFit tt) {x : Xfer} (hx : XFit tt x) (S : RedSt) :
    RStep x.bf (XArr tt x) (XCh tt x) { S with impr := 0 } (reduceOne tt x S) := by
  unfold reduceOne
  simp only
  refine (fold_step x.bf (fun S s => reachStop tt (tt.fpsOut 0) ((tt.route x.route).stop s).loc
    (((x.dayOff * 1440 + ((tt.route x.route).arr x.tr s : Nat)) % 65536).toNat) x.bf S)
    (fun q l τ => ArrVia (tt.fpsOut 0) ((tt.route x.route).stop q).loc (x.at tt q) l τ)
    (fun q l τ => ChVia tt (tt.fpsOut 0) ((tt.route x.route).stop q).loc (x.at tt q) l τ) _ _ ?_).congr ?_ ?_
  · intro q hq S
    simp only [List.mem_filter, List.mem_range, decide_eq_true_eq] at hq
    obtain ⟨h1, h2⟩ := hx q hq.2 hq.1
    have e : ((x.dayOff * 1440 + ((tt.route x.route).arr x.tr q : Nat)) % 65536).toNat = x.at tt q := by
      unfold Xfer.at
      rw [Int.emod_eq_of_lt h1 (by omega)]
    rw [e]
    refine reachStop_step tt _ _ _ _ S ?_ (hf.transfer _) (hf.fps 0 _)
    unfold Xfer.at
    omega
  · intro l τ
    unfold XArr
    constructor
    · rintro ⟨q, hq, h⟩
      simp only [List.mem_filter, List.mem_range, decide_eq_true_eq] at hq
      exact ⟨q, hq.2, hq.1, h⟩
    · rintro ⟨q, h1, h2, h⟩
      exact ⟨q, by simp only [List.mem_filter, List.mem_range, decide_eq_true_eq]; exact ⟨h2, h1⟩, h⟩
  · intro l τ
    unfold XCh
    constructor
    · rintro ⟨q, hq, h⟩
      simp only [List.mem_filter, List.mem_range, decide_eq_true_eq] at hq
      exact ⟨q, hq.2, hq.1, h⟩
    · rintro ⟨q, h1, h2, h⟩
      exact ⟨q, by simp only [List.mem_filter, List.mem_range, decide_eq_true_eq]; exact ⟨h2, h1⟩, h⟩

/-- Every label stands for something described by `WA`, `WC`. -/
structure RedInv (WA WC : Loc → Nat → Nat → Prop) (S : RedSt) : Prop where
  arr : ∀ l, ∀ e ∈ S.arr l, ∀ d, e.bf.testBit d = true → WA l d e.time
  ch : ∀ l, ∀ e ∈ S.ch l, ∀ d, e.bf.testBit d = true → WC l d e.time

/-- Something of `W` or with one of the transfers `ys`, not later than `τ`. -/
def Or1 (W : Loc → Nat → Nat → Prop) (X : Xfer → Loc → Nat → Prop) (ys : List Xfer) (l : Loc) (d τ : Nat) : Prop :=
  ∃ τ', τ' ≤ τ ∧ (W l d τ' ∨ ∃ y ∈ ys, y.bf.testBit d = true ∧ X y l τ')

theorem Or1.mono {W W' : Loc → Nat → Nat → Prop} {X : Xfer → Loc → Nat → Prop} {ys ys' : List Xfer} {l : Loc} {d τ : Nat}
    (h : Or1 W X ys l d τ) (hw : ∀ τ', W l d τ' → W' l d τ' ∨ ∃ y ∈ ys', y.bf.testBit d = true ∧ X y l τ') (hy : ∀ y ∈ ys, y ∈ ys') :
    Or1 W' X ys' l d τ := by
  obtain ⟨τ', h1, h2⟩ := h
  refine ⟨τ', h1, ?_⟩
  rcases h2 with h2 | ⟨y, h3, h4⟩
  · exact hw τ' h2
  · exact Or.inr ⟨y, hy y h3, h4⟩

theorem reduceList_spec {tt : TT} (hf : TimesFit tt) : ∀ (xs : List Xfer) (S : RedSt) (WA WC : Loc → Nat → Nat → Prop),
    (∀ x ∈ xs, XFit tt x) → RedInv WA WC S →
    RedInv (fun l d τ => WA l d τ ∨ ∃ y ∈ (reduceList tt xs S).1, y.bf.testBit d = true ∧ XArr tt y l τ)
      (fun l d τ => WC l d τ ∨ ∃ y ∈ (reduceList tt xs S).1, y.bf.testBit d = true ∧ XCh tt y l τ) (reduceList tt xs S).2 ∧
    ∀ x ∈ xs, ∀ d, d < nBits → x.bf.testBit d = true → (∃ y ∈ (reduceList tt xs S).1, Restr y x ∧ y.bf.testBit d = true) ∨
      ((∀ l τ, XArr tt x l τ → Or1 WA (XArr tt) (reduceList tt xs S).1 l d τ) ∧
       (∀ l τ, XCh tt x l τ → Or1 WC (XCh tt) (reduceList tt xs S).1 l d τ))
  | [], S, WA, WC, _, h => by
    refine ⟨⟨fun l e he d hd => Or.inl (h.arr l e he d hd), fun l e he d hd => Or.inl (h.ch l e he d hd)⟩, ?_⟩
    intro x hx; simp at hx
  | x :: xs, S, WA, WC, hx, h => by
    have hstep := reduceOne_step hf (hx x (by simp)) S
    have e1 : (reduceList tt (x :: xs) S).1 = if (reduceOne tt x S).impr = 0 then (reduceList tt xs (reduceOne tt x S)).1
        else { x with bf := (reduceOne tt x S).impr } :: (reduceList tt xs (reduceOne tt x S)).1 := rfl
    have e2 : (reduceList tt (x :: xs) S).2 = (reduceList tt xs (reduceOne tt x S)).2 := rfl
    have hinv : RedInv (fun l d τ => WA l d τ ∨ ((reduceOne tt x S).impr.testBit d = true ∧ XArr tt x l τ))
        (fun l d τ => WC l d τ ∨ ((reduceOne tt x S).impr.testBit d = true ∧ XCh tt x l τ)) (reduceOne tt x S) := by
      constructor
      · intro l e he d hd
        rcases hstep.arrOrig l e he d hd with ⟨e0, h0, h1, h2⟩ | ⟨h1, _, h2⟩
        · exact Or.inl (h1 ▸ h.arr l e0 h0 d h2)
        · exact Or.inr ⟨h1, h2⟩
      · intro l e he d hd
        rcases hstep.chOrig l e he d hd with ⟨e0, h0, h1, h2⟩ | ⟨h1, _, h2⟩
        · exact Or.inl (h1 ▸ h.ch l e0 h0 d h2)
        · exact Or.inr ⟨h1, h2⟩
    obtain ⟨i1, i2⟩ := reduceList_spec hf xs (reduceOne tt x S) _ _ (fun y hy => hx y (List.mem_cons_of_mem _ hy)) hinv
    have hsub : ∀ y ∈ (reduceList tt xs (reduceOne tt x S)).1, y ∈ (reduceList tt (x :: xs) S).1 := by
      intro y hy
      rw [e1]
      split
      · exact hy
      · exact List.mem_cons_of_mem _ hy
    have hnew : ∀ d, (reduceOne tt x S).impr.testBit d = true →
        { x with bf := (reduceOne tt x S).impr } ∈ (reduceList tt (x :: xs) S).1 := by
      intro d hd
      rw [e1, if_neg (ne_zero_of_testBit hd)]
      simp
    have hA : ∀ l d τ, (WA l d τ ∨ ((reduceOne tt x S).impr.testBit d = true ∧ XArr tt x l τ)) →
        WA l d τ ∨ ∃ y ∈ (reduceList tt (x :: xs) S).1, y.bf.testBit d = true ∧ XArr tt y l τ := by
      rintro l d τ (h1 | ⟨h1, h2⟩)
      · exact Or.inl h1
      · exact Or.inr ⟨_, hnew d h1, h1, h2⟩
    have hC : ∀ l d τ, (WC l d τ ∨ ((reduceOne tt x S).impr.testBit d = true ∧ XCh tt x l τ)) →
        WC l d τ ∨ ∃ y ∈ (reduceList tt (x :: xs) S).1, y.bf.testBit d = true ∧ XCh tt y l τ := by
      rintro l d τ (h1 | ⟨h1, h2⟩)
      · exact Or.inl h1
      · exact Or.inr ⟨_, hnew d h1, h1, h2⟩
    refine ⟨⟨?_, ?_⟩, ?_⟩
    · intro l e he d hd
      rw [e2] at he
      rcases i1.arr l e he d hd with h1 | ⟨y, hy, h1⟩
      · exact hA l d _ h1
      · exact Or.inr ⟨y, hsub y hy, h1⟩
    · intro l e he d hd
      rw [e2] at he
      rcases i1.ch l e he d hd with h1 | ⟨y, hy, h1⟩
      · exact hC l d _ h1
      · exact Or.inr ⟨y, hsub y hy, h1⟩
    · intro z hz d hdn hd
      rcases List.mem_cons.1 hz with rfl | hz
      · cases hi : (reduceOne tt z S).impr.testBit d with
        | true => exact Or.inl ⟨_, hnew d hi, ⟨_, rfl, reduceOne_impr tt z S⟩, hi⟩
        | false =>
          right
          constructor
          · intro l τ hv
            rcases hstep.arrCov l τ d hv hdn hd with h1 | ⟨e, he, hb, ht⟩
            · rw [hi] at h1; simp at h1
            · exact ⟨e.time, ht, Or.inl (h.arr l e he d hb)⟩
          · intro l τ hv
            rcases hstep.chCov l τ d hv hdn hd with h1 | ⟨e, he, hb, ht⟩
            · rw [hi] at h1; simp at h1
            · exact ⟨e.time, ht, Or.inl (h.ch l e he d hb)⟩
      · rcases i2 z hz d hdn hd with ⟨y, hy, h1⟩ | ⟨h1, h2⟩
        · exact Or.inl ⟨y, hsub y hy, h1⟩
        · right
          exact ⟨fun l τ hv => (h1 l τ hv).mono (fun τ' => hA l d τ') hsub, fun l τ hv => (h2 l τ hv).mono (fun τ' => hC l d τ') hsub⟩

/-! ## All stops of a trip -/

/-- Alighting from trip `t` at a stop at or after `i`, on day `d`. -/
def OwnArr (tt : TT) (rt : Route) (t i : Nat) (l : Loc) (d τ : Nat) : Prop :=
  ∃ i', i ≤ i' ∧ i' < rt.stops.length ∧ (rt.stop i').outAllowed = true ∧ (rt.bits t).testBit d = true ∧
    ArrVia (tt.fpsOut 0) (rt.stop i').loc (rt.arr t i') l τ

def OwnCh (tt : TT) (rt : Route) (t i : Nat) (l : Loc) (d τ : Nat) : Prop :=
  ∃ i', i ≤ i' ∧ i' < rt.stops.length ∧ (rt.stop i').outAllowed = true ∧ (rt.bits t).testBit d = true ∧
    ChVia tt (tt.fpsOut 0) (rt.stop i').loc (rt.arr t i') l τ

/-- Using a transfer at a stop at or after `i`, on day `d`. -/
def SegW (X : Xfer → Loc → Nat → Prop) (len : Nat) (segs : Nat → List Xfer) (i : Nat) (l : Loc) (d τ : Nat) : Prop :=
  ∃ i', i ≤ i' ∧ i' < len ∧ ∃ y ∈ segs (i' - 1), y.bf.testBit d = true ∧ X y l τ

def WA (tt : TT) (rt : Route) (t : Nat) (segs : Nat → List Xfer) (i : Nat) (l : Loc) (d τ : Nat) : Prop :=
  OwnArr tt rt t i l d τ ∨ SegW (XArr tt) rt.stops.length segs i l d τ

def WC (tt : TT) (rt : Route) (t : Nat) (segs : Nat → List Xfer) (i : Nat) (l : Loc) (d τ : Nat) : Prop :=
  OwnCh tt rt t i l d τ ∨ SegW (XCh tt) rt.stops.length segs i l d τ

theorem SegW.congr {X : Xfer → Loc → Nat → Prop} {len : Nat} {segs segs' : Nat → List Xfer} {i i0 : Nat} {l : Loc} {d τ : Nat}
    (h : SegW X len segs i l d τ) (h0 : i0 ≤ i) (he : ∀ s, i ≤ s + 1 → segs' s = segs s) : SegW X len segs' i0 l d τ := by
  obtain ⟨i', h1, h2, y, hy, h3⟩ := h
  exact ⟨i', by omega, h2, y, by rw [he _ (by omega)]; exact hy, h3⟩

/-- A transfer is kept on day `d`, or everything it leads to is reached otherwise. -/
def KeptOr (tt : TT) (rt : Route) (t : Nat) (segs : Nat → List Xfer) (i : Nat) (x : Xfer) (d : Nat) : Prop :=
  (∃ y ∈ segs (i - 1), Restr y x ∧ y.bf.testBit d = true) ∨
    ((∀ l τ, XArr tt x l τ → ∃ τ', τ' ≤ τ ∧ WA tt rt t segs i l d τ') ∧
     (∀ l τ, XCh tt x l τ → ∃ τ', τ' ≤ τ ∧ WC tt rt t segs i l d τ'))

theorem reduceStops {tt : TT} (hf : TimesFit tt) {prf : Nat} (hprf : tt.fpsOut prf = tt.fpsOut 0) {rt : Route} {t : Nat}
    (ha : ∀ i, i < rt.stops.length → rt.arr t i < 30000) : ∀ (n : Nat) (acc : (Nat → List Xfer) × RedSt), n < rt.stops.length →
    (∀ s, ∀ x ∈ acc.1 s, XFit tt x) → RedInv (WA tt rt t acc.1 (n + 1)) (WC tt rt t acc.1 (n + 1)) acc.2 →
    (∀ s, n ≤ s → (((List.range n).reverse.map (· + 1)).foldl (reduceStop tt prf rt t) acc).1 s = acc.1 s) ∧
    ∀ i, 1 ≤ i → i ≤ n → (rt.stop i).outAllowed = true → ∀ x ∈ acc.1 (i - 1), ∀ d, d < nBits → x.bf.testBit d = true →
      KeptOr tt rt t (((List.range n).reverse.map (· + 1)).foldl (reduceStop tt prf rt t) acc).1 i x d
  | 0, acc, _, _, _ => ⟨fun _ _ => rfl, fun i h1 h2 => by omega⟩
  | n + 1, acc, hn, hx, hinv => by
    rw [List.range_succ, List.reverse_append, List.reverse_singleton, List.singleton_append, List.map_cons, List.foldl_cons]
    -- the state after this stop
    have step : (∀ s, s ≠ n → (reduceStop tt prf rt t acc (n + 1)).1 s = acc.1 s) ∧
        (∀ s, ∀ x ∈ (reduceStop tt prf rt t acc (n + 1)).1 s, XFit tt x) ∧
        RedInv (WA tt rt t (reduceStop tt prf rt t acc (n + 1)).1 (n + 1)) (WC tt rt t (reduceStop tt prf rt t acc (n + 1)).1 (n + 1))
          (reduceStop tt prf rt t acc (n + 1)).2 ∧
        ((rt.stop (n + 1)).outAllowed = true → ∀ x ∈ acc.1 n, ∀ d, d < nBits → x.bf.testBit d = true →
          KeptOr tt rt t (reduceStop tt prf rt t acc (n + 1)).1 (n + 1) x d) := by
      unfold reduceStop
      simp only
      by_cases ho : (rt.stop (n + 1)).outAllowed = false
      · rw [if_pos ho]
        refine ⟨fun _ _ => rfl, hx, ⟨?_, ?_⟩, fun h => by rw [h] at ho; simp at ho⟩
        · intro l e he d hd
          rcases hinv.arr l e he d hd with ⟨i', h1, h2⟩ | h
          · exact Or.inl ⟨i', by omega, h2⟩
          · exact Or.inr (h.congr (by omega) (fun _ _ => rfl))
        · intro l e he d hd
          rcases hinv.ch l e he d hd with ⟨i', h1, h2⟩ | h
          · exact Or.inl ⟨i', by omega, h2⟩
          · exact Or.inr (h.congr (by omega) (fun _ _ => rfl))
      · rw [if_neg ho]
        have ho' : (rt.stop (n + 1)).outAllowed = true := by simpa using ho
        have hown := reachStop_step tt (tt.fpsOut prf) (rt.stop (n + 1)).loc (rt.arr t (n + 1)) (rt.bits t) acc.2 (ha _ hn)
          (hf.transfer _) (hf.fps prf _)
        rw [hprf] at hown ⊢
        generalize reachStop tt (tt.fpsOut 0) (rt.stop (n + 1)).loc (rt.arr t (n + 1)) (rt.bits t) acc.2 = S1 at hown ⊢
        have hinv1 : RedInv (fun l d τ => OwnArr tt rt t (n + 1) l d τ ∨ SegW (XArr tt) rt.stops.length acc.1 (n + 2) l d τ)
            (fun l d τ => OwnCh tt rt t (n + 1) l d τ ∨ SegW (XCh tt) rt.stops.length acc.1 (n + 2) l d τ) S1 := by
          constructor
          · intro l e he d hd
            rcases hown.arrOrig l e he d hd with ⟨e0, h0, h1, h2⟩ | ⟨h1, hb, h2⟩
            · rw [← h1]
              rcases hinv.arr l e0 h0 d h2 with ⟨i', h3, h4⟩ | h3
              · exact Or.inl ⟨i', by omega, h4⟩
              · exact Or.inr h3
            · exact Or.inl ⟨n + 1, Nat.le_refl _, hn, ho', hb, h2⟩
          · intro l e he d hd
            rcases hown.chOrig l e he d hd with ⟨e0, h0, h1, h2⟩ | ⟨h1, hb, h2⟩
            · rw [← h1]
              rcases hinv.ch l e0 h0 d h2 with ⟨i', h3, h4⟩ | h3
              · exact Or.inl ⟨i', by omega, h4⟩
              · exact Or.inr h3
            · exact Or.inl ⟨n + 1, Nat.le_refl _, hn, ho', hb, h2⟩
        have hr := reduceList_spec hf (acc.1 n) S1 _ _ (hx n) hinv1
        rw [show n + 1 - 1 = n by omega]
        have hres := reduceList_restr tt (acc.1 n) S1
        generalize reduceList tt (acc.1 n) S1 = R at hr hres ⊢
        have e1 : ∀ s, s ≠ n → Raptor.upd acc.1 n R.1 s = acc.1 s := by
          intro s hs; unfold Raptor.upd; rw [if_neg hs]
        have e2 : Raptor.upd acc.1 n R.1 n = R.1 := by unfold Raptor.upd; rw [if_pos rfl]
        have up : ∀ (X : Xfer → Loc → Nat → Prop) l d τ, SegW X rt.stops.length acc.1 (n + 2) l d τ →
            SegW X rt.stops.length (Raptor.upd acc.1 n R.1) (n + 1) l d τ :=
          fun X l d τ h => h.congr (by omega) (fun s hs => e1 s (by omega))
        have new : ∀ (X : Xfer → Loc → Nat → Prop) l d τ, (∃ y ∈ R.1, y.bf.testBit d = true ∧ X y l τ) →
            SegW X rt.stops.length (Raptor.upd acc.1 n R.1) (n + 1) l d τ :=
          fun X l d τ ⟨y, hy, h⟩ => ⟨n + 1, Nat.le_refl _, hn, y, by rw [show n + 1 - 1 = n by omega, e2]; exact hy, h⟩
        have hA : ∀ l d τ, ((OwnArr tt rt t (n + 1) l d τ ∨ SegW (XArr tt) rt.stops.length acc.1 (n + 2) l d τ) ∨
            ∃ y ∈ R.1, y.bf.testBit d = true ∧ XArr tt y l τ) → WA tt rt t (Raptor.upd acc.1 n R.1) (n + 1) l d τ := by
          rintro l d τ ((h | h) | h)
          · exact Or.inl h
          · exact Or.inr (up _ _ _ _ h)
          · exact Or.inr (new _ _ _ _ h)
        have hC : ∀ l d τ, ((OwnCh tt rt t (n + 1) l d τ ∨ SegW (XCh tt) rt.stops.length acc.1 (n + 2) l d τ) ∨
            ∃ y ∈ R.1, y.bf.testBit d = true ∧ XCh tt y l τ) → WC tt rt t (Raptor.upd acc.1 n R.1) (n + 1) l d τ := by
          rintro l d τ ((h | h) | h)
          · exact Or.inl h
          · exact Or.inr (up _ _ _ _ h)
          · exact Or.inr (new _ _ _ _ h)
        refine ⟨e1, ?_, ⟨fun l e he d hd => hA _ _ _ (hr.1.arr l e he d hd), fun l e he d hd => hC _ _ _ (hr.1.ch l e he d hd)⟩, ?_⟩
        · intro s x hxs
          simp only at hxs
          by_cases hs : s = n
          · subst hs
            rw [e2] at hxs
            obtain ⟨x0, h0, b, rfl, _⟩ := hres x hxs
            exact hx s x0 h0
          · rw [e1 s hs] at hxs
            exact hx s x hxs
        · intro _ x hxn d hdn hd
          rcases hr.2 x hxn d hdn hd with ⟨y, hy, h⟩ | ⟨h1, h2⟩
          · exact Or.inl ⟨y, by simp only; rw [show n + 1 - 1 = n by omega, e2]; exact hy, h⟩
          · right
            constructor
            · intro l τ h
              obtain ⟨τ', h3, h4⟩ := h1 l τ h
              exact ⟨τ', h3, hA l d τ' h4⟩
            · intro l τ h
              obtain ⟨τ', h3, h4⟩ := h2 l τ h
              exact ⟨τ', h3, hC l d τ' h4⟩
    obtain ⟨s1, s2, s3, s4⟩ := step
    obtain ⟨i1, i2⟩ := reduceStops hf hprf ha n (reduceStop tt prf rt t acc (n + 1)) (by omega) s2 s3
    refine ⟨fun s hs => by rw [i1 s (by omega), s1 s (by omega)], ?_⟩
    intro i h1 h2 ho x hxi d hdn hd
    by_cases hi : i = n + 1
    · subst hi
      rw [show n + 1 - 1 = n by omega] at hxi
      have hsame : ∀ s, n + 1 ≤ s + 1 → (((List.range n).reverse.map (· + 1)).foldl (reduceStop tt prf rt t)
          (reduceStop tt prf rt t acc (n + 1))).1 s = (reduceStop tt prf rt t acc (n + 1)).1 s := fun s hs => i1 s (by omega)
      rcases s4 ho x hxi d hdn hd with ⟨y, hy, h⟩ | ⟨h1, h2⟩
      · exact Or.inl ⟨y, by rw [hsame _ (by omega)]; exact hy, h⟩
      · right
        constructor
        · intro l τ h
          obtain ⟨τ', h3, h4⟩ := h1 l τ h
          exact ⟨τ', h3, h4.imp id (fun h => h.congr (Nat.le_refl _) hsame)⟩
        · intro l τ h
          obtain ⟨τ', h3, h4⟩ := h2 l τ h
          exact ⟨τ', h3, h4.imp id (fun h => h.congr (Nat.le_refl _) hsame)⟩
    · exact i2 i h1 (by omega) ho x (by rw [s1 _ (by omega)]; exact hxi) d hdn hd

/-- Every transfer found by the line-based part is kept, or everything it leads to is reached otherwise. -/
theorem reduction_spec {tt : TT} (hf : TimesFit tt) {prf : Nat} (hprf : tt.fpsOut prf = tt.fpsOut 0) {rt : Route} {t : Nat}
    (ha : ∀ i, i < rt.stops.length → rt.arr t i < 30000) (nbs : List Nb) (hx : ∀ s, ∀ x ∈ lineBased tt rt t nbs s, XFit tt x)
    {i : Nat} (h1 : 1 ≤ i) (h2 : i < rt.stops.length) (ho : (rt.stop i).outAllowed = true) {x : Xfer}
    (hxi : x ∈ lineBased tt rt t nbs (i - 1)) {d : Nat} (hdn : d < nBits) (hd : x.bf.testBit d = true) :
    KeptOr tt rt t (preprocessTransport tt prf rt t nbs) i x d := by
  unfold preprocessTransport
  exact (reduceStops hf hprf ha (rt.stops.length - 1) (lineBased tt rt t nbs, ⟨fun _ => [], fun _ => [], 0⟩) (by omega) hx
    ⟨fun l e he => by simp at he, fun l e he => by simp at he⟩).2 i h1 (by omega) ho x hxi d hdn hd

end Nigiri.TB
