import Verif.Spec.Direct
import Verif.Proofs.RaptorSound
namespace Nigiri.Direct
open Nigiri.Raptor Nigiri.Lb Nigiri.StartTimes

/-! ## Walks -/

theorem tdDuration_walk {s : Side} {es : List TdEntry} (hs : TdFootpath.Sorted es) {t w : Int}
    (h : tdDuration s.tdDir es t = some w) : TdWalk s es t w := by
  cases s with
  | boarding =>
    simp only [Side.tdDir, tdDuration, Option.map_eq_some_iff] at h
    obtain ⟨⟨d, e⟩, h1, rfl⟩ := h
    have := TdFootpath.C09_backward es hs t
    rw [h1] at this
    obtain ⟨dep, g1, g2, -, g4, -⟩ := this
    exact ⟨e, dep, g1, g2, g4⟩
  | alighting =>
    simp only [Side.tdDir, tdDuration, Option.map_eq_some_iff] at h
    obtain ⟨⟨d, e⟩, h1, rfl⟩ := h
    have := TdFootpath.C09_forward es hs t
    rw [h1] at this
    obtain ⟨dep, g1, -, g2, g3, -⟩ := this
    exact ⟨e, dep, g2, g1, g3⟩

theorem forEach_walk {s : Side} {es : List TdEntry} (hs : TdFootpath.Sorted es) {t w : Int}
    (h : TdFootpath.forEachDuration (decide (s.tdDir = .fwd)) t es = some w) (hw : w < 511) : TdWalk s es t w := by
  apply tdDuration_walk hs
  unfold TdFootpath.forEachDuration at h
  unfold tdDuration
  cases s <;> simp only [Side.tdDir] at h ⊢ <;> simp at h ⊢ <;>
  · obtain ⟨a, ⟨b, hb⟩, c⟩ := h
    unfold TdFootpath.kMaxDuration at c
    split at c
    · omega
    · subst c; exact ⟨b, hb⟩

theorem effTd_spec (s : Side) (gs : List (Loc × List TdEntry)) (hs : ∀ e ∈ gs, TdFootpath.Sorted e.2) (loc : Loc) (t : Int)
    (h : effTd s gs loc t < 511) : ∃ es, (loc, es) ∈ gs ∧ TdWalk s es t (effTd s gs loc t) := by
  have := Raptor.foldl_inv (fun e : Int => e < 511 → ∃ es, (loc, es) ∈ gs ∧ TdWalk s es t e)
    (fun e g => match TdFootpath.forEachDuration (decide (s.tdDir = .fwd)) t g.2 with
    | some d => if g.1 = loc ∧ d < e then d else e
    | none => e) gs 511 (by omega) (by
      intro e g hg ih
      split
      · next d hd =>
        split
        · next hc =>
          intro hl
          refine ⟨g.2, by rw [← hc.1]; exact hg, forEach_walk (hs g hg) hd hl⟩
        · exact ih
      · exact ih)
  exact this h

theorem effStatic_spec (fps : List (Loc × Int)) (loc : Loc) (h : effStatic fps loc < 511) : (loc, effStatic fps loc) ∈ fps := by
  have := Raptor.foldl_inv (fun e : Int => e < 511 → (loc, e) ∈ fps)
    (fun (e : Int) (fp : Loc × Int) => if fp.1 = loc ∧ fp.2 < e then fp.2 else e) fps 511 (by omega) (by
      intro e g hg ih
      split
      · next hc => intro _; rw [← hc.1]; exact hg
      · exact ih)
  exact this h

theorem eff_walk {q : Query} (hq : q.Ok) {s : Side} {l loc : Loc} {t : Int} (h : q.eff s l loc t < 511) :
    FootWalk q s l loc t (q.eff s l loc t) := by
  unfold FootWalk Query.eff
  unfold Query.eff at h
  split at h
  · next gs hg => rw [hg]; exact effTd_spec s gs (hq.tdFps s l gs hg) loc t h
  · next hg => rw [hg]; exact effStatic_spec _ _ h

theorem footStep_sound {q : Query} (hq : q.Ok) {s : Side} (hm : (q.side s).mode ≠ .intermodal) {loc : Loc} {t : Int} {o : Loc × Int}
    (ho : o ∈ (q.side s).offs) {l : Loc} (hl : l ∈ forEachMeta q.T (q.side s).mode o.1) {st : Int × Loc}
    (ih : st.1 < 511 → SideWalk q s st.2 loc t st.1) :
    (footStep q s (q.side s) loc t o st l).1 < 511 → SideWalk q s (footStep q s (q.side s) loc t o st l).2 loc t (footStep q s (q.side s) loc t o st l).1 := by
  have h1 : (directMatch q (q.side s).mode loc o l st).1 < 511 →
      SideWalk q s (directMatch q (q.side s).mode loc o l st).2 loc t (directMatch q (q.side s).mode loc o l st).1 := by
    unfold directMatch
    split
    · next hc =>
      intro _
      unfold SideWalk
      rw [if_neg hm]
      exact ⟨o.2, ho, l, hl, Or.inl ⟨hc.1, rfl⟩⟩
    · exact ih
  unfold footStep
  dsimp only
  split
  · exact h1
  · next hu =>
    split
    · exact h1
    · next he =>
      split
      · intro _
        unfold SideWalk
        rw [if_neg hm]
        exact ⟨o.2, ho, l, hl, Or.inr ⟨by simpa using hu, _, eff_walk hq (by omega), rfl⟩⟩
      · exact h1

theorem footBest_sound {q : Query} (hq : q.Ok) {s : Side} (hm : (q.side s).mode ≠ .intermodal) (loc : Loc) (t : Int)
    (h : (footBest q s loc t).1 < 511) : SideWalk q s (footBest q s loc t).2 loc t (footBest q s loc t).1 := by
  have := Raptor.foldl_inv (fun st : Int × Loc => st.1 < 511 → SideWalk q s st.2 loc t st.1)
    (fun st o => (forEachMeta q.T (q.side s).mode o.1).foldl (footStep q s (q.side s) loc t o) st) (q.side s).offs (511, 0)
    (fun h => absurd h (by simp)) (by
      intro st o ho ih
      exact Raptor.foldl_inv (fun st : Int × Loc => st.1 < 511 → SideWalk q s st.2 loc t st.1) _ _ st ih
        (fun st' l hl ih' => footStep_sound hq hm ho hl ih'))
  exact this h

theorem lookupOffset_sound {q : Query} (hq : q.Ok) {s : Side} (hm : (q.side s).mode = .intermodal) {loc : Loc} {t w : Int}
    (h : lookupOffset s (q.side s).offs (q.side s).tdOffs loc t = some w) : SideWalk q s (q.boundary s) loc t w := by
  unfold lookupOffset at h
  unfold SideWalk
  rw [if_pos hm]
  refine ⟨rfl, ?_⟩
  split at h
  · next e he =>
    have h1 := List.mem_of_find?_eq_some he
    have h2 : e.1 = loc := by simpa using List.find?_some he
    split at h
    · next d hd =>
      split at h
      · cases h
      · cases h
        exact Or.inl ⟨e.2, by rw [← h2]; exact h1, tdDuration_walk (hq.tdOffs s e h1) hd⟩
    · cases h
  · next he =>
    right
    rw [List.find?_eq_none] at he
    refine ⟨fun es hes => absurd (he _ hes) (by simp), ?_⟩
    rw [Option.map_eq_some_iff] at h
    obtain ⟨o, h1, rfl⟩ := h
    have h2 : o.1 = loc := by simpa using List.find?_some h1
    rw [← h2]; exact List.mem_of_find?_eq_some h1

theorem lookupAccess_sound {q : Query} (hq : q.Ok) {s : Side} {loc : Loc} {t : Int} {x : Leg} (h : lookupAccess q s loc t = some x) :
    ∃ p w, SideWalk q s p loc t w ∧ x = sideLeg s p loc t w (WalkUses q s w) := by
  unfold lookupAccess at h
  split at h
  · next hm =>
    rw [Option.map_eq_some_iff] at h
    obtain ⟨w, h1, rfl⟩ := h
    exact ⟨_, w, lookupOffset_sound hq hm h1, by rw [WalkUses, if_pos hm]⟩
  · next hm =>
    dsimp only at h
    split at h
    · cases h
    · next hb =>
      cases h
      exact ⟨_, _, footBest_sound hq hm loc t (by omega), by rw [WalkUses, if_neg hm]⟩

/-! ## Filters -/

theorem countP_all {sec : List Bool} (h : sec.countP id = sec.length) : ∀ b ∈ sec, b = true := by
  rw [List.countP_eq_length] at h
  exact h

theorem flagSet_on {sec : List Bool} {x : Nat} (hx : sec.length = 0 ∨ sec.length = 1 ∨ x < sec.length) (h : flagSet (Raptor.registerFlag sec) x = true) : FlagOn sec x := by
  unfold flagSet at h
  unfold FlagOn
  by_cases ha : (Raptor.registerFlag sec).all = true
  · have : sec.countP id = sec.length ∧ sec.length ≠ 0 := by
      have ha : (decide (sec.countP id = sec.length) && decide (sec.length ≠ 0)) = true := ha
      rw [Bool.and_eq_true, decide_eq_true_eq, decide_eq_true_eq] at ha; exact ha
    have h2 := countP_all this.1
    have hlt : (if sec.length = 1 then 0 else x) < sec.length := by split <;> omega
    rw [List.getD_eq_getElem?_getD, List.getElem?_eq_getElem hlt, Option.getD_some]
    exact h2 _ (List.getElem_mem hlt)
  · rw [if_neg ha] at h
    by_cases hs : (Raptor.registerFlag sec).some = true
    · rw [if_neg (by simp [hs])] at h
      have : (Raptor.registerFlag sec).sections = sec := by
        have h1 : decide (sec.countP id ≠ 0) = true := hs
        have h2 : ¬ (decide (sec.countP id = sec.length) && decide (sec.length ≠ 0)) = true := ha
        show (if (decide (sec.countP id ≠ 0) && !(decide (sec.countP id = sec.length) && decide (sec.length ≠ 0))) = true then sec else []) = sec
        rw [if_pos (by rw [h1, Bool.true_and, Bool.eq_false_iff.mpr h2]; rfl)]
      rwa [this] at h
    · rw [if_pos (by simpa using hs)] at h
      cases h

theorem on_flagSet {sec : List Bool} {x : Nat} (h : FlagOn sec x) : flagSet (Raptor.registerFlag sec) x = true := by
  unfold flagSet
  unfold FlagOn at h
  by_cases ha : (Raptor.registerFlag sec).all = true
  · rw [if_pos ha]
  · rw [if_neg ha]
    have hmem : true ∈ sec := by
      rw [List.getD_eq_getElem?_getD] at h
      generalize hg : sec[if sec.length = 1 then 0 else x]? = o at h
      cases o with
      | none => cases h
      | some b => rw [Option.getD_some] at h; subst h; exact List.mem_of_getElem? hg
    have hs : (Raptor.registerFlag sec).some = true := by
      show decide (sec.countP id ≠ 0) = true
      rw [decide_eq_true_eq]
      have : 0 < sec.countP id := List.countP_pos_iff.mpr ⟨true, hmem, rfl⟩
      omega
    rw [if_neg (by simp [hs])]
    have : (Raptor.registerFlag sec).sections = sec := by
      have h1 : decide (sec.countP id ≠ 0) = true := hs
      have h2 : ¬ (decide (sec.countP id = sec.length) && decide (sec.length ≠ 0)) = true := ha
      show (if (decide (sec.countP id ≠ 0) && !(decide (sec.countP id = sec.length) && decide (sec.length ≠ 0))) = true then sec else []) = sec
      rw [if_pos (by rw [h1, Bool.true_and, Bool.eq_false_iff.mpr h2]; rfl)]
    rwa [this]

theorem zip_any {required : List Bool} {secFlags : List (List Bool)} (g : FlagData → Bool) :
    (List.zipWith (fun (r : Bool) (f : FlagData) => r && !g f) required (secFlags.map Raptor.registerFlag)).any id = false ↔
      ∀ (f : Nat) (sec : List Bool), required[f]? = some true → secFlags[f]? = some sec → g (Raptor.registerFlag sec) = true := by
  rw [List.any_eq_false]
  constructor
  · intro h f sec h1 h2
    have : (List.zipWith (fun (r : Bool) (f : FlagData) => r && !g f) required (secFlags.map Raptor.registerFlag))[f]? = some (true && !g (Raptor.registerFlag sec)) := by
      rw [List.getElem?_zipWith, h1, List.getElem?_map, h2]; rfl
    have := h _ (List.mem_of_getElem? this)
    simpa using this
  · intro h b hb
    obtain ⟨f, hf⟩ := List.getElem?_of_mem hb
    rw [List.getElem?_zipWith, List.getElem?_map] at hf
    generalize hr : required[f]? = o at hf
    generalize hs : secFlags[f]? = p at hf
    cases o with
    | none => cases hf
    | some r =>
      cases p with
      | none => cases hf
      | some sec =>
        have hf : some (r && !g (Raptor.registerFlag sec)) = some b := hf
        cases hf
        cases r with
        | false => simp
        | true => simp [h f sec hr hs]

theorem not_violate_iff {n : Nat} {required : List Bool} {secFlags : List (List Bool)} (hf : FlagsOk n required secFlags) {a b : Nat} (hb : b < n) :
    sectionsViolate required (secFlags.map Raptor.registerFlag) a b = false ↔ ∀ s, a ≤ s → s < b → SectionPermitted required secFlags s := by
  unfold sectionsViolate
  rw [List.any_eq_false]
  constructor
  · intro h s h1 h2 f sec hr hs
    have h3 := h s (by rw [List.mem_range'_1]; omega)
    rw [Bool.not_eq_true] at h3
    have h4 := (zip_any (fun fd => flagSet fd s)).mp h3 f sec hr hs
    refine flagSet_on ?_ h4
    have := hf.2 sec (List.mem_of_getElem? hs)
    omega
  · intro h x hx
    rw [List.mem_range'_1] at hx
    rw [Bool.not_eq_true]
    exact (zip_any (fun fd => flagSet fd x)).mpr fun f sec hr hs => on_flagSet (h x hx.1 (by omega) f sec hr hs)

theorem passes_clasz {N : Net} {c : Nat} {fl : List FlagData} (h : passes N c fl = true) : N.claszMask.testBit c = true := by
  unfold passes claszAllowed at h
  rw [Bool.and_eq_true] at h
  exact h.1

theorem passes_of {N : Net} {c : Nat} {secFlags : List (List Bool)} (hc : N.claszMask.testBit c = true) {s : Nat}
    (h : SectionPermitted N.required secFlags s) : passes N c (secFlags.map Raptor.registerFlag) = true := by
  unfold passes claszAllowed
  rw [hc, Bool.true_and, List.all_eq_true]
  intro b hb
  obtain ⟨f, hf⟩ := List.getElem?_of_mem hb
  rw [List.getElem?_zipWith, List.getElem?_map] at hf
  generalize hr : N.required[f]? = o at hf
  generalize hs : secFlags[f]? = p at hf
  cases o with
  | none => cases hf
  | some r =>
    cases p with
    | none => cases hf
    | some sec =>
      have hf : some (!r || (Raptor.registerFlag sec).all || (Raptor.registerFlag sec).some) = some b := hf
      cases hf
      cases r with
      | false => rfl
      | true =>
        have := on_flagSet (h f sec hr hs)
        unfold flagSet at this
        by_cases ha : (Raptor.registerFlag sec).all = true
        · simp [ha]
        · rw [if_neg ha] at this
          by_cases hs' : (Raptor.registerFlag sec).some = true
          · simp [hs']
          · rw [if_pos (by simpa using hs')] at this; cases this

/-! ## Pairs of stops -/

theorem pairs_sound {isB isA : StopData → Bool} {a b : Nat} (all : List StopData) (st : Option Nat) (k : Nat) (rest : List StopData) (hr : all.drop k = rest)
    (hst : ∀ x, st = some x → x < k ∧ ∃ s, all[x]? = some s ∧ isB s = true)
    (h : (a, b) ∈ pairs isB isA st k rest) :
    a < b ∧ ∃ sa sb, all[a]? = some sa ∧ all[b]? = some sb ∧ isB sa = true ∧ isA sb = true := by
  have hget : ∀ {s : StopData} {r : List StopData}, all.drop k = s :: r → all[k]? = some s ∧ all.drop (k + 1) = r := by
    intro s r h
    constructor
    · have : (all.drop k)[0]? = some s := by rw [h]; rfl
      rwa [List.getElem?_drop, Nat.add_zero] at this
    · rw [← List.drop_drop, h]; rfl
  induction rest generalizing st k with
  | nil => unfold pairs at h; cases h
  | cons s r ih =>
    obtain ⟨h1, h2⟩ := hget hr
    have hget' : ∀ {s : StopData} {r : List StopData}, all.drop (k + 1) = s :: r → all[k + 1]? = some s ∧ all.drop (k + 1 + 1) = r := by
      intro s r h
      constructor
      · have : (all.drop (k + 1))[0]? = some s := by rw [h]; rfl
        rwa [List.getElem?_drop, Nat.add_zero] at this
      · rw [← List.drop_drop, h]; rfl
    cases st with
    | some x =>
      obtain ⟨g1, sx, g2, g3⟩ := hst x rfl
      rw [pairs] at h
      split at h
      · next hA =>
        rw [List.mem_cons] at h
        rcases h with h | h
        · cases h
          exact ⟨g1, sx, s, g2, h1, g3, hA⟩
        · exact ih none (k + 1) h2 (by simp) h hget'
      · exact ih (some x) (k + 1) h2 (by intro y hy; cases hy; exact ⟨by omega, sx, g2, g3⟩) h hget'
    | none =>
      rw [pairs] at h
      split at h
      · next hB => exact ih (some k) (k + 1) h2 (by intro y hy; cases hy; exact ⟨by omega, s, h1, hB⟩) h hget'
      · exact ih none (k + 1) h2 (by simp) h hget'

/-- The first boarding stop and the first alighting stop after it are a pair. -/
theorem pairs_alight {isB isA : StopData → Bool} {a b : Nat} (all : List StopData) (k : Nat) (rest : List StopData) (hr : all.drop k = rest)
    (hk : k ≤ b) {sb : StopData} (hb : all[b]? = some sb) (hA : isA sb = true) (hfirst : ∀ x s, k ≤ x → x < b → all[x]? = some s → isA s = false) :
    (a, b) ∈ pairs isB isA (some a) k rest := by
  induction rest generalizing k with
  | nil =>
    have : all.length ≤ k := by
      have := congrArg List.length hr
      simp at this; omega
    have : all[b]? = none := List.getElem?_eq_none (by omega)
    rw [this] at hb; cases hb
  | cons s r ih =>
    have h1 : all[k]? = some s := by
      have : (all.drop k)[0]? = some s := by rw [hr]; rfl
      rwa [List.getElem?_drop, Nat.add_zero] at this
    have h2 : all.drop (k + 1) = r := by rw [← List.drop_drop, hr]; rfl
    rw [pairs]
    by_cases hkb : k = b
    · subst hkb
      rw [h1] at hb; cases hb
      rw [if_pos hA]; exact List.mem_cons_self
    · rw [if_neg (by simp [hfirst k s (Nat.le_refl k) (by omega) h1])]
      exact ih (k + 1) h2 (by omega) fun x s hx => hfirst x s (by omega)

theorem pairs_board {isB isA : StopData → Bool} {a b : Nat} (all : List StopData) (k : Nat) (rest : List StopData) (hr : all.drop k = rest)
    (hk : k ≤ a) (hab : a < b) {sa sb : StopData} (ha : all[a]? = some sa) (hb : all[b]? = some sb) (hB : isB sa = true) (hA : isA sb = true)
    (hfirstB : ∀ x s, k ≤ x → x < a → all[x]? = some s → isB s = false)
    (hfirstA : ∀ x s, a < x → x < b → all[x]? = some s → isA s = false) :
    (a, b) ∈ pairs isB isA none k rest := by
  induction rest generalizing k with
  | nil =>
    have : all.length ≤ k := by
      have := congrArg List.length hr
      simp at this; omega
    have : all[a]? = none := List.getElem?_eq_none (by omega)
    rw [this] at ha; cases ha
  | cons s r ih =>
    have h1 : all[k]? = some s := by
      have : (all.drop k)[0]? = some s := by rw [hr]; rfl
      rwa [List.getElem?_drop, Nat.add_zero] at this
    have h2 : all.drop (k + 1) = r := by rw [← List.drop_drop, hr]; rfl
    rw [pairs]
    by_cases hka : k = a
    · subst hka
      rw [h1] at ha; cases ha
      rw [if_pos hB]
      exact pairs_alight all (k + 1) r h2 (by omega) hb hA fun x s hx => hfirstA x s (by omega)
    · rw [if_neg (by simp [hfirstB k s (Nat.le_refl k) (by omega) h1])]
      exact ih (k + 1) h2 (by omega) fun x s hx => hfirstB x s (by omega)

/-! ## Generators -/

theorem locOf_eq {stops : List StopData} {i : Nat} {s : StopData} (h : stops[i]? = some s) : locOf stops i = s.loc := by
  unfold locOf; rw [List.getD_eq_getElem?_getD, h]; rfl

/-- A pair of stops for which there is a generator. -/
theorem stopPairs_sound {q : Query} {stops : List StopData} {secFlags : List (List Bool)} (hf : FlagsOk stops.length q.N.required secFlags) {i j : Nat}
    (h : (i, j) ∈ stopPairs q stops (secFlags.map Raptor.registerFlag)) :
    ∃ si sj, i < j ∧ stops[i]? = some si ∧ stops[j]? = some sj ∧ MayBoard q.N.wheelchair si ∧ MayAlight q.N.wheelchair sj ∧
      (∀ s, i ≤ s → s < j → SectionPermitted q.N.required secFlags s) := by
  unfold stopPairs at h
  rw [List.mem_filter] at h
  obtain ⟨h1, h2⟩ := h
  obtain ⟨g1, si, sj, g2, g3, g4, g5⟩ := pairs_sound stops none 0 stops rfl (by simp) h1
  refine ⟨si, sj, g1, g2, g3, ?_, ?_, ?_⟩
  · unfold Query.canBoard StopData.canStart at g4
    unfold MayBoard
    rw [Bool.and_eq_true] at g4
    split <;> simp_all
  · unfold Query.canAlight StopData.canFinish at g5
    unfold MayAlight
    rw [Bool.and_eq_true] at g5
    split <;> simp_all
  · have hj : j < stops.length := by
      rw [List.getElem?_eq_some_iff] at g3; exact g3.1
    exact (not_violate_iff hf hj).mp (by simpa using h2)

theorem connection_sound {d : Dir} {q : Query} (hq : q.Ok) {time : Int} {v : Vehicle} {stops : List StopData} {i j : Nat} {dep arr : Int} {legs : List Leg}
    (h : connection d q time v stops i j dep arr = some legs)
    (hr : RideLeg q.N v i j ⟨locOf stops i, locOf stops j, dep, arr, .ride v i j⟩) :
    ∃ dp ar, DirectTrip q v i j legs dp ar ∧ InTime d time dp ar := by
  unfold connection at h
  split at h
  · next a b ha hb =>
    split at h
    · next ht =>
      cases h
      obtain ⟨p, w, h1, rfl⟩ := lookupAccess_sound hq ha
      obtain ⟨p', w', h2, rfl⟩ := lookupAccess_sound hq hb
      refine ⟨dep - w, arr + w', ⟨_, p, p', w, w', _, _, rfl, hr, h1, h2, rfl, rfl, rfl, ?_, ?_⟩, ?_⟩
      · unfold dropAtBoundary sideLeg WalkUses
        show (if _ then [] else _) = _ ∨ _
        by_cases hm : (q.side .boarding).mode = .intermodal
        · simp only [if_pos hm]
          by_cases hw : w = 0
          · right; subst hw; exact ⟨by simp, hm, rfl⟩
          · left; rw [if_neg (by simp; omega)]
        · left; simp only [if_neg hm]; simp
      · unfold dropAtBoundary sideLeg WalkUses
        show (if _ then [] else _) = _ ∨ _
        by_cases hm : (q.side .alighting).mode = .intermodal
        · simp only [if_pos hm]
          by_cases hw : w' = 0
          · right; subst hw; exact ⟨by simp, hm, rfl⟩
          · left; rw [if_neg (by simp; omega)]
        · left; simp only [if_neg hm]; simp
      · unfold inTime sideLeg at ht
        unfold InTime
        cases d <;> simpa using ht
    · cases h
  · cases h

theorem mem_routeGens {d : Dir} {q : Query} {time : Int} {g : List (List Leg)} (h : g ∈ routeGens d q time) :
    ∃ ri r i j, q.N.routes[ri]? = some r ∧ passes q.N r.clasz r.flags = true ∧ (i, j) ∈ stopPairs q r.stops r.flags ∧ g = routeGen d q time ri r i j := by
  unfold routeGens at h
  rw [List.mem_flatMap] at h
  obtain ⟨⟨r, ri⟩, h1, h2⟩ := h
  rw [List.mem_zipIdx_iff_getElem?] at h1
  split at h2
  · next hc =>
    rw [Bool.and_eq_true] at hc
    rw [List.mem_map] at h2
    obtain ⟨⟨i, j⟩, h3, rfl⟩ := h2
    exact ⟨ri, r, i, j, h1, hc.2, h3, rfl⟩
  · cases h2

theorem mem_rtGens {d : Dir} {q : Query} {time : Int} {g : List (List Leg)} (h : g ∈ rtGens d q time) :
    ∃ ri r i j, q.N.rts[ri]? = some r ∧ passes q.N r.clasz r.flags = true ∧ (i, j) ∈ stopPairs q r.stops r.flags ∧ g = rtGen d q time ri r i j := by
  unfold rtGens at h
  rw [List.mem_flatMap] at h
  obtain ⟨⟨r, ri⟩, h1, h2⟩ := h
  rw [List.mem_zipIdx_iff_getElem?] at h1
  split at h2
  · next hc =>
    rw [Bool.and_eq_true] at hc
    rw [List.mem_map] at h2
    obtain ⟨⟨i, j⟩, h3, rfl⟩ := h2
    exact ⟨ri, r, i, j, h1, hc.2, h3, rfl⟩
  · cases h2

theorem mem_routeGen {d : Dir} {q : Query} {time : Int} {ri : Nat} {r : RouteData} {i j : Nat} {legs : List Leg} (h : legs ∈ routeGen d q time ri r i j) :
    ∃ day ∈ genDays d q time, ∃ t, t < r.nTr ∧ routeStep d q time ri r i j day t = some legs := by
  unfold routeGen at h
  rw [List.mem_flatMap] at h
  obtain ⟨day, h1, h2⟩ := h
  split at h2
  · rw [List.mem_filterMap] at h2
    obtain ⟨t, h3, h4⟩ := h2
    refine ⟨day, h1, t, ?_, h4⟩
    unfold trOrder at h3
    cases d <;> simpa using h3
  · cases h2

theorem routeStep_sound {d : Dir} {q : Query} (hq : q.Ok) {time : Int} {ri : Nat} {r : RouteData} (hri : q.N.routes[ri]? = some r)
    (hp : passes q.N r.clasz r.flags = true) {i j : Nat} (hij : (i, j) ∈ stopPairs q r.stops r.flags) {day : Int} {t : Nat} (ht : t < r.nTr) {legs : List Leg}
    (h : routeStep d q time ri r i j day t = some legs) :
    ∃ v dp ar, DirectTrip q v i j legs dp ar ∧ InTime d time dp ar := by
  unfold routeStep at h
  dsimp only at h
  split at h
  · cases h
  split at h
  · cases h
  split at h
  · cases h
  next hd =>
    refine ⟨_, connection_sound hq h ?_⟩
    obtain ⟨si, sj, g1, g2, g3, g4, g5, g6⟩ := stopPairs_sound (hq.flags r (List.mem_of_getElem? hri)) hij
    exact ⟨r, hri, ht, by simpa using hd, passes_clasz hp, si, sj, g1, g2, g3, (locOf_eq g2).symm, (locOf_eq g3).symm, g4, g5, g6, rfl, rfl⟩

theorem gens_sound {d : Dir} {q : Query} (hq : q.Ok) {time : Int} {g : List (List Leg)} (hg : g ∈ gens d q time) {legs : List Leg} (h : legs ∈ g) :
    ∃ v i j dp ar, DirectTrip q v i j legs dp ar ∧ InTime d time dp ar := by
  unfold gens at hg
  rw [List.mem_append] at hg
  rcases hg with hg | hg
  · obtain ⟨ri, r, i, j, h1, h2, h3, rfl⟩ := mem_routeGens hg
    obtain ⟨day, -, t, ht, h4⟩ := mem_routeGen h
    obtain ⟨v, dp, ar, h5⟩ := routeStep_sound hq h1 h2 h3 ht h4
    exact ⟨v, i, j, dp, ar, h5⟩
  · obtain ⟨ri, r, i, j, h1, h2, h3, rfl⟩ := mem_rtGens hg
    unfold rtGen at h
    rw [Option.mem_toList] at h
    obtain ⟨dp, ar, h5⟩ := connection_sound hq h (by
      obtain ⟨si, sj, g1, g2, g3, g4, g5, g6⟩ := stopPairs_sound (hq.rtFlags r (List.mem_of_getElem? h1)) h3
      exact ⟨r, h1, passes_clasz h2, si, sj, g1, g2, g3, (locOf_eq g2).symm, (locOf_eq g3).symm, g4, g5, g6, rfl, rfl⟩)
    exact ⟨_, i, j, dp, ar, h5⟩

/-! ## Merging -/

theorem flatten_set {α : Type} {gs : List (List α)} {i : Nat} {h : α} {tl : List α} (hi : gs[i]? = some (h :: tl)) :
    gs.flatten.Perm (h :: (gs.set i tl).flatten) := by
  induction gs generalizing i with
  | nil => cases hi
  | cons g gs ih =>
    cases i with
    | zero =>
      have : g = h :: tl := by simpa using hi
      subst this
      simp
    | succ i =>
      rw [List.getElem?_cons_succ] at hi
      have := ih hi
      simp only [List.set_cons_succ, List.flatten_cons]
      exact (this.append_left g).trans List.perm_middle

/-- Nothing is lost and nothing is added. -/
theorem drain_perm {d : Dir} {gs : List (List (List Leg))} {out : List (List Leg)} (h : Drain d gs out) : gs.flatten.Perm out := by
  induction h with
  | done h =>
    rw [List.flatten_eq_nil_iff.mpr h]
  | step hi _ _ ih => exact (flatten_set hi).trans (ih.cons _)

theorem direct_mem {d : Dir} {q : Query} {time : Int} {out : List (List Leg)} (h : Direct d q time out) (legs : List Leg) :
    legs ∈ out ↔ ∃ g ∈ gens d q time, legs ∈ g := by
  rw [← (drain_perm h).mem_iff, List.mem_flatten]

theorem drain_sorted {d : Dir} {gs : List (List (List Leg))} {out : List (List Leg)} (h : Drain d gs out)
    (hs : ∀ g ∈ gs, g.Pairwise fun x y => key d x ≤ key d y) : out.Pairwise fun x y => key d x ≤ key d y := by
  induction h with
  | done _ => exact List.Pairwise.nil
  | @step gs i h tl out hi hmin hdr ih =>
    have hs' : ∀ g ∈ gs.set i tl, g.Pairwise fun x y => key d x ≤ key d y := by
      intro g hg
      rcases List.mem_or_eq_of_mem_set hg with hg | rfl
      · exact hs g hg
      · exact (List.pairwise_cons.mp (hs _ (List.mem_of_getElem? hi))).2
    refine List.pairwise_cons.mpr ⟨?_, ih hs'⟩
    intro x hx
    rw [← (drain_perm hdr).mem_iff, List.mem_flatten] at hx
    obtain ⟨g, hg, hxg⟩ := hx
    have hall : ∀ g ∈ gs, x ∈ g → key d h ≤ key d x := by
      intro g hg hxg
      cases g with
      | nil => cases hxg
      | cons y g =>
        have h1 := hmin _ hg y rfl
        rw [List.mem_cons] at hxg
        rcases hxg with rfl | hxg
        · exact h1
        · exact Int.le_trans h1 ((List.pairwise_cons.mp (hs _ hg)).1 x hxg)
    rcases List.mem_or_eq_of_mem_set hg with hg | rfl
    · exact hall g hg hxg
    · exact hall _ (List.mem_of_getElem? hi) (List.mem_cons_of_mem _ hxg)

/-- A sequence always exists. -/
theorem drain_exists (d : Dir) (gs : List (List (List Leg))) : ∃ out, Drain d gs out := by
  generalize hn : gs.flatten.length = n
  induction n generalizing gs with
  | zero =>
    refine ⟨[], .done ?_⟩
    rw [List.length_eq_zero_iff] at hn
    exact List.flatten_eq_nil_iff.mp hn
  | succ n ih =>
    have hmin : ∀ gs : List (List (List Leg)), gs.flatten ≠ [] → ∃ (i : Nat) (h : List Leg) (tl : List (List Leg)), gs[i]? = some (h :: tl) ∧ ∀ g ∈ gs, ∀ h', g.head? = some h' → key d h ≤ key d h' := by
      intro gs
      induction gs with
      | nil => intro h; exact absurd rfl h
      | cons g gs ihg =>
        intro _
        by_cases hgs : gs.flatten = []
        · rw [List.flatten_eq_nil_iff] at hgs
          cases g with
          | nil =>
            exfalso
            apply ‹_ ≠ []›
            rw [List.flatten_cons, List.flatten_eq_nil_iff.mpr hgs]; rfl
          | cons h tl =>
            refine ⟨0, h, tl, rfl, ?_⟩
            intro g hg h' hh
            rw [List.mem_cons] at hg
            rcases hg with rfl | hg
            · cases hh; exact Int.le_refl _
            · rw [hgs g hg] at hh; cases hh
        · obtain ⟨i, h, tl, h1, h2⟩ := ihg hgs
          cases g with
          | nil =>
            refine ⟨i + 1, h, tl, h1, ?_⟩
            intro g hg h' hh
            rw [List.mem_cons] at hg
            rcases hg with rfl | hg
            · cases hh
            · exact h2 g hg h' hh
          | cons y tl' =>
            by_cases hle : key d h ≤ key d y
            · refine ⟨i + 1, h, tl, h1, ?_⟩
              intro g hg h' hh
              rw [List.mem_cons] at hg
              rcases hg with rfl | hg
              · cases hh; exact hle
              · exact h2 g hg h' hh
            · refine ⟨0, y, tl', rfl, ?_⟩
              intro g hg h' hh
              rw [List.mem_cons] at hg
              rcases hg with rfl | hg
              · cases hh; exact Int.le_refl _
              · have := h2 g hg h' hh; omega
    obtain ⟨i, h, tl, h1, h2⟩ := hmin gs (by intro h; rw [h] at hn; cases hn)
    have hl := (flatten_set h1).length_eq
    simp only [List.length_cons] at hl
    obtain ⟨out, hout⟩ := ih (gs.set i tl) (by omega)
    exact ⟨h :: out, .step h1 h2 hout⟩

end Nigiri.Direct
