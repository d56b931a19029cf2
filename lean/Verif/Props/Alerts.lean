import Verif.Spec.Alerts
import Verif.Props.RtLocations
/-!
# C75: the alerts of a trip at a stop
-/

namespace Nigiri.Alerts
open Nigiri.Rt (Rtt Tt Run addRtTransport resolveRt lookup_append_new)

/-! ### Real-time instances keep their index -/

/-- What can be looked up stays the same. -/
structure Grows (r r' : Rtt) : Prop where
  by_ : ∀ k rt, r.byStatic.lookup k = some rt → r'.byStatic.lookup k = some rt
  add : ∀ src id (i rt : Nat), (r.addIds src).find id = some i → (r.addTransports src)[i]? = some rt →
    (r'.addIds src).find id = some i ∧ (r'.addTransports src)[i]? = some rt

theorem Grows.refl (r : Rtt) : Grows r r := ⟨fun _ _ h => h, fun _ _ _ _ h1 h2 => ⟨h1, h2⟩⟩

theorem Grows.trans {a b c : Rtt} (h1 : Grows a b) (h2 : Grows b c) : Grows a c :=
  ⟨fun k rt h => h2.by_ k rt (h1.by_ k rt h), fun s id i rt h h' =>
    have := h1.add s id i rt h h'
    h2.add s id i rt this.1 this.2⟩

theorem Grows.of_eq {r r' : Rtt} (h1 : r'.byStatic = r.byStatic) (h2 : r'.addIds = r.addIds)
    (h3 : r'.addTransports = r.addTransports) : Grows r r' :=
  ⟨fun k rt h => by rw [h1]; exact h, fun s id i rt h h' => by rw [h2, h3]; exact ⟨h, h'⟩⟩

theorem find_store {α : Type} [DecidableEq α] (ss : StringStore α) (x y : α) (i : Nat) (h : ss.find y = some i) :
    (ss.store x).1.find y = some i := by
  unfold StringStore.store
  split
  · exact h
  · rename_i hx
    have hne : x ≠ y := by rintro rfl; rw [hx] at h; cases h
    unfold StringStore.find at h ⊢
    simp only
    have hp : (fun j : Nat => (ss.strings ++ [x])[j]? == some y) = fun j : Nat => ss.strings[j]? == some y := by
      funext j
      rw [List.getElem?_append]
      split
      · rfl
      · rename_i hj
        rw [List.getElem?_eq_none (Nat.not_lt.mp hj)]
        cases hk : j - ss.strings.length with
        | zero => simp [hne]
        | succ k => simp
    rw [hp, List.find?_cons]
    have hl : (ss.strings[ss.strings.length]? == some y) = false := by
      rw [List.getElem?_eq_none (Nat.le_refl _)]; rfl
    rw [hl]; exact h

theorem grows_new (r : Rtt) (src : Nat) (id : String) (rt : Nat) (r' : Rtt) (h1 : r'.byStatic = r.byStatic)
    (h2 : r'.addIds = fun s => if s = src then ((r.addIds src).store id).1 else r.addIds s)
    (h3 : r'.addTransports = fun s => if s = src then r.addTransports src ++ [rt] else r.addTransports s) :
    Grows r r' := by
  refine ⟨fun k x h => by rw [h1]; exact h, fun s y i x hf hx => ?_⟩
  rw [h2, h3]
  by_cases hs : s = src
  · subst hs
    simp only [if_true]
    refine ⟨find_store _ _ _ _ hf, ?_⟩
    rw [List.getElem?_append_left (List.getElem?_eq_some_iff.mp hx).1]; exact hx
  · simp only [if_neg hs]; exact ⟨hf, hx⟩

theorem grows_add (tt : Tt) (r : Rtt) (src : Nat) (t : Option (Nat × Nat)) (ss : List Rt.Stop) (ts : List Int)
    (id : String) : Grows r (addRtTransport tt r src t ss ts id).1 := by
  cases t with
  | none => exact grows_new r src id r.transports.length _ rfl rfl rfl
  | some td =>
    obtain ⟨t, d⟩ := td
    by_cases hid : id = ""
    · subst hid
      refine ⟨fun k rt h => ?_, fun s y i x hf hx => ?_⟩
      · simp only [addRtTransport, if_true]
        split
        · exact h
        · rename_i hno
          have hno : r.byStatic.lookup (t, d) = none := Option.not_isSome_iff_eq_none.mp hno
          rw [lookup_append_new hno]
          by_cases hk : k = (t, d)
          · subst hk; rw [hno] at h; cases h
          · rw [if_neg hk]; exact h
      · simp only [addRtTransport, if_true]
        exact ⟨hf, hx⟩
    · refine grows_new r src id r.transports.length _ ?_ ?_ ?_ <;> simp only [addRtTransport, if_neg hid]

theorem grows_cancel (tt : Tt) (r : Rtt) (run : Run) : Grows r (Rt.cancelRun tt r run) := by
  obtain ⟨t, rt, f, q⟩ := run
  cases t <;> cases rt <;> exact Grows.of_eq rfl rfl rfl

theorem grows_update (tt : Tt) (r : Rtt) (src : Nat) (run : Run) (rt : Nat) (us : List Rt.StopUpd) :
    Grows r (Rt.updateExisting tt r src run rt us) := by
  unfold Rt.updateExisting
  split
  · exact Grows.refl _
  · simp only
    split
    · refine Grows.trans ?_ (grows_cancel _ _ _)
      exact Grows.of_eq rfl rfl rfl
    · exact Grows.of_eq rfl rfl rfl

theorem grows_processRun (tt : Tt) (src : Nat) (us : List Rt.StopUpd) (r : Rtt) (x : Rt.Resolved) :
    Grows r (Rt.processRun tt src us r x) := by
  unfold Rt.processRun
  simp only
  split
  · refine Grows.trans ?_ (grows_update _ _ _ _ _ _)
    exact Grows.of_eq rfl rfl rfl
  · exact (grows_add _ _ _ _ _ _ _).trans (grows_update _ _ _ _ _ _)

theorem grows_foldl {α : Type} (f : Rtt → α → Rtt) (h : ∀ r x, Grows r (f r x)) (l : List α) (r : Rtt) :
    Grows r (l.foldl f r) := by
  induction l generalizing r with
  | nil => exact Grows.refl _
  | cons x l ih => exact (h r x).trans (ih _)

theorem grows_process (tt : Tt) (r : Rtt) (e : Rt.Entity) : Grows r (Rt.process tt r e) := by
  cases e with
  | cancel src runs => exact grows_foldl _ (fun r x => grows_cancel _ _ _) _ _
  | update src runs us => exact grows_foldl _ (fun r x => grows_processRun _ _ _ _ _) _ _
  | added src id pl io us =>
    simp only [Rt.process]
    split
    · refine Grows.trans ?_ (grows_update _ _ _ _ _ _)
      exact Grows.of_eq rfl rfl rfl
    · split
      · exact Grows.refl _
      · exact (grows_add _ _ _ _ _ _ _).trans (grows_update _ _ _ _ _ _)

/-! ### Entries of the tables -/

/-- An entry `get_alerts` can find. -/
inductive Entry
  | rt (k : Nat) (l : Option Nat)
  | route (src k : Nat) (d l : Option Nat)
  | agency (k : Nat) (ty l : Option Nat)
  | loc (k : Nat)

/-- Alert `i` has the entry. -/
def Has (s : S) (i : Nat) : Entry → Prop
  | .rt k l => (l, i) ∈ s.rtA k
  | .route src k d l => (d, l, i) ∈ s.routeA src k
  | .agency k ty l => (ty, l, i) ∈ s.agencyA k
  | .loc k => i ∈ s.locA k

/-- The entry of a selector, once its run has an instance in `r`. -/
def target (st : Static) (r : Rtt) (src : Nat) (e : Selector) : Option Entry :=
  if e.stop.isSome ∧ stopOf st src e = none then none
  else match e.trip with
    | some .bad => none
    | some (.found t id) => (runOf r src t id).rt.map (.rt · (stopOf st src e))
    | none => match e.route with
      | some x => (st.findRoute src x).map (.route src · (e.dir.bind dirOf) (stopOf st src e))
      | none => match e.agency with
        | some a => (st.findAgency src a).map (.agency · (e.routeType.bind typeOf) (stopOf st src e))
        | none => match e.routeType with
          | some _ => none
          | none => (stopOf st src e).map .loc

theorem runOf_static (r : Rtt) (src : Nat) (k : Nat × Nat) (id : String) :
    (runOf r src (some k) id).rt = r.byStatic.lookup k := by
  simp only [runOf, resolveRt]
  cases r.byStatic.lookup k <;> rfl

theorem runOf_none (r : Rtt) (src : Nat) (id : String) (rt : Nat) :
    (runOf r src none id).rt = some rt ↔
      ∃ i, (r.addIds src).find id = some i ∧ (r.addTransports src)[i]? = some rt := by
  simp only [runOf, resolveRt]
  cases (r.addIds src).find id <;> simp

theorem runOf_t (r : Rtt) (src : Nat) (t : Option (Nat × Nat)) (id : String) : (runOf r src t id).t = t := by
  simp only [runOf, resolveRt]
  split
  · simp_all
  · split <;> simp_all

theorem runOf_grows {r r' : Rtt} (h : Grows r r') (src : Nat) (t : Option (Nat × Nat)) (id : String) (rt : Nat)
    (hr : (runOf r src t id).rt = some rt) : (runOf r' src t id).rt = some rt := by
  cases t with
  | some k => rw [runOf_static] at hr ⊢; exact h.by_ k rt hr
  | none =>
    rw [runOf_none] at hr ⊢
    obtain ⟨i, h1, h2⟩ := hr
    exact ⟨i, h.add src id i rt h1 h2⟩

theorem target_grows {st : Static} {r r' : Rtt} (h : Grows r r') {src : Nat} {e : Selector} {y : Entry}
    (hy : target st r src e = some y) : target st r' src e = some y := by
  unfold target at hy ⊢
  split at hy
  · cases hy
  · rename_i h0
    rw [if_neg h0]
    cases ht : e.trip with
    | none => rw [ht] at hy; exact hy
    | some t =>
      rw [ht] at hy
      cases t with
      | bad => exact hy
      | found t id =>
        simp only at hy ⊢
        obtain ⟨rt, h1, h2⟩ := Option.map_eq_some_iff.mp hy
        rw [runOf_grows h _ _ _ _ h1, ← h2]; rfl

theorem mem_push {β : Type} (f : Nat → List β) (k : Nat) (x : β) (j : Nat) (y : β) :
    y ∈ push f k x j ↔ y ∈ f j ∨ (j = k ∧ y = x) := by
  unfold push
  split <;> simp_all

/-- What one informed entity adds. -/
theorem entity_has {st : Static} {s s' : S} {src i : Nat} {e : Selector} {ok : Bool}
    (h : entity st s src i e = some (s', ok)) :
    Grows s.rtt s'.rtt ∧ s'.contents = s.contents ∧ (ok = false → s' = s) ∧
      (∀ j y, Has s' j y ↔ Has s j y ∨ (j = i ∧ target st s'.rtt src e = some y)) ∧
      (∀ k id, e.trip = some (.found (some k) id) → ¬ (e.stop.isSome ∧ stopOf st src e = none) →
        ∃ rt, s'.rtt.byStatic.lookup k = some rt) ∧
      (target st s'.rtt src e ≠ none → ok = true) := by
  unfold entity at h
  simp only at h
  by_cases h0 : e.stop.isSome ∧ stopOf st src e = none
  · rw [if_pos h0] at h
    simp only [Option.some.injEq, Prod.mk.injEq] at h
    obtain ⟨rfl, rfl⟩ := h
    have ht : target st s.rtt src e = none := by unfold target; rw [if_pos h0]
    exact ⟨.refl _, rfl, fun _ => rfl, by simp [ht], fun k id _ hn => absurd h0 hn, by simp [ht]⟩
  rw [if_neg h0] at h
  cases htr : e.trip with
  | some tr =>
    rw [htr] at h
    cases tr with
    | bad => cases h
    | found t id =>
      simp only [Option.some.injEq] at h
      unfold tripEntity at h
      simp only at h
      have htg : ∀ r, target st r src e = (runOf r src t id).rt.map (.rt · (stopOf st src e)) := by
        intro r; unfold target; rw [if_neg h0, htr]
      cases hrt : (runOf s.rtt src t id).rt with
      | some rt =>
        rw [hrt] at h
        simp only [Prod.mk.injEq] at h
        obtain ⟨rfl, rfl⟩ := h
        refine ⟨.refl _, rfl, by simp, fun j y => ?_, ?_, by simp⟩
        · rw [htg, hrt]
          cases y <;> simp [Has, mem_push] <;> grind
        · rintro k id' hk -
          simp only [Option.some.injEq, TripRef.found.injEq] at hk
          rw [hk.1, runOf_static] at hrt
          exact ⟨rt, hrt⟩
      | none =>
        rw [hrt, runOf_t] at h
        cases t with
        | none =>
          simp only [Prod.mk.injEq] at h
          obtain ⟨rfl, rfl⟩ := h
          refine ⟨.refl _, rfl, by simp, fun j y => ?_, ?_, ?_⟩
          · rw [htg, hrt]; simp
          · rintro k id' hk -; simp at hk
          · rw [htg, hrt]; simp
        | some k =>
          simp only [Prod.mk.injEq] at h
          obtain ⟨rfl, rfl⟩ := h
          have hno : s.rtt.byStatic.lookup k = none := by rw [runOf_static] at hrt; exact hrt
          have hnew : (addRtTransport st.tt s.rtt src (some k) [] [] "").1.byStatic.lookup k =
              some (addRtTransport st.tt s.rtt src (some k) [] [] "").2 := by
            obtain ⟨t, d⟩ := k
            simp only [addRtTransport, if_true, hno, Option.isSome_none, Bool.false_eq_true, if_false]
            rw [lookup_append_new hno, if_pos rfl]
          refine ⟨grows_add st.tt s.rtt src (some k) [] [] "", rfl, by simp, fun j y => ?_, ?_, by simp⟩
          · rw [htg, runOf_static]
            simp only [hnew]
            cases y <;> simp [Has, mem_push] <;> grind
          · rintro k' id' hk -
            simp only [Option.some.injEq, TripRef.found.injEq] at hk
            rw [← hk.1]
            exact ⟨_, hnew⟩
  | none =>
    rw [htr] at h
    simp only at h
    have hnt : ∀ k id, (none : Option TripRef) = some (.found (some k) id) → ¬ (e.stop.isSome ∧ stopOf st src e = none) →
        ∃ rt, s'.rtt.byStatic.lookup k = some rt := by intro k id hk; cases hk
    have htg : ∀ r, target st r src e = match e.route with
      | some x => (st.findRoute src x).map (.route src · (e.dir.bind dirOf) (stopOf st src e))
      | none => match e.agency with
        | some a => (st.findAgency src a).map (.agency · (e.routeType.bind typeOf) (stopOf st src e))
        | none => match e.routeType with
          | some _ => none
          | none => (stopOf st src e).map .loc := by
      intro r; unfold target; rw [if_neg h0, htr]
    simp only [htg]
    cases hro : e.route with
    | some x =>
      rw [hro] at h
      simp only at h
      cases hf : st.findRoute src x with
      | none =>
        rw [hf] at h
        simp only [Option.some.injEq, Prod.mk.injEq] at h
        obtain ⟨rfl, rfl⟩ := h
        exact ⟨.refl _, rfl, by simp, by simp [*], hnt, by simp [*]⟩
      | some k =>
        rw [hf] at h
        simp only [Option.some.injEq, Prod.mk.injEq] at h
        obtain ⟨rfl, rfl⟩ := h
        refine ⟨.refl _, rfl, by simp, fun j y => ?_, hnt, by simp⟩
        cases y <;> simp [Has, *]
        rename_i src' k' d l
        split
        · rename_i hs; subst hs; rw [mem_push]; simp; grind
        · rename_i hs; grind
    | none =>
      rw [hro] at h
      simp only at h
      cases hag : e.agency with
      | some a =>
        rw [hag] at h
        simp only at h
        cases hf : st.findAgency src a with
        | none =>
          rw [hf] at h
          simp only [Option.some.injEq, Prod.mk.injEq] at h
          obtain ⟨rfl, rfl⟩ := h
          exact ⟨.refl _, rfl, by simp, by simp [*], hnt, by simp [*]⟩
        | some k =>
          rw [hf] at h
          simp only [Option.some.injEq, Prod.mk.injEq] at h
          obtain ⟨rfl, rfl⟩ := h
          refine ⟨.refl _, rfl, by simp, fun j y => ?_, hnt, by simp⟩
          cases y <;> simp [Has, mem_push, *] <;> grind
      | none =>
        rw [hag] at h
        simp only at h
        cases hty : e.routeType with
        | some v =>
          rw [hty] at h
          simp only at h
          split at h
          · simp only [Option.some.injEq, Prod.mk.injEq] at h
            obtain ⟨rfl, rfl⟩ := h
            exact ⟨.refl _, rfl, by simp, by simp [*], hnt, by simp [*]⟩
          · simp only [Option.some.injEq, Prod.mk.injEq] at h
            obtain ⟨rfl, rfl⟩ := h
            refine ⟨.refl _, rfl, by simp, fun j y => ?_, hnt, by simp⟩
            cases y <;> simp [Has, *]
        | none =>
          rw [hty] at h
          simp only at h
          cases hst : stopOf st src e with
          | none =>
            rw [hst] at h
            simp only [Option.some.injEq, Prod.mk.injEq] at h
            obtain ⟨rfl, rfl⟩ := h
            exact ⟨.refl _, rfl, by simp, by simp [*], fun _ _ h => (by cases h), by simp [*]⟩
          | some k =>
            rw [hst] at h
            simp only [Option.some.injEq, Prod.mk.injEq] at h
            obtain ⟨rfl, rfl⟩ := h
            refine ⟨.refl _, rfl, by simp, fun j y => ?_, fun _ _ h => (by cases h), by simp⟩
            cases y <;> simp [Has, mem_push, *] <;> grind

/-! ### Histories -/

/-- Additional trips named by the selector are known in `r`. -/
def Known (r : Rtt) (src : Nat) (e : Selector) : Prop :=
  ∀ id, e.trip = some (.found none id) →
    ∃ i rt, (r.addIds src).find id = some i ∧ (r.addTransports src)[i]? = some rt

/-- The run of the selector has an instance in `r`. -/
def Settled (st : Static) (r : Rtt) (src : Nat) (e : Selector) : Prop :=
  ∀ k id, e.trip = some (.found (some k) id) → ¬ (e.stop.isSome ∧ stopOf st src e = none) →
    ∃ rt, r.byStatic.lookup k = some rt

theorem target_back {st : Static} {r r' : Rtt} (hg : Grows r r') {src : Nat} {e : Selector} {y : Entry}
    (hs : Settled st r src e) (hk : Known r src e) (hy : target st r' src e = some y) :
    target st r src e = some y := by
  unfold target at hy ⊢
  split at hy
  · cases hy
  · rename_i h0
    rw [if_neg h0]
    cases ht : e.trip with
    | none => rw [ht] at hy; exact hy
    | some t =>
      rw [ht] at hy
      cases t with
      | bad => exact hy
      | found t id =>
        simp only at hy ⊢
        have hr : ∃ rt, (runOf r src t id).rt = some rt := by
          cases t with
          | some k => rw [runOf_static]; exact hs k id ht h0
          | none =>
            obtain ⟨i, rt, h1, h2⟩ := hk id ht
            exact ⟨rt, (runOf_none _ _ _ _).mpr ⟨i, h1, h2⟩⟩
        obtain ⟨rt, hr⟩ := hr
        rw [runOf_grows hg _ _ _ _ hr] at hy
        rw [hr]; exact hy

theorem Known.grows {r r' : Rtt} (hg : Grows r r') {src : Nat} {e : Selector} (h : Known r src e) :
    Known r' src e := by
  intro id hid
  obtain ⟨i, rt, h1, h2⟩ := h id hid
  exact ⟨i, rt, hg.add src id i rt h1 h2⟩

/-- The loop over the informed entities. -/
theorem entities_has {st : Static} {src i : Nat} (es : List Selector) {s s' : S} {any any' : Bool}
    (h : entities st src i s any es = (s', any', false)) :
    Grows s.rtt s'.rtt ∧ s'.contents = s.contents ∧ (any' = false → s' = s) ∧ (any = true → any' = true) ∧
      (∀ j y, Has s j y → Has s' j y) ∧
      (∀ j y, Has s' j y → Has s j y ∨ (j = i ∧ ∃ e ∈ es, target st s'.rtt src e = some y)) ∧
      (∀ e ∈ es, Known s.rtt src e → ∀ y r, Grows s'.rtt r → target st r src e = some y → Has s' i y ∧ any' = true) := by
  induction es generalizing s any with
  | nil =>
    simp only [entities, Prod.mk.injEq] at h
    obtain ⟨rfl, rfl, -⟩ := h
    exact ⟨.refl _, rfl, fun _ => rfl, id, fun _ _ h => h, fun _ _ h => Or.inl h, by simp⟩
  | cons e es ih =>
    simp only [entities] at h
    split at h
    · simp at h
    · rename_i s1 ok he
      obtain ⟨g1, c1, f1, hh1, st1, ok1⟩ := entity_has he
      obtain ⟨g2, c2, f2, a2, k2, so2, co2⟩ := ih h
      refine ⟨g1.trans g2, by rw [c2, c1], ?_, ?_, fun j y hy => k2 j y ((hh1 j y).mpr (Or.inl hy)), ?_, ?_⟩
      · intro ha
        have hok : (any || ok) = false := by
          refine Bool.eq_false_iff.mpr fun hn => ?_
          rw [a2 hn] at ha; cases ha
        rw [f2 ha]
        exact f1 (by simp at hok; exact hok.2)
      · intro ha; exact a2 (by simp [ha])
      · intro j y hy
        rcases so2 j y hy with hy | ⟨rfl, e', he', ht⟩
        · rcases (hh1 j y).mp hy with hy | ⟨rfl, ht⟩
          · exact Or.inl hy
          · exact Or.inr ⟨rfl, e, by simp, target_grows g2 ht⟩
        · exact Or.inr ⟨rfl, e', by simp [he'], ht⟩
      · intro e' he' hkn y r hg ht
        rcases List.mem_cons.mp he' with rfl | he'
        · have ht1 := target_back (g2.trans hg) st1 (hkn.grows g1) ht
          exact ⟨k2 i y ((hh1 i y).mpr (Or.inr ⟨rfl, ht1⟩)), a2 (by rw [ok1 (by rw [ht1]; simp)]; simp)⟩
        · exact co2 e' he' (hkn.grows g1) y r hg ht

theorem entity_none {st : Static} {s : S} {src i : Nat} {e : Selector} (h : entity st s src i e = none) :
    e.trip = some .bad := by
  unfold entity at h
  simp only at h
  split at h
  · cases h
  · cases ht : e.trip with
    | some t => cases t with
      | bad => rfl
      | found t id => rw [ht] at h; simp at h
    | none =>
      rw [ht] at h
      simp only at h
      repeat' split at h
      all_goals simp at h

theorem entities_no_throw {st : Static} {src i : Nat} (es : List Selector) (s : S) (any : Bool)
    (hb : ∀ e ∈ es, e.trip ≠ some .bad) : (entities st src i s any es).2.2 = false := by
  induction es generalizing s any with
  | nil => rfl
  | cons e es ih =>
    simp only [entities]
    split
    · rename_i he; exact absurd (entity_none he) (hb e (by simp))
    · exact ih _ _ fun e he => hb e (by simp [he])

/-- One alert. -/
theorem alert_has {st : Static} {s : S} (a : Alert) (hb : ∀ e ∈ a.entities, e.trip ≠ some .bad) :
    ∃ s', handleAlert st s a = (s', false) ∧ Grows s.rtt s'.rtt ∧
      (s'.contents = s.contents ∨ s'.contents = s.contents ++ [a]) ∧
      (∀ j y, Has s j y → Has s' j y) ∧
      (∀ j y, Has s' j y → Has s j y ∨
        (s'.contents[j]? = some a ∧ ∃ e ∈ a.entities, target st s'.rtt a.src e = some y)) ∧
      (∀ e ∈ a.entities, Known s.rtt a.src e → ∀ y r, Grows s'.rtt r → target st r a.src e = some y →
        ∃ i, s'.contents[i]? = some a ∧ Has s' i y) := by
  have hn := entities_no_throw (st := st) (src := a.src) (i := s.contents.length) a.entities s false hb
  cases he : entities st a.src s.contents.length s false a.entities with
  | mk s1 p =>
    obtain ⟨any, threw⟩ := p
    rw [he] at hn
    simp only at hn
    subst hn
    obtain ⟨g, c, f, -, k, so, co⟩ := entities_has a.entities he
    unfold handleAlert
    rw [he]
    cases any with
    | false =>
      have := f rfl
      subst this
      refine ⟨s1, rfl, g, Or.inl rfl, fun _ _ h => h, fun _ _ h => Or.inl h, ?_⟩
      intro e he' hk y r hg ht
      exact absurd (co e he' hk y r hg ht).2 (by simp)
    | true =>
      refine ⟨{ s1 with contents := s1.contents ++ [a] }, rfl, g, Or.inr (by simp [c]), k, ?_, ?_⟩
      · intro j y hy
        rcases so j y hy with hy | ⟨rfl, e, he', ht⟩
        · exact Or.inl hy
        · exact Or.inr ⟨by simp [c], e, he', ht⟩
      · intro e he' hk y r hg ht
        exact ⟨s.contents.length, by simp [c], (co e he' hk y r hg ht).1⟩

/-- What holds after the items `h` from state `s0`. -/
structure Inv (st : Static) (r0 : Rtt) (h : Alert → Prop) (s : S) : Prop where
  grows : Grows r0 s.rtt
  from_ : ∀ (i : Nat) a, s.contents[i]? = some a → h a
  sound : ∀ i y, Has s i y → ∃ a, s.contents[i]? = some a ∧ ∃ e ∈ a.entities, target st s.rtt a.src e = some y
  complete : ∀ a, h a → ∀ e ∈ a.entities, Known r0 a.src e → ∀ y r, Grows s.rtt r → target st r a.src e = some y →
    ∃ i, s.contents[i]? = some a ∧ Has s i y

theorem Inv.alert {st : Static} {r0 : Rtt} {h : Alert → Prop} {s s' : S} (hi : Inv st r0 h s) (a : Alert)
    (hb : ∀ e ∈ a.entities, e.trip ≠ some .bad) (hs : handleAlert st s a = (s', false)) :
    Inv st r0 (fun x => h x ∨ x = a) s' := by
  obtain ⟨s'', h1, g, c, k, so, co⟩ := alert_has (st := st) (s := s) a hb
  rw [hs] at h1
  simp only [Prod.mk.injEq, and_true] at h1
  subst h1
  have hc : ∀ (i : Nat) b, s.contents[i]? = some b → s'.contents[i]? = some b := by
    intro i b hb
    rcases c with c | c <;> rw [c]
    · exact hb
    · rw [List.getElem?_append_left (List.getElem?_eq_some_iff.mp hb).1]; exact hb
  refine ⟨hi.grows.trans g, ?_, ?_, ?_⟩
  · intro i b hb
    rcases c with c | c
    · rw [c] at hb; exact Or.inl (hi.from_ i b hb)
    · rw [c] at hb
      rcases List.mem_append.mp (List.mem_of_getElem? hb) with hm | hm
      · obtain ⟨i', hi'⟩ := List.mem_iff_getElem?.mp hm
        exact Or.inl (hi.from_ i' b hi')
      · exact Or.inr (by simpa using hm)
  · intro i y hy
    rcases so i y hy with hy | ⟨h1, h2⟩
    · obtain ⟨b, hb, e, he, ht⟩ := hi.sound i y hy
      exact ⟨b, hc i b hb, e, he, target_grows g ht⟩
    · exact ⟨a, h1, h2⟩
  · rintro b (hb | rfl) e he hk y r hg ht
    · obtain ⟨i, h1, h2⟩ := hi.complete b hb e he hk y r (g.trans hg) ht
      exact ⟨i, hc i b h1, k i y h2⟩
    · exact co e he (hk.grows hi.grows) y r hg ht

theorem has_rtt (s : S) (r : Rtt) (i : Nat) (y : Entry) : Has { s with rtt := r } i y ↔ Has s i y := by
  cases y <;> rfl

theorem Inv.trip {st : Static} {r0 : Rtt} {h : Alert → Prop} {s : S} (hi : Inv st r0 h s) (r : Rtt)
    (hg : Grows s.rtt r) : Inv st r0 h { s with rtt := r } := by
  refine ⟨hi.grows.trans hg, hi.from_, ?_, ?_⟩
  · intro i y hy
    obtain ⟨a, h1, e, he, ht⟩ := hi.sound i y ((has_rtt s r i y).mp hy)
    exact ⟨a, h1, e, he, target_grows hg ht⟩
  · intro a ha e he hk y r' hg' ht
    obtain ⟨i, h1, h2⟩ := hi.complete a ha e he hk y r' (hg.trans hg') ht
    exact ⟨i, h1, (has_rtt s r i y).mpr h2⟩

theorem Inv.congr {st : Static} {r0 : Rtt} {h h' : Alert → Prop} {s : S} (hi : Inv st r0 h s)
    (hh : ∀ a, h a ↔ h' a) : Inv st r0 h' s :=
  ⟨hi.grows, fun i a hc => (hh a).mp (hi.from_ i a hc), hi.sound, fun a ha => hi.complete a ((hh a).mpr ha)⟩

theorem Inv.message {st : Static} {r0 : Rtt} (m : List Item) {h : Alert → Prop} {s : S} (hi : Inv st r0 h s)
    (hb : ∀ a, Item.alert a ∈ m → ∀ e ∈ a.entities, e.trip ≠ some .bad) :
    Inv st r0 (fun a => h a ∨ Item.alert a ∈ m) (message st s m) := by
  induction m generalizing h s with
  | nil => exact hi.congr (by simp)
  | cons x m ih =>
    have hb' : ∀ a, Item.alert a ∈ m → ∀ e ∈ a.entities, e.trip ≠ some .bad := fun a ha => hb a (by simp [ha])
    cases x with
    | trip e =>
      simp only [Alerts.message]
      exact (ih (hi.trip _ (grows_process st.tt s.rtt e)) hb').congr (by simp)
    | alert a =>
      obtain ⟨s', hs, -⟩ := alert_has (st := st) (s := s) a (hb a (by simp))
      simp only [Alerts.message, hs]
      refine (ih (hi.alert a (hb a (by simp)) hs) hb').congr fun b => ?_
      simp only [List.mem_cons, Item.alert.injEq]
      constructor
      · rintro ((h | h) | h)
        · exact Or.inl h
        · exact Or.inr (Or.inl h)
        · exact Or.inr (Or.inr h)
      · rintro (h | h | h)
        · exact Or.inl (Or.inl h)
        · exact Or.inl (Or.inr h)
        · exact Or.inr h

theorem Inv.messages {st : Static} {r0 : Rtt} (ms : List (List Item)) {h : Alert → Prop} {s : S}
    (hi : Inv st r0 h s) (hb : NoBad ms) :
    Inv st r0 (fun a => h a ∨ ∃ m ∈ ms, Item.alert a ∈ m) (messages st s ms) := by
  induction ms generalizing h s with
  | nil => exact hi.congr (by simp)
  | cons m ms ih =>
    refine (ih (hi.message m (hb m (by simp))) fun m' hm' => hb m' (by simp [hm'])).congr fun a => ?_
    simp only [List.mem_cons, exists_eq_or_imp]
    exact or_assoc

theorem inv_init (st : Static) (r0 : Rtt) : Inv st r0 (fun _ => False) (S.init r0) := by
  refine ⟨.refl _, by simp [S.init], ?_, by simp⟩
  intro i y hy
  cases y <;> simp [Has, S.init] at hy

/-! ### The query -/

/-- The entry fits the query. -/
def Fit (st : Static) (q : Query) : Entry → Prop
  | .rt k l => q.rt = some k ∧ matchesLocation st q l = true
  | .route src k d l => q.src = src ∧ k = st.tripRoute q.trip ∧ anyOr d (if st.tripDir q.trip then 1 else 0) = true ∧
      matchesLocation st q l = true
  | .agency k ty l => k = st.routeAgency q.src (st.tripRoute q.trip) ∧
      anyOr ty (st.routeType q.src (st.tripRoute q.trip)) = true ∧ matchesLocation st q l = true
  | .loc k => ∃ l, q.l = some l ∧ (k = l ∨ st.parent l = some k)

theorem mem_getAlerts (st : Static) (s : S) (q : Query) (i : Nat) :
    i ∈ getAlerts st s q ↔ ∃ y, Has s i y ∧ Fit st q y := by
  have hex : (∃ y, Has s i y ∧ Fit st q y) ↔ (∃ k l, Has s i (.rt k l) ∧ Fit st q (.rt k l)) ∨
      (∃ src k d l, Has s i (.route src k d l) ∧ Fit st q (.route src k d l)) ∨
      (∃ k ty l, Has s i (.agency k ty l) ∧ Fit st q (.agency k ty l)) ∨
      (∃ k, Has s i (.loc k) ∧ Fit st q (.loc k)) := by
    constructor
    · rintro ⟨y, h⟩
      cases y with
      | rt k l => exact Or.inl ⟨k, l, h⟩
      | route a b c d => exact Or.inr (Or.inl ⟨a, b, c, d, h⟩)
      | agency a b c => exact Or.inr (Or.inr (Or.inl ⟨a, b, c, h⟩))
      | loc k => exact Or.inr (Or.inr (Or.inr ⟨k, h⟩))
    · rintro (⟨k, l, h⟩ | ⟨a, b, c, d, h⟩ | ⟨a, b, c, h⟩ | ⟨k, h⟩)
      · exact ⟨_, h⟩
      · exact ⟨_, h⟩
      · exact ⟨_, h⟩
      · exact ⟨_, h⟩
  rw [hex]
  unfold getAlerts
  simp only [List.mem_append, List.mem_map, List.mem_filter, or_assoc]
  refine or_congr ?_ (or_congr ?_ (or_congr ?_ ?_))
  · cases hq : q.rt with
    | none => simp [Has, Fit, hq]
    | some rt => simp [Has, Fit, hq]; grind
  · simp [Has, Fit]; grind
  · simp [Has, Fit]; grind
  · cases hq : q.l with
    | none => simp [Has, Fit, hq]
    | some l =>
      cases hp : st.parent l with
      | none => simp [Has, Fit, hq, hp]
      | some p => simp [Has, Fit, hq, hp]; grind

theorem matchesLocation_iff {st : Static} {q : Query} {src : Nat} {e : Selector}
    (h : ¬ (e.stop.isSome ∧ stopOf st src e = none)) :
    matchesLocation st q (stopOf st src e) = true ↔ StopFits st q src e.stop := by
  unfold stopOf at h ⊢
  cases hs : e.stop with
  | none =>
    simp only [matchesLocation, StopFits, Option.bind_none]
    cases hf : q.fuzzy <;> cases hl : q.l <;> simp
  | some id =>
    rw [hs] at h
    simp only [Option.bind_some, Option.isSome_some, true_and] at h ⊢
    cases hx : st.tt.lookup src id with
    | none => exact absurd hx h
    | some x =>
      simp only [matchesLocation, StopFits, hx]
      cases hl : q.l with
      | none => cases q.fuzzy <;> simp
      | some l =>
        cases hp : st.parent l with
        | none => cases q.fuzzy <;> simp [hp]
        | some p =>
          cases hg : st.parent p with
          | none => cases q.fuzzy <;> simp [hp, hg]; all_goals grind
          | some g => cases q.fuzzy <;> simp [hp, hg]; all_goals grind

theorem dirOf_le {d : Nat} (h : d ≤ 1) : dirOf d = some d := by
  unfold dirOf
  rw [if_neg (by omega)]
  congr 1; omega

theorem typeOf_ok {v : Int} (h : 0 ≤ v ∧ v ≤ 1702) : typeOf v = some v.toNat := by
  unfold typeOf
  rw [if_neg (by omega)]
  congr 1; omega

/-- What the tables and the query make of a selector is what it selects. -/
theorem target_fit {st : Static} {r : Rtt} {q : Query} {src : Nat} {e : Selector} (hp : Plain e)
    (hgp : ∀ l p, st.parent l = some p → st.parent p = none) :
    (∃ y, target st r src e = some y ∧ Fit st q y) ↔ Selects st r q src e := by
  unfold target
  by_cases h0 : e.stop.isSome ∧ stopOf st src e = none
  · rw [if_pos h0]
    simp only [reduceCtorEq, false_and, exists_false, false_iff]
    rintro ⟨hs, -⟩
    obtain ⟨h1, h2⟩ := h0
    obtain ⟨id, hid⟩ := Option.isSome_iff_exists.mp h1
    rw [hid] at hs
    obtain ⟨x, l, hx, -⟩ := hs
    simp [stopOf, hid, hx] at h2
  rw [if_neg h0]
  have hm := matchesLocation_iff (q := q) h0
  rcases hp with ⟨ht, h1, h2, h3, h4⟩ | ⟨ht, h1, h2, h3, h4⟩ | ⟨ht, h1, h2, h3, h4⟩ | ⟨ht, h1, h2, h3, h4⟩
  · obtain ⟨t, ht⟩ := Option.isSome_iff_exists.mp ht
    have hsel : Selects st r q src e ↔ StopFits st q src e.stop ∧ TripFits r q src t := by
      simp [Selects, ht, h1, h2, h3, h4]
    rw [hsel, ht]
    cases t with
    | bad => simp [TripFits]
    | found t id =>
      simp only [Option.map_eq_some_iff]
      have hrt : (∃ rt, q.rt = some rt ∧ (runOf r src t id).rt = some rt) ↔ TripFits r q src (.found t id) := by
        cases t with
        | some k => simp only [runOf_static, TripFits]
        | none => simp only [runOf_none, TripFits]; grind
      rw [← hrt, ← hm]
      constructor
      · rintro ⟨y, ⟨rt, h5, rfl⟩, h6, h7⟩
        exact ⟨h7, rt, h6, h5⟩
      · rintro ⟨h7, rt, h6, h5⟩
        exact ⟨_, ⟨rt, h5, rfl⟩, h6, h7⟩
  · obtain ⟨x, hx⟩ := Option.isSome_iff_exists.mp h1
    have hsel : Selects st r q src e ↔ StopFits st q src e.stop ∧ RouteFits st q src x ∧
        ∀ d, e.dir = some d → DirFits st q d := by
      simp [Selects, ht, hx, h3, h4]
    have hd : anyOr (e.dir.bind dirOf) (if st.tripDir q.trip then 1 else 0) = true ↔
        ∀ d, e.dir = some d → DirFits st q d := by
      cases hd : e.dir with
      | none => simp [anyOr]
      | some d => simp [anyOr, dirOf_le (h2 d hd), DirFits]
    rw [hsel, ht, hx, ← hm, ← hd]
    simp only [Option.map_eq_some_iff, RouteFits]
    constructor
    · rintro ⟨y, ⟨k, h5, rfl⟩, h6, rfl, h7, h8⟩
      exact ⟨h8, ⟨h6, h5⟩, h7⟩
    · rintro ⟨h8, ⟨h6, h5⟩, h7⟩
      exact ⟨_, ⟨_, h5, rfl⟩, h6, rfl, h7, h8⟩
  · obtain ⟨x, hx⟩ := Option.isSome_iff_exists.mp h3
    have hsel : Selects st r q src e ↔ StopFits st q src e.stop ∧ AgencyFits st q src x ∧
        ∀ v, e.routeType = some v → TypeFits st q v := by
      simp [Selects, ht, hx, h1, h2]
    have hd : anyOr (e.routeType.bind typeOf) (st.routeType q.src (st.tripRoute q.trip)) = true ↔
        ∀ v, e.routeType = some v → TypeFits st q v := by
      cases hd : e.routeType with
      | none => simp [anyOr]
      | some v =>
        have hv := h4 v hd
        simp [anyOr, typeOf_ok hv, TypeFits]; omega
    rw [hsel, ht, h1, hx, ← hm, ← hd]
    simp only [Option.map_eq_some_iff, AgencyFits]
    constructor
    · rintro ⟨y, ⟨k, h5, rfl⟩, rfl, h7, h8⟩
      exact ⟨h8, h5, h7⟩
    · rintro ⟨h8, h5, h7⟩
      exact ⟨_, ⟨_, h5, rfl⟩, rfl, h7, h8⟩
  · rw [ht, h1, h3, h4]
    cases hs : e.stop with
    | none =>
      have : stopOf st src e = none := by simp [stopOf, hs]
      simp [this, Selects, ht, h1, h3, h4, hs]
    | some id =>
      have hsel : Selects st r q src e ↔ StopFits st q src (some id) := by
        simp [Selects, ht, hs, h1, h2, h3, h4]
      rw [hsel]
      cases hx : st.tt.lookup src id with
      | none => exact absurd ⟨by simp [hs], by simp [stopOf, hs, hx]⟩ h0
      | some x =>
        have : stopOf st src e = some x := by simp [stopOf, hs, hx]
        simp only [this, Option.map_some, Option.some.injEq, exists_eq_left', Fit, StopFits, hx]
        constructor
        · rintro ⟨l, h5, h6⟩
          exact ⟨x, l, rfl, h5, h6.elim Or.inl fun h => Or.inr (Or.inl h)⟩
        · rintro ⟨x', l, rfl, h5, h6 | h6 | ⟨p, h6, h7⟩⟩
          · exact ⟨l, h5, Or.inl h6⟩
          · exact ⟨l, h5, Or.inr h6⟩
          · rw [hgp l p h6] at h7; cases h7

/-- **C75 (partial).** After any sequence of GTFS-RT messages with alerts and trip updates, asking for the alerts of a
trip, its real-time run and a stop yields exactly the alerts of the feed with an informed entity that selects
them — each reported index belongs to an alert of the feed, nothing is lost and nothing is attached to another
trip or stop.  Missing: trip references whose lookup throws, additional trips which are announced after the alert, route
type alone and other combinations of selectors, stops two levels below the alerted station (see the
counterexamples). -/
theorem C75_alerts_partial (st : Static) (r0 : Rtt) (ms : List (List Item)) (hb : NoBad ms) (hk : TripsKnown r0 ms)
    (hp : ∀ m ∈ ms, ∀ a, Item.alert a ∈ m → ∀ e ∈ a.entities, Plain e)
    (hgp : ∀ l p, st.parent l = some p → st.parent p = none) (q : Query) :
    (∀ i ∈ getAlerts st (messages st (S.init r0) ms) q, ∃ a, (messages st (S.init r0) ms).contents[i]? = some a) ∧
    ∀ a, (∃ i ∈ getAlerts st (messages st (S.init r0) ms) q, (messages st (S.init r0) ms).contents[i]? = some a) ↔
      (∃ m ∈ ms, Item.alert a ∈ m) ∧ ∃ e ∈ a.entities, Selects st (messages st (S.init r0) ms).rtt q a.src e := by
  have hi := (inv_init st r0).messages ms hb
  generalize messages st (S.init r0) ms = s at hi
  refine ⟨fun i h => ?_, fun a => ⟨?_, ?_⟩⟩
  · obtain ⟨y, hy, -⟩ := (mem_getAlerts st s q i).mp h
    obtain ⟨a, ha, -⟩ := hi.sound i y hy
    exact ⟨a, ha⟩
  · rintro ⟨i, h, hc⟩
    obtain ⟨y, hy, hf⟩ := (mem_getAlerts st s q i).mp h
    obtain ⟨a', ha, e, he, ht⟩ := hi.sound i y hy
    rw [hc] at ha
    cases ha
    rcases hi.from_ i a hc with h | ⟨m, hm, hma⟩
    · exact h.elim
    · exact ⟨⟨m, hm, hma⟩, e, he, (target_fit (hp m hm a hma e he) hgp).mp ⟨y, ht, hf⟩⟩
  · rintro ⟨⟨m, hm, hma⟩, e, he, hsel⟩
    obtain ⟨y, ht, hf⟩ := (target_fit (hp m hm a hma e he) hgp).mpr hsel
    obtain ⟨i, hc, hy⟩ := hi.complete a (Or.inr ⟨m, hm, hma⟩) e he (fun id hid => hk m hm a hma e he id hid) y s.rtt
      (.refl _) ht
    exact ⟨i, (mem_getAlerts st s q i).mpr ⟨y, hy, hf⟩, hc⟩

/-- **C75 (numbering).** An alert keeps its index: later messages append only. -/
theorem C75_stable (st : Static) (s : S) (ms : List (List Item)) :
    ∃ l, (messages st s ms).contents = s.contents ++ l := by
  have he : ∀ (src i : Nat) (es : List Selector) (s : S) (any : Bool), (entities st src i s any es).1.contents = s.contents := by
    intro src i es
    induction es with
    | nil => intro s any; rfl
    | cons e es ih =>
      intro s any
      simp only [entities]
      split
      · rfl
      · rename_i h; rw [ih]; exact (entity_has h).2.1
  have ha : ∀ (s : S) a, ∃ l, (handleAlert st s a).1.contents = s.contents ++ l := by
    intro s a
    have := he a.src s.contents.length a.entities s false
    unfold handleAlert
    split
    rename_i s1 any threw h1
    rw [h1] at this
    simp only at this
    split
    · exact ⟨[a], by simp [this]⟩
    · exact ⟨[], by simp [this]⟩
  have hm : ∀ (m : List Item) (s : S), ∃ l, (message st s m).contents = s.contents ++ l := by
    intro m
    induction m with
    | nil => intro s; exact ⟨[], by simp [message]⟩
    | cons x m ih =>
      intro s
      cases x with
      | trip e => simp only [message]; exact ih _
      | alert a =>
        obtain ⟨l, hl⟩ := ha s a
        simp only [message]
        split
        · rename_i s1 h1; rw [h1] at hl; exact ⟨l, hl⟩
        · rename_i s1 h1
          rw [h1] at hl
          obtain ⟨l2, h2⟩ := ih s1
          exact ⟨l ++ l2, by rw [h2, hl, List.append_assoc]⟩
  induction ms generalizing s with
  | nil => exact ⟨[], by simp [messages]⟩
  | cons m ms ih =>
    obtain ⟨l, hl⟩ := hm m s
    obtain ⟨l2, h2⟩ := ih (message st s m)
    exact ⟨l ++ l2, by simp only [messages, List.foldl_cons] at h2 ⊢; rw [h2, hl, List.append_assoc]⟩

/-! ### A concrete feed -/

namespace Demo

/-- The line of `FeedDemo` whose stop 1 belongs to station 10 and has the boarding area 11.  Trip 0 is a bus of route
"R" and agency "A", trip 1 a train of route "Q" and agency "B". -/
def st : Static where
  tt := { Rt.FeedDemo.tt with
    lookup := fun s x => if x = "st" then some 10 else if x = "ba" then some 11 else Rt.FeedDemo.tt.lookup s x }
  parent := fun l => if l = 1 then some 10 else none
  findRoute := fun _ x => if x = "R" then some 0 else if x = "Q" then some 1 else none
  findAgency := fun _ x => if x = "A" then some 0 else if x = "B" then some 1 else none
  tripRoute := fun t => t
  routeType := fun _ r => if r = 0 then 3 else 2
  routeAgency := fun _ r => r
  tripDir := fun t => t = 1

/-- The same with boarding area 11 below stop 1. -/
def stDeep : Static := { st with parent := fun l => if l = 11 then some 1 else if l = 1 then some 10 else none }

/-- Alert for the run of trip 0 on day 6, at stop b. -/
def onTrip : Alert := ⟨0, [{ trip := some (.found (some (0, 6)) "T"), stop := some "b" }], "lift out of order"⟩

/-- Alert for route R in direction 0 and for agency B's trains. -/
def onLines : Alert := ⟨0, [{ route := some "R", dir := some 0 }, { agency := some "B", routeType := some 2 }], "detour"⟩

/-- Alert for station 10. -/
def onStation : Alert := ⟨0, [{ stop := some "st" }], "closed exit"⟩

def r0 : Rtt := Rt.create st.tt 6

def feed : List (List Item) :=
  [[.alert onTrip, .trip (.update 0 [Rt.FeedDemo.run] [Rt.FeedDemo.late])], [.alert onLines, .alert onStation]]

/-- Trip 0 running as real-time transport 0, at stop `l`. -/
def ask (l : Option Nat) (fuzzy : Bool) : Query := ⟨0, 0, some 0, l, fuzzy⟩

theorem noBad : NoBad feed := by simp [NoBad, feed, onTrip, onLines, onStation]

theorem known : TripsKnown r0 feed := by simp [TripsKnown, feed, onTrip, onLines, onStation]

theorem plain : ∀ m ∈ feed, ∀ a, Item.alert a ∈ m → ∀ e ∈ a.entities, Plain e := by
  simp [Plain, feed, onTrip, onLines, onStation]

theorem flat : ∀ l p, st.parent l = some p → st.parent p = none := by
  intro l p h
  simp only [st] at h ⊢
  split at h
  · cases h; rfl
  · cases h

/-- The hypotheses of `C75_alerts_partial` hold for this feed; its alerts show up where they should: at stop b (2), at
the platform of the station (1), and for the trip as a whole. -/
example : getAlerts st (messages st (S.init r0) feed) (ask (some 2) false) = [0] ∧
    getAlerts st (messages st (S.init r0) feed) (ask (some 1) false) = [2] ∧
    getAlerts st (messages st (S.init r0) feed) (ask (some 1) true) = [1, 2] ∧
    getAlerts st (messages st (S.init r0) feed) (ask none false) = [1] ∧
    getAlerts st (messages st (S.init r0) feed) ⟨0, 1, none, none, false⟩ = [1] ∧
    (messages st (S.init r0) feed).contents = [onTrip, onLines, onStation] := by decide +kernel

/-- **C75 (limitation).** An alert for a route type is stored but never reported. -/
theorem C75_route_type_lost :
    (messages st (S.init r0) [[.alert ⟨0, [{ routeType := some 3 }], "strike"⟩]]).contents.length = 1 ∧
    (∀ l f, getAlerts st (messages st (S.init r0) [[.alert ⟨0, [{ routeType := some 3 }], "strike"⟩]]) (ask l f) = []) ∧
    ∀ r, Selects st r (ask none false) 0 { routeType := some 3 } := by
  refine ⟨by decide +kernel, ?_, by intro r; simp [Selects, StopFits, TypeFits, ask, st]⟩
  intro l f
  cases hg : getAlerts st _ (ask l f) with
  | nil => rfl
  | cons i is =>
    obtain ⟨y, hy, -⟩ := (mem_getAlerts _ _ _ i).mp (by rw [hg]; simp)
    have hno : ∀ (y : Entry) (i : Nat),
        ¬ Has (messages st (S.init r0) [[.alert ⟨0, [{ routeType := some 3 }], "strike"⟩]]) i y := by
      intro y i
      cases y <;>
        simp [messages, message, handleAlert, entities, entity, Has, S.init, stopOf]
    exact absurd hy (hno y i)

/-- **C75 (limitation).** Later alerts for a smaller route type drop the ones stored before. -/
theorem C75_route_type_dropped :
    (messages st (S.init r0) [[.alert ⟨0, [{ routeType := some 3 }], "x"⟩]]).typeA 0 = [[], [], [], [(none, 0)]] ∧
    (messages st (S.init r0) [[.alert ⟨0, [{ routeType := some 3 }], "x"⟩, .alert ⟨0, [{ routeType := some 1 }], "y"⟩]]).typeA 0 =
      [[], [(none, 1)]] := by decide +kernel

/-- **C75 (limitation).** An alert for a station alone is not reported at a boarding area two levels below, while an
alert for a route at this station is. -/
theorem C75_grandparent :
    getAlerts stDeep (messages stDeep (S.init r0) [[.alert onStation]]) (ask (some 11) false) = [] ∧
    getAlerts stDeep (messages stDeep (S.init r0) [[.alert onStation]]) (ask (some 1) false) = [0] ∧
    getAlerts stDeep (messages stDeep (S.init r0) [[.alert ⟨0, [{ route := some "R", stop := some "st" }], ""⟩]])
      (ask (some 11) false) = [0] ∧
    ∀ r, Selects stDeep r (ask (some 11) false) 0 { stop := some "st" } := by
  refine ⟨by decide +kernel, by decide +kernel, by decide +kernel, ?_⟩
  intro r
  simp [Selects, StopFits, ask, stDeep, st]

/-- **C75 (limitation).** Further selectors of an entity are ignored: an alert for the trains (2) of route R, which is a bus
route, or for route R of another agency, is reported for the buses of route R. -/
theorem C75_combined_ignored :
    getAlerts st (messages st (S.init r0) [[.alert ⟨0, [{ route := some "R", routeType := some 2 }], ""⟩]]) (ask none false) = [0] ∧
    getAlerts st (messages st (S.init r0) [[.alert ⟨0, [{ route := some "R", agency := some "B" }], ""⟩]]) (ask none false) = [0] ∧
    (∀ r, ¬ Selects st r (ask none false) 0 { route := some "R", routeType := some 2 }) ∧
    ∀ r, ¬ Selects st r (ask none false) 0 { route := some "R", agency := some "B" } := by
  refine ⟨by decide +kernel, by decide +kernel, ?_, ?_⟩
  · intro r h
    have := h.2.2.2.2.2.1 2 rfl
    simp [TypeFits, ask, st] at this
  · intro r h
    have := h.2.2.2.2.1 "B" rfl
    simp [AgencyFits, ask, st] at this

/-- An alert whose second entity has a trip descriptor with only a route. -/
def broken : Alert := ⟨0, [{ stop := some "b" }, { trip := some .bad }], "broken"⟩

/-- **C75 (limitation).** The lookup of a trip descriptor without trip id and without start time throws.
The first entity has been entered already: after it the index of stop b does not belong to an alert, the rest of the
message is lost, and the next alert of a later message gets this index and is reported at stop b although it is
about stop c. -/
theorem C75_dangling :
    getAlerts st (messages st (S.init r0) [[.alert broken, .alert onStation]]) (ask (some 2) false) = [0] ∧
    (messages st (S.init r0) [[.alert broken, .alert onStation]]).contents = [] ∧
    getAlerts st (messages st (S.init r0) [[.alert broken], [.alert ⟨0, [{ stop := some "c" }], "c"⟩]]) (ask (some 2) false) = [0] ∧
    (messages st (S.init r0) [[.alert broken], [.alert ⟨0, [{ stop := some "c" }], "c"⟩]]).contents.map (·.text) = ["c"] := by
  decide +kernel

/-- An additional trip. -/
def extra : Item := .trip (.added 0 "X" (fun _ => true) (fun _ => (true, true))
  [⟨none, some "a", none, false, none, some ⟨none, some 9000⟩⟩, ⟨none, some "b", none, false, some ⟨none, some 9010⟩, none⟩])

/-- **C75 (limitation).** The order of the entities matters: an alert for an additional trip is dropped if the trip update
which adds the trip comes later in the message. -/
theorem C75_added_later :
    getAlerts st (messages st (S.init r0) [[extra, .alert ⟨0, [{ trip := some (.found none "X") }], ""⟩]]) (ask none false) = [0] ∧
    getAlerts st (messages st (S.init r0) [[.alert ⟨0, [{ trip := some (.found none "X") }], ""⟩, extra]]) (ask none false) = [] := by
  decide +kernel

end Demo

end Nigiri.Alerts
