import Verif.Props.RtMessage
import Verif.Props.StringStore

/-!
# C115: the ids of added trips
-/

namespace Nigiri.Rt

/-- The real-time transport which the id of an added trip stands for. -/
def addressed (r : Rtt) (src : Nat) (id : String) : Option Nat := (resolveRt r ⟨none, none, 0, []⟩ id src).rt

theorem addressed_eq (r : Rtt) (src : Nat) (id : String) :
    addressed r src id = ((r.addIds src).find id).bind (fun i => (r.addTransports src)[i]?) := by
  unfold addressed resolveRt
  simp only
  cases (r.addIds src).find id <;> rfl

/-- The ids and transports of added trips fit together. -/
structure IdInv (r : Rtt) : Prop where
  store : ∀ s, StringStore.Inv (r.addIds s)
  len : ∀ s, (r.addIds s).strings.length = (r.addTransports s).length
  tr : ∀ (s i rt : Nat), (r.addTransports s)[i]? = some rt →
    ∃ x, r.transports[rt]? = some x ∧ x.static = none ∧ x.src = s
  inj : ∀ (s s' i j rt : Nat), (r.addTransports s)[i]? = some rt → (r.addTransports s')[j]? = some rt → s = s' ∧ i = j
  sur : ∀ (rt : Nat) (x : RtTransport), r.transports[rt]? = some x → x.static = none → rt ∈ r.addTransports x.src

/-- The parts which matter for added trips are the same. -/
structure SameIds (r r' : Rtt) : Prop where
  ids : r'.addIds = r.addIds
  trs : r'.addTransports = r.addTransports
  keys : r'.transports.map (fun x => (x.static, x.src)) = r.transports.map (fun x => (x.static, x.src))

theorem SameIds.refl (r : Rtt) : SameIds r r := ⟨rfl, rfl, rfl⟩

theorem SameIds.trans {a b c : Rtt} (h : SameIds a b) (h' : SameIds b c) : SameIds a c :=
  ⟨h'.ids.trans h.ids, h'.trs.trans h.trs, h'.keys.trans h.keys⟩

theorem SameIds.get {r r' : Rtt} (h : SameIds r r') {i : Nat} {x : RtTransport} (hx : r'.transports[i]? = some x) :
    ∃ y, r.transports[i]? = some y ∧ y.static = x.static ∧ y.src = x.src := by
  have := congrArg (fun l => l[i]?) h.keys
  simp only [List.getElem?_map, hx, Option.map_some] at this
  cases hy : r.transports[i]? with
  | none => rw [hy] at this; cases this
  | some y =>
    rw [hy] at this
    simp only [Option.map_some, Option.some.injEq, Prod.mk.injEq] at this
    exact ⟨y, rfl, this.1.symm, this.2.symm⟩

theorem SameIds.symm {a b : Rtt} (h : SameIds a b) : SameIds b a := ⟨h.ids.symm, h.trs.symm, h.keys.symm⟩

theorem IdInv.same {r r' : Rtt} (h : IdInv r) (hs : SameIds r r') : IdInv r' where
  store := by rw [hs.ids]; exact h.store
  len := by rw [hs.ids, hs.trs]; exact h.len
  tr := by
    intro s i rt hi
    rw [hs.trs] at hi
    obtain ⟨x, h1, h2, h3⟩ := h.tr s i rt hi
    obtain ⟨y, h4, h5, h6⟩ := hs.symm.get h1
    exact ⟨y, h4, h5.trans h2, h6.trans h3⟩
  inj := by rw [hs.trs]; exact h.inj
  sur := by
    intro rt x hx hn
    obtain ⟨y, h4, h5, h6⟩ := hs.get hx
    rw [hs.trs, ← h6]
    exact h.sur rt y h4 (h5.trans hn)

theorem sameIds_modify (r : Rtt) (rt : Nat) (b : Bool) :
    SameIds r { r with transports := r.transports.modify rt (fun x => { x with cancelled := b }) } := by
  refine ⟨rfl, rfl, ?_⟩
  apply List.ext_getElem?
  intro i
  simp only [List.getElem?_map, List.getElem?_modify]
  cases r.transports[i]? with
  | none => rfl
  | some x => by_cases h : rt = i <;> simp [h]

theorem sameIds_cancel (tt : Tt) (r : Rtt) (run : Run) : SameIds r (cancelRun tt r run) := by
  unfold cancelRun
  cases run.rt with
  | none =>
    cases run.t with
    | none => exact SameIds.refl r
    | some td => exact ⟨rfl, rfl, rfl⟩
  | some rt =>
    cases run.t with
    | none => exact sameIds_modify r rt true
    | some td => exact (sameIds_modify r rt true).trans ⟨rfl, rfl, rfl⟩

theorem sameIds_update (tt : Tt) (r : Rtt) (src : Nat) (run : Run) (rt : Nat) (us : List StopUpd) :
    SameIds r (updateExisting tt r src run rt us) := by
  unfold updateExisting
  cases hx : r.transports[rt]? with
  | none => exact SameIds.refl r
  | some x =>
    simp only
    have h1 : ∀ (ts : List Int) (ss : List Stop) (m : Nat → List Nat), SameIds r { r with
        transports := r.transports.set rt { x with times := ts, stops := ss }
        locRt := m } := by
      intro ts ss m
      refine ⟨rfl, rfl, ?_⟩
      apply List.ext_getElem?
      intro i
      simp only [List.getElem?_map, List.getElem?_set]
      by_cases h : rt = i
      · subst h
        rw [if_pos rfl, hx]
        have := (List.getElem?_eq_some_iff.mp hx).1
        rw [if_pos this]
        rfl
      · rw [if_neg h]
    split
    · exact (h1 _ _ _).trans (sameIds_cancel tt _ _)
    · exact h1 _ _ _

theorem mem_iff_get {α} {l : List α} {a : α} : a ∈ l ↔ ∃ i : Nat, l[i]? = some a := List.mem_iff_getElem?

theorem idInv_add_static {tt : Tt} {r : Rtt} (h : IdInv r) (src t d : Nat) :
    IdInv (addRtTransport tt r src (some (t, d)) [] [] "").1 := by
  have ht : (addRtTransport tt r src (some (t, d)) [] [] "").1.transports =
      r.transports ++ [⟨some (t, d), src, copyTimes tt r.base t d (tt.stops t).length, tt.stops t, false⟩] := by
    simp [addRtTransport, deactivate]
  have h1 : (addRtTransport tt r src (some (t, d)) [] [] "").1.addIds = r.addIds := by
    simp [addRtTransport, deactivate]
  have h2 : (addRtTransport tt r src (some (t, d)) [] [] "").1.addTransports = r.addTransports := by
    simp [addRtTransport, deactivate]
  refine ⟨by rw [h1]; exact h.store, by rw [h1, h2]; exact h.len, ?_, by rw [h2]; exact h.inj, ?_⟩
  · intro s i rt hi
    rw [h2] at hi
    obtain ⟨x, h3, h4⟩ := h.tr s i rt hi
    refine ⟨x, ?_, h4⟩
    rw [ht, List.getElem?_append_left (List.getElem?_eq_some_iff.mp h3).1]
    exact h3
  · intro rt x hx hn
    rw [ht] at hx
    rw [h2]
    rcases getElem?_snoc hx with ⟨_, hx⟩ | ⟨_, rfl⟩
    · exact h.sur rt x hx hn
    · cases hn

theorem add_new_fields (tt : Tt) (r : Rtt) (src : Nat) (ss : List Stop) (ts : List Int) (id : String) :
    (addRtTransport tt r src none ss ts id).1.transports = r.transports ++ [⟨none, src, ts, ss, false⟩] ∧
    (addRtTransport tt r src none ss ts id).1.addIds =
      (fun s => if s = src then ((r.addIds src).store id).1 else r.addIds s) ∧
    (addRtTransport tt r src none ss ts id).1.addTransports =
      (fun s => if s = src then r.addTransports src ++ [r.transports.length] else r.addTransports s) ∧
    (addRtTransport tt r src none ss ts id).2 = r.transports.length := by
  refine ⟨?_, rfl, rfl, rfl⟩
  simp [addRtTransport]

theorem idInv_add_new {tt : Tt} {r : Rtt} (h : IdInv r) (src : Nat) (ss : List Stop) (ts : List Int) (id : String)
    (hnew : (r.addIds src).find id = none) : IdInv (addRtTransport tt r src none ss ts id).1 := by
  obtain ⟨f1, f2, f3, f4⟩ := add_new_fields tt r src ss ts id
  have hlt : ∀ (s i rt : Nat), (r.addTransports s)[i]? = some rt → rt < r.transports.length := by
    intro s i rt hi
    obtain ⟨x, h1, _⟩ := h.tr s i rt hi
    exact (List.getElem?_eq_some_iff.mp h1).1
  have hst : ((r.addIds src).store id).1.strings = (r.addIds src).strings ++ [id] := by
    unfold StringStore.store
    rw [hnew]
  refine ⟨?_, ?_, ?_, ?_, ?_⟩
  · intro s
    rw [f2]
    by_cases hs : s = src
    · simp only [hs, if_true]
      exact (StringStore.store_spec (h.store src) id).1
    · simp only [hs, if_false]
      exact h.store s
  · intro s
    rw [f2, f3]
    by_cases hs : s = src
    · simp only [hs, if_true, hst, List.length_append, h.len src, List.length_cons, List.length_nil]
    · simp only [hs, if_false]
      exact h.len s
  · intro s i rt hi
    rw [f3] at hi
    rw [f1]
    by_cases hs : s = src
    · simp only [hs, if_true] at hi
      rcases getElem?_snoc hi with ⟨_, hi⟩ | ⟨_, rfl⟩
      · obtain ⟨x, h1, h2, h3⟩ := h.tr src i rt hi
        exact ⟨x, by rw [List.getElem?_append_left (hlt src i rt hi)]; exact h1, h2, by rw [h3, hs]⟩
      · exact ⟨⟨none, src, ts, ss, false⟩, by simp, rfl, hs.symm⟩
    · simp only [hs, if_false] at hi
      obtain ⟨x, h1, h2, h3⟩ := h.tr s i rt hi
      exact ⟨x, by rw [List.getElem?_append_left (hlt s i rt hi)]; exact h1, h2, h3⟩
  · intro s s' i j rt hi hj
    rw [f3] at hi hj
    have cls : ∀ (s i : Nat), (if s = src then r.addTransports src ++ [r.transports.length] else r.addTransports s)[i]? = some rt →
        (r.addTransports s)[i]? = some rt ∨ (s = src ∧ i = (r.addTransports src).length ∧ rt = r.transports.length) := by
      intro s i hi
      by_cases hs : s = src
      · rw [if_pos hs] at hi
        rcases getElem?_snoc hi with ⟨_, hi⟩ | ⟨h1, h2⟩
        · exact Or.inl (by rw [hs]; exact hi)
        · exact Or.inr ⟨hs, h1, h2⟩
      · rw [if_neg hs] at hi
        exact Or.inl hi
    rcases cls s i hi with h1 | ⟨h1, h2, h3⟩ <;> rcases cls s' j hj with h4 | ⟨h4, h5, h6⟩
    · exact h.inj s s' i j rt h1 h4
    · have := hlt s i rt h1
      omega
    · have := hlt s' j rt h4
      omega
    · exact ⟨by rw [h1, h4], by rw [h2, h5]⟩
  · intro rt x hx hn
    rw [f1] at hx
    rw [f3]
    rcases getElem?_snoc hx with ⟨_, hx⟩ | ⟨h1, rfl⟩
    · have := h.sur rt x hx hn
      by_cases hs : x.src = src
      · simp only [hs, if_true]
        rw [hs] at this
        exact List.mem_append_left _ this
      · simp only [hs, if_false]
        exact this
    · simp [h1]

theorem idInv_create (tt : Tt) (base : Int) : IdInv (create tt base) where
  store := fun _ => StringStore.inv_empty
  len := fun _ => rfl
  tr := by intro s i rt h; simp [create] at h
  inj := by intro s s' i j rt h; simp [create] at h
  sur := by intro rt x h; simp [create] at h

theorem idInv_processRun {tt : Tt} {r : Rtt} (h : IdInv r) (src : Nat) (us : List StopUpd) (x : Resolved) :
    IdInv (processRun tt src us r x) ∧ (processRun tt src us r x).addIds = r.addIds ∧
      (processRun tt src us r x).addTransports = r.addTransports := by
  unfold processRun
  simp only
  cases hr : (resolveRt r x.run "" src).rt with
  | some rt =>
    have hs := (sameIds_modify r rt false).trans (sameIds_update tt _ src (resolveRt r x.run "" src) rt us)
    exact ⟨h.same hs, hs.ids, hs.trs⟩
  | none =>
    simp only
    have htt : (resolveRt r x.run "" src).t = some x.t := by simp [resolveRt, Resolved.run]
    rw [htt]
    obtain ⟨t, d⟩ := x.t
    have hs := sameIds_update tt (addRtTransport tt r src (some (t, d)) [] [] "").1 src
      ⟨some (t, d), some (addRtTransport tt r src (some (t, d)) [] [] "").2, (resolveRt r x.run "" src).first,
        (resolveRt r x.run "" src).seqs⟩
      (addRtTransport tt r src (some (t, d)) [] [] "").2 us
    refine ⟨(idInv_add_static h src t d).same hs, hs.ids.trans ?_, hs.trs.trans ?_⟩
    · simp [addRtTransport, deactivate]
    · simp [addRtTransport, deactivate]

/-- Ids and transports only grow. -/
def Grows (r r' : Rtt) : Prop :=
  ∀ (s i : Nat), (∀ id, (r.addIds s).strings[i]? = some id → (r'.addIds s).strings[i]? = some id) ∧
    (∀ rt, (r.addTransports s)[i]? = some rt → (r'.addTransports s)[i]? = some rt)

theorem Grows.refl (r : Rtt) : Grows r r := fun _ _ => ⟨fun _ h => h, fun _ h => h⟩

theorem Grows.of_eq {r r' : Rtt} (h1 : r'.addIds = r.addIds) (h2 : r'.addTransports = r.addTransports) : Grows r r' := by
  intro s i
  rw [h1, h2]
  exact ⟨fun _ h => h, fun _ h => h⟩

theorem Grows.trans {a b c : Rtt} (h : Grows a b) (h' : Grows b c) : Grows a c :=
  fun s i => ⟨fun id hi => (h' s i).1 id ((h s i).1 id hi), fun rt hi => (h' s i).2 rt ((h s i).2 rt hi)⟩

theorem idInv_foldl {tt : Tt} (f : Rtt → Resolved → Rtt)
    (hf : ∀ r x, IdInv r → IdInv (f r x) ∧ (f r x).addIds = r.addIds ∧ (f r x).addTransports = r.addTransports)
    (runs : List Resolved) : ∀ r, IdInv r → IdInv (runs.foldl f r) ∧ (runs.foldl f r).addIds = r.addIds ∧
      (runs.foldl f r).addTransports = r.addTransports := by
  induction runs with
  | nil => intro r h; exact ⟨h, rfl, rfl⟩
  | cons x runs ih =>
    intro r h
    obtain ⟨h1, h2, h3⟩ := hf r x h
    obtain ⟨h4, h5, h6⟩ := ih _ h1
    exact ⟨h4, h5.trans h2, h6.trans h3⟩

theorem idInv_process {tt : Tt} {r : Rtt} (h : IdInv r) (e : Entity) :
    IdInv (process tt r e) ∧ Grows r (process tt r e) := by
  cases e with
  | cancel src runs =>
    obtain ⟨h1, h2, h3⟩ := idInv_foldl (tt := tt) (fun r x => cancelRun tt r (resolveRt r x.run "" src))
      (fun r x h => ⟨h.same (sameIds_cancel tt r _), (sameIds_cancel tt r _).ids, (sameIds_cancel tt r _).trs⟩) runs r h
    exact ⟨h1, Grows.of_eq h2 h3⟩
  | update src runs us =>
    obtain ⟨h1, h2, h3⟩ := idInv_foldl (tt := tt) (processRun tt src us)
      (fun r x h => idInv_processRun h src us x) runs r h
    exact ⟨h1, Grows.of_eq h2 h3⟩
  | added src id pl io us =>
    simp only [process]
    cases hr : (resolveRt r ⟨none, none, 0, []⟩ id src).rt with
    | some rt =>
      have hs := (sameIds_modify r rt false).trans (sameIds_update tt _ src (resolveRt r ⟨none, none, 0, []⟩ id src) rt us)
      exact ⟨h.same hs, Grows.of_eq hs.ids hs.trs⟩
    | none =>
      simp only
      cases hn : newStops tt src pl io us with
      | none => exact ⟨h, Grows.refl r⟩
      | some ss =>
        simp only
        have hfind : (r.addIds src).find id = none := by
          cases hf : (r.addIds src).find id with
          | none => rfl
          | some i =>
            have hi := (StringStore.find_iff (h.store src) id i).mp hf
            have hlt : i < (r.addTransports src).length := by
              rw [← h.len src]
              exact (List.getElem?_eq_some_iff.mp hi).1
            have : addressed r src id = none := hr
            rw [addressed_eq, hf, Option.bind_some, List.getElem?_eq_getElem hlt] at this
            cases this
        have hs := sameIds_update tt (addRtTransport tt r src none ss (List.replicate (2 * ss.length - 2) 0) id).1 src
          { resolveRt r ⟨none, none, 0, []⟩ id src with
            rt := some (addRtTransport tt r src none ss (List.replicate (2 * ss.length - 2) 0) id).2 }
          (addRtTransport tt r src none ss (List.replicate (2 * ss.length - 2) 0) id).2 us
        refine ⟨(idInv_add_new h src ss _ id hfind).same hs, ?_⟩
        refine Grows.trans ?_ (Grows.of_eq hs.ids hs.trs)
        obtain ⟨f1, f2, f3, f4⟩ := add_new_fields tt r src ss (List.replicate (2 * ss.length - 2) 0) id
        intro s i
        rw [f2, f3]
        by_cases hss : s = src
        · subst hss
          simp only [if_true]
          refine ⟨(StringStore.store_spec (h.store s) id).2.2.1 i, ?_⟩
          intro rt hi
          rw [List.getElem?_append_left (List.getElem?_eq_some_iff.mp hi).1]
          exact hi
        · simp only [hss, if_false]
          exact ⟨fun _ h => h, fun _ h => h⟩

theorem idInv_all {tt : Tt} (es : List Entity) : ∀ r, IdInv r → IdInv (es.foldl (process tt) r) ∧
    Grows r (es.foldl (process tt) r) := by
  induction es with
  | nil => intro r h; exact ⟨h, Grows.refl r⟩
  | cons e es ih =>
    intro r h
    obtain ⟨h1, h2⟩ := idInv_process (tt := tt) h e
    obtain ⟨h3, h4⟩ := ih _ h1
    exact ⟨h3, h2.trans h4⟩

theorem idInv_processAll (tt : Tt) (base : Int) (es : List Entity) : IdInv (processAll tt base es) :=
  (idInv_all es _ (idInv_create tt base)).1

theorem addressed_iff {r : Rtt} (h : IdInv r) (src : Nat) (id : String) (rt : Nat) :
    addressed r src id = some rt ↔ ∃ i : Nat, (r.addIds src).strings[i]? = some id ∧ (r.addTransports src)[i]? = some rt := by
  rw [addressed_eq]
  constructor
  · intro ha
    cases hf : (r.addIds src).find id with
    | none => rw [hf] at ha; cases ha
    | some i =>
      rw [hf] at ha
      exact ⟨i, (StringStore.find_iff (h.store src) id i).mp hf, ha⟩
  · intro ⟨i, h1, h2⟩
    rw [(StringStore.find_iff (h.store src) id i).mpr h1]
    exact h2

/-- **C115 (stable).** Once an id of an added trip stands for a real-time transport it does so forever, whatever
is received afterwards. -/
theorem C115_stable_partial (tt : Tt) (base : Int) (es fs : List Entity) (src : Nat) (id : String) (rt : Nat)
    (h : addressed (processAll tt base es) src id = some rt) :
    addressed (processAll tt base (es ++ fs)) src id = some rt := by
  have hi := idInv_processAll tt base es
  rw [processAll_append]
  obtain ⟨h1, h2⟩ := idInv_all (tt := tt) fs _ hi
  obtain ⟨i, h3, h4⟩ := (addressed_iff hi src id rt).mp h
  exact (addressed_iff h1 src id rt).mpr ⟨i, (h2 src i).1 id h3, (h2 src i).2 rt h4⟩

/-- **C115 (distinct).** Different added trips - different ids, or the same id in different feeds - never share a
real-time transport. -/
theorem C115_distinct_partial (tt : Tt) (base : Int) (es : List Entity) (src src' : Nat) (id id' : String) (rt : Nat)
    (h : addressed (processAll tt base es) src id = some rt) (h' : addressed (processAll tt base es) src' id' = some rt) :
    src = src' ∧ id = id' := by
  have hi := idInv_processAll tt base es
  obtain ⟨i, h1, h2⟩ := (addressed_iff hi src id rt).mp h
  obtain ⟨j, h3, h4⟩ := (addressed_iff hi src' id' rt).mp h'
  obtain ⟨rfl, rfl⟩ := hi.inj src src' i j rt h2 h4
  rw [h1] at h3
  cases h3
  exact ⟨rfl, rfl⟩

/-- **C115 (complete).** Every real-time transport which is not an instance of a scheduled one is the one an id of
its feed stands for, so that later messages can find it. -/
theorem C115_complete_partial (tt : Tt) (base : Int) (es : List Entity) (rt : Nat) (x : RtTransport)
    (hx : (processAll tt base es).transports[rt]? = some x) (hn : x.static = none) :
    ∃ id, addressed (processAll tt base es) x.src id = some rt := by
  have hi := idInv_processAll tt base es
  obtain ⟨i, h1⟩ := mem_iff_get.mp (hi.sur rt x hx hn)
  have hlt : i < ((processAll tt base es).addIds x.src).strings.length := by
    rw [hi.len]
    exact (List.getElem?_eq_some_iff.mp h1).1
  exact ⟨_, (addressed_iff hi x.src _ rt).mpr ⟨i, List.getElem?_eq_getElem hlt, h1⟩⟩

/-- **C115 (found).** An added trip which is accepted can be found under its id afterwards: under the old
transport if the id was known - then no transport is created - and under a new one otherwise. -/
theorem C115_found_partial (tt : Tt) (base : Int) (es : List Entity) (src : Nat) (id : String)
    (pl : List StopUpd → Bool) (io : StopUpd → Bool × Bool) (us : List StopUpd) :
    let r := processAll tt base es
    let r' := processAll tt base (es ++ [.added src id pl io us])
    (∀ rt, addressed r src id = some rt → addressed r' src id = some rt ∧ r'.transports.length = r.transports.length) ∧
    (addressed r src id = none → (newStops tt src pl io us).isSome →
      addressed r' src id = some r.transports.length ∧ r'.transports.length = r.transports.length + 1) ∧
    (addressed r src id = none → newStops tt src pl io us = none → r' = r) := by
  intro r r'
  have hr' : r' = process tt r (.added src id pl io us) := by
    show processAll tt base (es ++ [.added src id pl io us]) = _
    rw [processAll_append]
    rfl
  have hlen : ∀ {a b : Rtt}, SameIds a b → b.transports.length = a.transports.length := by
    intro a b h
    have := congrArg List.length h.keys
    simpa using this
  refine ⟨?_, ?_, ?_⟩
  · intro rt h
    refine ⟨C115_stable_partial tt base es _ src id rt h, ?_⟩
    rw [hr']
    have hr : (resolveRt r ⟨none, none, 0, []⟩ id src).rt = some rt := h
    simp only [process, hr]
    exact hlen ((sameIds_modify r rt false).trans (sameIds_update tt _ src _ rt us))
  · intro h hs
    obtain ⟨ss, hss⟩ := Option.isSome_iff_exists.mp hs
    have hr : (resolveRt r ⟨none, none, 0, []⟩ id src).rt = none := h
    have hi : IdInv r := idInv_processAll tt base es
    have hI' := (idInv_process (tt := tt) hi (.added src id pl io us)).1
    rw [← hr'] at hI'
    have hsame : SameIds (addRtTransport tt r src none ss (List.replicate (2 * ss.length - 2) 0) id).1 r' := by
      rw [hr']
      simp only [process, hr, hss]
      exact sameIds_update tt _ src _ _ us
    obtain ⟨f1, f2, f3, f4⟩ := add_new_fields tt r src ss (List.replicate (2 * ss.length - 2) 0) id
    refine ⟨?_, by rw [hlen hsame, f1]; simp⟩
    rw [addressed_iff hI']
    have hfind : (r.addIds src).find id = none := by
      cases hf : (r.addIds src).find id with
      | none => rfl
      | some i =>
        have hi' := (StringStore.find_iff (hi.store src) id i).mp hf
        have hlt : i < (r.addTransports src).length := by
          rw [← hi.len src]
          exact (List.getElem?_eq_some_iff.mp hi').1
        rw [addressed_eq, hf, Option.bind_some, List.getElem?_eq_getElem hlt] at h
        cases h
    have hst : ((r.addIds src).store id).1.strings = (r.addIds src).strings ++ [id] := by
      unfold StringStore.store
      rw [hfind]
    refine ⟨(r.addTransports src).length, ?_, ?_⟩
    · rw [hsame.ids, f2]
      simp only [if_true, hst]
      rw [← hi.len src]
      simp
    · rw [hsame.trs, f3]
      simp
  · intro h hs
    have hr : (resolveRt r ⟨none, none, 0, []⟩ id src).rt = none := h
    rw [hr']
    simp only [process, hr, hs]

namespace FeedDemo

/-- A feed for the timetable of the demo: no trip of it is in the timetable, everything is slow enough. -/
def env : Env where
  tt := tt
  src := 0
  resolve := fun d => if d.tripId = some "t0" then some [run] else some []
  resolveOne := fun d => if d.tripId = some "t0" then some (some run) else some none
  tooFast := fun _ _ t => decide (t < 2)
  inOut := both

/-- An entity with an added trip. -/
def addEntity (id : String) (props : Option String) (m : Int) : FeedEntity :=
  { upd := some ⟨some { tripId := some id, rel := some .added }, props, extraB m none false⟩ }

/-- The messages, each consisting of one entity. -/
def feedAll (es : List FeedEntity) : Rtt := es.foldl (fun r e => (feedMessage env 0 false [e] r).1) (create tt 6)

/-- Without another id in `trip_properties` all is well: two trips, two transports, found under their ids. -/
example : (feedAll [addEntity "x" none 0, addEntity "x" none 5, addEntity "z" none 60, addEntity "z" none 70]).transports.map
      (·.times) = [[605, 625, 625, 645], [670, 690, 690, 710]] ∧
    addressed (feedAll [addEntity "x" none 0, addEntity "x" none 5, addEntity "z" none 60]) 0 "x" = some 0 ∧
    addressed (feedAll [addEntity "x" none 0, addEntity "x" none 5, addEntity "z" none 60]) 0 "z" = some 1 ∧
    addressed (feedAll [addEntity "x" none 0, addEntity "x" none 5]) 0 "z" = none := by decide +kernel

/-- **C115 (limitation).** The id of an added trip is looked up in `trip_properties` but stored from `trip`.  If they
differ, every message about the trip creates another transport; and as the ids are stored once but the transports
each time, the trips that are added later get the transports of others: the second message about `z` changes the
second copy of `x`, and `z` itself stays as it was. -/
theorem C115_properties_counterexample :
    (feedAll [addEntity "x" (some "y") 0, addEntity "x" (some "y") 5]).transports.map (·.times) =
      [[600, 620, 620, 640], [605, 625, 625, 645]] ∧
    (feedAll [addEntity "x" (some "y") 0, addEntity "x" (some "y") 5, addEntity "z" none 60]).transports.map (·.times) =
      [[600, 620, 620, 640], [605, 625, 625, 645], [660, 680, 680, 700]] ∧
    (feedAll [addEntity "x" (some "y") 0, addEntity "x" (some "y") 5, addEntity "z" none 60,
      addEntity "z" none 70]).transports.map (·.times) =
      [[600, 620, 620, 640], [670, 690, 690, 710], [660, 680, 680, 700]] := by decide +kernel

/-- An entity with a trip update or a cancellation of the scheduled trip. -/
def tripEntityOf (rel : Option Rel) (deleted : Bool) : FeedEntity :=
  { deleted := deleted, upd := some ⟨some { tripId := some "t0", rel := rel }, none, [late]⟩ }

/-- A vehicle of the scheduled trip at location `l`, at the given minute of the base day. -/
def vehicleAt (l : Nat) (m : Int) : FeedEntity :=
  { vehicle := some ⟨true, some { tripId := some "t0" }, some (midnight + 60 * m), fun x => x == l⟩ }

/-- A message with a delay, an added trip, an alert and an entity without trip: the hypotheses of `C114_effect` and
`C114_counted_partial` hold and it has an effect. -/
example : let msg := [tripEntityOf none false, addEntity "x" none 0, { alert := true }, { upd := some ⟨none, none, []⟩ }]
    (∀ e ∈ msg, SameId e) ∧ (feedMessage env 0 false msg (create tt 6)).1.transports.map (·.times) =
      [[480, 495, 505, 515], [600, 620, 620, 640]] ∧
    (feedMessage env 0 false msg (create tt 6)).2 = { success := 2, alerts := 1, withoutTrip := 1 } := by
  refine ⟨?_, by decide +kernel, by decide +kernel⟩
  intro e he u d h1 h2 h3 id h4
  simp only [List.mem_cons, List.not_mem_nil, or_false] at he
  rcases he with rfl | rfl | rfl | rfl
  · simp only [tripEntityOf, Option.some.injEq] at h1
    subst h1
    cases h4
  · simp only [addEntity, Option.some.injEq] at h1
    subst h1
    cases h4
  · cases h1
  · simp only [Option.some.injEq] at h1
    subst h1
    cases h2

/-- **C114 (limitation).** An entity which is marked as deleted is counted as such but applied all the same. -/
theorem C114_deleted_counterexample :
    (feedMessage env 0 false [tripEntityOf (some .canceled) true] (create tt 6)).2 = { success := 1, deleted := 1 } ∧
    isActive tt (feedMessage env 0 false [tripEntityOf (some .canceled) true] (create tt 6)).1 0 6 = false := by
  decide +kernel

/-- **C114 (limitation).** An added trip with an unknown stop is not counted at all. -/
theorem C114_uncounted_counterexample :
    (feedMessage env 0 false [{ upd := some ⟨some { tripId := some "x", rel := some .added }, none,
      [⟨none, some "?", none, false, none, some ⟨none, some (midnight + 36000)⟩⟩]⟩ }] (create tt 6)).2 = {} := by
  decide +kernel

/-- A vehicle ten minutes late at the second stop. -/
example : (feedMessage env 0 true [vehicleAt 2 500] (create tt 6)).1.transports.map (·.times) = [[480, 500, 510, 520]] ∧
    (vehicleAt 2 500).vehicleRun env = some run := by
  refine ⟨by decide +kernel, rfl⟩

/-- A vehicle which is not at a stop: the run is now a real-time run as scheduled. -/
example : (feedMessage env 0 true [vehicleAt 9 500] (create tt 6)).1.transports.map (·.times) = [[480, 490, 500, 510]] ∧
    (feedMessage env 0 true [vehicleAt 9 500] (create tt 6)).2 = { vehicles := 1, notAtStop := 1 } := by
  decide +kernel

end FeedDemo

end Nigiri.Rt
