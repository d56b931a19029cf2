import Verif.Model.RtTimetable
import Verif.Props.RtUpdate

/-!
# Proofs about the real-time timetable
-/

namespace Nigiri.Rt

theorem rtFlag_eq : rtFlag = 2 ^ 31 := rfl

theorem and_rtFlag_lt {i : Nat} (h : i < 2 ^ 31) : i &&& rtFlag = 0 := by
  apply Nat.eq_of_testBit_eq
  intro k
  rw [rtFlag_eq, Nat.testBit_and, Nat.testBit_two_pow]
  by_cases hk : 31 = k
  · subst hk; rw [Nat.testBit_lt_two_pow h]; simp
  · simp [hk]

theorem or_rtFlag {j : Nat} (h : j < 2 ^ 31) : j ||| rtFlag = 2 ^ 31 + j := by
  rw [rtFlag_eq, Nat.or_comm]
  have := Nat.two_pow_add_eq_or_of_lt h 1
  rw [Nat.mul_one] at this
  exact this.symm

theorem and_rtFlag_ge {j : Nat} (h : j < 2 ^ 31) : (2 ^ 31 + j) &&& rtFlag ≠ 0 := by
  intro h0
  have h1 : ((2 ^ 31 + j) &&& rtFlag).testBit 31 = true := by
    rw [rtFlag_eq, Nat.testBit_and, Nat.testBit_two_pow, Nat.testBit_two_pow_add_eq, Nat.testBit_lt_two_pow h]
    rfl
  rw [h0] at h1
  simp at h1

theorem and_rtMask {j : Nat} (h : j < 2 ^ 31) : (2 ^ 31 + j) &&& (rtFlag - 1) = j := by
  rw [rtFlag_eq, Nat.and_two_pow_sub_one_eq_mod]; omega

/-- Index entries point to existing bitfields. -/
structure WF (tt : Tt) (r : Rtt) : Prop where
  len : r.trafficDays.length = tt.trafficDays.length
  idx : ∀ i ∈ r.trafficDays, i < 2 ^ 31 ∨ ∃ j, j < r.bitfields.length ∧ i = 2 ^ 31 + j

theorem deactivate_spec {tt : Tt} {r : Rtt} (hw : WF tt r) (hb : r.bitfields.length < 2 ^ 31)
    {t d : Nat} (ht : t < tt.trafficDays.length) :
    WF tt (deactivate tt r t d) ∧ (deactivate tt r t d).bitfields.length = r.bitfields.length + 1 ∧
    ∀ t' d', t' < tt.trafficDays.length → isActive tt (deactivate tt r t d) t' d' =
      (isActive tt r t' d' && !(decide (t' = t) && decide (d' = d))) := by
  have hidx : (rtBitfieldIdx { r with bitfields := r.bitfields ++
      [Bits.clear (trafficDaysOf tt r (r.trafficDays.getD t 0)) d] }) = 2 ^ 31 + r.bitfields.length := by
    simp only [rtBitfieldIdx, List.length_append, List.length_cons, List.length_nil, Nat.zero_add,
      Nat.add_sub_cancel]
    exact or_rtFlag hb
  unfold deactivate
  simp only [hidx]
  refine ⟨⟨by simp [hw.len], ?_⟩, by simp, ?_⟩
  · intro i hi
    simp only at hi
    rcases List.mem_or_eq_of_mem_set hi with h | h
    · rcases hw.idx i h with h1 | ⟨j, h1, h2⟩
      · exact Or.inl h1
      · exact Or.inr ⟨j, by simp; omega, h2⟩
    · exact Or.inr ⟨r.bitfields.length, by simp, h⟩
  · intro t' d' ht'
    have hlen := hw.len
    by_cases htt : t' = t
    · subst htt
      simp only [isActive, List.getD_eq_getElem?_getD]
      rw [List.getElem?_set_self (by omega)]
      simp only [Option.getD_some, trafficDaysOf]
      rw [if_pos (and_rtFlag_ge hb), and_rtMask hb]
      simp only [List.getD_eq_getElem?_getD, List.getElem?_append_right (Nat.le_refl _), Nat.sub_self,
        List.getElem?_cons_zero, Option.getD_some, Bits.clear, decide_true, Bool.true_and]
      by_cases hd : d' = d
      · simp [hd]
      · simp [hd]
    · simp only [isActive, List.getD_eq_getElem?_getD]
      rw [List.getElem?_set_ne (fun h => htt h.symm)]
      have hmem : (r.trafficDays[t']?.getD 0) ∈ r.trafficDays := by
        rw [List.getElem?_eq_getElem (by omega), Option.getD_some]; exact List.getElem_mem _
      rcases hw.idx _ hmem with h1 | ⟨j, h1, h2⟩
      · generalize r.trafficDays[t']?.getD 0 = i at h1
        have h0 := and_rtFlag_lt h1
        simp [trafficDaysOf, h0, htt]
      · rw [h2]
        simp only [trafficDaysOf]
        rw [if_pos (and_rtFlag_ge (by omega)), if_pos (and_rtFlag_ge (by omega)), and_rtMask (by omega)]
        simp only [List.getD_eq_getElem?_getD, List.getElem?_append_left h1]
        simp [htt]

/-! ### The invariant of a history -/

/-- What holds after messages which addressed the static runs `A`. -/
structure Inv (tt : Tt) (A : List (Nat × Nat)) (B : Nat) (r : Rtt) : Prop where
  wf : WF tt r
  count : r.bitfields.length ≤ B
  active : ∀ t d, t < tt.trafficDays.length →
    isActive tt r t d = (isActive tt (create tt 0) t d && !decide ((t, d) ∈ A))
  inst : ∀ k rt, r.byStatic.lookup k = some rt ↔ ∃ x, r.transports[rt]? = some x ∧ x.static = some k
  keys : ∀ k, (r.byStatic.lookup k).isSome → k ∈ A
  add : ∀ (src i rt : Nat), (r.addTransports src)[i]? = some rt → ∃ x, r.transports[rt]? = some x ∧ x.static = none

theorem isActive_base (tt : Tt) (b : Int) (t d : Nat) :
    isActive tt (create tt b) t d = isActive tt (create tt 0) t d := rfl

theorem inv_create (tt : Tt) (b : Int) (h : ∀ i ∈ tt.trafficDays, i < 2 ^ 31) :
    Inv tt [] 0 (create tt b) where
  wf := ⟨rfl, fun i hi => Or.inl (h i hi)⟩
  count := Nat.le_refl _
  active := by intro t d _; simp [isActive_base tt b]
  inst := by intro k rt; simp [create]
  keys := by intro k h; simp [create] at h
  add := by intro s i rt h; simp [create] at h

/-- Keeping the `static` field of every transport and growing nothing. -/
structure SameStatic (r r' : Rtt) : Prop where
  days : r'.trafficDays = r.trafficDays
  bits : r'.bitfields = r.bitfields
  by_ : r'.byStatic = r.byStatic
  ids : r'.addIds = r.addIds
  trs : r'.addTransports = r.addTransports
  stat : ∀ i : Nat, (r'.transports[i]?).map RtTransport.static = (r.transports[i]?).map RtTransport.static

theorem exists_static {r : Rtt} {rt : Nat} {o : Option (Nat × Nat)} :
    (∃ x, r.transports[rt]? = some x ∧ x.static = o) ↔ (r.transports[rt]?).map RtTransport.static = some o := by
  constructor
  · rintro ⟨x, h, rfl⟩; simp [h]
  · intro h
    obtain ⟨x, hx, ho⟩ := Option.map_eq_some_iff.mp h
    exact ⟨x, hx, ho⟩

theorem Inv.same {tt : Tt} {A : List (Nat × Nat)} {B : Nat} {r r' : Rtt} (h : Inv tt A B r)
    (hs : SameStatic r r') : Inv tt A B r' where
  wf := ⟨by rw [hs.days]; exact h.wf.len, by rw [hs.days, hs.bits]; exact h.wf.idx⟩
  count := by rw [hs.bits]; exact h.count
  active := by
    intro t d ht
    have : isActive tt r' t d = isActive tt r t d := by
      simp [isActive, trafficDaysOf, hs.days, hs.bits]
    rw [this]; exact h.active t d ht
  inst := by intro k rt; rw [hs.by_, h.inst, exists_static, exists_static, hs.stat]
  keys := by rw [hs.by_]; exact h.keys
  add := by
    intro s i rt hh
    rw [hs.trs] at hh
    rw [exists_static, hs.stat, ← exists_static]
    exact h.add s i rt hh

theorem Inv.deactivate {tt : Tt} {A : List (Nat × Nat)} {B : Nat} {r : Rtt} (h : Inv tt A B r)
    (hB : B < 2 ^ 31) {t d : Nat} (ht : t < tt.trafficDays.length) :
    Inv tt ((t, d) :: A) (B + 1) (deactivate tt r t d) := by
  have hc := h.count
  obtain ⟨h1, h2, h3⟩ := deactivate_spec (d := d) h.wf (by omega) ht
  exact {
    wf := h1
    count := by omega
    active := by
      intro t' d' ht'
      rw [h3 t' d' ht', h.active t' d' ht']
      by_cases he : t' = t ∧ d' = d
      · simp [he.1, he.2]
      · have : ¬ (t', d') = (t, d) := by
          intro hh; cases hh; exact he ⟨rfl, rfl⟩
        by_cases hA : (t', d') ∈ A
        · simp [hA]
        · have hb : ((t', d') ∈ (t, d) :: A) ↔ False := by simp [hA]; omega
          have hb2 : (decide (t' = t) && decide (d' = d)) = false := by
            simp; omega
          simp [hb2, hA]
          try (intro h1 h2; exact absurd (h2) (fun h2 => he ⟨h1, h2⟩))
    inst := h.inst
    keys := fun k hk => List.mem_cons_of_mem _ (h.keys k hk)
    add := h.add }

theorem Inv.mono {tt : Tt} {A : List (Nat × Nat)} {B B' : Nat} {r : Rtt} (h : Inv tt A B r) (hB : B ≤ B') :
    Inv tt A B' r :=
  ⟨h.wf, by have := h.count; omega, h.active, h.inst, h.keys, h.add⟩

theorem Inv.congr {tt : Tt} {A A' : List (Nat × Nat)} {B : Nat} {r : Rtt} (h : Inv tt A B r)
    (hA : ∀ k, k ∈ A ↔ k ∈ A') : Inv tt A' B r :=
  ⟨h.wf, h.count, by intro t d ht; rw [h.active t d ht]; simp only [hA],
    h.inst, fun k hk => (hA k).mp (h.keys k hk), h.add⟩

theorem modify_same (r : Rtt) (rt : Nat) (f : RtTransport → RtTransport) (hf : ∀ x, (f x).static = x.static) :
    SameStatic r { r with transports := r.transports.modify rt f } where
  days := rfl
  bits := rfl
  by_ := rfl
  ids := rfl
  trs := rfl
  stat := by
    intro i
    simp only [List.getElem?_modify]
    cases r.transports[i]? with
    | none => rfl
    | some x => simp only [Option.map_some]; split <;> simp [hf]

theorem set_same (r : Rtt) (rt : Nat) (x y : RtTransport) (m : Nat → List Nat) (hx : r.transports[rt]? = some x)
    (hy : y.static = x.static) : SameStatic r { r with transports := r.transports.set rt y, locRt := m } where
  days := rfl
  bits := rfl
  by_ := rfl
  ids := rfl
  trs := rfl
  stat := by
    intro i
    simp only
    by_cases hi : rt = i
    · subst hi
      have : rt < r.transports.length := (List.getElem?_eq_some_iff.mp hx).1
      rw [List.getElem?_set_self this, hx]
      simp [hy]
    · rw [List.getElem?_set_ne hi]

/-- The runs addressed by an entity. -/
def Entity.addresses : Entity → List (Nat × Nat)
  | .cancel _ runs => runs.map Resolved.t
  | .update _ runs _ => runs.map Resolved.t
  | .added .. => []

theorem inv_cancelRun {tt : Tt} {A : List (Nat × Nat)} {B : Nat} {r : Rtt} (h : Inv tt A B r)
    (hB : B < 2 ^ 31) (run : Run) {t d : Nat} (hr : run.t = some (t, d)) (ht : t < tt.trafficDays.length) :
    Inv tt ((t, d) :: A) (B + 1) (cancelRun tt r run) := by
  unfold cancelRun
  simp only [hr]
  apply Inv.deactivate _ hB ht
  cases run.rt with
  | none => exact h
  | some rt => exact h.same (modify_same r rt _ (fun _ => rfl))

theorem inv_cancelRun_none {tt : Tt} {A : List (Nat × Nat)} {B : Nat} {r : Rtt} (h : Inv tt A B r)
    (run : Run) (hr : run.t = none) : Inv tt A B (cancelRun tt r run) := by
  unfold cancelRun
  simp only [hr]
  cases run.rt with
  | none => exact h
  | some rt => exact h.same (modify_same r rt _ (fun _ => rfl))

theorem inv_updateExisting {tt : Tt} {A : List (Nat × Nat)} {B : Nat} {r : Rtt} (h : Inv tt A B r)
    (hB : B < 2 ^ 31) (src : Nat) (run : Run) (rt : Nat) (us : List StopUpd) {t d : Nat}
    (hr : run.t = some (t, d)) (ht : t < tt.trafficDays.length) (hA : (t, d) ∈ A) :
    Inv tt A (B + 1) (updateExisting tt r src run rt us) := by
  unfold updateExisting
  split
  · exact h.mono (by omega)
  · rename_i x hx
    simp only
    have h2 := h.same (set_same r rt x
      { x with
        times := (updateRun (ctxOf tt r src run rt) us ⟨x.times, x.stops, []⟩).1.times
        stops := (updateRun (ctxOf tt r src run rt) us ⟨x.times, x.stops, []⟩).1.stops }
      ((updateRun (ctxOf tt r src run rt) us ⟨x.times, x.stops, []⟩).1.newLocs.foldl
        (fun m l => pushNew m l rt) r.locRt) hx rfl)
    split
    · exact (inv_cancelRun h2 hB _ (by simpa using hr) ht).congr (by
        intro k; simp only [List.mem_cons]
        constructor
        · rintro (rfl | h)
          · exact hA
          · exact h
        · exact Or.inr)
    · exact h2.mono (by omega)

theorem inv_updateExisting_none {tt : Tt} {A : List (Nat × Nat)} {B : Nat} {r : Rtt} (h : Inv tt A B r)
    (src : Nat) (run : Run) (rt : Nat) (us : List StopUpd) (hr : run.t = none) :
    Inv tt A B (updateExisting tt r src run rt us) := by
  unfold updateExisting
  split
  · exact h
  · rename_i x hx
    simp only
    have h2 := h.same (set_same r rt x
      { x with
        times := (updateRun (ctxOf tt r src run rt) us ⟨x.times, x.stops, []⟩).1.times
        stops := (updateRun (ctxOf tt r src run rt) us ⟨x.times, x.stops, []⟩).1.stops }
      ((updateRun (ctxOf tt r src run rt) us ⟨x.times, x.stops, []⟩).1.newLocs.foldl
        (fun m l => pushNew m l rt) r.locRt) hx rfl)
    split
    · exact inv_cancelRun_none h2 _ (by simpa using hr)
    · exact h2

theorem lookup_append_new {l : List ((Nat × Nat) × Nat)} {k : Nat × Nat} {v : Nat} (h : l.lookup k = none)
    (k' : Nat × Nat) :
    (l ++ [(k, v)]).lookup k' = if k' = k then some v else l.lookup k' := by
  induction l with
  | nil => simp [List.lookup, beq_iff_eq]; split <;> simp_all
  | cons p l ih =>
    obtain ⟨a, b⟩ := p
    simp only [List.lookup] at h
    split at h
    · cases h
    · rename_i hka
      simp only [List.cons_append, List.lookup, ih h]
      by_cases hk : k' = k
      · subst hk; simp [hka]
      · simp only [if_neg hk]

theorem inv_add_static {tt : Tt} {A : List (Nat × Nat)} {B : Nat} {r : Rtt} (h : Inv tt A B r)
    (hB : B < 2 ^ 31) (src : Nat) {t d : Nat} (ht : t < tt.trafficDays.length)
    (hno : r.byStatic.lookup (t, d) = none) :
    Inv tt ((t, d) :: A) (B + 1) (addRtTransport tt r src (some (t, d)) [] [] "").1 ∧
      (addRtTransport tt r src (some (t, d)) [] [] "").2 = r.transports.length := by
  refine ⟨?_, rfl⟩
  have h2 := h.deactivate (d := d) hB ht
  simp only [addRtTransport, if_true, hno, Option.isSome_none, Bool.false_eq_true, if_false]
  have hlt : (deactivate tt r t d).transports = r.transports := rfl
  refine ⟨⟨h2.wf.len, h2.wf.idx⟩, h2.count, ?_, ?_, ?_, ?_⟩
  · intro t' d' ht'
    exact h2.active t' d' ht'
  · intro k rt
    simp only [hlt]
    rw [lookup_append_new hno]
    by_cases hk : k = (t, d)
    · subst hk
      rw [if_pos rfl]
      constructor
      · intro hh
        cases hh
        exact ⟨_, by rw [List.getElem?_append_right (Nat.le_refl _), Nat.sub_self]; rfl, rfl⟩
      · rintro ⟨x, hx, hxs⟩
        rw [List.getElem?_append] at hx
        split at hx
        · have := (h.inst (t, d) rt).mpr ⟨x, hx, hxs⟩
          rw [hno] at this; cases this
        · have : rt - r.transports.length = 0 := by
            rcases Nat.eq_zero_or_pos (rt - r.transports.length) with h0 | h0
            · exact h0
            · rw [List.getElem?_eq_none (by simp; omega)] at hx; cases hx
          congr 1; omega
    · rw [if_neg hk, h.inst]
      constructor
      · rintro ⟨x, hx, hxs⟩
        have : rt < r.transports.length := (List.getElem?_eq_some_iff.mp hx).1
        exact ⟨x, by rw [List.getElem?_append_left this]; exact hx, hxs⟩
      · rintro ⟨x, hx, hxs⟩
        rw [List.getElem?_append] at hx
        split at hx
        · exact ⟨x, hx, hxs⟩
        · have h0 : rt - r.transports.length = 0 := by
            rcases Nat.eq_zero_or_pos (rt - r.transports.length) with h0 | h0
            · exact h0
            · rw [List.getElem?_eq_none (by simp; omega)] at hx; cases hx
          rw [h0] at hx
          simp only [List.getElem?_cons_zero, Option.some.injEq] at hx
          rw [← hx] at hxs
          exact absurd (Option.some.inj hxs).symm hk
  · intro k hk
    simp only at hk
    rw [lookup_append_new hno] at hk
    by_cases hkk : k = (t, d)
    · simp [hkk]
    · rw [if_neg hkk] at hk
      exact List.mem_cons_of_mem _ (h.keys k hk)
  · intro s i rt hh
    obtain ⟨x, hx, hxs⟩ := h.add s i rt hh
    have : rt < r.transports.length := (List.getElem?_eq_some_iff.mp hx).1
    exact ⟨x, by simp only [hlt]; rw [List.getElem?_append_left this]; exact hx, hxs⟩

theorem inv_add_new {tt : Tt} {A : List (Nat × Nat)} {B : Nat} {r : Rtt} (h : Inv tt A B r)
    (src : Nat) (ss : List Stop) (ts : List Int) (id : String) :
    Inv tt A B (addRtTransport tt r src none ss ts id).1 := by
  simp only [addRtTransport]
  have hst : ∀ rt x, (r.transports ++ [(⟨if id = "" then none else none, src, ts, ss, false⟩ : RtTransport)])[rt]? = some x →
      r.transports[rt]? = some x ∨ (rt = r.transports.length ∧ x.static = none) := by
    intro rt x hx
    rw [List.getElem?_append] at hx
    split at hx
    · exact Or.inl hx
    · right
      have h0 : rt - r.transports.length = 0 := by
        rcases Nat.eq_zero_or_pos (rt - r.transports.length) with h0 | h0
        · exact h0
        · rw [List.getElem?_eq_none (by simp; omega)] at hx; cases hx
      rw [h0] at hx
      simp only [List.getElem?_cons_zero, Option.some.injEq] at hx
      refine ⟨by omega, ?_⟩
      rw [← hx]; simp
  refine ⟨⟨h.wf.len, h.wf.idx⟩, h.count, h.active, ?_, h.keys, ?_⟩
  · intro k rt
    simp only
    rw [h.inst]
    constructor
    · rintro ⟨x, hx, hxs⟩
      have : rt < r.transports.length := (List.getElem?_eq_some_iff.mp hx).1
      exact ⟨x, by rw [List.getElem?_append_left this]; exact hx, hxs⟩
    · rintro ⟨x, hx, hxs⟩
      rcases hst rt x hx with h1 | ⟨_, h1⟩
      · exact ⟨x, h1, hxs⟩
      · rw [h1] at hxs; cases hxs
  · intro s i rt hh
    simp only at hh ⊢
    have hold : (∃ x, r.transports[rt]? = some x ∧ x.static = none) →
        ∃ x, (r.transports ++ [(⟨if id = "" then none else none, src, ts, ss, false⟩ : RtTransport)])[rt]? = some x ∧
          x.static = none := by
      rintro ⟨x, hx, hxs⟩
      have : rt < r.transports.length := (List.getElem?_eq_some_iff.mp hx).1
      exact ⟨x, by rw [List.getElem?_append_left this]; exact hx, hxs⟩
    by_cases hs : s = src
    · rw [if_pos hs] at hh
      rw [List.getElem?_append] at hh
      split at hh
      · exact hold (h.add src i rt hh)
      · have h0 : i - (r.addTransports src).length = 0 := by
          rcases Nat.eq_zero_or_pos (i - (r.addTransports src).length) with h0 | h0
          · exact h0
          · rw [List.getElem?_eq_none (by simp; omega)] at hh; cases hh
        rw [h0] at hh
        simp only [List.getElem?_cons_zero, Option.some.injEq] at hh
        subst hh
        exact ⟨_, by rw [List.getElem?_append_right (Nat.le_refl _), Nat.sub_self]; rfl, by simp⟩
    · rw [if_neg hs] at hh
      exact hold (h.add s i rt hh)

theorem resolveRt_static (r : Rtt) (x : Resolved) (src : Nat) :
    resolveRt r x.run "" src = ⟨some x.t, r.byStatic.lookup x.t, x.first, x.seqs⟩ := by
  simp only [resolveRt, Resolved.run]
  cases r.byStatic.lookup x.t <;> rfl

theorem inv_processRun {tt : Tt} {A : List (Nat × Nat)} {B : Nat} {r : Rtt} (h : Inv tt A B r)
    (hB : B + 1 < 2 ^ 31) (src : Nat) (us : List StopUpd) (x : Resolved) (ht : x.t.1 < tt.trafficDays.length) :
    Inv tt (x.t :: A) (B + 2) (processRun tt src us r x) := by
  obtain ⟨⟨t, d⟩, f, q⟩ := x
  simp only [processRun, resolveRt_static]
  cases hl : r.byStatic.lookup (t, d) with
  | some rt =>
    simp only
    have hA : (t, d) ∈ A := h.keys _ (by rw [hl]; rfl)
    have h2 := h.same (modify_same r rt (fun x => { x with cancelled := false }) (fun _ => rfl))
    exact ((inv_updateExisting h2 (by omega) src _ rt us rfl ht hA).mono (by omega)).congr (by
      intro k; simp only [List.mem_cons]
      constructor
      · exact Or.inr
      · rintro (rfl | h)
        · exact hA
        · exact h)
  | none =>
    simp only
    have h2 := (inv_add_static h (by omega) src ht hl).1
    exact inv_updateExisting h2 hB src _ _ us rfl ht (by simp)

/-- Number of bitfields an entity can create. -/
def Entity.cost : Entity → Nat
  | .cancel _ runs => 2 * runs.length
  | .update _ runs _ => 2 * runs.length
  | .added .. => 0

theorem inv_foldl {tt : Tt} (f : Rtt → Resolved → Rtt)
    (hf : ∀ (A : List (Nat × Nat)) B r x, Inv tt A B r → B + 1 < 2 ^ 31 → x.t.1 < tt.trafficDays.length →
      Inv tt (x.t :: A) (B + 2) (f r x)) :
    ∀ (runs : List Resolved) A B r, Inv tt A B r → B + 2 * runs.length < 2 ^ 31 →
      (∀ x ∈ runs, x.t.1 < tt.trafficDays.length) →
      ∃ A', (∀ k, k ∈ A' ↔ k ∈ runs.map Resolved.t ∨ k ∈ A) ∧ Inv tt A' (B + 2 * runs.length) (runs.foldl f r) := by
  intro runs
  induction runs with
  | nil => intro A B r h _ _; exact ⟨A, by simp, by simpa using h⟩
  | cons x runs ih =>
    intro A B r h hB hx
    simp only [List.length_cons] at hB ⊢
    obtain ⟨A', hA', hI⟩ := ih (x.t :: A) (B + 2) (f r x) (hf A B r x h (by omega) (hx x (by simp)))
      (by omega) (fun y hy => hx y (by simp [hy]))
    refine ⟨A', ?_, ?_⟩
    · intro k
      rw [hA']
      simp only [List.map_cons, List.mem_cons]
      grind
    · have : B + 2 * (runs.length + 1) = B + 2 + 2 * runs.length := by omega
      rw [this]; exact hI

theorem resolveRt_added (r : Rtt) (id : String) (src : Nat) :
    (resolveRt r ⟨none, none, 0, []⟩ id src).t = none := by
  simp only [resolveRt]
  split <;> rfl

theorem inv_process {tt : Tt} {A : List (Nat × Nat)} {B : Nat} {r : Rtt} (h : Inv tt A B r) (e : Entity)
    (hB : B + e.cost < 2 ^ 31) (ht : ∀ k ∈ e.addresses, k.1 < tt.trafficDays.length) :
    ∃ A', (∀ k, k ∈ A' ↔ k ∈ e.addresses ∨ k ∈ A) ∧ Inv tt A' (B + e.cost) (process tt r e) := by
  cases e with
  | cancel src runs =>
    apply inv_foldl (fun r x => cancelRun tt r (resolveRt r x.run "" src)) _ runs A B r h hB
    · intro x hx; exact ht _ (List.mem_map_of_mem hx)
    · intro A B r x h hB hx
      exact (inv_cancelRun h (by omega) _ (by rw [resolveRt_static]) hx).mono (by omega)
  | update src runs us =>
    apply inv_foldl (processRun tt src us) _ runs A B r h hB
    · intro x hx; exact ht _ (List.mem_map_of_mem hx)
    · intro A B r x h hB hx
      exact inv_processRun h hB src us x hx
  | added src id pl io us =>
    refine ⟨A, by simp [Entity.addresses], ?_⟩
    simp only [process, Entity.cost, Nat.add_zero]
    split
    · rename_i rt hrt
      exact inv_updateExisting_none (h.same (modify_same r rt (fun x => { x with cancelled := false }) (fun _ => rfl))) src _ rt us
        (resolveRt_added r id src)
    · split
      · exact h
      · exact inv_updateExisting_none (inv_add_new h src _ _ id) src _ _ us (resolveRt_added r id src)

theorem inv_processAll {tt : Tt} : ∀ (es : List Entity) A B r, Inv tt A B r →
    B + (es.map Entity.cost).sum < 2 ^ 31 →
    (∀ e ∈ es, ∀ k ∈ e.addresses, k.1 < tt.trafficDays.length) →
    ∃ A' B', (∀ k, k ∈ A' ↔ (∃ e ∈ es, k ∈ e.addresses) ∨ k ∈ A) ∧ B' ≤ B + (es.map Entity.cost).sum ∧
      Inv tt A' B' (es.foldl (process tt) r) := by
  intro es
  induction es with
  | nil => intro A B r h _ _; exact ⟨A, B, by simp, by simp, h⟩
  | cons e es ih =>
    intro A B r h hB ht
    simp only [List.map_cons, List.sum_cons] at hB ⊢
    obtain ⟨A1, hA1, hI1⟩ := inv_process h e (by omega) (ht e (by simp))
    obtain ⟨A2, B2, hA2, hB2, hI2⟩ := ih A1 (B + e.cost) _ hI1 (by omega) (fun y hy => ht y (by simp [hy]))
    refine ⟨A2, B2, ?_, by omega, hI2⟩
    intro k
    rw [hA2, hA1]
    simp only [List.mem_cons, exists_eq_or_imp]
    grind

end Nigiri.Rt
