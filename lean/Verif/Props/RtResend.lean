import Verif.Proofs.RtResend

/-!
# C111, C112: sending a trip update again, and how much the past matters
-/

namespace Nigiri.Rt

/-! ### One run -/

/-- **C111 (one run).** Applying a trip update a second time changes nothing: neither a time nor a stop nor
the verdict whether the run is cancelled.  The times before the first application are in order (C30) and
within the 16-bit range. -/
theorem C111_run (c : Ctx) (us : List StopUpd) (st : St) (hv : c.scheduled = true ∨ c.first = 0)
    (hn : NonDecreasing st.times) (hp : ∀ t ∈ st.times, deltaMin ≤ t) :
    (updateRun c us (updateRun c us st).1).1.times = (updateRun c us st).1.times ∧
    (updateRun c us (updateRun c us st).1).1.stops = (updateRun c us st).1.stops ∧
    (updateRun c us (updateRun c us st).1).2 = (updateRun c us st).2 := by
  have hs := resend_stops c us st (updateRun c us st).1 hv rfl
  refine ⟨resend_times c us st _ hv hn hp rfl, hs, ?_⟩
  have e : ∀ st, (updateRun c us st).2 = decide (((updateRun c us st).1.stops.filter (fun x => !x.cancelled)).length ≤ 1) :=
    fun _ => rfl
  rw [e, e st, hs]

/-! ### The real-time timetable -/

/-- What a reader of the real-time timetable can see. -/
structure SameView (tt : Tt) (r r' : Rtt) : Prop where
  base : r'.base = r.base
  runs : r'.transports = r.transports
  byTrip : r'.byStatic = r.byStatic
  byId : r'.addIds = r.addIds
  added : r'.addTransports = r.addTransports
  stops : r'.locRt = r.locRt
  active : ∀ t d, t < tt.trafficDays.length → isActive tt r' t d = isActive tt r t d

/-- All stop times within the 16-bit range. -/
def TimesLow (r : Rtt) : Prop := ∀ (i : Nat) x, r.transports[i]? = some x → ∀ t ∈ x.times, deltaMin ≤ t

theorem TimesLow.modify {r : Rtt} (h : TimesLow r) (rt : Nat) (b : Bool) :
    TimesLow { r with transports := r.transports.modify rt (fun x => { x with cancelled := b }) } := by
  intro i x hx
  simp only at hx
  rw [List.getElem?_modify] at hx
  cases hy : r.transports[i]? with
  | none => rw [hy] at hx; cases hx
  | some y =>
    rw [hy] at hx
    have hx : (if rt = i then { y with cancelled := b } else y) = x := Option.some.inj hx
    have := h i y hy
    split at hx <;> (rw [← hx]; exact this)

theorem TimesLow.cancel {tt : Tt} {r : Rtt} (h : TimesLow r) (run : Run) : TimesLow (cancelRun tt r run) := by
  unfold cancelRun
  cases run.rt with
  | none => cases run.t with
    | none => exact h
    | some _ => exact h
  | some rt => cases run.t with
    | none => exact h.modify rt true
    | some _ => exact h.modify rt true

theorem TimesLow.update {tt : Tt} {r : Rtt} (src : Nat) (run : Run) (rt : Nat) (us : List StopUpd)
    (h : ∀ (i : Nat) x, i ≠ rt → r.transports[i]? = some x → ∀ t ∈ x.times, deltaMin ≤ t) :
    TimesLow (updateExisting tt r src run rt us) := by
  unfold updateExisting
  split
  · rename_i hn
    intro i x hx
    exact h i x (by rintro rfl; rw [hn] at hx; cases hx) hx
  · rename_i x hx
    simp only
    have main : TimesLow { r with
        transports := r.transports.set rt { x with
          times := (updateRun (ctxOf tt r src run rt) us ⟨x.times, x.stops, []⟩).1.times
          stops := (updateRun (ctxOf tt r src run rt) us ⟨x.times, x.stops, []⟩).1.stops }
        locRt := (updateRun (ctxOf tt r src run rt) us ⟨x.times, x.stops, []⟩).1.newLocs.foldl
          (fun m l => pushNew m l rt) r.locRt } := by
      intro i y hy
      simp only at hy
      rcases set_getElem? hy with ⟨rfl, _, rfl⟩ | ⟨h1, h2⟩
      · intro t ht
        exact monoPass_ge _ _ _ ht
      · exact h i y (fun h => h1 h.symm) h2
    split
    · exact main.cancel _
    · exact main

theorem TimesLow.add {tt : Tt} {r : Rtt} (h : TimesLow r) (src : Nat) (k : Option (Nat × Nat)) (ss : List Stop)
    (ts : List Int) (id : String) :
    ∀ (i : Nat) x, i ≠ (addRtTransport tt r src k ss ts id).2 →
      (addRtTransport tt r src k ss ts id).1.transports[i]? = some x → ∀ t ∈ x.times, deltaMin ≤ t := by
  intro i x hi hx
  have h1 : ∃ y, (addRtTransport tt r src k ss ts id).1.transports = r.transports ++ [y] := by
    simp only [addRtTransport]
    cases k with
    | none => exact ⟨_, rfl⟩
    | some td =>
      simp only
      split
      · exact ⟨_, rfl⟩
      · exact ⟨_, rfl⟩
  obtain ⟨y, hy⟩ := h1
  have h2 : (addRtTransport tt r src k ss ts id).2 = r.transports.length := rfl
  rw [hy] at hx
  rw [h2] at hi
  rcases getElem?_snoc hx with ⟨_, hx⟩ | ⟨h3, _⟩
  · exact h i x hx
  · exact absurd h3 hi

theorem TimesLow.process {tt : Tt} {r : Rtt} (h : TimesLow r) (e : Entity) : TimesLow (process tt r e) := by
  have hrun : ∀ src us r y, TimesLow r → TimesLow (processRun tt src us r y) := by
    intro src us r y h
    simp only [processRun]
    split
    · exact TimesLow.update src _ _ us (fun i x _ hx => h.modify _ false i x hx)
    · exact TimesLow.update src _ _ us (h.add src _ [] [] "")
  have fold : ∀ (f : Rtt → Resolved → Rtt), (∀ r y, TimesLow r → TimesLow (f r y)) →
      ∀ (runs : List Resolved) r, TimesLow r → TimesLow (runs.foldl f r) := by
    intro f hf runs
    induction runs with
    | nil => intro r h; exact h
    | cons y runs ih => intro r h; exact ih _ (hf r y h)
  cases e with
  | cancel src runs => exact fold _ (fun r y h => h.cancel _) runs r h
  | update src runs us => exact fold _ (fun r y h => hrun src us r y h) runs r h
  | added src id pl io us =>
    simp only [Rt.process]
    split
    · exact TimesLow.update src _ _ us (fun i x _ hx => h.modify _ false i x hx)
    · split
      · exact h
      · exact TimesLow.update src _ _ us (h.add src _ _ _ id)

theorem processAll_low (tt : Tt) (base : Int) (es : List Entity) : TimesLow (processAll tt base es) := by
  have : ∀ (es : List Entity) r, TimesLow r → TimesLow (es.foldl (process tt) r) := by
    intro es
    induction es with
    | nil => intro r h; exact h
    | cons e es ih => intro r h; exact ih _ (h.process e)
  exact this es _ (by intro i x h; simp [create] at h)

/-- Registering at locations a second time. -/
theorem pushNew_again (rt : Nat) : ∀ (ls : List Nat) (m : Nat → List Nat), (∀ l ∈ ls, rt ∈ m l) →
    ls.foldl (fun m l => pushNew m l rt) m = m := by
  intro ls
  induction ls with
  | nil => intro m _; rfl
  | cons l ls ih =>
    intro m h
    have e : pushNew m l rt = m := by
      unfold pushNew
      rw [if_pos (by simpa using h l (by simp))]
    rw [List.foldl_cons, e]
    exact ih m (fun x hx => h x (by simp [hx]))

/-- The run after `updateExisting`. -/
theorem updateExisting_run {tt : Tt} {r : Rtt} {src rt : Nat} {run : Run} {us : List StopUpd} {x : RtTransport}
    (hx : r.transports[rt]? = some x) (hc : x.cancelled = false) (td : Nat × Nat) (ht : run.t = some td) :
    let res := updateRun (ctxOf tt r src run rt) us ⟨x.times, x.stops, []⟩
    (updateExisting tt r src run rt us).transports =
        r.transports.set rt { x with times := res.1.times, stops := res.1.stops, cancelled := res.2 } ∧
    (updateExisting tt r src run rt us).locRt = res.1.newLocs.foldl (fun m l => pushNew m l rt) r.locRt ∧
    (updateExisting tt r src run rt us).base = r.base ∧
    (updateExisting tt r src run rt us).byStatic = r.byStatic ∧
    (updateExisting tt r src run rt us).addIds = r.addIds ∧
    (updateExisting tt r src run rt us).addTransports = r.addTransports := by
  have hlt : rt < r.transports.length := (List.getElem?_eq_some_iff.mp hx).1
  intro res
  unfold updateExisting
  rw [hx]
  simp only
  cases h2 : (updateRun (ctxOf tt r src run rt) us ⟨x.times, x.stops, []⟩).2 with
  | false =>
    rw [if_neg (by simp)]
    refine ⟨?_, rfl, rfl, rfl, rfl, rfl⟩
    rw [hc]
  | true =>
    rw [if_pos rfl]
    obtain ⟨t, d⟩ := td
    unfold cancelRun
    rw [ht]
    refine ⟨?_, rfl, rfl, rfl, rfl, rfl⟩
    show List.modify _ _ _ = _
    apply List.ext_getElem?
    intro i
    rw [List.getElem?_modify, List.getElem?_set, List.getElem?_set]
    by_cases hi : rt = i
    · subst hi
      simp only [if_pos hlt]
      simp
      exact ⟨rfl, rfl⟩
    · simp [hi]

/-! ### Runs which an update leaves as they are -/

/-- One run named by a message: cancelled (`none`) or updated. -/
structure Atom where
  src : Nat
  run : Resolved
  us : Option (List StopUpd)

/-- Effect of one run of a message. -/
def Atom.step (tt : Tt) (r : Rtt) (a : Atom) : Rtt :=
  match a.us with
  | none => cancelRun tt r (resolveRt r a.run.run "" a.src)
  | some us => processRun tt a.src us r a.run

/-- The run of an atom with its instance. -/
def Atom.withRt (a : Atom) (rt : Nat) : Run := ⟨some a.run.t, some rt, a.run.first, a.run.seqs⟩

/-- The message part `a` has nothing left to change. -/
def Stable (tt : Tt) (r : Rtt) (a : Atom) : Prop :=
  match a.us with
  | none => ∀ rt, r.byStatic.lookup a.run.t = some rt → ∃ x, r.transports[rt]? = some x ∧ x.cancelled = true
  | some us => ∃ rt x N, r.byStatic.lookup a.run.t = some rt ∧ r.transports[rt]? = some x ∧
      updateRun (ctxOf tt r a.src (a.withRt rt) rt) us ⟨x.times, x.stops, []⟩ = (⟨x.times, x.stops, N⟩, x.cancelled) ∧
      ∀ l ∈ N, rt ∈ r.locRt l

/-- Equal up to the representation of the traffic days. -/
structure Near (r r' : Rtt) : Prop where
  base : r'.base = r.base
  runs : r'.transports = r.transports
  byTrip : r'.byStatic = r.byStatic
  byId : r'.addIds = r.addIds
  added : r'.addTransports = r.addTransports
  stops : r'.locRt = r.locRt

theorem Near.trans {a b c : Rtt} (h : Near a b) (g : Near b c) : Near a c :=
  ⟨g.base.trans h.base, g.runs.trans h.runs, g.byTrip.trans h.byTrip, g.byId.trans h.byId, g.added.trans h.added,
    g.stops.trans h.stops⟩

theorem ctxOf_static {tt : Tt} {r r' : Rtt} (hb : r'.base = r.base) (src : Nat) (a : Atom) (rt : Nat) :
    ctxOf tt r' src (a.withRt rt) rt = ctxOf tt r src (a.withRt rt) rt := by
  simp only [ctxOf, Atom.withRt, hb]

theorem Stable.near {tt : Tt} {r r' : Rtt} {a : Atom} (h : Stable tt r a) (hn : Near r r') : Stable tt r' a := by
  unfold Stable at h ⊢
  cases hu : a.us with
  | none =>
    rw [hu] at h
    intro rt hl
    rw [hn.byTrip] at hl
    rw [hn.runs]
    exact h rt hl
  | some us =>
    rw [hu] at h
    obtain ⟨rt, x, N, h1, h2, h3, h4⟩ := h
    refine ⟨rt, x, N, by rw [hn.byTrip]; exact h1, by rw [hn.runs]; exact h2, ?_, by rw [hn.stops]; exact h4⟩
    rw [ctxOf_static hn.base]
    exact h3

/-- A stable message part changes nothing. -/
theorem Stable.step {tt : Tt} {r : Rtt} {a : Atom} (h : Stable tt r a) : Near r (a.step tt r) := by
  unfold Stable at h
  unfold Atom.step
  cases hu : a.us with
  | none =>
    rw [hu] at h
    simp only at h ⊢
    rw [resolveRt_static]
    obtain ⟨src, ⟨⟨t, d⟩, f, q⟩, us⟩ := a
    simp only [cancelRun]
    cases hl : r.byStatic.lookup (t, d) with
    | none => exact ⟨rfl, rfl, rfl, rfl, rfl, rfl⟩
    | some rt =>
      obtain ⟨x, hx, hc⟩ := h rt hl
      refine ⟨rfl, ?_, rfl, rfl, rfl, rfl⟩
      show r.transports.modify rt _ = r.transports
      apply List.ext_getElem?
      intro i
      rw [List.getElem?_modify]
      by_cases hi : rt = i
      · subst hi
        rw [hx]
        simp only [if_true]
        show some { x with cancelled := true } = some x
        rw [← hc]
      · cases r.transports[i]? <;> simp [hi]
  | some us =>
    rw [hu] at h
    obtain ⟨rt, x, N, h1, h2, h3, h4⟩ := h
    have hlt : rt < r.transports.length := (List.getElem?_eq_some_iff.mp h2).1
    have hx1 : ({ r with transports := r.transports.modify rt (fun x => { x with cancelled := false }) } : Rtt).transports[rt]?
        = some { x with cancelled := false } := by
      show (r.transports.modify rt _)[rt]? = _
      rw [List.getElem?_modify, h2]
      simp
    have e : processRun tt a.src us r a.run = updateExisting tt
        { r with transports := r.transports.modify rt (fun x => { x with cancelled := false }) } a.src (a.withRt rt) rt us := by
      simp only [processRun, resolveRt_static, h1]
      rfl
    simp only
    rw [e]
    obtain ⟨b1, b2, b3, b4, b5, b6⟩ := updateExisting_run (tt := tt) (src := a.src) (us := us) (run := a.withRt rt) hx1 rfl a.run.t rfl
    have hctx : ctxOf tt { r with transports := r.transports.modify rt (fun x => { x with cancelled := false }) } a.src
        (a.withRt rt) rt = ctxOf tt r a.src (a.withRt rt) rt := ctxOf_static rfl a.src a rt
    rw [hctx] at b1 b2
    dsimp only at b1 b2
    rw [h3] at b1 b2
    refine ⟨b3, ?_, b4, b5, b6, ?_⟩
    · rw [b1]
      apply List.ext_getElem?
      intro i
      show ((r.transports.modify rt _).set rt _)[i]? = _
      rw [List.getElem?_set]
      by_cases hi : rt = i
      · subst hi
        rw [if_pos rfl, if_pos (by simpa using hlt), h2]
      · rw [if_neg hi, List.getElem?_modify]
        cases r.transports[i]? <;> simp [hi]
    · rw [b2]
      exact pushNew_again rt N r.locRt h4

/-- After an update has been applied it is stable. -/
theorem stable_update {tt : Tt} {A : List (Nat × Nat)} {B : Nat} {r : Rtt} (hI : Inv tt A B r)
    (hto : TimesOk r) (htl : TimesLow r)
    (hst : ∀ t d i j, i ≤ j → j < 2 * (tt.stops t).length - 2 → tt.eventTime t d i ≤ tt.eventTime t d j)
    (a : Atom) {us : List StopUpd} (hu : a.us = some us) (hx : a.run.t.1 < tt.trafficDays.length) :
    Stable tt (a.step tt r) a := by
  have core : ∀ (ra : Rtt) (rt : Nat) (xa : RtTransport), ra.transports[rt]? = some xa → xa.cancelled = false →
      NonDecreasing xa.times → (∀ t ∈ xa.times, deltaMin ≤ t) → ra.byStatic.lookup a.run.t = some rt →
      processRun tt a.src us r a.run = updateExisting tt ra a.src (a.withRt rt) rt us →
      Stable tt (a.step tt r) a := by
    intro ra rt xa hxa hc hn hp hl he
    have hlt : rt < ra.transports.length := (List.getElem?_eq_some_iff.mp hxa).1
    have hs : a.step tt r = updateExisting tt ra a.src (a.withRt rt) rt us := by
      unfold Atom.step; rw [hu]; exact he
    obtain ⟨a1, a2, a3, a4, a5, a6⟩ := updateExisting_run (tt := tt) (src := a.src) (us := us) (run := a.withRt rt) hxa hc a.run.t rfl
    generalize hres : updateRun (ctxOf tt ra a.src (a.withRt rt) rt) us ⟨xa.times, xa.stops, []⟩ = res at a1 a2
    have hv : (ctxOf tt ra a.src (a.withRt rt) rt).scheduled = true ∨ (ctxOf tt ra a.src (a.withRt rt) rt).first = 0 :=
      Or.inl rfl
    have q1 := resend_times (ctxOf tt ra a.src (a.withRt rt) rt) us ⟨xa.times, xa.stops, []⟩ ⟨res.1.times, res.1.stops, []⟩ hv hn hp
      (by rw [hres])
    have q2 := resend_stops (ctxOf tt ra a.src (a.withRt rt) rt) us ⟨xa.times, xa.stops, []⟩ ⟨res.1.times, res.1.stops, []⟩ hv
      (by rw [hres])
    have q3 := resend_newLocs (ctxOf tt ra a.src (a.withRt rt) rt) us ⟨xa.times, xa.stops, []⟩ ⟨res.1.times, res.1.stops, []⟩ hv rfl
    have e : ∀ st, (updateRun (ctxOf tt ra a.src (a.withRt rt) rt) us st).2 =
      decide (((updateRun (ctxOf tt ra a.src (a.withRt rt) rt) us st).1.stops.filter (fun x => !x.cancelled)).length ≤ 1) := fun _ => rfl
    have q4 : (updateRun (ctxOf tt ra a.src (a.withRt rt) rt) us ⟨res.1.times, res.1.stops, []⟩).2 = res.2 := by
      rw [e, q2]
      have := e ⟨xa.times, xa.stops, []⟩
      rw [← this, hres]
    rw [hres] at q1 q2 q3
    unfold Stable
    rw [hu, hs]
    refine ⟨rt, { xa with times := res.1.times, stops := res.1.stops, cancelled := res.2 }, res.1.newLocs,
      by rw [a4]; exact hl, ?_, ?_, ?_⟩
    · rw [a1, List.getElem?_set, if_pos rfl, if_pos hlt]
    · rw [ctxOf_static a3]
      apply Prod.ext
      · generalize updateRun (ctxOf tt ra a.src (a.withRt rt) rt) us ⟨res.1.times, res.1.stops, []⟩ = z at q1 q2 q3
        obtain ⟨⟨z1, z2, z3⟩, z4⟩ := z
        simp only at q1 q2 q3
        simp only [q1, q2, q3]
      · exact q4
    · intro l hl
      rw [a2]
      exact (foldl_pushNew rt res.1.newLocs ra.locRt l rt).mpr (Or.inr ⟨rfl, hl⟩)
  cases hl : r.byStatic.lookup a.run.t with
  | some rt =>
    obtain ⟨y, hy, _⟩ := (hI.inst a.run.t rt).mp hl
    refine core { r with transports := r.transports.modify rt (fun x => { x with cancelled := false }) } rt
      { y with cancelled := false } ?_ rfl (hto rt y hy) (htl rt y hy) hl ?_
    · show (r.transports.modify rt _)[rt]? = _
      rw [List.getElem?_modify, hy]; simp
    · simp only [processRun, resolveRt_static, hl]
      rfl
  | none =>
    obtain ⟨src, ⟨⟨t, d⟩, f, q⟩, u⟩ := a
    refine core (addRtTransport tt r src (some (t, d)) [] [] "").1 r.transports.length
      ⟨some (t, d), src, copyTimes tt r.base t d (tt.stops t).length, tt.stops t, false⟩ ?_ rfl ?_ ?_ ?_ ?_
    · simp only [addRtTransport, deactivate]
      simp
    · intro i j a b hij ha hb
      simp only [copyTimes, List.getElem?_map] at ha hb
      cases hi : (List.range (2 * (tt.stops t).length - 2))[i]? with
      | none => rw [hi] at ha; cases ha
      | some i' =>
        cases hj : (List.range (2 * (tt.stops t).length - 2))[j]? with
        | none => rw [hj] at hb; cases hb
        | some j' =>
          rw [hi] at ha; rw [hj] at hb
          obtain ⟨hi1, hi2⟩ := List.getElem?_eq_some_iff.mp hi
          obtain ⟨hj1, hj2⟩ := List.getElem?_eq_some_iff.mp hj
          simp only [List.length_range] at hi1 hj1
          simp only [List.getElem_range] at hi2 hj2
          subst hi2; subst hj2
          simp only [Option.map_some, Option.some.injEq, if_pos hi1, if_pos hj1] at ha hb
          rw [← ha, ← hb]
          exact clampDelta_mono (by have := hst t d i j hij hj1; omega)
    · intro t' ht'
      simp only [copyTimes, List.mem_map] at ht'
      obtain ⟨e, _, rfl⟩ := ht'
      have hz : ∀ z : Int, deltaMin ≤ clampDelta z := by
        intro z
        have hmm : deltaMin ≤ deltaMax := by decide
        simp only [clampDelta, stdClamp]
        by_cases h1 : z < deltaMin
        · rw [if_pos h1]; exact Int.le_refl _
        · rw [if_neg h1]
          by_cases h2 : deltaMax < z
          · rw [if_pos h2]; exact hmm
          · rw [if_neg h2]; omega
      split
      · exact hz _
      · decide
    · have hl' : r.byStatic.lookup (t, d) = none := hl
      simp only [addRtTransport]
      simp [deactivate, hl', lookup_append_new hl']
    · simp only [processRun, resolveRt_static, hl]
      rfl

/-- After a cancellation has been applied it is stable. -/
theorem stable_cancel {tt : Tt} {A : List (Nat × Nat)} {B : Nat} {r : Rtt} (hI : Inv tt A B r)
    (a : Atom) (hu : a.us = none) : Stable tt (a.step tt r) a := by
  unfold Stable Atom.step
  rw [hu]
  simp only
  intro rt hl
  rw [resolveRt_static] at hl ⊢
  obtain ⟨src, ⟨⟨t, d⟩, f, q⟩, u⟩ := a
  simp only at hl ⊢
  have e : ∀ o, (cancelRun tt r ⟨some (t, d), o, f, q⟩).byStatic = r.byStatic := by
    intro o; cases o <;> rfl
  rw [e] at hl
  rw [hl]
  obtain ⟨x, hx, _⟩ := (hI.inst _ rt).mp hl
  refine ⟨{ x with cancelled := true }, ?_, rfl⟩
  show (r.transports.modify rt _)[rt]? = _
  rw [List.getElem?_modify, hx]
  simp

/-- Another run of the message leaves it stable. -/
theorem Stable.other {tt : Tt} {A : List (Nat × Nat)} {B : Nat} {r : Rtt} (hI : Inv tt A B r)
    {a b : Atom} (hab : a.run.t ≠ b.run.t) (h : Stable tt r a) : Stable tt (b.step tt r) a := by
  have hbase : (b.step tt r).base = r.base := by
    unfold Atom.step
    cases b.us with
    | none =>
      simp only [cancelRun]
      cases (resolveRt r b.run.run "" b.src).rt <;> cases (resolveRt r b.run.run "" b.src).t <;> rfl
    | some us =>
      have hu : ∀ r src run rt, (updateExisting tt r src run rt us).base = r.base := by
        intro r src run rt
        unfold updateExisting
        split
        · rfl
        · simp only
          split
          · simp only [cancelRun]
            cases run.t <;> rfl
          · rfl
      simp only [processRun]
      split
      · rw [hu]
      · rw [hu, resolveRt_static]
        obtain ⟨src, ⟨⟨t, d⟩, f, q⟩, u⟩ := b
        rfl
  have hby : (b.step tt r).byStatic.lookup a.run.t = r.byStatic.lookup a.run.t := by
    unfold Atom.step
    cases b.us with
    | none =>
      simp only [cancelRun]
      cases (resolveRt r b.run.run "" b.src).rt <;> cases (resolveRt r b.run.run "" b.src).t <;> rfl
    | some us =>
      have hu : ∀ r src run rt, (updateExisting tt r src run rt us).byStatic = r.byStatic := by
        intro r src run rt
        unfold updateExisting
        split
        · rfl
        · simp only
          split
          · simp only [cancelRun]
            cases run.t <;> rfl
          · rfl
      simp only [processRun]
      split
      · rw [hu]
      · rw [hu, resolveRt_static]
        obtain ⟨src, ⟨⟨t, d⟩, f, q⟩, u⟩ := b
        simp only [addRtTransport]
        simp only [if_true]
        cases hl : r.byStatic.lookup (t, d) with
        | some _ => simp
        | none =>
          simp only [Option.isSome_none, Bool.false_eq_true, if_false]
          rw [lookup_append_new hl, if_neg hab]
  have hloc : ∀ l i, i ∈ r.locRt l → i ∈ (b.step tt r).locRt l := by
    intro l i hi
    unfold Atom.step
    cases b.us with
    | none =>
      simp only [cancelRun]
      cases (resolveRt r b.run.run "" b.src).rt <;> cases (resolveRt r b.run.run "" b.src).t <;> exact hi
    | some us =>
      have hu : ∀ r src run rt, i ∈ r.locRt l → i ∈ (updateExisting tt r src run rt us).locRt l := by
        intro r src run rt hi
        unfold updateExisting
        split
        · exact hi
        · simp only
          split
          · simp only [cancelRun]
            cases run.t <;> exact (foldl_pushNew rt _ _ l i).mpr (Or.inl hi)
          · exact (foldl_pushNew rt _ _ l i).mpr (Or.inl hi)
      simp only [processRun]
      split
      · exact hu _ _ _ _ hi
      · apply hu
        rw [resolveRt_static]
        obtain ⟨src, ⟨⟨t, d⟩, f, q⟩, u⟩ := b
        exact (foldl_pushLast _ _ _ l i).mpr (Or.inl hi)
  have hruns : ∀ (rt : Nat) (x : RtTransport), r.byStatic.lookup a.run.t = some rt → r.transports[rt]? = some x →
      (b.step tt r).transports[rt]? = some x := by
    intro rt x hl hx
    have hxs : x.static ≠ some b.run.t := by
      obtain ⟨y, hy, hys⟩ := (hI.inst _ rt).mp hl
      rw [hx] at hy; cases hy
      rw [hys]
      intro h; exact hab (Option.some.inj h)
    unfold Atom.step
    cases b.us with
    | none => exact cancel_other hI b.src b.run hx hxs
    | some us => exact processRun_other hI b.src us b.run hx hxs
  unfold Stable at h ⊢
  cases hu : a.us with
  | none =>
    rw [hu] at h
    intro rt hl
    rw [hby] at hl
    obtain ⟨x, hx, hc⟩ := h rt hl
    exact ⟨x, hruns rt x hl hx, hc⟩
  | some us =>
    rw [hu] at h
    obtain ⟨rt, x, N, h1, h2, h3, h4⟩ := h
    refine ⟨rt, x, N, by rw [hby]; exact h1, hruns rt x h1 h2, ?_, fun l hl => hloc l rt (h4 l hl)⟩
    rw [ctxOf_static hbase]
    exact h3

/-! ### Messages -/

/-- The runs an entity names. -/
def Entity.atoms : Entity → List Atom
  | .cancel src runs => runs.map fun x => ⟨src, x, none⟩
  | .update src runs us => runs.map fun x => ⟨src, x, some us⟩
  | .added .. => []

/-- The entity is not an additional trip. -/
def Entity.scheduled : Entity → Prop
  | .added .. => False
  | _ => True

theorem process_atoms (tt : Tt) (r : Rtt) (e : Entity) (h : e.scheduled) :
    process tt r e = e.atoms.foldl (Atom.step tt) r := by
  cases e with
  | cancel src runs => simp only [process, Entity.atoms, List.foldl_map]; rfl
  | update src runs us => simp only [process, Entity.atoms, List.foldl_map]; rfl
  | added => exact h.elim

theorem foldl_atoms (tt : Tt) : ∀ (es : List Entity) (r : Rtt), (∀ e ∈ es, e.scheduled) →
    es.foldl (process tt) r = (es.flatMap Entity.atoms).foldl (Atom.step tt) r := by
  intro es
  induction es with
  | nil => intro r _; rfl
  | cons e es ih =>
    intro r h
    rw [List.foldl_cons, List.flatMap_cons, List.foldl_append, process_atoms tt r e (h e (by simp))]
    exact ih _ (fun x hx => h x (by simp [hx]))

theorem Atom.step_inv {tt : Tt} {A : List (Nat × Nat)} {B : Nat} {r : Rtt} (hI : Inv tt A B r) (hB : B + 1 < 2 ^ 31)
    (a : Atom) (ha : a.run.t.1 < tt.trafficDays.length) : ∃ A', Inv tt A' (B + 2) (a.step tt r) := by
  unfold Atom.step
  cases a.us with
  | none =>
    exact ⟨_, (inv_cancelRun hI (by omega) _ (by rw [resolveRt_static]) ha).mono (by omega)⟩
  | some us => exact ⟨_, inv_processRun hI hB a.src us a.run ha⟩

theorem Atom.step_times {tt : Tt} {r : Rtt} (h : TimesOk r) (h' : TimesLow r) (a : Atom) :
    TimesOk (a.step tt r) ∧ TimesLow (a.step tt r) := by
  have e : a.step tt r = process tt r (match a.us with
      | none => .cancel a.src [a.run]
      | some us => .update a.src [a.run] us) := by
    unfold Atom.step
    cases a.us <;> rfl
  rw [e]
  exact ⟨h.process _, h'.process _⟩

/-- After a message every part of it is stable. -/
theorem stable_all {tt : Tt}
    (hst : ∀ t d i j, i ≤ j → j < 2 * (tt.stops t).length - 2 → tt.eventTime t d i ≤ tt.eventTime t d j) :
    ∀ (as done : List Atom) A B r, Inv tt A B r → B + 2 * as.length < 2 ^ 31 → TimesOk r → TimesLow r →
      (∀ a ∈ as, a.run.t.1 < tt.trafficDays.length) → ((done ++ as).map fun a => a.run.t).Nodup →
      (∀ a ∈ done, Stable tt r a) → ∀ a ∈ done ++ as, Stable tt (as.foldl (Atom.step tt) r) a := by
  intro as
  induction as with
  | nil => intro done A B r _ _ _ _ _ _ hd a ha; exact hd a (by simpa using ha)
  | cons b as ih =>
    intro done A B r hI hB hto htl ht hnd hd a ha
    simp only [List.length_cons] at hB
    obtain ⟨A', hI'⟩ := Atom.step_inv hI (by omega) b (ht b (by simp))
    obtain ⟨hto', htl'⟩ := Atom.step_times (tt := tt) hto htl b
    have ha' : a ∈ (done ++ [b]) ++ as := by simpa using ha
    rw [List.foldl_cons]
    refine ih (done ++ [b]) A' (B + 2) _ hI' (by omega) hto' htl' (fun x hx => ht x (by simp [hx])) (by simpa using hnd) ?_ a ha'
    intro x hx
    rcases List.mem_append.mp hx with hx | hx
    · refine Stable.other hI ?_ (hd x hx)
      intro he
      rw [List.map_append, List.nodup_append] at hnd
      exact hnd.2.2 _ (List.mem_map_of_mem hx) _ (List.mem_map_of_mem (List.mem_cons_self)) he
    · rw [List.mem_singleton] at hx
      subst hx
      cases hu : x.us with
      | none => exact stable_cancel hI x hu
      | some us => exact stable_update hI hto htl hst x hu (ht x (by simp))

theorem near_all {tt : Tt} : ∀ (as : List Atom) (R r : Rtt), Near R r → (∀ a ∈ as, Stable tt R a) →
    Near R (as.foldl (Atom.step tt) r) := by
  intro as
  induction as with
  | nil => intro R r h _; exact h
  | cons a as ih =>
    intro R r h hs
    rw [List.foldl_cons]
    exact ih R _ (h.trans ((hs a (by simp)).near h).step) (fun x hx => hs x (by simp [hx]))

theorem processAll_append (tt : Tt) (base : Int) (es fs : List Entity) :
    processAll tt base (es ++ fs) = fs.foldl (process tt) (processAll tt base es) := by
  simp only [processAll, List.foldl_append]

/-- **C111.** Sending a feed message a second time changes nothing a reader can see: all times, stops,
cancellations, lookups and active days are as after the first time.  The message is any list of
cancellations and trip updates of scheduled trips which names no run twice, after any history `es`. -/
theorem C111_message {tt : Tt} (h : tt.Ok) (base : Int) (es msg : List Entity)
    (hst : ∀ t d i j, i ≤ j → j < 2 * (tt.stops t).length - 2 → tt.eventTime t d i ≤ tt.eventTime t d j)
    (hf : Fits tt (es ++ msg ++ msg)) (hs : ∀ e ∈ msg, e.scheduled)
    (hnd : (msg.flatMap Entity.addresses).Nodup) :
    SameView tt (processAll tt base (es ++ msg)) (processAll tt base (es ++ msg ++ msg)) := by
  have hf1 : Fits tt (es ++ msg) := by
    refine ⟨?_, fun e he => hf.2 e (List.mem_append_left _ he)⟩
    have := hf.1
    simp only [List.map_append, List.sum_append] at this ⊢
    omega
  have haddr : ∀ e : Entity, e.atoms.map (fun a => a.run.t) = e.addresses := by
    intro e
    cases e <;> simp [Entity.atoms, Entity.addresses]
  have hcost : ∀ e : Entity, 2 * e.atoms.length = e.cost := by
    intro e
    cases e <;> simp [Entity.atoms, Entity.cost]
  have hmap : (msg.flatMap Entity.atoms).map (fun a => a.run.t) = msg.flatMap Entity.addresses := by
    rw [List.map_flatMap]
    congr 1
    funext e
    exact haddr e
  have hlen : ∀ l : List Entity, 2 * (l.flatMap Entity.atoms).length = (l.map Entity.cost).sum := by
    intro l
    induction l with
    | nil => rfl
    | cons e l ih =>
      rw [List.flatMap_cons, List.length_append, List.map_cons, List.sum_cons, ← ih, ← hcost e]
      omega
  have h0 := inv_create tt base (fun i hi => by have := h.2 i hi; have := h.1; omega)
  have hc := hf1.1
  simp only [List.map_append, List.sum_append] at hc
  obtain ⟨A, B, _, hB, hI⟩ := inv_processAll es [] 0 _ h0 (by omega)
    (fun e' he' => hf1.2 e' (List.mem_append_left _ he'))
  change Inv tt A B (processAll tt base es) at hI
  have e1 : processAll tt base (es ++ msg) = (msg.flatMap Entity.atoms).foldl (Atom.step tt) (processAll tt base es) := by
    rw [processAll_append, foldl_atoms tt msg _ hs]
  have e2 : processAll tt base (es ++ msg ++ msg) =
      (msg.flatMap Entity.atoms).foldl (Atom.step tt) (processAll tt base (es ++ msg)) := by
    rw [processAll_append tt base (es ++ msg), foldl_atoms tt msg _ hs]
  have hstab : ∀ a ∈ msg.flatMap Entity.atoms, Stable tt (processAll tt base (es ++ msg)) a := by
    rw [e1]
    refine stable_all hst (msg.flatMap Entity.atoms) [] A B _ hI (by rw [hlen]; omega)
      (fun i x hx => C30_all_runs tt base es hx) (processAll_low tt base es) ?_ (by rw [List.nil_append, hmap]; exact hnd)
      (by intro a ha; cases ha)
    intro a ha
    have hm : a.run.t ∈ msg.flatMap Entity.addresses := by
      rw [← hmap]; exact List.mem_map_of_mem (f := fun a : Atom => a.run.t) ha
    obtain ⟨e, he, hk⟩ := List.mem_flatMap.mp hm
    exact hf1.2 e (List.mem_append_right _ he) _ hk
  have hnear : Near (processAll tt base (es ++ msg)) (processAll tt base (es ++ msg ++ msg)) := by
    rw [e2]
    exact near_all _ _ _ ⟨rfl, rfl, rfl, rfl, rfl, rfl⟩ hstab
  refine ⟨hnear.base, hnear.runs, hnear.byTrip, hnear.byId, hnear.added, hnear.stops, ?_⟩
  intro t d ht
  have x1 := C29_exactly_the_addressed h base hf1 ht d
  have x2 := C29_exactly_the_addressed h base hf ht d
  have x3 : (∀ e ∈ es ++ msg ++ msg, (t, d) ∉ e.addresses) ↔ ∀ e ∈ es ++ msg, (t, d) ∉ e.addresses := by
    simp only [List.mem_append]
    constructor
    · intro g e he; exact g e (Or.inl he)
    · intro g e he
      rcases he with he | he
      · exact g e he
      · exact g e (Or.inr he)
  rw [x3] at x2
  rw [Bool.eq_iff_iff, x1, x2]


/-! ### How much the past matters: C112 -/

theorem tT_setT (c : Ctx) (ts ts' : List Int) (e : Nat) (t : Int) (h : e < ts.length) (h' : e < ts'.length) :
    tT c (setT c ts e t) e = tT c (setT c ts' e t) e := by
  unfold tT setT
  rw [getD_set, getD_set, if_pos ⟨rfl, h⟩, if_pos ⟨rfl, h'⟩]

/-- One event from two states which agree on the events before. -/
theorem evStepT_agree (c : Ctx) (o : Option Ev) (s s' : List Int × Option Prop') (e : Nat) (h : e < s.1.length)
    (h' : e < s'.1.length) (hp : s.2 = s'.2) (ho : s.2 = none → e = 0 ∧ o ≠ none)
    (hk : ∀ i : Nat, i < e → s.1.getD i 0 = s'.1.getD i 0) :
    (evStepT c o s e).2 = (evStepT c o s' e).2 ∧ (evStepT c o s e).2 ≠ none ∧
    (evStepT c o s e).1.length = s.1.length ∧ (evStepT c o s' e).1.length = s'.1.length ∧
    ∀ i : Nat, i < e + 1 → (evStepT c o s e).1.getD i 0 = (evStepT c o s' e).1.getD i 0 := by
  have hset : ∀ t, ∀ i : Nat, i < e + 1 → (setT c s.1 e t).getD i 0 = (setT c s'.1 e t).getD i 0 := by
    intro t i hi
    unfold setT
    rw [getD_set, getD_set]
    by_cases he : i = e
    · rw [if_pos ⟨he, h⟩, if_pos ⟨he, h'⟩]
    · rw [if_neg (by omega), if_neg (by omega)]
      exact hk i (by omega)
  have hlen : ∀ ts t, (setT c ts e t).length = ts.length := by intro ts t; simp [setT]
  have hprev : prevT c s e = prevT c s' e := by
    unfold prevT
    rw [← hp]
    cases h2 : s.2 with
    | some p => rfl
    | none => simp only; rw [if_pos (ho h2).1, if_pos (ho h2).1]
  unfold evStepT
  cases o with
  | some ev =>
    simp only
    cases ev.delay with
    | some d =>
      simp only
      rw [hprev, tT_setT c s.1 s'.1 e _ h h']
      exact ⟨rfl, by simp, hlen _ _, hlen _ _, hset _⟩
    | none =>
      simp only
      rw [hprev]
      exact ⟨rfl, by simp, hlen _ _, hlen _ _, hset _⟩
  | none =>
    simp only
    rw [← hp]
    cases h2 : s.2 with
    | some p =>
      simp only
      rw [tT_setT c s.1 s'.1 e _ h h']
      exact ⟨rfl, by simp, hlen _ _, hlen _ _, hset _⟩
    | none => exact absurd rfl (ho h2).2

theorem foldl_agree (c : Ctx) (mu : Nat → Option StopUpd) (h0 : own mu 0 ≠ none) (ts ts' : List Int)
    (hl : ts.length = ts'.length) : ∀ k, k ≤ ts.length →
      let f := fun (s : List Int × Option Prop') e => evStepT c (own mu e) s e
      ((List.range' 0 k).foldl f (ts, none)).2 = ((List.range' 0 k).foldl f (ts', none)).2 ∧
      (((List.range' 0 k).foldl f (ts, none)).2 = none → k = 0) ∧
      ((List.range' 0 k).foldl f (ts, none)).1.length = ts.length ∧
      ((List.range' 0 k).foldl f (ts', none)).1.length = ts'.length ∧
      ∀ i : Nat, i < k → ((List.range' 0 k).foldl f (ts, none)).1.getD i 0 =
        ((List.range' 0 k).foldl f (ts', none)).1.getD i 0 := by
  intro k
  induction k with
  | zero => intro _; exact ⟨rfl, fun _ => rfl, rfl, rfl, fun i hi => absurd hi (Nat.not_lt_zero _)⟩
  | succ k ih =>
    intro hk f
    obtain ⟨i1, i2, i3, i4, i5⟩ := ih (by omega)
    have e : ∀ s, (List.range' 0 (k + 1)).foldl f s = f ((List.range' 0 k).foldl f s) k := by
      intro s
      rw [List.range'_concat, List.foldl_append]
      simp
    rw [e, e]
    have := evStepT_agree c (own mu k) ((List.range' 0 k).foldl f (ts, none)) ((List.range' 0 k).foldl f (ts', none)) k
      (Nat.lt_of_lt_of_eq (by omega) i3.symm) (Nat.lt_of_lt_of_eq (by omega) i4.symm) i1 (fun h => by
        have := i2 h; subst this; exact ⟨rfl, h0⟩) i5
    obtain ⟨j1, j2, j3, j4, j5⟩ := this
    exact ⟨j1, fun h => absurd h j2, by rw [j3, i3], by rw [j4, i4], j5⟩

/-- **C112 (part).** If a trip update covers the whole transport (one trip, `n` stops), every update finds
its stop, no stop assignment is rejected, and the message says something about the first departure, the
published times after it are determined by the message and the schedule alone: whatever was known before
(`st`, `st'`), the result is the same.

Missing from the full claim "the published times are those of the last message": see
`C112_stale_delay_counterexample` and `C112_stale_stop_counterexample`. -/
theorem C112_forgets_partial (c : Ctx) (us : List StopUpd) (mu : Nat → Option StopUpd) (st st' : St) (n : Nat)
    (hs : c.scheduled = true) (hn : c.locSeq.length = n) (h2 : 2 ≤ n) (hf : c.first = 0) (hq : c.seqs.length = n)
    (ha : Assigns c us mu) (h0 : own mu 0 ≠ none)
    (hl : st.times.length = 2 * n - 2) (hl' : st'.times.length = 2 * n - 2) :
    (updateRun c us st).1.times = (updateRun c us st').1.times := by
  have hlen : (visits c).length = c.seqs.length := by simp [visits]
  have hmap : (visits c).map (·.2) = List.range' c.first (visits c).length := by
    rw [hlen]
    unfold visits
    rw [if_pos hs, List.map_snd_zip (by simp)]
  have hip : ∀ st, initPred c st = none := by intro st; simp [initPred, hf]
  have key : ∀ st, (runLoop c (visits c) us (st, none)).1.times =
      ((List.range' 0 (2 * n - 2)).foldl (fun s e => evStepT c (own mu e) s e) (st.times, none)).1 := by
    intro st
    have h1 := runLoop_plain c hs mu (by rw [hn]; exact h2) ha.only ha.ok (visits c) c.first (st, none)
      (fun _ h => h) hmap (Nat.le_refl _) (by intro _; rfl)
    rw [hlen, ← ha.order, plain_eventsOf c mu _ _ _ (Nat.le_refl _),
      eventsOf_eq c _ (by omega) (by omega)] at h1
    have hk : nEvents c c.first c.seqs.length = 2 * n - 2 := by
      unfold nEvents
      rw [if_neg (by omega), if_pos (by omega), hq]
    rw [hk, hf, Nat.mul_zero] at h1
    exact congrArg Prod.fst h1
  simp only [updateRun]
  rw [hip, hip, key, key]
  obtain ⟨_, _, j3, j4, j5⟩ := foldl_agree c mu h0 st.times st'.times (by omega) (2 * n - 2) (by omega)
  congr 1
  apply List.ext_getElem?
  intro i
  by_cases hi : i < 2 * n - 2
  · have := j5 i hi
    simp only [List.getD_eq_getElem?_getD] at this
    rw [List.getElem?_eq_getElem (by omega), List.getElem?_eq_getElem (by omega)] at this ⊢
    simpa using this
  · rw [List.getElem?_eq_none (by omega), List.getElem?_eq_none (by omega)]

namespace FeedDemo

/-- A message with an update and a cancellation. -/
def message : List Entity := [.update 0 [run] [late], .cancel 0 [⟨(1, 7), 0, [1, 2, 3]⟩]]

/-- The hypotheses of `C111_message` hold for a message with an effect, after a history with an effect. -/
example : SameView tt (processAll tt 6 (feed ++ message)) (processAll tt 6 (feed ++ message ++ message)) ∧
    (processAll tt 6 message).transports.map (·.times) ≠ (processAll tt 6 []).transports.map (·.times) := by
  refine ⟨C111_message ok 6 feed message ?_ ⟨by decide, by decide⟩ (by intro e he; simp [message] at he; rcases he with rfl | rfl <;> trivial)
    (by decide), by decide +kernel⟩
  intro t d i j hij _
  show ((1440 * d + 480 + 60 * t + 10 * i : Nat) : Int) ≤ ((1440 * d + 480 + 60 * t + 10 * j : Nat) : Int)
  omega

/-- Half an hour late at the first stop. -/
def veryLate : StopUpd := ⟨some 1, none, none, false, none, some ⟨some 1800, none⟩⟩

/-- The first stop is on time again. -/
def onTime : StopUpd := ⟨some 1, none, none, false, none, some ⟨some 0, none⟩⟩

/-- The second stop is on time again. -/
def onTime2 : StopUpd := ⟨some 2, none, none, false, some ⟨some 0, none⟩, none⟩

/-- A message about the first stop repairs everything. -/
example : (processAll tt 6 [.update 0 [run] [veryLate], .update 0 [run] [onTime]]).transports.map (·.times) =
    [[480, 490, 500, 510]] := by decide +kernel

/-- **C112 (limitation).** The run is announced half an hour late at its first stop.  The next message
says that it arrives at the second stop on time - as feeds do which leave out stops already passed.  The delay of
the first departure is never taken back, so the second and third stop stay half an hour late as well
(the scheduled times are 480, 490, 500, 510), although nothing but "on time" was last announced for them. -/
theorem C112_stale_delay_counterexample :
    (processAll tt 6 [.update 0 [run] [veryLate], .update 0 [run] [onTime2]]).transports.map (·.times) =
      [[510, 510, 510, 510]] ∧
    (processAll tt 6 [.update 0 [run] [onTime2]]).transports.map (·.times) = [[480, 490, 500, 510]] := by
  decide +kernel

/-- **C112 (limitation).** A stop which was skipped stays skipped if the next message no longer mentions it. -/
theorem C112_stale_stop_counterexample :
    (processAll tt 6 [.update 0 [run] [skip], .update 0 [run] [onTime]]).transports.map
      (fun x => x.stops.map (fun s => (s.inA, s.outA))) = [[(true, true), (false, false), (true, true)]] := by
  decide +kernel

/-- The situation of `C112_forgets_partial`: a message about the first and the second stop. -/
example :
    let c := ctxOf tt (create tt 6) 0 ⟨some (0, 6), some 0, 0, [1, 2, 3]⟩ 0
    let mu : Nat → Option StopUpd := fun s => if s = 0 then some onTime else if s = 1 then some late else none
    Assigns c [onTime, late] mu ∧ own mu 0 ≠ none ∧ c.scheduled = true ∧ c.first = 0 ∧ c.seqs.length = 3 ∧
      c.locSeq.length = 3 := by
  refine ⟨⟨by decide, ?_, ?_⟩, by decide, rfl, rfl, rfl, rfl⟩
  · intro s u h p hp
    have hp' : p = (1, 0) ∨ p = (2, 1) ∨ p = (3, 2) := by
      have : visits (ctxOf tt (create tt 6) 0 ⟨some (0, 6), some 0, 0, [1, 2, 3]⟩ 0) = [(1, 0), (2, 1), (3, 2)] := by decide
      rw [this] at hp
      simpa using hp
    by_cases h0 : s = 0
    · subst h0
      simp only [if_true, Option.some.injEq] at h
      subst h
      rcases hp' with rfl | rfl | rfl <;> decide
    · simp only [if_neg h0] at h
      by_cases h1 : s = 1
      · subst h1
        simp only [if_true, Option.some.injEq] at h
        subst h
        rcases hp' with rfl | rfl | rfl <;> decide
      · rw [if_neg h1] at h; cases h
  · intro s u h
    by_cases h0 : s = 0
    · simp only [if_pos h0, Option.some.injEq] at h
      subst h; subst h0; decide
    · simp only [if_neg h0] at h
      by_cases h1 : s = 1
      · simp only [if_pos h1, Option.some.injEq] at h
        subst h; subst h1; decide
      · rw [if_neg h1] at h; cases h

end FeedDemo

end Nigiri.Rt
