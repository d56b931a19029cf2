import Verif.Spec.VdvHistory
import Verif.Props.RtTimetable

/-! # Histories of VDV messages -/

namespace Nigiri.Vdv

open Nigiri.Rt Spec

theorem snoc_ind {α : Type} {P : List α → Prop} (h0 : P []) (h : ∀ l a, P l → P (l ++ [a])) (l : List α) : P l := by
  have : ∀ r : List α, P r.reverse := by
    intro r
    induction r with
    | nil => exact h0
    | cons a r ih => rw [List.reverse_cons]; exact h _ _ ih
  have := this l.reverse
  rwa [List.reverse_reverse] at this

theorem since_snoc (id : String) (es : List Event) (e : Event) :
    since id (es ++ [e]) = match e with
      | .run m => if m.id = some id ∧ m.stops ≠ [] then since id es ++ [m] else since id es
      | .cleanup drop => if drop id then [] else since id es := by
  unfold since
  rw [List.foldl_append]
  rfl

theorem history_snoc (tt : Tt) (src : Nat) (same : Nat → Nat → Bool) (mr : Msg → List VRun) (s : State)
    (es : List Event) (e : Event) :
    history tt src same mr s (es ++ [e]) = step tt src same mr (history tt src same mr s es) e := by
  unfold history
  rw [List.foldl_append]
  rfl

/-- What the updater remembers. -/
def remembered (mr : Msg → List VRun) (l : List Msg) : Option Match :=
  match decisive l with
  | none => none
  | some m => some ⟨!l.any (·.complete), mr m⟩

theorem any_false_find {l : List Msg} (h : l.any (·.complete) = false) : l.find? (·.complete) = none := by
  rw [List.find?_eq_none]
  intro x hx hc
  rw [List.any_eq_false] at h
  exact h x hx hc

theorem any_true_find {l : List Msg} (h : l.any (·.complete) = true) : ∃ m, l.find? (·.complete) = some m := by
  cases hf : l.find? (·.complete) with
  | some m => exact ⟨m, rfl⟩
  | none =>
    rw [List.find?_eq_none] at hf
    rw [List.any_eq_true] at h
    obtain ⟨x, hx, hc⟩ := h
    exact absurd hc (hf x hx)

theorem decisive_none {l : List Msg} (h : decisive l = none) : l = [] := by
  unfold decisive at h
  split at h
  · cases h
  · exact List.head?_eq_none_iff.mp h

theorem remembered_snoc (mr : Msg → List VRun) (l : List Msg) (m : Msg) :
    remembered mr (l ++ [m]) = match remembered mr l with
      | none => some ⟨!m.complete, mr m⟩
      | some old => if m.complete && old.onlyIncomplete then some ⟨false, mr m⟩ else some old := by
  cases hd : decisive l with
  | none =>
    have hl := decisive_none hd
    subst hl
    cases hc : m.complete <;> simp [remembered, decisive, hc]
  | some d =>
    have hne : l ≠ [] := by
      intro h; subst h; cases hd
    have hr : remembered mr l = some ⟨!l.any (·.complete), mr d⟩ := by simp only [remembered, hd]
    rw [hr]
    simp only
    cases ha : l.any (·.complete) with
    | true =>
      obtain ⟨x, hx⟩ := any_true_find ha
      have h1 : decisive (l ++ [m]) = some x := by
        simp only [decisive, List.find?_append, hx, Option.some_or]
      have h2 : d = x := by
        simp only [decisive, hx, Option.some.injEq] at hd
        exact hd.symm
      simp only [remembered, h1, List.any_append, ha, Bool.true_or, Bool.not_true, Bool.and_false, Bool.false_eq_true,
        if_false, h2]
    | false =>
      have hn := any_false_find ha
      cases hc : m.complete with
      | true =>
        have h1 : decisive (l ++ [m]) = some m := by
          simp [decisive, List.find?_append, hn, hc]
        simp [remembered, h1, hc]
      | false =>
        have h1 : decisive (l ++ [m]) = some d := by
          have hh : l.head? = some d := by
            simpa only [decisive, hn] using hd
          simp [decisive, List.find?_append, hn, hc, List.head?_append, hh]
        simp only [remembered, h1, List.any_append, ha, List.any_cons, hc, List.any_nil, Bool.or_false, Bool.not_false,
          Bool.false_and, Bool.false_eq_true, if_false]

/-- The updater's memory. -/
theorem ms_spec (tt : Tt) (src : Nat) (same : Nat → Nat → Bool) (mr : Msg → List VRun) (r : Rtt) (es : List Event) :
    ∀ id, (history tt src same mr ⟨fun _ => none, r⟩ es).ms id = remembered mr (since id es) := by
  induction es using snoc_ind with
  | h0 => intro id; rfl
  | h es e ih =>
    intro id
    rw [history_snoc, since_snoc]
    cases e with
    | cleanup drop =>
      simp only [step]
      by_cases hd : drop id = true
      · rw [if_pos hd, if_pos hd]; rfl
      · rw [if_neg hd, if_neg hd, ih]
    | run m =>
      simp only [step, processRun]
      cases hid : m.id with
      | none => simp [ih]
      | some id' =>
        simp only
        cases hs : m.stops with
        | nil => simp [ih]
        | cons v vs =>
          simp only [List.isEmpty_cons, Bool.false_eq_true, if_false]
          by_cases he : id' = id
          · subst he
            rw [if_pos ⟨rfl, by simp⟩, remembered_snoc, ← ih id']
            simp only [matchStep]
            cases hm : (history tt src same mr ⟨fun _ => none, r⟩ es).ms id' with
            | none => simp [setMatch]
            | some old =>
              simp only
              split
              · simp [setMatch]
              · exact hm
          · rw [if_neg (by intro h; exact he (Option.some.inj h.1)), ← ih id]
            simp only [matchStep]
            cases (history tt src same mr ⟨fun _ => none, r⟩ es).ms id' with
            | none => simp [setMatch, Ne.symm he]
            | some old =>
              simp only
              split
              · simp [setMatch, Ne.symm he]
              · rfl

/-- The runs of an id after a message for it. -/
theorem runs_after (mr : Msg → List VRun) (l : List Msg) :
    ((remembered mr l).map (·.runs)).getD [] = match decisive l with | some d => mr d | none => [] := by
  unfold remembered
  cases decisive l <;> rfl

/-! ## The real-time timetable -/

theorem inv_updateExisting {tt : Tt} {A : List (Nat × Nat)} {B : Nat} {r : Rtt} (h : Inv tt A B r)
    (hB : B < 2 ^ 31) (same : Nat → Nat → Bool) (x : VRun) (vs : List VStop) (rt : Nat)
    (ht : x.t.1 < tt.trafficDays.length) (hA : x.t ∈ A) :
    Inv tt A (B + 1) (updateExisting tt same r x vs rt) := by
  unfold updateExisting
  split
  · exact h.mono (by omega)
  · rename_i y hy
    simp only
    have h2 := h.same (set_same r rt y
      { y with
        times := (updateRun (ctxOf tt same r.base x) vs ⟨y.times, y.stops⟩).1.times
        stops := (updateRun (ctxOf tt same r.base x) vs ⟨y.times, y.stops⟩).1.stops } r.locRt hy rfl)
    split
    · exact (inv_cancelRun h2 hB ⟨some x.t, some rt, x.first, []⟩ (t := x.t.1) (d := x.t.2) rfl ht).congr (by
        intro k; simp only [List.mem_cons]
        constructor
        · rintro (rfl | h)
          · exact hA
          · exact h
        · exact Or.inr)
    · exact h2.mono (by omega)

theorem inv_updateRunRtt {tt : Tt} {A : List (Nat × Nat)} {B : Nat} {r : Rtt} (h : Inv tt A B r)
    (hB : B + 1 < 2 ^ 31) (src : Nat) (same : Nat → Nat → Bool) (vs : List VStop) (x : VRun)
    (ht : x.t.1 < tt.trafficDays.length) :
    Inv tt (x.t :: A) (B + 2) (updateRunRtt tt src same vs r x) := by
  unfold updateRunRtt
  cases hl : r.byStatic.lookup x.t with
  | some rt =>
    simp only
    have hA : x.t ∈ A := h.keys _ (by rw [hl]; rfl)
    have h2 := h.same (modify_same r rt (fun x => { x with cancelled := false }) (fun _ => rfl))
    exact ((inv_updateExisting h2 (by omega) same x vs rt ht hA).mono (by omega)).congr (by
      intro k; simp only [List.mem_cons]
      constructor
      · exact Or.inr
      · rintro (rfl | h)
        · exact hA
        · exact h)
  | none =>
    simp only
    have h2 := (inv_add_static h (by omega) src (t := x.t.1) (d := x.t.2) ht hl).1
    exact inv_updateExisting h2 hB same x vs _ ht (by simp)

/-- The effect of a message on one run. -/
def applyRun (tt : Tt) (src : Nat) (same : Nat → Nat → Bool) (m : Msg) (r : Rtt) (x : VRun) : Rtt :=
  if m.cancelled then cancelRun tt r ⟨some x.t, none, x.first, []⟩ else updateRunRtt tt src same m.stops r x

theorem inv_applyRun {tt : Tt} {A : List (Nat × Nat)} {B : Nat} {r : Rtt} (h : Inv tt A B r)
    (hB : B + 1 < 2 ^ 31) (src : Nat) (same : Nat → Nat → Bool) (m : Msg) (x : VRun)
    (ht : x.t.1 < tt.trafficDays.length) : Inv tt (x.t :: A) (B + 2) (applyRun tt src same m r x) := by
  unfold applyRun
  split
  · exact (inv_cancelRun h (by omega) ⟨some x.t, none, x.first, []⟩ (t := x.t.1) (d := x.t.2) rfl ht).mono (by omega)
  · exact inv_updateRunRtt h hB src same m.stops x ht

theorem inv_runs {tt : Tt} (src : Nat) (same : Nat → Nat → Bool) (m : Msg) :
    ∀ (xs : List VRun) (A : List (Nat × Nat)) (B : Nat) (r : Rtt), Inv tt A B r → B + 2 * xs.length < 2 ^ 31 →
      (∀ x ∈ xs, x.t.1 < tt.trafficDays.length) →
      ∃ A', (∀ k, k ∈ A' ↔ k ∈ xs.map VRun.t ∨ k ∈ A) ∧
        Inv tt A' (B + 2 * xs.length) (xs.foldl (applyRun tt src same m) r) := by
  intro xs
  induction xs with
  | nil => intro A B r h _ _; exact ⟨A, by simp, by simpa using h⟩
  | cons x xs ih =>
    intro A B r h hB hx
    simp only [List.length_cons] at hB ⊢
    obtain ⟨A', hA', hI⟩ := ih (x.t :: A) (B + 2) (applyRun tt src same m r x)
      (inv_applyRun h (by omega) src same m x (hx x (by simp))) (by omega) (fun y hy => hx y (by simp [hy]))
    refine ⟨A', ?_, ?_⟩
    · intro k
      rw [hA']
      simp only [List.map_cons, List.mem_cons]
      grind
    · have : B + 2 * (xs.length + 1) = B + 2 + 2 * xs.length := by omega
      rw [this]; exact hI

/-- One event of a history on the real-time timetable. -/
theorem rtt_snoc (tt : Tt) (src : Nat) (same : Nat → Nat → Bool) (mr : Msg → List VRun) (r : Rtt) (es : List Event)
    (e : Event) :
    (history tt src same mr ⟨fun _ => none, r⟩ (es ++ [e])).rtt =
      match e with
      | .run m => (runsAt mr (es ++ [e]) es.length).foldl (applyRun tt src same m)
          (history tt src same mr ⟨fun _ => none, r⟩ es).rtt
      | .cleanup _ => (history tt src same mr ⟨fun _ => none, r⟩ es).rtt := by
  have hms := ms_spec tt src same mr r (es ++ [e])
  rw [history_snoc] at hms ⊢
  have hk : (es ++ [e])[es.length]? = some e := by simp
  have htake : (es ++ [e]).take (es.length + 1) = es ++ [e] := by
    rw [List.take_of_length_le]; simp
  cases e with
  | cleanup drop => rfl
  | run m =>
    simp only [runsAt, hk, htake]
    cases hid : m.id with
    | none => simp [step, processRun, hid]
    | some id =>
      cases hs : m.stops with
      | nil => simp [step, processRun, hid, hs]
      | cons v vs =>
        have hm := hms id
        simp only [step, processRun, hid, hs, List.isEmpty_cons, Bool.false_eq_true, if_false] at hm ⊢
        rw [hm, runs_after, if_neg (by simp)]
        rw [← hs]
        rfl

theorem runsAt_append (mr : Msg → List VRun) (es : List Event) (e : Event) {k : Nat} (hk : k < es.length) :
    runsAt mr (es ++ [e]) k = runsAt mr es k := by
  unfold runsAt
  rw [List.getElem?_append_left hk, List.take_append_of_le_length (by omega)]

theorem runsOf_snoc (mr : Msg → List VRun) (es : List Event) (e : Event) :
    runsOf mr (es ++ [e]) = runsOf mr es ++ runsAt mr (es ++ [e]) es.length := by
  unfold runsOf
  rw [List.length_append, List.length_singleton, List.range_succ, List.flatMap_append]
  congr 1
  · simp only [List.flatMap]
    congr 1
    apply List.map_congr_left
    intro k hk
    exact runsAt_append mr es e (List.mem_range.mp hk)
  · simp

theorem Admissible.init {tt : Tt} {mr : Msg → List VRun} {es : List Event} {e : Event} (h : Spec.Admissible tt mr (es ++ [e])) :
    Spec.Admissible tt mr es := by
  obtain ⟨h1, h2⟩ := h
  rw [runsOf_snoc] at h1 h2
  rw [List.length_append] at h1
  exact ⟨by omega, fun x hx => h2 x (List.mem_append_left _ hx)⟩

/-- The invariant of the real-time timetable after a history. -/
theorem history_inv {tt : Tt} (hok : tt.Ok) (src : Nat) (same : Nat → Nat → Bool) (mr : Msg → List VRun) (base : Int)
    (es : List Event) : Spec.Admissible tt mr es →
    ∃ A, (∀ k, k ∈ A ↔ k ∈ (runsOf mr es).map VRun.t) ∧
      Inv tt A (2 * (runsOf mr es).length) (history tt src same mr ⟨fun _ => none, create tt base⟩ es).rtt := by
  induction es using snoc_ind with
  | h0 =>
    intro _
    exact ⟨[], by simp [runsOf], inv_create tt base (fun i hi => by have := hok.2 i hi; have := hok.1; omega)⟩
  | h es e ih =>
    intro hf
    obtain ⟨A, hA, hI⟩ := ih (Admissible.init hf)
    obtain ⟨h1, h2⟩ := hf
    rw [rtt_snoc]
    rw [runsOf_snoc] at h1 h2 ⊢
    rw [List.length_append] at h1 ⊢
    cases e with
    | cleanup drop =>
      have : runsAt mr (es ++ [.cleanup drop]) es.length = [] := by simp [runsAt]
      rw [this]
      refine ⟨A, by simpa using hA, by simpa using hI⟩
    | run m =>
      obtain ⟨A', hA', hI'⟩ := inv_runs src same m (runsAt mr (es ++ [.run m]) es.length) A _ _ hI (by omega)
        (fun x hx => h2 x (List.mem_append_right _ hx))
      refine ⟨A', ?_, ?_⟩
      · intro k
        rw [hA', hA, List.map_append, List.mem_append]
        exact Or.comm
      · rw [Nat.mul_add]; exact hI'

end Nigiri.Vdv
