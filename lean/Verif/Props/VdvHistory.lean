import Verif.Proofs.VdvHistory
import Verif.Props.VdvAus

/-!
# C102: histories of VDV AUS / SIRI ET messages

The runs of an id are those of the first complete message since the id was last forgotten, otherwise of the first
message.  A message changes these runs and nothing else.  A cancellation removes a run which has no real-time
transport; one which was updated before stays (`C102_cancel_false`).
-/

namespace Nigiri.Vdv

open Nigiri.Rt Spec

/-- The real-time timetable after a history. -/
def after (tt : Tt) (src : Nat) (same : Nat → Nat → Bool) (mr : Msg → List VRun) (base : Int) (es : List Event) : Rtt :=
  (history tt src same mr ⟨fun _ => none, create tt base⟩ es).rtt

/-- C102: after any history of messages and clean-ups, a (transport, day) is active in the static view of the real-time
timetable if and only if it is in the static timetable and no message was about it. -/
theorem C102_active {tt : Tt} (hok : tt.Ok) (src : Nat) (same : Nat → Nat → Bool) (mr : Msg → List VRun) (base : Int)
    {es : List Event} (hf : Spec.Admissible tt mr es) {t : Nat} (ht : t < tt.trafficDays.length) (d : Nat) :
    isActive tt (after tt src same mr base es) t d = true ↔
      staticActive tt t d = true ∧ ∀ x ∈ runsOf mr es, x.t ≠ (t, d) := by
  obtain ⟨A, hA, hI⟩ := history_inv hok src same mr base es hf
  unfold after
  rw [hI.active t d ht, staticActive_eq hok ht, Bool.and_eq_true, Bool.not_eq_true', decide_eq_false_iff_not, hA,
    List.mem_map]
  constructor
  · rintro ⟨h1, h2⟩
    exact ⟨h1, fun x hx he => h2 ⟨x, hx, he⟩⟩
  · rintro ⟨h1, h2⟩
    refine ⟨h1, ?_⟩
    rintro ⟨x, hx, he⟩
    exact h2 x hx he

/-- C102: a static run never has two real-time transports, and one with a real-time transport is not active in
the static view. -/
theorem C102_one_instance {tt : Tt} (hok : tt.Ok) (src : Nat) (same : Nat → Nat → Bool) (mr : Msg → List VRun)
    (base : Int) {es : List Event} (hf : Spec.Admissible tt mr es) {k : Nat × Nat} (hk : k.1 < tt.trafficDays.length)
    {i : Nat} {y : RtTransport} (hi : (after tt src same mr base es).transports[i]? = some y)
    (hy : y.static = some k) :
    (∀ (j : Nat) (z : RtTransport), (after tt src same mr base es).transports[j]? = some z → z.static = some k → j = i) ∧
      isActive tt (after tt src same mr base es) k.1 k.2 = false := by
  obtain ⟨A, hA, hI⟩ := history_inv hok src same mr base es hf
  have h1 := (hI.inst k i).mpr ⟨y, hi, hy⟩
  constructor
  · intro j z hj hz
    have h2 := (hI.inst k j).mpr ⟨z, hj, hz⟩
    rw [h1] at h2
    exact (Option.some.inj h2).symm
  · unfold after
    rw [hI.active k.1 k.2 hk]
    have : (k.1, k.2) ∈ A := hI.keys _ (by rw [h1]; rfl)
    simp [this]

/-! ## One run -/

theorem cancelRun_static (tt : Tt) (r : Rtt) (k : Nat × Nat) (f : Nat) :
    (cancelRun tt r ⟨some k, none, f, []⟩).transports = r.transports := rfl

theorem updateExisting_other (tt : Tt) (same : Nat → Nat → Bool) (r : Rtt) (x : VRun) (vs : List VStop) (rt i : Nat)
    (hi : i ≠ rt) : (updateExisting tt same r x vs rt).transports[i]? = r.transports[i]? := by
  unfold updateExisting
  split
  · rfl
  · simp only
    split
    · show ((r.transports.set rt _).modify rt _)[i]? = _
      rw [Rt.modify_other { r with transports := r.transports.set rt _ } _ _ _ hi,
        List.getElem?_set_ne (fun h => hi h.symm)]
    · show (r.transports.set rt _)[i]? = _
      rw [List.getElem?_set_ne (fun h => hi h.symm)]

theorem updateExisting_self (tt : Tt) (same : Nat → Nat → Bool) (r : Rtt) (x : VRun) (vs : List VStop) (rt : Nat)
    (y : RtTransport) (hy : r.transports[rt]? = some y) (hc : y.cancelled = false) :
    (updateExisting tt same r x vs rt).transports[rt]? =
      some { y with
        times := (updateRun (ctxOf tt same r.base x) vs ⟨y.times, y.stops⟩).1.times
        stops := (updateRun (ctxOf tt same r.base x) vs ⟨y.times, y.stops⟩).1.stops
        cancelled := (updateRun (ctxOf tt same r.base x) vs ⟨y.times, y.stops⟩).2 } := by
  have hlt : rt < r.transports.length := (List.getElem?_eq_some_iff.mp hy).1
  unfold updateExisting
  rw [hy]
  simp only
  generalize updateRun (ctxOf tt same r.base x) vs ⟨y.times, y.stops⟩ = res
  cases hr : res.2 with
  | true =>
    simp only [if_true]
    show ((r.transports.set rt _).modify rt _)[rt]? = _
    rw [List.getElem?_modify, List.getElem?_set_self hlt]
    simp
  | false =>
    simp only [Bool.false_eq_true, if_false]
    rw [List.getElem?_set_self hlt]
    rw [hc]

theorem updateRunRtt_base (tt : Tt) (src : Nat) (same : Nat → Nat → Bool) (vs : List VStop) (r : Rtt) (x : VRun) :
    (updateRunRtt tt src same vs r x).base = r.base := by
  have h : ∀ (r : Rtt) rt, (updateExisting tt same r x vs rt).base = r.base := by
    intro r rt
    unfold updateExisting
    split
    · rfl
    · simp only
      split <;> rfl
  unfold updateRunRtt
  split
  · rw [h]
  · simp only [h]
    rfl

theorem applyRun_base (tt : Tt) (src : Nat) (same : Nat → Nat → Bool) (m : Msg) (r : Rtt) (x : VRun) :
    (applyRun tt src same m r x).base = r.base := by
  unfold applyRun
  split
  · rfl
  · exact updateRunRtt_base tt src same m.stops r x

theorem runs_base (tt : Tt) (src : Nat) (same : Nat → Nat → Bool) (m : Msg) (xs : List VRun) :
    ∀ r : Rtt, (xs.foldl (applyRun tt src same m) r).base = r.base := by
  induction xs with
  | nil => intro r; rfl
  | cons x xs ih => intro r; rw [List.foldl_cons, ih, applyRun_base]

theorem after_base (tt : Tt) (src : Nat) (same : Nat → Nat → Bool) (mr : Msg → List VRun) (base : Int)
    (es : List Event) : (after tt src same mr base es).base = base := by
  induction es using snoc_ind with
  | h0 => rfl
  | h es e ih =>
    unfold after at ih ⊢
    rw [rtt_snoc]
    cases e with
    | cleanup d => exact ih
    | run m => simp only; rw [runs_base, ih]

theorem applyRun_other {tt : Tt} {A : List (Nat × Nat)} {B : Nat} {r : Rtt} (h : Inv tt A B r)
    (src : Nat) (same : Nat → Nat → Bool) (m : Msg) (x : VRun) {i : Nat} {y : RtTransport}
    (hy : r.transports[i]? = some y) (hn : y.static ≠ some x.t) :
    (applyRun tt src same m r x).transports[i]? = some y := by
  unfold applyRun
  split
  · exact hy
  · unfold updateRunRtt
    cases hl : r.byStatic.lookup x.t with
    | some rt =>
      simp only
      have hne : i ≠ rt := by
        rintro rfl
        obtain ⟨z, hz, hzs⟩ := (h.inst _ _).mp hl
        rw [hy] at hz; cases hz
        exact hn hzs
      rw [updateExisting_other _ _ _ _ _ _ _ hne]
      simp only
      rw [Rt.modify_other _ _ _ _ hne, hy]
    | none =>
      simp only
      have hlt : i < r.transports.length := (List.getElem?_eq_some_iff.mp hy).1
      have hrt : (addRtTransport tt r src (some x.t) [] [] "").2 = r.transports.length := rfl
      rw [updateExisting_other _ _ _ _ _ _ _ (by rw [hrt]; omega)]
      show (r.transports ++ _)[i]? = _
      rw [List.getElem?_append_left hlt]; exact hy

theorem runs_other {tt : Tt} (src : Nat) (same : Nat → Nat → Bool) (m : Msg) :
    ∀ (xs : List VRun) (A : List (Nat × Nat)) (B : Nat) (r : Rtt), Inv tt A B r → B + 2 * xs.length < 2 ^ 31 →
      (∀ x ∈ xs, x.t.1 < tt.trafficDays.length) → ∀ (i : Nat) (y : RtTransport), r.transports[i]? = some y →
      (∀ x ∈ xs, y.static ≠ some x.t) → (xs.foldl (applyRun tt src same m) r).transports[i]? = some y := by
  intro xs
  induction xs with
  | nil => intro A B r _ _ _ i y hy _; exact hy
  | cons x xs ih =>
    intro A B r h hB ht i y hy hn
    rw [List.length_cons] at hB
    rw [List.foldl_cons]
    exact ih (x.t :: A) (B + 2) _ (inv_applyRun h (by omega) src same m x (ht x (by simp))) (by omega)
      (fun z hz => ht z (by simp [hz])) i y (applyRun_other h src same m x hy (hn x (by simp)))
      (fun z hz => hn z (by simp [hz]))

/-- Arrays of a new real-time transport: scheduled times and stops. -/
def scheduled (tt : Tt) (base : Int) (k : Nat × Nat) : St := ⟨copyTimes tt base k.1 k.2 (tt.stops k.1).length, tt.stops k.1⟩

theorem updateRunRtt_self {tt : Tt} {A : List (Nat × Nat)} {B : Nat} {r : Rtt} (h : Inv tt A B r)
    (src : Nat) (same : Nat → Nat → Bool) (vs : List VStop) (x : VRun) :
    ∃ (s : St) (y : RtTransport) (i : Nat), (updateRunRtt tt src same vs r x).transports[i]? = some y ∧
      y.static = some x.t ∧
      ((∃ z, Instance r x.t z ∧ s = ⟨z.times, z.stops⟩) ∨ ((∀ z, ¬ Instance r x.t z) ∧ s = scheduled tt r.base x.t)) ∧
      y.times = (updateRun (ctxOf tt same r.base x) vs s).1.times ∧
      y.stops = (updateRun (ctxOf tt same r.base x) vs s).1.stops ∧
      y.cancelled = (updateRun (ctxOf tt same r.base x) vs s).2 := by
  unfold updateRunRtt
  cases hl : r.byStatic.lookup x.t with
  | some rt =>
    simp only
    obtain ⟨z, hz, hzs⟩ := (h.inst _ _).mp hl
    have hm : (r.transports.modify rt (fun y => { y with cancelled := false }))[rt]? = some { z with cancelled := false } := by
      rw [List.getElem?_modify, hz]
      simp
    refine ⟨⟨z.times, z.stops⟩, _, rt, updateExisting_self tt same _ x vs rt _ hm rfl, hzs,
      Or.inl ⟨z, ⟨hzs, rt, hz⟩, rfl⟩, rfl, rfl, rfl⟩
  | none =>
    simp only
    have hrt : (addRtTransport tt r src (some x.t) [] [] "").2 = r.transports.length := rfl
    rw [hrt]
    have hm : (addRtTransport tt r src (some x.t) [] [] "").1.transports[r.transports.length]? =
        some ⟨some x.t, src, (scheduled tt r.base x.t).times, (scheduled tt r.base x.t).stops, false⟩ := by
      show (r.transports ++ _)[r.transports.length]? = _
      rw [List.getElem?_append_right (Nat.le_refl _), Nat.sub_self]
      rfl
    refine ⟨scheduled tt r.base x.t, _, _, updateExisting_self tt same _ x vs _ _ hm rfl, rfl, Or.inr ⟨?_, rfl⟩, rfl, rfl, rfl⟩
    rintro z ⟨hzs, i, hz⟩
    have := (h.inst x.t i).mpr ⟨z, hz, hzs⟩
    rw [hl] at this
    cases this

theorem updateExisting_byStatic (tt : Tt) (same : Nat → Nat → Bool) (r : Rtt) (x : VRun) (vs : List VStop) (rt : Nat) :
    (updateExisting tt same r x vs rt).byStatic = r.byStatic := by
  unfold updateExisting
  split
  · rfl
  · simp only
    split <;> rfl

theorem applyRun_lookup (tt : Tt) (src : Nat) (same : Nat → Nat → Bool) (m : Msg) (r : Rtt) (x : VRun) {k : Nat × Nat}
    (hk : k ≠ x.t) : (applyRun tt src same m r x).byStatic.lookup k = r.byStatic.lookup k := by
  unfold applyRun
  split
  · rfl
  · unfold updateRunRtt
    cases hl : r.byStatic.lookup x.t with
    | some rt => simp only [updateExisting_byStatic]
    | none =>
      simp only [updateExisting_byStatic]
      show (if (r.byStatic.lookup (x.t.1, x.t.2)).isSome then r.byStatic
        else r.byStatic ++ [((x.t.1, x.t.2), r.transports.length)]).lookup k = _
      rw [show (x.t.1, x.t.2) = x.t from rfl, hl]
      simp only [Option.isSome_none, Bool.false_eq_true, if_false]
      rw [lookup_append_new hl, if_neg hk]

theorem runs_lookup (tt : Tt) (src : Nat) (same : Nat → Nat → Bool) (m : Msg) {k : Nat × Nat} :
    ∀ (xs : List VRun) (r : Rtt), (∀ x ∈ xs, k ≠ x.t) →
      (xs.foldl (applyRun tt src same m) r).byStatic.lookup k = r.byStatic.lookup k
  | [], _, _ => rfl
  | x :: xs, r, h => by
    rw [List.foldl_cons, runs_lookup tt src same m xs _ (fun y hy => h y (List.mem_cons_of_mem _ hy)),
      applyRun_lookup tt src same m r x (h x List.mem_cons_self)]

theorem runs_instance {tt : Tt} (src : Nat) (same : Nat → Nat → Bool) (m : Msg) {xs : List VRun} {A : List (Nat × Nat)}
    {B : Nat} {r : Rtt} (hI : Inv tt A B r) (hB : B + 2 * xs.length < 2 ^ 31)
    (ht : ∀ x ∈ xs, x.t.1 < tt.trafficDays.length) {k : Nat × Nat} (hk : ∀ x ∈ xs, k ≠ x.t) (y : RtTransport) :
    Instance (xs.foldl (applyRun tt src same m) r) k y ↔ Instance r k y := by
  obtain ⟨A', _, hI'⟩ := inv_runs src same m xs A B r hI hB ht
  constructor
  · rintro ⟨hs, i, hi⟩
    have h1 := (hI'.inst k i).mpr ⟨y, hi, hs⟩
    rw [runs_lookup tt src same m xs r hk] at h1
    obtain ⟨z, hz, hzs⟩ := (hI.inst k i).mp h1
    have := runs_other src same m xs A B r hI hB ht i z hz (by
      intro x hx he
      rw [hzs] at he
      exact hk x hx (Option.some.inj he))
    rw [hi] at this
    cases this
    exact ⟨hs, i, hz⟩
  · rintro ⟨hs, i, hi⟩
    refine ⟨hs, i, runs_other src same m xs A B r hI hB ht i y hi ?_⟩
    intro x hx he
    rw [hs] at he
    exact hk x hx (Option.some.inj he)

/-! ## One message -/

/-- C102: a message leaves the real-time transports of all runs it is not about unchanged, and creates none for
them. -/
theorem C102_frame {tt : Tt} (hok : tt.Ok) (src : Nat) (same : Nat → Nat → Bool) (mr : Msg → List VRun) (base : Int)
    {es : List Event} {e : Event} (hf : Spec.Admissible tt mr (es ++ [e])) {k : Nat × Nat}
    (hk : ∀ x ∈ runsAt mr (es ++ [e]) es.length, k ≠ x.t) (y : RtTransport) :
    Instance (after tt src same mr base (es ++ [e])) k y ↔ Instance (after tt src same mr base es) k y := by
  obtain ⟨A, hA, hI⟩ := history_inv hok src same mr base es (Admissible.init hf)
  obtain ⟨h1, h2⟩ := hf
  rw [runsOf_snoc] at h1 h2
  rw [List.length_append] at h1
  unfold after
  rw [rtt_snoc]
  cases e with
  | cleanup d => exact Iff.rfl
  | run m => exact runs_instance src same m hI (by omega) (fun x hx => h2 x (List.mem_append_right _ hx)) hk y

/-- C102: an update message gives each run it is about a real-time transport with the times and stops of
`updateRun` (see C99, C100), computed from the previous real-time transport or else from the schedule, and cancelled
only if `updateRun` says so – even if it had been cancelled before. -/
theorem C102_update {tt : Tt} (hok : tt.Ok) (src : Nat) (same : Nat → Nat → Bool) (mr : Msg → List VRun) (base : Int)
    {es : List Event} {m : Msg} (hf : Spec.Admissible tt mr (es ++ [.run m])) (hc : m.cancelled = false)
    {x : VRun} (hx : x ∈ runsAt mr (es ++ [.run m]) es.length)
    (hd : (runsAt mr (es ++ [.run m]) es.length).Pairwise (fun a b => a.t ≠ b.t)) :
    ∃ (s : St) (y : RtTransport), Instance (after tt src same mr base (es ++ [.run m])) x.t y ∧
      ((∃ z, Instance (after tt src same mr base es) x.t z ∧ s = ⟨z.times, z.stops⟩) ∨
        ((∀ z, ¬ Instance (after tt src same mr base es) x.t z) ∧ s = scheduled tt base x.t)) ∧
      y.times = (updateRun (ctxOf tt same base x) m.stops s).1.times ∧
      y.stops = (updateRun (ctxOf tt same base x) m.stops s).1.stops ∧
      y.cancelled = (updateRun (ctxOf tt same base x) m.stops s).2 := by
  obtain ⟨A, hA, hI⟩ := history_inv hok src same mr base es (Admissible.init hf)
  have hbase := after_base tt src same mr base es
  obtain ⟨h1, h2⟩ := hf
  rw [runsOf_snoc] at h1 h2
  rw [List.length_append] at h1
  unfold after at hbase ⊢
  rw [rtt_snoc]
  simp only
  generalize (history tt src same mr ⟨fun _ => none, create tt base⟩ es).rtt = r at hI hbase ⊢
  generalize runsAt mr (es ++ [.run m]) es.length = xs at h1 h2 hx hd ⊢
  obtain ⟨pre, post, rfl⟩ := List.append_of_mem hx
  rw [List.length_append, List.length_cons] at h1
  have hpre : ∀ z ∈ pre, x.t ≠ z.t := by
    intro z hz he
    exact (List.pairwise_append.mp hd).2.2 z hz x List.mem_cons_self he.symm
  have hpost : ∀ z ∈ post, x.t ≠ z.t := by
    intro z hz
    exact (List.pairwise_cons.mp (List.pairwise_append.mp hd).2.1).1 z hz
  have ht : ∀ z ∈ pre ++ x :: post, z.t.1 < tt.trafficDays.length := fun z hz => h2 z (List.mem_append_right _ hz)
  have htpre : ∀ z ∈ pre, z.t.1 < tt.trafficDays.length := fun z hz => ht z (List.mem_append_left _ hz)
  obtain ⟨A1, hA1, hI1⟩ := inv_runs src same m pre A _ r hI (by omega) htpre
  have hinst := runs_instance src same m hI (xs := pre) (by omega) htpre hpre
  have hb1 := runs_base tt src same m pre r
  rw [List.foldl_append, List.foldl_cons]
  generalize pre.foldl (applyRun tt src same m) r = r1 at hI1 hinst hb1 ⊢
  have hI2 := inv_applyRun hI1 (by omega) src same m x (ht x (by simp))
  have heq : applyRun tt src same m r1 x = updateRunRtt tt src same m.stops r1 x := by
    unfold applyRun
    rw [hc]
    simp
  rw [heq] at hI2 ⊢
  obtain ⟨s, y, i, g1, g2, g3, g4, g5, g6⟩ := updateRunRtt_self hI1 src same m.stops x
  rw [hb1, hbase] at g3 g4 g5 g6
  have hfin := runs_instance src same m hI2 (xs := post) (by omega)
    (fun z hz => ht z (List.mem_append_right _ (List.mem_cons_of_mem _ hz))) hpost y
  refine ⟨s, y, hfin.mpr ⟨g2, i, g1⟩, ?_, g4, g5, g6⟩
  rcases g3 with ⟨z, hz, e⟩ | ⟨hz, e⟩
  · exact Or.inl ⟨z, (hinst z).mp hz, e⟩
  · exact Or.inr ⟨fun z h => hz z ((hinst z).mpr h), e⟩

theorem runs_cancel_transports (tt : Tt) (src : Nat) (same : Nat → Nat → Bool) (m : Msg) (hc : m.cancelled = true) :
    ∀ (xs : List VRun) (r : Rtt), (xs.foldl (applyRun tt src same m) r).transports = r.transports
  | [], _ => rfl
  | x :: xs, r => by
    rw [List.foldl_cons, runs_cancel_transports tt src same m hc xs]
    unfold applyRun
    rw [hc]
    rfl

/-- C102: what a cancellation does: no real-time transport is changed. -/
theorem C102_cancel_effect (tt : Tt) (src : Nat) (same : Nat → Nat → Bool) (mr : Msg → List VRun) (base : Int)
    (es : List Event) (m : Msg) (hc : m.cancelled = true) :
    (after tt src same mr base (es ++ [.run m])).transports = (after tt src same mr base es).transports := by
  unfold after
  rw [rtt_snoc]
  exact runs_cancel_transports tt src same m hc _ _

/-- C102: after a cancellation message nothing of the run is offered any more, if the run had no real-time
transport which is not cancelled.  Missing: runs updated by an earlier message (`C102_cancel_false`). -/
theorem C102_cancel_partial {tt : Tt} (hok : tt.Ok) (src : Nat) (same : Nat → Nat → Bool) (mr : Msg → List VRun)
    (base : Int) {es : List Event} {m : Msg} (hf : Spec.Admissible tt mr (es ++ [.run m])) (hc : m.cancelled = true)
    {x : VRun} (hx : x ∈ runsAt mr (es ++ [.run m]) es.length)
    (hno : ∀ y, Instance (after tt src same mr base es) x.t y → y.cancelled = true) :
    ¬ Offered tt (after tt src same mr base (es ++ [.run m])) x.t := by
  have hall : x ∈ runsOf mr (es ++ [.run m]) := by rw [runsOf_snoc]; exact List.mem_append_right _ hx
  rintro (h | ⟨y, ⟨hs, i, hi⟩, hyc⟩)
  · have := ((C102_active hok src same mr base hf (hf.2 x hall) x.t.2).mp h).2 x hall
    exact this rfl
  · rw [C102_cancel_effect tt src same mr base es m hc] at hi
    have := hno y ⟨hs, i, hi⟩
    rw [hyc] at this
    cases this

/-! ## Demonstration and counterexample -/

/-- One transport with two stops, departure 100, arrival 130; it operates on day 5. -/
def demoH : Tt where
  bitfields := [fun _ => false, fun d => d == 5]
  trafficDays := [1]
  stops := fun _ => [⟨10, true, true, true, true⟩, ⟨11, true, true, true, true⟩]
  eventTime := fun _ d e => d * 1440 + (if e = 0 then 100 else 130)
  locId := fun _ => ""
  lookup := fun _ _ => none
  equiv := fun l => [l]

theorem demoH_ok : demoH.Ok := ⟨by decide, by decide⟩

/-- The two stops, departure predicted 5 minutes late. -/
def histStops : List VStop :=
  [{ loc := some 10, dep := some 7300, arr := none, rtDep := some 7305, rtArr := none },
   { loc := some 11, dep := none, arr := some 7330, rtDep := none, rtArr := none }]

/-- The messages: an update and a cancellation of the same run. -/
def histMsg (cancelled : Bool) : Msg := ⟨some "a", true, cancelled, histStops⟩

/-- Both match transport 0 on day 5. -/
def demoMr : Msg → List VRun := fun _ => [⟨(0, 5), 0, 2⟩]

theorem demo_admissible : Spec.Admissible demoH demoMr [.run (histMsg false), .run (histMsg true)] := by
  have : runsOf demoMr [.run (histMsg false), .run (histMsg true)] = [⟨(0, 5), 0, 2⟩, ⟨(0, 5), 0, 2⟩] := by decide
  rw [Spec.Admissible, this]
  exact ⟨by decide, by decide⟩

/-- A delay of 5 minutes is stored; the run is cancelled if it was not updated before. -/
example :
    ((after demoH 0 (· == ·) demoMr 0 [.run (histMsg false)]).transports = [⟨some (0, 5), 0, [7305, 7330],
      [⟨10, true, true, true, true⟩, ⟨11, true, true, true, true⟩], false⟩]) ∧
    isActive demoH (after demoH 0 (· == ·) demoMr 0 []) 0 5 = true ∧
    isActive demoH (after demoH 0 (· == ·) demoMr 0 [.run (histMsg true)]) 0 5 = false ∧
    (after demoH 0 (· == ·) demoMr 0 [.run (histMsg true)]).transports = [] := by
  decide

/-- C102 is false for runs updated before: an update followed by a cancellation of the same run leaves its real-time
transport offered, because the cancellation is applied to the static run only. -/
theorem C102_cancel_false :
    ∃ (tt : Tt) (mr : Msg → List VRun) (upd cancel : Msg) (x : VRun), tt.Ok ∧
      Spec.Admissible tt mr [.run upd, .run cancel] ∧ cancel.cancelled = true ∧ cancel.id = upd.id ∧
      x ∈ runsAt mr [.run upd, .run cancel] 1 ∧
      Offered tt (after tt 0 (· == ·) mr 0 [.run upd, .run cancel]) x.t := by
  refine ⟨demoH, demoMr, histMsg false, histMsg true, ⟨(0, 5), 0, 2⟩, demoH_ok, demo_admissible, rfl, rfl, by decide, ?_⟩
  refine Or.inr ⟨⟨some (0, 5), 0, [7305, 7330], [⟨10, true, true, true, true⟩, ⟨11, true, true, true, true⟩], false⟩,
    ⟨rfl, 0, by decide⟩, rfl⟩

end Nigiri.Vdv
