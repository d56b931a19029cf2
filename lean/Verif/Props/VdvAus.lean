import Verif.Proofs.VdvStops

/-!
# C99, C100: effect of a VDV AUS / SIRI ET message on a run

C99: the times after an update are consistent: they never decrease along the run, and each event gets the
earliest of the times the message gives to it and to the events behind it; the message may be repeated.

C100: predictions and permissions of a message reach the run.
-/

namespace Nigiri.Vdv

open Nigiri.Rt Spec

/-- C99: for every message there is exactly one first-come-first-served pairing of its stops with the
stops of the run; `loc` are the locations of the stops. -/
theorem C99_pairing (c : Ctx) (loc : Nat → Nat) (vs : List VStop) :
    ∃ m, Pairing c loc vs m ∧ ∀ m', Pairing c loc vs m' → m' = m :=
  ⟨_, pairing_spec c loc vs, fun _ h => pairing_unique h (pairing_spec c loc vs)⟩

/-- C99: the times after an update.  With the times `a` given by the message: if the run gets cancelled then
`a` is stored, otherwise every event gets the least of its own time and the times of all later events. -/
theorem C99_times {c : Ctx} {s : St} (hs : Shape c s) (vs : List VStop) {m : Nat → Option Nat}
    (hm : Pairing c (fun i => (s.stops.getD i noStop).loc) vs m) :
    ∃ a, Assigned c vs m s.times a ∧
      ((updateRun c vs s).2 = true → (updateRun c vs s).1.times = a) ∧
      ((updateRun c vs s).2 = false → (updateRun c vs s).1.times.length = a.length ∧
        ∀ e, e < a.length → IsLeast (a.drop e) ((updateRun c vs s).1.times.getD e 0)) := by
  have ha := before_assigned hs hm
  have ht := updateRun_times (vs := vs) hs
  refine ⟨_, ha, ht.1, ?_⟩
  intro h2
  obtain ⟨hl, hsp⟩ := ht.2 h2
  refine ⟨hl, ?_⟩
  intro e he
  obtain ⟨h1, e', h3, h4, h5⟩ := hsp e he
  constructor
  · rw [h5, List.mem_iff_getElem?]
    refine ⟨e' - e, ?_⟩
    rw [List.getElem?_drop, show e + (e' - e) = e' from by omega, List.getD_eq_getElem?_getD,
      List.getElem?_eq_getElem h4]
    rfl
  · intro y hy
    rw [List.mem_iff_getElem?] at hy
    obtain ⟨k, hk⟩ := hy
    rw [List.getElem?_drop] at hk
    obtain ⟨hlt, _⟩ := List.getElem?_eq_some_iff.mp hk
    have := h1 (e + k) (by omega) hlt
    rw [List.getD_eq_getElem?_getD (l := (before c vs s).times), hk] at this
    exact this

/-- C99: after an update the times of a run which is not cancelled never decrease, whatever the message
and the times before. -/
theorem C99_monotone {c : Ctx} {s : St} (hs : Shape c s) (vs : List VStop)
    (h : (updateRun c vs s).2 = false) : Monotone (updateRun c vs s).1.times := by
  obtain ⟨hl, hsp⟩ := (updateRun_times (vs := vs) hs).2 h
  intro i j hij hj
  obtain ⟨_, e', h1, h2, h3⟩ := hsp j (by omega)
  rw [h3]
  exact (hsp i (by omega)).1 e' (by omega) h2

/-- C99: an event is never shown later than the message says. -/
theorem C99_not_later {c : Ctx} {s : St} (hs : Shape c s) (vs : List VStop) {m : Nat → Option Nat}
    (hm : Pairing c (fun i => (s.stops.getD i noStop).loc) vs m) (i : Nat) (arr : Bool) (t : Int)
    (he : HasEvent c i arr) (ht : target c vs m i arr = some t) :
    (updateRun c vs s).1.times.getD (slot i arr) 0 ≤ unixToDelta c.base t := by
  have ha := before_assigned hs hm
  have hu := updateRun_times (vs := vs) hs
  have e1 := ha.2.1 i arr he
  rw [ht] at e1
  have hr := hs.range
  have hl := hs.len
  have hlt : slot i arr < (before c vs s).times.length := by
    rw [ha.1, hl]
    obtain ⟨h1, h2, h3⟩ := he
    cases arr with
    | true =>
      have h3 : i ≠ 0 := by simpa using h3
      show 2 * i - 1 < _
      omega
    | false =>
      have h3 : i + 1 ≠ c.last := by simpa using h3
      show 2 * i < _
      omega
  cases h2 : (updateRun c vs s).2 with
  | true =>
    rw [hu.1 h2, e1]
    exact Int.le_refl _
  | false =>
    have := ((hu.2 h2).2 _ hlt).1 _ (Nat.le_refl _) hlt
    rw [e1] at this
    exact this

/-- C99: a message applied twice has the effect of the message applied once, on times, stops and
cancellation. -/
theorem C99_repeat {c : Ctx} {s : St} (hs : Shape c s) (vs : List VStop) :
    updateRun c vs (updateRun c vs s).1 = updateRun c vs s := updateRun_twice hs

/-- C99: the requirements on the arrays are kept, so all of this holds after any number of messages. -/
theorem C99_shape {c : Ctx} {s : St} (hs : Shape c s) (vs : List VStop) : Shape c (updateRun c vs s).1 :=
  updateRun_shape hs

/-! ## C100 -/

/-- C100 (first part): if the times given by the message are in order then they are what is stored: every
event with a prediction has this time, every event the message does not describe has its scheduled time plus the last delay, the
remaining events keep their time.  Missing: predictions which are later than a following event, see
`C100_prediction_false`. -/
theorem C100_times_partial {c : Ctx} {s : St} (hs : Shape c s) (vs : List VStop) {m : Nat → Option Nat}
    (hm : Pairing c (fun i => (s.stops.getD i noStop).loc) vs m)
    (hmono : ∀ a, Assigned c vs m s.times a → Monotone a) :
    Assigned c vs m s.times (updateRun c vs s).1.times := by
  have ha := before_assigned hs hm
  have hu := updateRun_times (vs := vs) hs
  cases h2 : (updateRun c vs s).2 with
  | true => rw [hu.1 h2]; exact ha
  | false =>
    obtain ⟨hl, hsp⟩ := hu.2 h2
    have : (updateRun c vs s).1.times = (before c vs s).times := by
      apply ext_getD hl
      intro e he
      obtain ⟨h1, e', h3, h4, h5⟩ := hsp e (by omega)
      have hmn := hmono _ ha e e' h3 h4
      have := h1 e (Nat.le_refl _) (by omega)
      omega
    rw [this]
    exact ha

/-- C100: a message which describes the stops of the run one by one is paired stop by stop. -/
theorem C100_exact (c : Ctx) (loc : Nat → Nat) (vs : List VStop) {m : Nat → Option Nat}
    (hm : Pairing c loc vs m)
    (hfit : ∀ k, c.first + k < c.last → ∃ v, vs[k]? = some v ∧ Fits c (loc (c.first + k)) (c.first + k) v) :
    ∀ k, c.first + k < c.last → m (c.first + k) = some k := by
  intro k
  induction k using Nat.strongRecOn with
  | ind k ih =>
    intro hk
    obtain ⟨v, hv, hf⟩ := hfit k hk
    have hprev : ∀ (i' x : Nat), i' < c.first + k → m i' = some x → x < k := by
      intro i' x hi hx
      obtain ⟨h1, h2, _⟩ := hm.range i' x hx
      have := ih (i' - c.first) (by omega) (by omega)
      rw [show c.first + (i' - c.first) = i' from by omega, hx] at this
      cases this
      omega
    obtain ⟨j, hj, hle⟩ := hm.greedy (c.first + k) k v (by omega) hk hv hf hprev
    rw [hj]
    congr 1
    cases k with
    | zero => omega
    | succ k =>
      have := hm.order (c.first + k) (c.first + (k + 1)) k j (by omega) (ih k (by omega) (by omega)) hj
      omega

theorem stopsAfter_flags (c : Ctx) (vs : List VStop) {loc : Nat → Nat} {m : Nat → Option Nat}
    (hm : Pairing c loc vs m) (old : List Stop) (x : Nat) :
    MsgFlags c vs m (old.getD x noStop) x (stopsAfter c vs m old x) := by
  constructor
  · intro j v hj hv
    have : stopsAfter c vs m old x = newStop (c.schedStop x) (old.getD x noStop).loc v := by
      simp only [stopsAfter, hj, Option.bind_some, hv]
    rw [this]
    simp only [newStop, MayBoard, MayAlight, Bool.and_eq_true, Bool.not_eq_true']
    refine ⟨?_, ?_, ?_, ?_⟩
    · exact ⟨fun h => ⟨h.1.1, h.1.2, h.2⟩, fun h => ⟨⟨h.1, h.2.1⟩, h.2.2⟩⟩
    · exact ⟨fun h => ⟨h.1.1, h.1.2, h.2⟩, fun h => ⟨⟨h.1, h.2.1⟩, h.2.2⟩⟩
    · exact ⟨fun h => ⟨⟨h.2.1.1, h.2.1.2, h.2.2⟩, h.1⟩, fun h => ⟨h.2, ⟨h.1.1, h.1.2.1⟩, h.1.2.2⟩⟩
    · exact ⟨fun h => ⟨⟨h.2.1.1, h.2.1.2, h.2.2⟩, h.1⟩, fun h => ⟨h.2, ⟨h.1.1, h.1.2.1⟩, h.1.2.2⟩⟩
  · intro hn
    have : stopsAfter c vs m old x = old.getD x noStop := by
      simp only [stopsAfter, hn, Option.bind_none]
    rw [this]
    exact ⟨rfl, rfl, rfl, rfl⟩

/-- C100 (second part): permissions.  Every stop keeps its location and has the flags of the message,
except that the first stop of the matched range loses all flags if boarding is not possible there, and the last one if
alighting is not possible.  Missing for the full claim: alighting at the first stop of the matched range
(which need not be the first stop of the run) and boarding at its last stop, see `C100_alighting_false`. -/
theorem C100_permissions_partial {c : Ctx} {s : St} (hs : Shape c s) (vs : List VStop) {m : Nat → Option Nat}
    (hm : Pairing c (fun i => (s.stops.getD i noStop).loc) vs m) (i : Nat) (hi : i < s.stops.length) :
    ((updateRun c vs s).1.stops.getD i noStop).loc = (s.stops.getD i noStop).loc ∧
    ∃ x, MsgFlags c vs m (s.stops.getD i noStop) i x ∧
      ((updateRun c vs s).1.stops.getD i noStop).inA = (x.inA && (decide (i + 1 = c.last → x.outA = true))) ∧
      ((updateRun c vs s).1.stops.getD i noStop).outA = (x.outA && (decide (i = c.first → x.inA = true))) ∧
      (Served ((updateRun c vs s).1.stops.getD i noStop) →
        ((updateRun c vs s).1.stops.getD i noStop).inW = x.inW ∧
        ((updateRun c vs s).1.stops.getD i noStop).outW = x.outW) := by
  rw [updateRun_stops c vs s hs]
  refine ⟨before_loc hs i hi, stopsAfter c vs m s.stops i, stopsAfter_flags c vs hm s.stops i, ?_⟩
  rw [before_stops hs hm i hi]
  generalize stopsAfter c vs m s.stops i = x
  obtain ⟨l, a, b, aw, bw⟩ := x
  by_cases h1 : i = c.first
  · by_cases h2 : i + 1 = c.last
    · cases a <;> cases b <;> simp [eq_true h1, eq_true h2, bare, Served]
    · cases a <;> cases b <;> simp [eq_true h1, eq_false h2, bare, Served]
  · by_cases h2 : i + 1 = c.last
    · cases a <;> cases b <;> simp [eq_false h1, eq_true h2, bare, Served]
    · cases a <;> cases b <;> simp [eq_false h1, eq_false h2, bare, Served]

/-- C100: the run is cancelled iff at most one of its stops is served after the message. -/
theorem C100_cancelled {c : Ctx} {s : St} (hs : Shape c s) (vs : List VStop) :
    (updateRun c vs s).2 = true ↔
      ∀ i j, i < j → j < s.stops.length → Served ((updateRun c vs s).1.stops.getD i noStop) →
        ¬ Served ((updateRun c vs s).1.stops.getD j noStop) := by
  rw [updateRun_cancelled, updateRun_stops c vs s hs]
  have hl : (before c vs s).stops.length = s.stops.length := by
    show (firstLast c _).length = _
    rw [firstLast_len, (loop_inv (vs := vs) hs).slen]
  rw [← hl]
  generalize (before c vs s).stops = l
  have hserved : ∀ x : Stop, Served x ↔ (!x.cancelled) = true := by
    intro x
    obtain ⟨_, a, b, _, _⟩ := x
    cases a <;> cases b <;> simp [Served, Stop.cancelled]
  unfold notCancelled
  induction l with
  | nil => simp
  | cons x l ih =>
    rw [List.filter_cons]
    by_cases hx : (!x.cancelled) = true
    · rw [if_pos hx]
      rw [List.length_cons]
      constructor
      · intro h i j hij hj hi hj'
        have h0 : l.filter (fun s => !s.cancelled) = [] := by
          apply List.eq_nil_of_length_eq_zero
          omega
        rw [List.filter_eq_nil_iff] at h0
        cases j with
        | zero => omega
        | succ j =>
          have hjl : j < l.length := by simpa using hj
          have e : (x :: l).getD (j + 1) noStop = l[j] := by simp [hjl]
          rw [e] at hj'
          exact h0 l[j] (List.getElem_mem hjl) ((hserved _).mp hj')
      · intro h
        have h0 : l.filter (fun s => !s.cancelled) = [] := by
          rw [List.filter_eq_nil_iff]
          intro y hy hyc
          obtain ⟨j, hj, rfl⟩ := List.getElem_of_mem hy
          have := h 0 (j + 1) (by omega) (by simpa using hj) (by
            show Served x
            exact (hserved x).mpr hx)
          apply this
          have e : (x :: l).getD (j + 1) noStop = l[j] := by simp [hj]
          rw [e]
          exact (hserved _).mpr hyc
        rw [h0]
        simp
    · rw [if_neg hx]
      refine Iff.trans ih ?_
      constructor
      · intro h i j hij hj hi
        cases i with
        | zero => exact absurd ((hserved x).mp hi) hx
        | succ i =>
          cases j with
          | zero => omega
          | succ j => exact h i j (by omega) (by simpa using hj) hi
      · intro h i j hij hj hi
        exact h (i + 1) (j + 1) (by omega) (by simpa using hj) hi

/-! ## Examples and counterexamples -/

/-- Four stops, scheduled times 100, 105, 106, 110, 112, 120 on day 0. -/
def demoCtx : Ctx where
  base := 0
  sched := fun e => [100, 105, 106, 110, 112, 120].getD e 0
  schedStop := fun i => ⟨i, true, true, true, false⟩
  same := fun a b => a == b
  first := 0
  last := 4

/-- Arrays as copied from the static timetable. -/
def demoSt : St := ⟨[100, 105, 106, 110, 112, 120], (List.range 4).map fun i => ⟨i, true, true, true, false⟩⟩

/-- Departure of stop 0 predicted 7 minutes late, stop 1 not in the message, stop 2 without boarding and with
predicted arrival. -/
def demoMsg : List VStop :=
  [⟨some 0, some 100, none, some 107, none, false, false, false, false, false⟩,
   ⟨some 2, some 112, some 110, none, some 115, true, false, false, false, false⟩]

theorem demoShape : Shape demoCtx demoSt := by
  refine ⟨rfl, by decide, ?_⟩
  intro e
  by_cases h : e < 6
  · have : ∀ e : Fin 6, -32768 ≤ demoSt.times.getD e 0 ∧ demoSt.times.getD e 0 ≤ 32767 := by decide
    exact this ⟨e, h⟩
  · have : demoSt.times.getD e 0 = 0 := by
      rw [List.getD_eq_getElem?_getD, List.getElem?_eq_none (by show 6 ≤ e; omega)]
      rfl
    omega

/-- Non-vacuity: delays are propagated to stop 1 (+7) and behind stop 2 (+5); the departure at stop 2 is
described without prediction, it keeps 112 and pulls the events before it down. -/
example : updateRun demoCtx demoMsg demoSt
    = (⟨[107, 112, 112, 112, 112, 125],
        [⟨0, true, true, true, false⟩, ⟨1, true, true, true, false⟩, ⟨2, false, true, false, false⟩,
         ⟨3, true, true, true, false⟩]⟩, false) := by decide +kernel

/-- C100 does not hold in full: the departure predicted for minute 120 is stored as minute 105, because the
message describes the next stop without a prediction. -/
theorem C100_prediction_false :
    ∃ (c : Ctx) (vs : List VStop) (s : St) (m : Nat → Option Nat), Shape c s ∧
      Pairing c (fun i => (s.stops.getD i noStop).loc) vs m ∧
      predicted c vs m 0 false = some 120 ∧ c.base = 0 ∧ (updateRun c vs s).2 = false ∧
      (updateRun c vs s).1.times.getD (slot 0 false) 0 = 105 := by
  refine ⟨demoCtx, [⟨some 0, some 100, none, some 120, none, false, false, false, false, false⟩,
    ⟨some 1, some 106, some 105, none, none, false, false, false, false, false⟩], demoSt, _, demoShape,
    pairing_spec _ _ _, ?_, rfl, ?_, ?_⟩ <;> decide +kernel

/-- C100 does not hold in full: a message about the later part of a run (matched stop range from stop 1) which
only forbids boarding at its first stop also removes alighting there. -/
theorem C100_alighting_false :
    ∃ (c : Ctx) (vs : List VStop) (s : St) (m : Nat → Option Nat) (v : VStop), Shape c s ∧
      Pairing c (fun i => (s.stops.getD i noStop).loc) vs m ∧ m 1 = some 0 ∧ vs[0]? = some v ∧ MayAlight v ∧
      (updateRun c vs s).2 = false ∧ ¬ Served ((updateRun c vs s).1.stops.getD 1 noStop) := by
  refine ⟨{ demoCtx with first := 1 }, [⟨some 1, some 106, some 105, some 107, some 106, true, false, false, false, false⟩],
    demoSt, _, _, ⟨demoShape.len, by decide, demoShape.int16⟩, pairing_spec _ _ _, ?_, rfl, ?_, ?_, ?_⟩
  · decide +kernel
  · simp [MayAlight]
  · decide +kernel
  · have h : (updateRun { demoCtx with first := 1 }
        [⟨some 1, some 106, some 105, some 107, some 106, true, false, false, false, false⟩] demoSt).1.stops.getD 1 noStop
        = ⟨1, false, false, false, false⟩ := by decide +kernel
    rw [h]
    simp [Served]

end Nigiri.Vdv
