import Verif.Proofs.VdvMatch

/-!
# C101: the runs of the timetable matched with a reported run

Every matched run operates and has, within 15 minutes, nearly half (complete message) or nearly 70 %
(partial message) of the reported stops; the best one has more than half or 70 %.  A run described exactly is
found if its first reported stop is not also close to a later stop of the run; without this condition it can be
missed.
-/

namespace Nigiri.Vdv

open Nigiri.Rt Spec

/-- C101: a run matched by its stops operates; the matched stop range begins at a stop described by the
message and ends at the end of the route; more than 48.75 % of the reported stops (68.25 % if the
message is not complete) describe one of its stops up to 15 minutes. -/
theorem C101_supported {tt : MTt} {vs : List VStop} (hok : MatchOk tt vs) {sort : List Cand → List Cand}
    (hsort : SortOk sort) (complete : Bool) (t : Nat) (day : Int) (first last : Nat)
    (h : (t, day, first, last) ∈ matchRun tt sort none complete vs) :
    tt.active t day = true ∧ first < last ∧
    (∃ v ∈ vs, ∃ dist, NearBy tt v (t, day) first last dist ∧ dist ≤ 15) ∧
    ∃ sub : List VStop, sub.Sublist vs ∧
      (∀ v ∈ sub, ∃ i n dist, NearBy tt v (t, day) i n dist ∧ dist ≤ 15) ∧
      (if complete then 4875 * vs.length < 10000 * sub.length else 6825 * vs.length < 10000 * sub.length) := by
  simp only [matchRun, List.mem_map] at h
  obtain ⟨c, hc, he⟩ := h
  obtain ⟨hcm, b, hb, hmax, hab, hlt⟩ := (mem_select hsort complete vs.length (candidates tt vs) c).mp hc
  obtain ⟨h1, h2, h0, sub, h3, h4, h5⟩ := candidates_supported hok c hcm
  simp only [Prod.mk.injEq] at he
  obtain ⟨e1, e2, e3, e4⟩ := he
  have ext : c.t = (t, day) := Prod.ext e1 e2
  rw [ext] at h0 h1 h4
  rw [e3, e4] at h0
  refine ⟨h1, ?_, h0, sub, h3, h4, ?_⟩
  · obtain ⟨v, _, dist, ⟨loc, l, r, arr, tm, time, _, _, _, hn, hev, _⟩, _⟩ := h0
    obtain ⟨hl, _⟩ := List.getElem?_eq_some_iff.mp hev.loc
    rw [hn]
    exact hl
  · cases complete with
    | true =>
      have hab : vs.length * 230 < 2 * b.score := of_decide_eq_true hab
      simp only [if_true]
      omega
    | false =>
      have hab : 7 * (vs.length * 230) < 10 * b.score := of_decide_eq_true hab
      simp only [Bool.false_eq_true, if_false]
      omega

/-- C101: if any run is matched by its stops, then one of them has more than half of the reported stops (more
than 70 % if the message is not complete). -/
theorem C101_best {tt : MTt} {vs : List VStop} (hok : MatchOk tt vs) {sort : List Cand → List Cand}
    (hsort : SortOk sort) (complete : Bool) (h : matchRun tt sort none complete vs ≠ []) :
    ∃ (t : Nat) (day : Int) (first last : Nat), (t, day, first, last) ∈ matchRun tt sort none complete vs ∧
      ∃ sub : List VStop, sub.Sublist vs ∧
        (∀ v ∈ sub, ∃ i n dist, NearBy tt v (t, day) i n dist ∧ dist ≤ 15) ∧
        (if complete then vs.length < 2 * sub.length else 7 * vs.length < 10 * sub.length) := by
  obtain ⟨x, hx⟩ := List.exists_mem_of_ne_nil _ h
  simp only [matchRun, List.mem_map] at hx
  obtain ⟨c, hc, he⟩ := hx
  obtain ⟨hcm, b, hb, hmax, hab, hlt⟩ := (mem_select hsort complete vs.length (candidates tt vs) c).mp hc
  obtain ⟨h1, h2, h0, sub, h3, h4, h5⟩ := candidates_supported hok b hb
  have hpos : 0 < b.score := by
    cases complete with
    | true =>
      have hab : vs.length * 230 < 2 * b.score := of_decide_eq_true hab
      omega
    | false =>
      have hab : 7 * (vs.length * 230) < 10 * b.score := of_decide_eq_true hab
      omega
  have hsel : b ∈ select sort complete vs.length (candidates tt vs) :=
    (mem_select hsort complete vs.length (candidates tt vs) b).mpr ⟨hb, b, hb, hmax, hab, by omega⟩
  refine ⟨b.t.1, b.t.2, b.first, b.len, List.mem_map.mpr ⟨b, hsel, rfl⟩, sub, h3, h4, ?_⟩
  cases complete with
  | true =>
    have hab : vs.length * 230 < 2 * b.score := of_decide_eq_true hab
    simp only [if_true]
    omega
  | false =>
    have hab : 7 * (vs.length * 230) < 10 * b.score := of_decide_eq_true hab
    simp only [Bool.false_eq_true, if_false]
    omega

/-- C101: a run identified by its trip id and date is the only match. -/
theorem C101_by_id (tt : MTt) (sort : List Cand → List Cand) (complete : Bool) (vs : List VStop)
    (r : Nat × Int × Nat × Nat) : matchRun tt sort (some r) complete vs = [r] := rfl

/-- C101: a run described exactly – every reported stop is one of its stops at the scheduled time,
none before the first reported one – is matched, whatever other runs are close, if the first reported stop is not
also close to a later stop of the run.  Missing: this last condition (`C101_exact_false`). -/
theorem C101_exact_partial {tt : MTt} {vs : List VStop} (hok : MatchOk tt vs) {sort : List Cand → List Cand}
    (hsort : SortOk sort) (complete : Bool) {t : Nat} {day : Int} {n : Nat} {idx : Nat → Nat}
    (hne : vs ≠ [])
    (hex : ∀ (j : Nat) (v : VStop), vs[j]? = some v → NearBy tt v (t, day) (idx j) n 0)
    (horder : ∀ j, j < vs.length → idx 0 ≤ idx j)
    (hfirst : ∀ (v : VStop) (i n' dist : Nat), vs[0]? = some v → NearBy tt v (t, day) i n' dist → dist ≤ 15 →
      i ≤ idx 0 ∧ n' = n) :
    ∃ first, first ≤ idx 0 ∧ (t, day, first, n) ∈ matchRun tt sort none complete vs := by
  obtain ⟨c, hc, hsc, hf, hl⟩ := exact_score hok hex horder hfirst hne
  obtain ⟨hcm, hct⟩ := get_mem hc
  have hlen : vs.length ≠ 0 := fun hh => hne (List.length_eq_zero_iff.mp hh)
  refine ⟨c.first, hf, List.mem_map.mpr ⟨c, ?_, by rw [hct, hl]⟩⟩
  apply (mem_select hsort complete vs.length (candidates tt vs) c).mpr
  refine ⟨hcm, c, hcm, ?_, ?_, by omega⟩
  · intro d hd
    obtain ⟨_, _, _, sub, h3, _, h5⟩ := candidates_supported hok d hd
    have := h3.length_le
    omega
  · cases complete with
    | true =>
      show decide (vs.length * 230 < 2 * c.score) = true
      rw [decide_eq_true_iff]
      omega
    | false =>
      show decide (7 * (vs.length * 230) < 10 * c.score) = true
      rw [decide_eq_true_iff]
      omega

/-! ## Demonstration and counterexample -/

/-- Insertion, to have a sort function. -/
def ins (c : Cand) : List Cand → List Cand
  | [] => [c]
  | d :: ds => if Cand.before d c then d :: ins c ds else c :: d :: ds

/-- Insertion sort. -/
def insSort (l : List Cand) : List Cand := l.foldr ins []

theorem ins_perm (c : Cand) : ∀ l, (ins c l).Perm (c :: l)
  | [] => List.Perm.refl _
  | d :: ds => by
    unfold ins
    split
    · exact ((ins_perm c ds).cons d).trans (List.Perm.swap c d ds)
    · exact List.Perm.refl _

theorem ins_sorted (c : Cand) : ∀ l : List Cand, (l.Pairwise fun a b => Cand.before b a = false) →
    (ins c l).Pairwise fun a b => Cand.before b a = false
  | [], _ => by simp [ins]
  | d :: ds, h => by
    rw [List.pairwise_cons] at h
    unfold ins
    split
    · rename_i hb
      rw [List.pairwise_cons]
      refine ⟨?_, ins_sorted c ds h.2⟩
      intro x hx
      rcases List.mem_cons.mp ((ins_perm c ds).mem_iff.mp hx) with e | e
      · subst e
        simp only [Cand.before, Bool.or_eq_true, Bool.and_eq_true, decide_eq_true_eq, beq_iff_eq] at hb
        simp only [Cand.before, Bool.or_eq_false_iff, Bool.and_eq_false_iff, decide_eq_false_iff_not,
          beq_eq_false_iff_ne]
        omega
      · exact h.1 x e
    · rename_i hb
      rw [List.pairwise_cons]
      refine ⟨?_, List.pairwise_cons.mpr h⟩
      intro x hx
      rcases List.mem_cons.mp hx with e | e
      · subst e
        simpa using hb
      · have hx := h.1 x e
        simp only [Cand.before, Bool.or_eq_true, Bool.and_eq_true, decide_eq_true_eq, beq_iff_eq] at hb
        simp only [Cand.before, Bool.or_eq_false_iff, Bool.and_eq_false_iff, decide_eq_false_iff_not,
          beq_eq_false_iff_ne] at hx ⊢
        omega

/-- The contract of the sort function can be met. -/
theorem insSort_ok : SortOk insSort where
  perm := by
    intro l
    induction l with
    | nil => exact List.Perm.refl _
    | cons c l ih => exact (ins_perm c _).trans (ih.cons c)
  sorted := by
    intro l
    induction l with
    | nil => exact List.Pairwise.nil
    | cons c l ih => exact ins_sorted c _ ih

/-- Two routes: transports 0 and 1 of route 0 run 10 → 11 → 12 at 100/115/130 and 160/175/190, transport 2 of route
1 runs 10 → 12 at 104/131; stops 10 and 11 are equivalent if `eq`.  Everything operates on days 5 and 6. -/
def demoM (eq : Bool) : MTt where
  equiv := fun l => if eq && l == 10 then [11, 10] else [l]
  locRoutes := fun l => if l == 11 then [0] else if l == 10 || l == 12 then [0, 1] else []
  routeSeq := fun r => if r == 0 then [10, 11, 12] else if r == 1 then [10, 12] else []
  trips := fun r => if r == 0 then [0, 1] else if r == 1 then [2] else []
  evTimes := fun r i _ => if r == 0 then [(0, 100 + 15 * min i 2), (0, 160 + 15 * min i 2)]
    else if r == 1 then [(0, if i = 0 then 104 else 131)] else []
  active := fun _ d => d == 5 || d == 6
  start := 0

/-- A reported stop with a departure time. -/
def stopAt (l : Nat) (t : Int) : VStop := { loc := some l, dep := some t, arr := some t, rtDep := none, rtArr := none }

/-- A partial message: departure at stop 10 at minute 100 of day 5. -/
def oneStop : List VStop := [stopAt 10 (5 * 1440 + 100)]

/-- With stop 10 alone transport 0 and (4 minutes off: 214 of 230 points) not transport 2 is found;
transport 2 is matched by a message between the two. -/
example :
    matchRun (demoM false) insSort none false oneStop = [(0, 5, 0, 3)] ∧
    matchRun (demoM false) insSort none true [stopAt 10 (5 * 1440 + 102), stopAt 12 (5 * 1440 + 131)]
      = [(2, 5, 0, 2), (0, 5, 0, 3)] ∧
    matchRun (demoM false) insSort none true [stopAt 10 (5 * 1440 + 130), stopAt 12 (5 * 1440 + 160)] = [] := by
  decide

/-- The hypotheses on the timetable hold for the demonstration. -/
theorem demoM_ok (eq : Bool) (vs : List VStop)
    (h : ∀ (v : VStop) (t : Int), v ∈ vs → v.dep = some t ∨ v.arr = some t → 0 ≤ t) : MatchOk (demoM eq) vs where
  rows := by
    intro r i arr
    simp only [demoM]
    split
    · rfl
    · split <;> rfl
  mam := by
    intro r i arr e he
    simp only [demoM] at he
    split at he
    · simp only [List.mem_cons, List.not_mem_nil, or_false] at he
      rcases he with e | e <;> subst e <;> simp only <;> omega
    · split at he
      · simp only [List.mem_cons, List.not_mem_nil, or_false] at he
        subst he
        simp only
        split <;> omega
      · cases he
  future := h

theorem oneStop_future (v : VStop) (t : Int) (hv : v ∈ oneStop) (h : v.dep = some t ∨ v.arr = some t) : 0 ≤ t := by
  simp only [oneStop, List.mem_singleton] at hv
  subst hv
  simp only [stopAt, Option.some.injEq, or_self] at h
  omega

/-- The one reported stop is the first stop of transport 0 at its scheduled time. -/
theorem oneStop_near (eq : Bool) : NearBy (demoM eq) (stopAt 10 (5 * 1440 + 100)) (0, 5) 0 3 0 := by
  refine ⟨10, 10, 0, false, 5 * 1440 + 100, 5 * 1440 + 100, rfl, ?_, ?_, rfl, ⟨rfl, rfl, 0, 0, 100, rfl, rfl, rfl⟩,
    ⟨rfl, rfl⟩, by decide⟩
  · cases eq <;> decide
  · cases eq <;> decide

/-- The hypotheses of `C101_exact_partial` can be met: without the equivalence the run is found. -/
example : ∃ first, first ≤ 0 ∧ (0, (5 : Int), first, 3) ∈ matchRun (demoM false) insSort none false oneStop := by
  refine C101_exact_partial (idx := fun _ => 0) (demoM_ok false oneStop oneStop_future) insSort_ok false (by decide) ?_ ?_ ?_
  · intro j v hj
    have hv := List.mem_of_getElem? hj
    simp only [oneStop, List.mem_singleton] at hv
    subst hv
    exact oneStop_near false
  · intro j _; exact Nat.le_refl _
  · intro v i n' dist hv hn _
    simp only [oneStop, List.getElem?_cons_zero, Option.some.injEq] at hv
    subst hv
    obtain ⟨loc, l, r, arr, t, time, h1, h2, h3, h4, ⟨_, h5, k, d, m, h6, _⟩, _⟩ := hn
    simp only [stopAt, Option.some.injEq] at h1
    subst h1
    simp only [demoM, Bool.false_and, Bool.false_eq_true, if_false, List.mem_singleton] at h2
    subst h2
    have hr : r = 0 ∨ r = 1 := by
      simpa [demoM] using h3
    rcases hr with e | e
    · subst e
      refine ⟨?_, h4⟩
      match i, h5 with
      | 0, _ => exact Nat.le_refl _
      | 1, h => exact absurd h (by decide)
      | 2, h => exact absurd h (by decide)
      | i + 3, h => exact absurd h (by simp [demoM])
    · subst e
      match k, h6 with
      | 0, h => exact absurd h (by decide)
      | k + 1, h => exact absurd h (by simp [demoM])

/-- C101 is false without the condition on the first reported stop: the reported stop is the first stop of
transport 0 at exactly its scheduled time, but an equivalent stop 15 minutes later is looked at first, the candidate
begins there and its true first stop is ignored.  Another transport, 4 minutes off, is matched instead. -/
theorem C101_exact_false :
    ∃ (tt : MTt) (vs : List VStop) (t : Nat) (day : Int) (n : Nat) (idx : Nat → Nat),
      MatchOk tt vs ∧ vs ≠ [] ∧ (∀ (j : Nat) (v : VStop), vs[j]? = some v → NearBy tt v (t, day) (idx j) n 0) ∧
      (∀ j, j < vs.length → idx 0 ≤ idx j) ∧
      ∀ (complete : Bool), matchRun tt insSort none complete vs = [(2, day, 0, 2)] ∧ t ≠ 2 := by
  refine ⟨demoM true, oneStop, 0, 5, 3, fun _ => 0, demoM_ok true oneStop oneStop_future, by decide, ?_, ?_, ?_⟩
  · intro j v hj
    have hv := List.mem_of_getElem? hj
    simp only [oneStop, List.mem_singleton] at hv
    subst hv
    exact oneStop_near true
  · intro j _; exact Nat.le_refl _
  · intro complete
    cases complete <;> exact ⟨by decide, by decide⟩

end Nigiri.Vdv
