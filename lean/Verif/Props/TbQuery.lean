import Verif.Proofs.TbQuery
/-!
# Properties C38, C52, C53: results of the trip-based search
-/

namespace Nigiri.TB
open Raptor (Loc StopData)

/-- What `search` does with the engine, `search.h:299-309` and `436-462`: `reset_arrivals` when the search interval is
extended, and for every start time `next_start_time`, `add_start` and `execute`. -/
inductive Step where
  | reset
  | call (starts : List (Loc × Nat)) (worst : Int)

/-- One step: the state and the results of the last call. -/
def step (tt : TT) (tbd : TbData) (Q : Query) (maxTransfers : Nat) (S : State × List (Nat × Int)) : Step → State × List (Nat × Int)
  | .reset => (resetArrivals S.1, [])
  | .call starts worst => oneStart tt tbd Q maxTransfers S.1 starts worst

/-- A new engine with a given query state followed by a history of steps. -/
def run (tt : TT) (tbd : TbData) (Q : Query) (maxTransfers : Nat) (S : State) (h : List Step) : State × List (Nat × Int) :=
  h.foldl (step tt tbd Q maxTransfers) (construct tt tbd Q S, [])

/-- The start events of the calls after the last reset. -/
def startsSince : List Step → List (Loc × Nat) → List (Loc × Nat)
  | [], acc => acc
  | .reset :: h, _ => startsSince h []
  | .call starts _ :: h, acc => startsSince h (acc ++ starts)

theorem run_inv {tt : TT} {tbd : TbData} (hok : Ok tt tbd) (Q : Query) (maxTransfers : Nat) :
    ∀ (h : List Step) (S : State × List (Nat × Int)) (acc : List (Loc × Nat)), Inv tt tbd Q acc S.1 →
      (∀ x, x ∈ S.2 → x.1 < kMaxTransfers ∧ S.1.parent x.1 ≠ none ∧ x.2 = S.1.tmin x.1) →
      (∀ n, n < kMaxTransfers → S.1.parent n ≠ none → (n, S.1.tmin n) ∈ S.2) →
      let R := h.foldl (step tt tbd Q maxTransfers) S
      Inv tt tbd Q (startsSince h acc) R.1 ∧
      (∀ x, x ∈ R.2 → x.1 < kMaxTransfers ∧ R.1.parent x.1 ≠ none ∧ x.2 = R.1.tmin x.1) ∧
      (∀ n, n < kMaxTransfers → R.1.parent n ≠ none → (n, R.1.tmin n) ∈ R.2)
  | [], S, acc, hi, h1, h2 => ⟨hi, h1, h2⟩
  | .reset :: h, S, acc, hi, h1, h2 => by
    refine run_inv hok Q maxTransfers h _ [] (resetArrivals_inv hi) ?_ ?_
    · intro x hx; simp [step] at hx
    · intro n _ hp; simp [step, resetArrivals] at hp
  | .call starts worst :: h, S, acc, hi, h1, h2 => by
    refine run_inv hok Q maxTransfers h _ (acc ++ starts) ?_ ?_ ?_
    · exact oneStart_inv hok (hi.mono fun x hx => List.mem_append_left _ hx) starts (fun x hx => List.mem_append_right _ hx) _ _
    · intro x hx
      simp only [step, oneStart, execute, List.mem_filterMap, List.mem_range] at hx
      obtain ⟨n, hn, hx⟩ := hx
      split at hx
      · rename_i hp
        injection hx with hx
        subst hx
        refine ⟨hn, ?_, rfl⟩
        simp only [step, oneStart, execute]
        intro e
        rw [e] at hp
        simp at hp
      · simp at hx
    · intro n hn hp
      simp only [step, oneStart, execute] at hp ⊢
      rw [List.mem_filterMap]
      refine ⟨n, List.mem_range.2 hn, ?_⟩
      rw [if_pos (by rw [Option.isSome_iff_ne_none]; exact hp)]

/-- C53: after any history of calls on a new engine, a reported result with `n` transfers and arrival `A` is backed by a
reported result with at most as many transfers and the same arrival that is a journey of the timetable from one of the
start events since the last reset.  (The result with more transfers, if it is another one, is dropped as dominated when
the results are collected.) -/
theorem C53_sound (tt : TT) (tbd : TbData) (hok : Ok tt tbd) (Q : Query) (maxTransfers : Nat) (h : List Step) (n : Nat) (A : Int)
    (hr : (n, A) ∈ (run tt tbd Q maxTransfers State.fresh h).2) :
    ∃ m, m ≤ n ∧ (m, A) ∈ (run tt tbd Q maxTransfers State.fresh h).2 ∧
      JourneyFrom tt tbd.prf Q (startsSince h []) (m + 1) A := by
  obtain ⟨hi, h1, h2⟩ := run_inv hok Q maxTransfers h (construct tt tbd Q State.fresh, []) []
    (construct_inv hok Q State.fresh (fun _ => rfl) (fun _ _ => rfl)) (by intro x hx; simp at hx)
    (by
      intro n _ hp
      have : (construct tt tbd Q State.fresh).parent n = none := by
        unfold construct
        refine Raptor.foldl_inv (fun T : State => T.parent n = none) _ _ _ rfl ?_
        intro T x _ hT
        unfold markDest
        refine Raptor.foldl_inv (fun T : State => T.parent n = none) _ _ _ hT ?_
        intro T x _ hT
        exact hT
      exact absurd this hp)
  obtain ⟨hn, hp, e⟩ := h1 _ hr
  obtain ⟨m, hm, hpm, e', hj⟩ := hi.best.sound n hn hp
  simp only at e
  refine ⟨m, hm, ?_, ?_⟩
  · have := h2 m (by omega) hpm
    rw [e', ← e] at this
    exact this
  · rw [e', ← e] at hj
    exact hj

/-- C53: more transfers never lead to a later arrival. -/
theorem C53_monotone (tt : TT) (tbd : TbData) (hok : Ok tt tbd) (Q : Query) (maxTransfers : Nat) (h : List Step)
    (n m : Nat) (A B : Int) (hn : (n, A) ∈ (run tt tbd Q maxTransfers State.fresh h).2)
    (hm : (m, B) ∈ (run tt tbd Q maxTransfers State.fresh h).2) (hnm : n ≤ m) : B ≤ A := by
  obtain ⟨hi, h1, -⟩ := run_inv hok Q maxTransfers h (construct tt tbd Q State.fresh, []) []
    (construct_inv hok Q State.fresh (fun _ => rfl) (fun _ _ => rfl)) (by intro x hx; simp at hx)
    (by
      intro n _ hp
      have : (construct tt tbd Q State.fresh).parent n = none := by
        unfold construct
        refine Raptor.foldl_inv (fun T : State => T.parent n = none) _ _ _ rfl ?_
        intro T x _ hT
        unfold markDest
        refine Raptor.foldl_inv (fun T : State => T.parent n = none) _ _ _ hT ?_
        intro T x _ hT
        exact hT
      exact absurd this hp)
  obtain ⟨_, _, e1⟩ := h1 _ hn
  obtain ⟨h3, _, e2⟩ := h1 _ hm
  simp only at e1 e2
  rw [e1, e2]
  exact hi.best.mono _ _ hnm h3

/-- C38, the part that holds: fewer than `kMaxTransfers` transfers.  Missing: the limit of the query, which is not used
(`C38_limit_counterexample`). -/
theorem C38_limit_partial (tt : TT) (tbd : TbData) (Q : Query) (maxTransfers : Nat) (worst : Int) (S : State)
    (starts : List (Loc × Nat)) (n : Nat) (A : Int) (h : (n, A) ∈ (oneStart tt tbd Q maxTransfers S starts worst).2) :
    n < kMaxTransfers := by
  simp only [oneStart, execute, List.mem_filterMap, List.mem_range] at h
  obtain ⟨m, hm, h⟩ := h
  split at h
  · injection h with h
    injection h with h _
    omega
  · simp at h

/-! ## Independence of earlier searches -/

/-- The state up to the queue, which `next_start_time` clears. -/
def SameButQueue (S T : State) : Prop :=
  S.qs.r = T.qs.r ∧ S.tmin = T.tmin ∧ S.parent = T.parent ∧ S.endReach = T.endReach ∧ S.distToDest = T.distToDest

theorem SameButQueue.next {S T : State} (h : SameButQueue S T) : nextStartTime S = nextStartTime T := by
  obtain ⟨h1, h2, h3, h4, h5⟩ := h
  simp only [nextStartTime, State.mk.injEq, QS.mk.injEq]
  exact ⟨⟨trivial, h1⟩, h2, h3, h4, h5⟩

/-- The marks of the constructor stay as they are. -/
def SameMarks (S T : State) : Prop := S.endReach = T.endReach ∧ S.distToDest = T.distToDest

theorem rounds_marks (tt : TT) (tbd : TbData) (Q : Query) : ∀ (n k lo hi : Nat) (S : State),
    SameMarks (rounds tt tbd Q n k lo hi S) S
  | 0, _, _, _, _ => ⟨rfl, rfl⟩
  | n + 1, k, lo, hi, S => by
    unfold rounds
    by_cases h : lo = hi
    · rw [if_pos h]; exact ⟨rfl, rfl⟩
    · rw [if_neg h]
      simp only
      have key : SameMarks (roundStep tt tbd Q k lo hi S) S := by
        unfold roundStep
        simp only
        refine Raptor.foldl_inv (fun T => SameMarks T S) _ _ _ ?_ ?_
        · refine Raptor.foldl_inv (fun T => SameMarks T S) _ _ _ ?_ ?_
          · refine Raptor.foldl_inv (fun T => SameMarks T S) _ _ _ ⟨rfl, rfl⟩ ?_
            intro T q _ hT
            unfold segDest
            split
            · exact hT
            · refine Raptor.foldl_inv (fun T => SameMarks T S) _ _ _ hT ?_
              intro T s _ hT
              split
              · exact hT
              · exact hT
          · intro T q _ hT
            unfold segPrune
            split
            · exact hT
            · simp only
              split <;> exact hT
        · intro T q _ hT
          unfold segTransfers
          split
          · exact hT
          · exact hT
      have ih := rounds_marks tt tbd Q n (k + 1) hi (roundStep tt tbd Q k lo hi S).qs.q.length (roundStep tt tbd Q k lo hi S)
      exact ⟨ih.1.trans key.1, ih.2.trans key.2⟩

theorem step_marks (tt : TT) (tbd : TbData) (Q : Query) (mt : Nat) (S : State × List (Nat × Int)) (x : Step) :
    SameMarks (step tt tbd Q mt S x).1 S.1 := by
  cases x with
  | reset => exact ⟨rfl, rfl⟩
  | call starts worst =>
    simp only [step, oneStart, execute]
    have h1 := rounds_marks tt tbd Q kMaxTransfers 0 0
      (applyWorst worst (starts.foldl (addStart tt tbd Q) (nextStartTime S.1))).qs.q.length
      (applyWorst worst (starts.foldl (addStart tt tbd Q) (nextStartTime S.1)))
    have h2 : SameMarks (starts.foldl (addStart tt tbd Q) (nextStartTime S.1)) S.1 :=
      Raptor.foldl_inv (fun T => SameMarks T S.1) _ _ _ ⟨rfl, rfl⟩ (fun T x _ hT => hT)
    exact ⟨h1.1.trans h2.1, h1.2.trans h2.2⟩

theorem construct_rest (tt : TT) (tbd : TbData) (Q : Query) (S : State) :
    (construct tt tbd Q S).qs = ⟨[], fun _ => []⟩ ∧ (construct tt tbd Q S).tmin = S.tmin ∧
    (construct tt tbd Q S).parent = fun _ => none := by
  unfold construct
  refine Raptor.foldl_inv (fun T : State => T.qs = ⟨[], fun _ => []⟩ ∧ T.tmin = S.tmin ∧ T.parent = fun _ => none) _ _ _
    ⟨rfl, rfl, rfl⟩ ?_
  intro T x _ hT
  unfold markDest
  exact Raptor.foldl_inv (fun T : State => T.qs = ⟨[], fun _ => []⟩ ∧ T.tmin = S.tmin ∧ T.parent = fun _ => none) _ _ _
    hT (fun T x _ hT => hT)

theorem run_same (tt : TT) (tbd : TbData) (Q : Query) (mt : Nat) :
    ∀ (h : List Step) (S T : State × List (Nat × Int)), SameButQueue S.1 T.1 → S.2 = T.2 →
      (h.foldl (step tt tbd Q mt) S).2 = (h.foldl (step tt tbd Q mt) T).2
  | [], _, _, _, e => e
  | .reset :: h, S, T, hs, _ => by
    refine run_same tt tbd Q mt h _ _ ⟨rfl, rfl, rfl, hs.2.2.2.1, hs.2.2.2.2⟩ rfl
  | .call starts worst :: h, S, T, hs, _ => by
    rw [List.foldl_cons, List.foldl_cons]
    have : step tt tbd Q mt S (.call starts worst) = step tt tbd Q mt T (.call starts worst) := by
      simp only [step, oneStart]
      rw [hs.next]
    rw [this]

/-- C52: after `reset_arrivals` the results are those of a new engine: whatever was searched before does not matter. -/
theorem C52_reset (tt : TT) (tbd : TbData) (Q : Query) (mt : Nat) (before after : List Step) :
    (run tt tbd Q mt State.fresh (before ++ .reset :: after)).2 = (run tt tbd Q mt State.fresh after).2 := by
  unfold run
  rw [List.foldl_append, List.foldl_cons]
  refine run_same tt tbd Q mt after _ _ ?_ rfl
  have hm : SameMarks (before.foldl (step tt tbd Q mt) (construct tt tbd Q State.fresh, [])).1 (construct tt tbd Q State.fresh) := by
    refine Raptor.foldl_inv (fun T : State × List (Nat × Int) => SameMarks T.1 (construct tt tbd Q State.fresh)) _ _ _ ⟨rfl, rfl⟩ ?_
    intro T x _ hT
    have := step_marks tt tbd Q mt T x
    exact ⟨this.1.trans hT.1, this.2.trans hT.2⟩
  obtain ⟨e1, e2, e3⟩ := construct_rest tt tbd Q State.fresh
  refine ⟨?_, ?_, ?_, hm.1, hm.2⟩
  · simp only [step, resetArrivals, e1]
  · simp only [step, resetArrivals, e2]; rfl
  · simp only [step, resetArrivals, e3]

/-- C52, the part that holds for a query state that was used before: it gives the same results as a new one if its
arrival times and destination distances are those of a new one; queue, reached segments, marks and parents do not matter.
Missing: the arrival times and distances themselves, which the constructor of the engine does not reset
(`C52_reuse_counterexample`). -/
theorem C52_reuse_partial (tt : TT) (tbd : TbData) (Q : Query) (mt : Nat) (S : State) (h : List Step)
    (h1 : S.tmin = State.fresh.tmin) (h2 : S.distToDest = State.fresh.distToDest) :
    (run tt tbd Q mt S h).2 = (run tt tbd Q mt State.fresh h).2 := by
  have : S.reset = State.fresh.reset := by
    simp only [State.reset, State.mk.injEq]
    exact ⟨trivial, h1, trivial, trivial, h2⟩
  unfold run construct
  rw [this]

/-! ## Examples and limits -/

namespace Demo53
open Demo37 (st)

/-- The data of the timetable of `Demo37`. -/
def data (tt : TT) : TbData := (preprocess tt 0).getD ⟨0, [], [], []⟩

/-- Destination: station 3. -/
def toStation : Query := ⟨[], [3], fun _ => 0, 5⟩

/-- Destination: `w` minutes from station 3. -/
def lastMile (w : Nat) : Query := ⟨[none, none, none, some w], [], fun _ => 0, 5⟩

/-- Start at station 0 on day 5 at 23:20, and on day 6. -/
def starts5 : List (Loc × Nat) := [(0, 5 * 1440 + 1400)]
def starts6 : List (Loc × Nat) := [(0, 6 * 1440 + 1400)]

theorem ok_tt : Demo37.tt.Ok 0 where
  sorted := by
    intro r hr s hs u hu
    simp only [Demo37.tt, List.mem_cons, List.not_mem_nil, or_false] at hr
    rcases hr with rfl | rfl
    · simp at hu
    · simp only at hu ⊢
      have : u = 0 := by omega
      subst this
      decide
  stops := by
    intro r hr
    simp only [Demo37.tt, List.mem_cons, List.not_mem_nil, or_false] at hr
    rcases hr with rfl | rfl <;> decide
  trips := by
    intro r hr
    simp only [Demo37.tt, List.mem_cons, List.not_mem_nil, or_false] at hr
    rcases hr with rfl | rfl <;> decide
  transfer := by intro l; show 2 ≤ 60000; decide
  fps := by intro l x hx; simp [Demo37.tt] at hx

/-- The hypotheses of C53 are met. -/
example : Ok Demo37.tt (data Demo37.tt) := by
  have h : (data Demo37.tt).prf = 0 := by decide +kernel
  have h' : (preprocess Demo37.tt 0).isSome = true := by decide +kernel
  refine ⟨h ▸ ok_tt, ?_, ?_⟩
  · rw [h]
    unfold data
    cases e : preprocess Demo37.tt 0 with
    | none => rw [e] at h'; simp at h'
    | some x => rfl
  · intro l x hx
    rw [show (data Demo37.tt).prf = 0 from h] at hx
    simp [Demo37.tt] at hx

/-- One change, arrival on day 6 at 00:35; on day 6 the other trip is used, arrival on day 7 at 00:20. -/
example : (run Demo37.tt (data Demo37.tt) toStation 7 State.fresh [.call starts5 100000]).2 = [(1, 6 * 1440 + 35)] := by decide +kernel
example : (run Demo37.tt (data Demo37.tt) toStation 7 State.fresh [.call starts6 100000]).2 = [(1, 6 * 1440 + 1460)] := by decide +kernel

/-- C38 does not hold: with at most 0 transfers the search reports a journey with one. -/
theorem C38_limit_counterexample :
    (run Demo37.tt (data Demo37.tt) toStation 0 State.fresh [.call starts5 100000]).2 = [(1, 6 * 1440 + 35)] := by decide +kernel

/-- C52 does not hold for a query state that is used for a second query: the distances of the first query remain (first
line: arrival 100 minutes too early), and so do its arrival times (second line: nothing is found on the later day). -/
theorem C52_reuse_counterexample :
    ((run Demo37.tt (data Demo37.tt) (lastMile 100) 7 (run Demo37.tt (data Demo37.tt) (lastMile 0) 7 State.fresh [.reset]).1
      [.call starts5 100000]).2 = [(1, 6 * 1440 + 35)] ∧
     (run Demo37.tt (data Demo37.tt) (lastMile 100) 7 State.fresh [.call starts5 100000]).2 = [(1, 6 * 1440 + 135)]) ∧
    ((run Demo37.tt (data Demo37.tt) toStation 7 (run Demo37.tt (data Demo37.tt) toStation 7 State.fresh
      [.call starts5 100000]).1 [.call starts6 100000]).2 = [] ∧
     (run Demo37.tt (data Demo37.tt) toStation 7 State.fresh [.call starts6 100000]).2 = [(1, 6 * 1440 + 1460)]) := by
  decide +kernel

/-- Line A: 0 at 10:00, 1 at 10:20.  Line B: 1 at 10:30, 4 at 10:40, 5 at 11:00.  Line C: 1 at 10:30, 4 at 10:50.
`out`: whether passengers may leave line B at station 4. -/
def ttOut (out : Bool) : TT where
  routes := [⟨[st 0, st 1], 1, fun _ _ => 620, fun _ _ => 600, fun _ => 0b100000⟩,
    ⟨[st 1, ⟨4, out, out, out, out⟩, st 5], 1, fun _ s => [0, 640, 660].getD s 0, fun _ s => [630, 640, 0].getD s 0, fun _ => 0b100000⟩,
    ⟨[st 1, st 4], 1, fun _ _ => 650, fun _ _ => 630, fun _ => 0b100000⟩]
  transfer := fun _ => 2
  fpsOut := fun _ _ => []
  fpsIn := fun _ _ => []
  locRoutes := fun l => [[0], [0, 1, 2], [], [], [1, 2], [1]].getD l []

/-- C54 does not hold: the change to line C, the only way to leave at station 4, is removed because line B passes station
4 earlier, although passengers cannot leave there. -/
theorem C54_alight_counterexample :
    (run (ttOut false) (data (ttOut false)) ⟨[], [4], fun _ => 0, 5⟩ 7 State.fresh [.call [(0, 5 * 1440 + 590)] 100000]).2 = [] ∧
    JourneyFrom (ttOut false) 0 ⟨[], [4], fun _ => 0, 5⟩ [(0, 5 * 1440 + 590)] 2 (5 * 1440 + 650) := by
  refine ⟨by decide +kernel, _, List.mem_singleton.2 rfl, ?_⟩
  refine .more (m := 1) (a := 5 * 1440 + 620) (l' := 1) (t' := 5 * 1440 + 622) ⟨5 * 1440 + 600, by decide, Or.inl ?_⟩ (Or.inl ⟨rfl, rfl⟩)
    (.last (m := 4) (a := 5 * 1440 + 650) ⟨5 * 1440 + 630, by decide, Or.inl ?_⟩ ?_)
  · refine ⟨_, List.mem_map_of_mem (List.getElem_mem (l := (ttOut false).routes) (n := 0) (by decide)), 0, 5, by decide, by decide +kernel, by decide, 0, 1, _, _, by decide, rfl, rfl, rfl, rfl, ?_⟩
    exact ⟨rfl, rfl, fun s _ _ f sec h => by simp [net] at h, rfl, rfl⟩
  · refine ⟨_, List.mem_map_of_mem (List.getElem_mem (l := (ttOut false).routes) (n := 2) (by decide)), 0, 5, by decide, by decide +kernel, by decide, 0, 1, _, _, by decide, rfl, rfl, rfl, rfl, ?_⟩
    exact ⟨rfl, rfl, fun s _ _ f sec h => by simp [net] at h, rfl, rfl⟩
  · exact Or.inl ⟨rfl, rfl⟩

/-- Line A: 0 at 9:40, 1 at 10:00, 7 at 10:30, 2 at 11:00.  Line B with two trips that start at the same time: 5 at 9:00, 2 at 10:50, 1 at
11:50, 6 at 12:30; 5 at 9:00 (`start2`), 2 at 11:10, 1 at 12:10, 6 at 13:00. -/
def ttSameStart (start2 : Nat) : TT where
  routes := [⟨[st 0, st 1, st 7, st 2], 1, fun _ s => [0, 600, 630, 660].getD s 0, fun _ s => [580, 600, 630, 0].getD s 0, fun _ => 0b100000⟩,
    ⟨[st 5, st 2, st 1, st 6], 2, fun t s => [[0, 650, 710, 750], [0, 670, 730, 780]].getD t [] |>.getD s 0,
      fun t s => [[540, 650, 710, 0], [start2, 670, 730, 0]].getD t [] |>.getD s 0, fun _ => 0b100000⟩]
  transfer := fun _ => 2
  fpsOut := fun _ _ => []
  fpsIn := fun _ _ => []
  locRoutes := fun l => [[0], [0, 1], [0, 1], [], [], [1], [1], [0]].getD l []

/-- C54 does not hold: trips of a route that leave the first stop at the same time are taken for equally good; the
journey that arrives at 12:30 is lost.  With a departure one minute later it is found. -/
theorem C54_same_start_counterexample :
    (run (ttSameStart 540) (data (ttSameStart 540)) ⟨[], [6], fun _ => 0, 5⟩ 7 State.fresh [.call [(0, 5 * 1440 + 570)] 100000]).2 =
      [(1, 5 * 1440 + 780)] ∧
    (run (ttSameStart 541) (data (ttSameStart 541)) ⟨[], [6], fun _ => 0, 5⟩ 7 State.fresh [.call [(0, 5 * 1440 + 570)] 100000]).2 =
      [(1, 5 * 1440 + 750)] := by
  decide +kernel

end Demo53

end Nigiri.TB
