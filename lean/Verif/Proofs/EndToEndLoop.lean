import Verif.Proofs.EndToEnd
/-!
# The search driver with RAPTOR: the loop
-/

namespace Nigiri.EndToEnd
open Nigiri.Raptor Nigiri.Search Nigiri.StartTimes

set_option linter.unusedSimpArgs false
section
variable {d : Dir} {N : Net} {n : Nat} {entries : List (Loc × Int)} {maxOff : Int} {E : Env Raptor.State}

/-! ## Start times -/

theorem mem_offsets_const {o : Loc × Off} (ho : o ∈ StartTimes.offsets entries []) : ∃ x, (o.1, x) ∈ entries ∧ o.2 = .const x := by
  simp only [StartTimes.offsets, List.map_nil, List.append_nil] at ho
  obtain ⟨e, he, rfl⟩ := List.mem_map.mp ho
  exact ⟨e.2, he, rfl⟩

theorem Setup.feasible (h : Setup d N n entries maxOff E) : ∀ o ∈ StartTimes.offsets entries [], RtFeasible d N o.1 o.2 := by
  intro o ho r _ i s _ _
  obtain ⟨x, hx, he⟩ := mem_offsets_const ho
  exact ⟨_, x, (h.offsets _ hx).2.2.1, by rw [he], rfl⟩

/-- Every new start time is a start location after its offset. -/
theorem Setup.starts_ok (h : Setup d N n entries maxOff E) {iv : Interval} {b : Bool} {l : List Ev} {e : Ev} (he : e ∈ addStartLabels d E (.interval iv) b l) :
    e ∈ l ∨ (EvOk d N entries e ∧ ((iv.from' ≤ e.timeAtStart ∧ e.timeAtStart < iv.to') ∨ (b = true ∧ e.timeAtStart = ontripStart d iv))) := by
  unfold addStartLabels at he
  rw [mem_sortStarts, h.starts] at he
  rcases C27_sound d N iv entries [] maxOff b l h.feasible e he with he | ⟨o, ho, he⟩
  · exact Or.inl he
  · obtain ⟨x, hx, hox⟩ := mem_offsets_const ho
    right
    rw [hox] at he
    rcases he with he | ⟨hb, he⟩
    · refine ⟨⟨x, by rw [he.stop]; exact hx, ?_⟩, Or.inl he.inside⟩
      obtain ⟨y, _, hy, hl⟩ := he.leave
      simp only at hy
      subst hy
      revert hl
      unfold toDelta
      cases d <;> simp only [Dir.sgn] <;> omega
    · obtain ⟨y, _, hy, hl⟩ := he.walk
      simp only at hy
      subst hy
      refine ⟨⟨x, by rw [he.stop]; exact hx, ?_⟩, Or.inr ⟨hb, ?_⟩⟩
      · rw [hl]
        unfold toDelta
        cases d <;> simp only [Dir.sgn, After] <;> omega
      · rw [he.leave]; cases d <;> rfl

/-- Start times are kept. -/
theorem Setup.starts_keep (h : Setup d N n entries maxOff E) {iv : Interval} {b : Bool} {l : List Ev} {e : Ev} (he : e ∈ l) :
    e ∈ addStartLabels d E (.interval iv) b l := by
  unfold addStartLabels
  rw [mem_sortStarts, h.starts]
  rw [getStarts_interval]
  refine Raptor.foldl_inv (fun st : List Ev => e ∈ st) _ _ _ he ?_
  intro st o _ hst
  exact (locStep d N iv o.1 o.2 maxOff b st).keep e hst

/-- A start event makes a journey possible that needs no more rides and arrives no later. -/
def Hits (d : Dir) (N : Net) (evs : List Ev) (T : Int) (j : Nat) (A : Int) : Prop :=
  ∃ e ∈ evs, toDelta d N T ≤ toDelta d N e.timeAtStart ∧ EvJny d N e j A

/-- A trip that leaves in the interval or later continues one of the start times. -/
theorem Setup.starts_cov (h : Setup d N n entries maxOff E) {iv : Interval} {b : Bool} {l : List Ev}
    (hl : ∀ x, l.getLast? = some x → iv.contains x.timeAtStart = false) (hb : b = true ∨ entries.length ≤ 1)
    {T : Int} {j : Nat} {A : Int} (ht : TripD d N entries T j A) (hT : toDelta d N (edge d iv) ≤ toDelta d N T)
    (hle : toDelta d N T ≤ toDelta d N (ontripStart d iv)) :
    Hits d N (addStartLabels d E (.interval iv) b l) T j A ∨
      (b = false ∧ ∃ T', toDelta d N (ontripStart d iv) ≤ toDelta d N T' ∧ toDelta d N T ≤ toDelta d N T' ∧ TripD d N entries T' j A) := by
  obtain ⟨loc, x, hx, hj⟩ := ht
  obtain ⟨dep, h1, h2, h3⟩ := journey_departure hj
  have hxo := h.offsets _ hx
  simp only at hxo
  have hmem : ∀ e, e ∈ addStartLabels d E (.interval iv) b l ↔ e ∈ getStarts d N (.interval iv) entries [] maxOff b l := by
    intro e; unfold addStartLabels; rw [mem_sortStarts, h.starts]
  have ho : ((loc, Off.const x) : Loc × Off) ∈ StartTimes.offsets entries [] := by
    simp only [StartTimes.offsets, List.map_nil, List.append_nil]
    exact List.mem_map.mpr ⟨(loc, x), hx, rfl⟩
  have hT' : toDelta d N (toUnix d N (dep - x)) = dep - x := toDelta_toUnix _ _ _
  by_cases hlt : dep - x < toDelta d N (ontripStart d iv)
  · left
    have hin : iv.contains (toUnix d N (dep - x)) = true := by
      rw [contains_delta d N, hT']; omega
    have hst : IsStart d N iv loc (.const x) ⟨toUnix d N (dep - x), toUnix d N dep, loc⟩ := by
      refine ⟨rfl, h3, ⟨x, hxo.2.2.1, rfl, ?_⟩, by simpa [Interval.contains] using hin⟩
      unfold toUnix
      cases d <;> simp only [Dir.sgn] <;> omega
    obtain ⟨e', he', hc⟩ := C27_complete d N iv entries [] maxOff b l hl (by
      rcases hb with hb | hb
      · left
        refine ⟨hb, ?_⟩
        intro o ho
        obtain ⟨y, hy, hoy⟩ := mem_offsets_const ho
        rw [hoy]
        exact (h.offsets _ hy).2.2.1
      · right; simpa [StartTimes.offsets] using hb) _ ho _ hst ⟨x, hxo.1, hxo.2.1, by
        simp only [atStart, toUnix]
        cases d <;> simp only [Dir.sgn] <;> omega⟩
    obtain ⟨c1, c2, c3⟩ := hc
    simp only at c1 c2 c3
    refine ⟨e', (hmem e').mpr he', by rw [c2, hT']; omega, ?_⟩
    unfold EvJny
    rw [c1]
    refine journey_earlier h2 ?_
    rw [← toDelta_toUnix d N dep]
    unfold toDelta
    cases d <;> simp only [Dir.sgn] at c3 ⊢ <;> omega
  · cases b with
    | false => exact Or.inr ⟨rfl, toUnix d N (dep - x), by rw [hT']; omega, by rw [hT']; omega, loc, x, hx, by rw [hT']; exact journey_earlier h2 (by omega)⟩
    | true =>
      have hd : toDelta d N (After d (ontripStart d iv) x) = toDelta d N (ontripStart d iv) + x := by
        unfold toDelta
        cases d <;> simp only [Dir.sgn, After] <;> omega
      left
      refine ⟨⟨ontripStart d iv, After d (ontripStart d iv) x, loc⟩, (hmem _).mpr (C27_ontrip d N iv entries [] maxOff l _ ho _ ⟨rfl, by cases d <;> rfl, x, hxo.2.2.1, rfl, rfl⟩), hle, ?_⟩
      unfold EvJny
      simp only
      rw [hd]
      exact journey_earlier h2 (by omega)

/-! ## Extension of the interval -/

/-- The part that is added where the search begins. -/
def late (d : Dir) (iv new : Interval) : Interval := match d with
  | .fwd => ⟨iv.to', new.to'⟩
  | .bwd => ⟨new.from', iv.from'⟩

/-- The part that is added where the search ends. -/
def early (d : Dir) (iv new : Interval) : Interval := match d with
  | .fwd => ⟨new.from', iv.from'⟩
  | .bwd => ⟨iv.to', new.to'⟩

theorem edge_late (d : Dir) (iv new : Interval) : edge d (late d iv new) = ontripStart d iv := by cases d <;> rfl
theorem ontrip_late (d : Dir) (iv new : Interval) : ontripStart d (late d iv new) = ontripStart d new := by cases d <;> rfl
theorem edge_early (d : Dir) (iv new : Interval) : edge d (early d iv new) = edge d new := by cases d <;> rfl
theorem ontrip_early (d : Dir) (iv new : Interval) : ontripStart d (early d iv new) = edge d iv := by cases d <;> rfl

theorem extend_fixed {s : Search.State Raptor.State} {new : Interval} (hc : ontripStart d new = ontripStart d s.iv) :
    (extend d E s new).algo = s.algo ∧ (extend d E s new).results = s.results := by
  unfold extend
  cases d with
  | fwd =>
    have hc : new.to' = s.iv.to' := hc
    by_cases h1 : new.from' = s.iv.from' <;> simp [h1, hc]
  | bwd =>
    have hc : new.from' = s.iv.from' := by simp only [ontripStart] at hc; omega
    by_cases h1 : new.to' = s.iv.to' <;> simp [h1, hc]

theorem extend_moved {s : Search.State Raptor.State} {new : Interval} (hc : ontripStart d new ≠ ontripStart d s.iv) :
    (extend d E s new).algo = E.algo.reset s.algo ∧ (extend d E s new).results = removeOntrip s.iv s.results := by
  unfold extend
  cases d with
  | fwd =>
    have hc : new.to' ≠ s.iv.to' := hc
    by_cases h1 : new.from' = s.iv.from' <;> simp [h1, hc]
  | bwd =>
    have hc : new.from' ≠ s.iv.from' := by simp only [ontripStart] at hc; omega
    by_cases h1 : new.to' = s.iv.to' <;> simp [h1, hc]

theorem not_contains {iv : Interval} {t : Int} (h : ¬ (iv.from' ≤ t ∧ t < iv.to')) : iv.contains t = false := by
  rw [Bool.eq_false_iff, Ne, contains_iff]
  exact h

theorem dir1 : (Dir.bwd == Dir.fwd) = false := rfl
theorem dir2 : (Dir.fwd == Dir.bwd) = false := rfl

theorem last_mem {α : Type} {l : List α} {x : α} (h : l.getLast? = some x) : x ∈ l := by
  rw [List.getLast?_eq_some_iff] at h
  obtain ⟨ys, rfl⟩ := h
  simp

theorem Setup.late_starts (h : Setup d N n entries maxOff E) {s : Search.State Raptor.State} {new : Interval} (hin : Inside s.iv new)
    (hok : s.iv.from' ≤ s.iv.to') (hc : ontripStart d new ≠ ontripStart d s.iv) :
    ∃ l : List Ev, (∀ x, l.getLast? = some x → (late d s.iv new).contains x.timeAtStart = false) ∧
      ∀ e ∈ addStartLabels d E (.interval (late d s.iv new)) true l, e ∈ (extend d E s new).starts := by
  unfold Inside at hin
  cases d with
  | fwd =>
    have hc : new.to' ≠ s.iv.to' := hc
    by_cases h1 : new.from' = s.iv.from'
    · refine ⟨[], by simp, ?_⟩
      simp [extend, h1, hc, late, dir1, dir2]
    · refine ⟨addStartLabels .fwd E (.interval ⟨new.from', s.iv.from'⟩) false [], ?_, ?_⟩
      · intro x hx
        rcases h.starts_ok (last_mem hx) with hx | ⟨-, hx | ⟨hx, -⟩⟩
        · cases hx
        · refine not_contains fun hh => ?_
          simp only [late] at hh hx
          omega
        · cases hx
      · simp [extend, h1, hc, late, dir1, dir2]
  | bwd =>
    have hc : new.from' ≠ s.iv.from' := by simp only [ontripStart] at hc; omega
    refine ⟨[], by simp, ?_⟩
    by_cases h1 : new.to' = s.iv.to'
    · simp [extend, h1, hc, late, dir1, dir2]
    · intro e he
      have := h.starts_keep (iv := ⟨s.iv.to', new.to'⟩) (b := false) he
      simpa [extend, h1, hc, late, dir1, dir2] using this

theorem Setup.early_starts (h : Setup d N n entries maxOff E) {s : Search.State Raptor.State} {new : Interval} (hin : Inside s.iv new)
    (hok : s.iv.from' ≤ s.iv.to') (hc : edge d new ≠ edge d s.iv) :
    ∃ l : List Ev, (∀ x, l.getLast? = some x → (early d s.iv new).contains x.timeAtStart = false) ∧
      ∀ e ∈ addStartLabels d E (.interval (early d s.iv new)) false l, e ∈ (extend d E s new).starts := by
  unfold Inside at hin
  cases d with
  | fwd =>
    have hc : new.from' ≠ s.iv.from' := hc
    refine ⟨[], by simp, ?_⟩
    by_cases h1 : new.to' = s.iv.to'
    · simp [extend, h1, hc, early, dir1, dir2]
    · intro e he
      have := h.starts_keep (iv := ⟨s.iv.to', new.to'⟩) (b := true) he
      simpa [extend, h1, hc, early, dir1, dir2] using this
  | bwd =>
    have hc : new.to' ≠ s.iv.to' := by simp only [edge] at hc; omega
    by_cases h1 : new.from' = s.iv.from'
    · refine ⟨[], by simp, ?_⟩
      simp [extend, h1, hc, early, dir1, dir2]
    · refine ⟨addStartLabels .bwd E (.interval ⟨new.from', s.iv.from'⟩) true [], ?_, ?_⟩
      · intro x hx
        rcases h.starts_ok (last_mem hx) with hx | ⟨-, hx | ⟨hx, hx'⟩⟩
        · cases hx
        · refine not_contains fun hh => ?_
          simp only [early] at hh hx
          omega
        · refine not_contains fun hh => ?_
          simp only [ontripStart] at hx'
          simp only [early] at hh
          omega
      · simp [extend, h1, hc, early, dir1, dir2]

/-! ## The invariant -/

/-- The times at which a trip may leave to be considered: the given time, or the times of the interval and its
end. -/
def Scope (d : Dir) (N : Net) (E : Env Raptor.State) (iv : Interval) (T : Int) : Prop :=
  (E.q.ontrip = true → E.q.start = .point T) ∧
  (E.q.ontrip = false → toDelta d N (edge d iv) ≤ toDelta d N T ∧ toDelta d N T ≤ toDelta d N (ontripStart d iv))

/-- The trip continues a start event, with no more rides and no later arrival. -/
def Pending (d : Dir) (N : Net) (evs : List Ev) (T : Int) (j : Nat) (A : Int) : Prop :=
  ∃ j' A', 1 ≤ j' ∧ j' ≤ j ∧ toDelta d N A' ≤ toDelta d N A ∧ Hits d N evs T j' A'

/-- State of the loop. -/
structure LoopOk (d : Dir) (N : Net) (n : Nat) (entries : List (Loc × Int)) (maxOff : Int) (E : Env Raptor.State) (s : Search.State Raptor.State) : Prop where
  ok : s.iv.from' ≤ s.iv.to'
  near : E.q.startIv.from' - 3600 ≤ s.iv.from' ∧ s.iv.to' ≤ E.q.startIv.to' + 3600
  algo : ∃ qs, AlgoOk d N n entries E s.algo qs ∧ (∀ q ∈ qs, ∀ e ∈ s.starts, toDelta d N e.timeAtStart ≤ q.time) ∧
    (E.q.ontrip = false → ∀ q ∈ qs, toDelta d N (edge d s.iv) ≤ q.time)
  real : ∀ r ∈ s.results, Real d N n entries r
  recd : ∀ r ∈ s.results, Recd E s.iv r
  starts : ∀ e ∈ s.starts, EvOk d N entries e ∧ Fits d N maxOff e.timeAtStart ∧ (E.q.ontrip = false → toDelta d N (edge d s.iv) ≤ toDelta d N e.timeAtStart)
  pend : ∀ T j A, Scope d N E s.iv T → TripD d N entries T j A → j ≤ n → toDelta d N A ≤ toDelta d N T + lim E →
    HasBetter s.results ⟨T, A, j - 1⟩ ∨ Pending d N s.starts T j A

theorem edge_cut (d : Dir) (iv : Interval) (t : Int) : edge d (cutIv d iv t) = t := by
  cases d
  · rfl
  · show t + 1 - 1 = t; omega

theorem ontrip_cut (d : Dir) (iv : Interval) (t : Int) : ontripStart d (cutIv d iv t) = ontripStart d iv := by cases d <;> rfl

/-- After the search of an interval every trip in scope is covered. -/
theorem LoopOk.search (h : Setup d N n entries maxOff E) {s : Search.State Raptor.State} (hs : LoopOk d N n entries maxOff E s) (hres : ResOk E s.results)
    (hsort : s.starts.Pairwise fun a b => Ahead d a.timeAtStart b.timeAtStart) (hpt : E.q.ontrip = true → ∀ e ∈ s.starts, E.q.start = .point e.timeAtStart) :
    (∀ r ∈ (searchInterval d E s).results, Real d N n entries r ∧ Recd E (searchInterval d E s).iv r) ∧
    (∀ T j A, Scope d N E (searchInterval d E s).iv T → TripD d N entries T j A → j ≤ n → toDelta d N A ≤ toDelta d N T + lim E →
      HasBetter (searchInterval d E s).results ⟨T, A, j - 1⟩) ∧
    (∃ qs, AlgoOk d N n entries E (searchInterval d E s).algo qs ∧ (E.q.ontrip = false → ∀ q ∈ qs, toDelta d N (edge d s.iv) ≤ q.time)) := by
  obtain ⟨qs, hq, hq1, hq2⟩ := hs.algo
  have hsr := searchInterval_cov h hq hres hs.real hsort (fun e he => ⟨(hs.starts e he).1, (hs.starts e he).2.1, fun q hqm => hq1 q hqm e he⟩)
  refine ⟨fun r hr => ⟨hsr.real r hr, ?_⟩, ?_, ?_⟩
  · have hrec := hsr.recd hs.recd r hr
    refine ⟨hrec.1, fun hor => hrec.2 ?_⟩
    rcases hor with hor | hor
    · exact Or.inl hor
    · cases hon : E.q.ontrip
      · right
        rcases hsr.cov with ⟨he, -⟩ | ⟨c, hc, he, -⟩
        · rwa [he] at hor
        · rw [he, contains_delta d N, edge_cut, ontrip_cut] at hor
          rw [contains_delta d N]
          have := (hs.starts c hc).2.2 hon
          omega
      · exact Or.inl rfl
  · intro T j A hsc htr hjn hA
    have hsc' : Scope d N E s.iv T := by
      refine ⟨hsc.1, fun hon => ?_⟩
      have h2 := hsc.2 hon
      rcases hsr.cov with ⟨he, -⟩ | ⟨c, hc, he, -⟩
      · rwa [he] at h2
      · rw [he, edge_cut, ontrip_cut] at h2
        have := (hs.starts c hc).2.2 hon
        omega
    rcases hs.pend T j A hsc' htr hjn hA with hb | ⟨j', A', g0, g1, g2, e, he, g3, g4⟩
    · exact hsr.keep _ hb
    · have hcov : EvCov d N n E (searchInterval d E s).results e := by
        rcases hsr.cov with ⟨-, hc⟩ | ⟨c, hc, he', hcov⟩
        · exact hc e he
        · cases hon : E.q.ontrip
          · refine hcov e he ?_
            have h2 := (hsc.2 hon).1
            rw [he', edge_cut] at h2
            omega
          · refine hcov e he ?_
            have h1 := hpt hon e he
            rw [hpt hon c hc] at h1
            injection h1 with h1
            rw [h1]; exact Int.le_refl _
      exact h.weaken hsr.real (hcov j' A' g4 (by omega) (by omega)) (by simp only; omega) (by simp only; omega) g2
  · obtain ⟨qs', k1, k2⟩ := hsr.algo
    refine ⟨qs', k1, fun hon q hqm => ?_⟩
    rcases k2 q hqm with hqm | ⟨e, he, hqe⟩
    · exact hq2 hon q hqm
    · rw [hqe]; exact (hs.starts e he).2.2 hon

theorem delta_outer (d : Dir) (N : Net) {iv new : Interval} (h : Inside iv new) :
    toDelta d N (edge d new) ≤ toDelta d N (edge d iv) ∧ toDelta d N (ontripStart d iv) ≤ toDelta d N (ontripStart d new) := by
  unfold Inside at h
  unfold toDelta
  cases d <;> simp only [edge, ontripStart, Dir.sgn] <;> omega

theorem delta_ok (d : Dir) (N : Net) {iv : Interval} : toDelta d N (ontripStart d iv) = toDelta d N (edge d iv) + (iv.to' - iv.from') := by
  unfold toDelta
  cases d <;> simp only [edge, ontripStart, Dir.sgn] <;> omega

/-- A new start time. -/
theorem Setup.extend_ev (h : Setup d N n entries maxOff E) {s : Search.State Raptor.State} {new : Interval} {e : Ev} (he : e ∈ (extend d E s new).starts) :
    EvOk d N entries e := by
  have h0 : ∀ iv b e, e ∈ addStartLabels d E (.interval iv) b [] → EvOk d N entries e := by
    intro iv b e he
    rcases h.starts_ok he with he | he
    · cases he
    · exact he.1
  have h1 : ∀ iv b iv' b' e, e ∈ addStartLabels d E (.interval iv) b (addStartLabels d E (.interval iv') b' []) → EvOk d N entries e := by
    intro iv b iv' b' e he
    rcases h.starts_ok he with he | he
    · exact h0 _ _ _ he
    · exact he.1
  revert he
  unfold extend
  simp only
  cases d <;> (by_cases h2 : new.from' ≠ s.iv.from' <;> by_cases h3 : new.to' ≠ s.iv.to' <;> simp [h2, h3])
  all_goals first | exact h0 _ _ _ | exact h1 _ _ _ _ _

theorem LoopOk.extended (h : Setup d N n entries maxOff E) (hS : StartsOk d E) {s : Search.State Raptor.State} (hs : LoopOk d N n entries maxOff E s) (hres : ResOk E s.results)
    (hsort : s.starts.Pairwise fun a b => Ahead d a.timeAtStart b.timeAtStart) (hon : E.q.ontrip = false) (hiv : (searchInterval d E s).iv = s.iv)
    {new : Interval} (hin : Inside s.iv new) (hnear : E.q.startIv.from' - 3600 ≤ new.from' ∧ new.to' ≤ E.q.startIv.to' + 3600) (hpos : s.iv.from' < s.iv.to')
    (hedge : ∀ r ∈ (searchInterval d E s).results, Ahead d r.crit.start (edge d s.iv))
    (horder : edge d new = edge d s.iv ∨ entries.length ≤ 1) : LoopOk d N n entries maxOff E (extend d E (searchInterval d E s) new) := by
  obtain ⟨h1, h2, qs, h3, h4⟩ := hs.search h hres hsort (by rw [hon]; intro h; cases h)
  have h4 := h4 hon
  generalize hs' : searchInterval d E s = o at *
  have hout := delta_outer d N hin
  have hok := delta_ok d N (iv := s.iv)
  have hstarts : ∀ e ∈ (extend d E o new).starts, toDelta d N (edge d new) ≤ toDelta d N e.timeAtStart ∧
      (ontripStart d new = ontripStart d s.iv → toDelta d N e.timeAtStart < toDelta d N (edge d s.iv)) ∧
      E.q.startIv.from' - 3601 ≤ e.timeAtStart ∧ e.timeAtStart ≤ E.q.startIv.to' + 3600 := by
    intro e he
    have := extend_starts hS he
    rw [hiv] at this
    unfold Inside at hin
    unfold toDelta
    cases d
    · simp only [edge, ontripStart, Dir.sgn]
      rcases this with ⟨_, h2 | ⟨h2, _⟩⟩ | ⟨_, h2 | ⟨_, h2⟩⟩
      · omega
      · cases h2
      · omega
      · omega
    · simp only [edge, ontripStart, Dir.sgn]
      rcases this with ⟨_, h2 | ⟨_, h2⟩⟩ | ⟨_, h2 | ⟨h2, _⟩⟩
      · omega
      · omega
      · omega
      · cases h2
  have hinO : Inside o.iv new := by rw [hiv]; exact hin
  have hokO : o.iv.from' ≤ o.iv.to' := by rw [hiv]; omega
  -- trips that leave after the old interval
  have hlate : ontripStart d new ≠ ontripStart d s.iv → ∀ T j A, toDelta d N (ontripStart d s.iv) ≤ toDelta d N T → toDelta d N T ≤ toDelta d N (ontripStart d new) →
      TripD d N entries T j A → Hits d N (extend d E o new).starts T j A := by
    intro hc T j A hT hT2 htr
    obtain ⟨l, hl, hsub⟩ := h.late_starts (s := o) hinO hokO (by rw [hiv]; exact hc)
    rw [hiv] at hl hsub
    rcases h.starts_cov hl (Or.inl rfl) htr (by rw [edge_late]; exact hT) (by rw [ontrip_late]; exact hT2) with ⟨e, he, g1, g2⟩ | ⟨hf, -⟩
    · exact ⟨e, hsub e he, g1, g2⟩
    · cases hf
  -- trips that leave in the old interval or at its end
  have hold : ∀ T j A, toDelta d N (edge d s.iv) ≤ toDelta d N T → toDelta d N T ≤ toDelta d N (ontripStart d s.iv) → TripD d N entries T j A → j ≤ n →
      toDelta d N A ≤ toDelta d N T + lim E → HasBetter (extend d E o new).results ⟨T, A, j - 1⟩ ∨ Pending d N (extend d E o new).starts T j A := by
    intro T j A hT hT2 htr hjn hA
    have hb := h2 T j A ⟨(by rw [hon]; intro h; cases h), fun _ => by rw [hiv]; exact ⟨hT, hT2⟩⟩ htr hjn hA
    by_cases hc : ontripStart d new = ontripStart d s.iv
    · rw [(extend_fixed (E := E) (s := o) (by rw [hiv]; exact hc)).2]
      exact Or.inl hb
    · rw [(extend_moved (E := E) (s := o) (by rw [hiv]; exact hc)).2, hiv]
      obtain ⟨r, hr, hd⟩ := hb
      by_cases hrc : s.iv.contains r.crit.start = true
      · exact Or.inl ⟨r, List.mem_filter.mpr ⟨hr, hrc⟩, hd⟩
      · right
        have hp := h.proper (h1 r hr).1
        rw [dom_iff hp] at hd
        simp only at hd
        have hge : toDelta d N (ontripStart d s.iv) ≤ toDelta d N r.crit.start := by
          rw [contains_delta d N] at hrc
          omega
        obtain ⟨-, -, j', A', g1, g2, g3⟩ := (h1 r hr).1
        simp only at g1 g2
        have hjp : 1 ≤ j := by obtain ⟨_, _, _, hjj⟩ := htr; exact journey_pos hjj
        have hjp' : 1 ≤ j' := by obtain ⟨_, _, _, hjj⟩ := g3; exact journey_pos hjj
        obtain ⟨e, he, k1, k2⟩ := hlate hc (ontripStart d s.iv) j' A' (Int.le_refl _) hout.2 (trip_earlier g3 hge)
        exact ⟨j', A', hjp', by omega, by omega, e, he, by omega, k2⟩
  refine ⟨?_, ?_, ?_, ?_, ?_, ?_, ?_⟩
  · rw [extend_iv]; unfold Inside at hin; omega
  · rw [extend_iv]; exact hnear
  · rw [extend_iv]
    by_cases hc : ontripStart d new = ontripStart d s.iv
    · rw [(extend_fixed (E := E) (s := o) (by rw [hiv]; exact hc)).1]
      refine ⟨qs, h3, ?_, ?_⟩
      · intro q hq e he
        have := (hstarts e he).2.1 hc
        have := h4 q hq
        omega
      · intro _ q hq
        have := h4 q hq
        omega
    · rw [(extend_moved (E := E) (s := o) (by rw [hiv]; exact hc)).1]
      obtain ⟨rec, ha, -⟩ := h.algo
      refine ⟨[], ?_, by simp, by simp⟩
      rw [ha]
      exact algoOk_reset _
  · intro r hr
    exact (h1 r ((extend_results d E o new).subset hr)).1
  · intro r hr
    have hrr := (h1 r ((extend_results d E o new).subset hr)).2
    rw [extend_iv]
    refine ⟨hrr.1, fun hor => hrr.2 ?_⟩
    rcases hor with hor | hor
    · exact Or.inl hor
    · right
      rw [hiv]
      by_cases hc : ontripStart d new = ontripStart d s.iv
      · have he := (ahead_iff d N _ _).mp (hedge r ((extend_results d E o new).subset hr))
        rw [contains_delta d N] at hor ⊢
        rw [hc] at hor
        omega
      · rw [(extend_moved (E := E) (s := o) (by rw [hiv]; exact hc)).2, hiv] at hr
        exact (List.mem_filter.mp hr).2
  · intro e he
    obtain ⟨k1, -, k3, k4⟩ := hstarts e he
    rw [extend_iv]
    exact ⟨h.extend_ev he, h.fitsD _ k3 k4, fun _ => k1⟩
  · intro T j A hsc htr hjn hA
    rw [extend_iv] at hsc
    have hsc := hsc.2 hon
    have hjp : 1 ≤ j := by obtain ⟨_, _, _, hjj⟩ := htr; exact journey_pos hjj
    by_cases h5 : toDelta d N (ontripStart d s.iv) < toDelta d N T
    · right
      have hc : ontripStart d new ≠ ontripStart d s.iv := by
        intro hc; rw [hc] at hsc; omega
      exact ⟨j, A, hjp, Nat.le_refl _, Int.le_refl _, hlate hc T j A (by omega) hsc.2 htr⟩
    · by_cases h6 : toDelta d N (edge d s.iv) ≤ toDelta d N T
      · exact hold T j A h6 (by omega) htr hjn hA
      · have hne : edge d new ≠ edge d s.iv := by
          intro hc; rw [hc] at hsc; omega
        obtain ⟨l, hl, hsub⟩ := h.early_starts (s := o) hinO hokO (by rw [hiv]; exact hne)
        rw [hiv] at hl hsub
        rcases h.starts_cov hl (Or.inr (horder.resolve_left hne)) htr (by rw [edge_early]; exact hsc.1) (by rw [ontrip_early]; omega) with ⟨e, he, g1, g2⟩ | ⟨-, T', g1, g2, g3⟩
        · exact Or.inr ⟨j, A, hjp, Nat.le_refl _, Int.le_refl _, e, hsub e he, g1, g2⟩
        · rw [ontrip_early] at g1
          have fin : ∀ T', toDelta d N (edge d s.iv) ≤ toDelta d N T' → toDelta d N T' ≤ toDelta d N (ontripStart d s.iv) → toDelta d N T ≤ toDelta d N T' → TripD d N entries T' j A →
              HasBetter (extend d E o new).results ⟨T, A, j - 1⟩ ∨ Pending d N (extend d E o new).starts T j A := by
            intro T' g1 g2 g3 g4
            rcases hold T' j A g1 g2 g4 hjn (by omega) with hb | ⟨j', A', k0, k1, k2, e, he, k3, k4⟩
            · exact Or.inl (h.weaken (fun r hr => (h1 r ((extend_results d E o new).subset hr)).1) hb (Nat.le_refl _) g3 (Int.le_refl _))
            · exact Or.inr ⟨j', A', k0, k1, k2, e, he, by omega, k4⟩
          by_cases h7 : toDelta d N T' ≤ toDelta d N (ontripStart d s.iv)
          · exact fin T' g1 h7 g2 g3
          · exact fin (ontripStart d s.iv) (by omega) (Int.le_refl _) (by omega) (trip_earlier g3 (by omega))

/-- The window of the search contains the query's interval and is not much larger. -/
def Roomy (E : Env Raptor.State) (l u : Int) : Prop :=
  l ≤ E.q.startIv.from' ∧ E.q.startIv.to' ≤ u ∧ E.q.startIv.from' - 3600 ≤ l ∧ u ≤ E.q.startIv.to' + 3600

theorem roomy_exists (hv : Valid E.tt E.q) (hx : Ext E.q → Extendable d entries E) : ∃ l u, Window E l u ∧ u - l ≤ 23042 ∧ (Ext E.q → Roomy E l u) := by
  obtain ⟨l, u, hw, hsz, hp⟩ := window_exists hv
  refine ⟨l, u, hw, hsz, fun he => ?_⟩
  have hx := hx he
  have hin := dataTypeMax_contains (tt := E.tt) hx.size
  have hok := hv.start
  unfold Ok at hok
  have hnear := dataTypeMax_near E.tt E.q
  have ht := hx.timetable
  have hmx := hx.max
  unfold Inside at hin hp
  have h1 := hp E.q.startIv.from' (by simp only; omega) (by simp only; omega) (fun m hm => by have := hmx m hm; simp only; omega)
  have h2 := hp E.q.startIv.to' (by simp only; omega) (by simp only; omega) (fun m hm => by have := hmx m hm; simp only; omega)
  obtain ⟨a1, a2, a3, a4, a5⟩ := h1
  obtain ⟨b1, b2, b3, b4, b5⟩ := h2
  simp only at a4
  unfold Roomy
  omega

theorem LoopOk.loop (h : Setup d N n entries maxOff E) (hS : StartsOk d E) {l u : Int} (hw : Window E l u) (hro : Ext E.q → Roomy E l u)
    (hx : Ext E.q → Extendable d entries E) {iv0 : Interval} : ∀ (m i : Nat) (s s' : Search.State Raptor.State), Inv d E l u iv0 s → LoopOk d N n entries maxOff E s →
      Search.loop d E m i s = .done s' → ∃ s0, Inv d E l u iv0 s0 ∧ LoopOk d N n entries maxOff E s0 ∧ s' = searchInterval d E s0 := by
  intro m
  induction m with
  | zero => intro i s s' _ _ hl; simp [Search.loop] at hl
  | succ m ih =>
    intro i s s' hs hj hl
    simp only [Search.loop] at hl
    cases hf : finished E (searchInterval d E s) i
    · rw [hf] at hl
      simp only [Bool.false_eq_true, if_false] at hl
      obtain ⟨new, he⟩ := extension_defined hw (searchInterval d E s).iv (E.q.minConn - nInInterval E.q (searchInterval d E s).iv (searchInterval d E s).results)
      rw [he] at hl
      simp only at hl
      by_cases hne : new = (searchInterval d E s).iv
      · rw [if_pos hne] at hl
        injection hl with hl
        exact ⟨s, hs, hj, hl.symm⟩
      · rw [if_neg hne] at hl
        obtain ⟨hi, hlt, hext⟩ := hs.step hS hw hf he hne
        refine ih (i + 1) _ s' hi ?_ hl
        obtain ⟨-, hn⟩ := ext_of_unfinished hf he hne
        have hiv := hs.iv_of_unfinished hf
        have hwin := hs.win hext
        have hro := hro hext
        have hxx := hx hext
        obtain ⟨new', he', hin, hl1, hu1, hE, hL, hz⟩ := extension_spec hw hwin hn hext.2.2
        rw [hiv] at he he' hne
        rw [he] at he'
        obtain rfl := Option.some.inj he'
        have hpos : s.iv.from' < s.iv.to' := by
          rcases Int.lt_or_eq_of_le hwin.2.1 with h | h
          · exact h
          · exact absurd (hz h) hne
        obtain ⟨hres, hfrom, _⟩ := hs.spec
        refine hj.extended h hS hs.res hs.sorted hext.1 hiv hin ?_ hpos ?_ ?_
        · unfold Roomy at hro; omega
        · intro r hr
          rcases hfrom r hr with ⟨e, he, hr⟩ | ⟨r0, hr0, hr⟩
          · rw [← hr]; exact hs.edgeS hpos hext.1 e he
          · rw [← hr]; exact hs.edgeR hpos hext.1 r0 hr0
        · rcases hxx.order with ho | ho
          · exact Or.inr ho
          · left
            cases d with
            | fwd => exact hE ho
            | bwd => show new.to' - 1 = s.iv.to' - 1; rw [hL ho]
    · rw [hf] at hl
      simp only [if_true] at hl
      injection hl with hl
      exact ⟨s, hs, hj, hl.symm⟩

/-- Before the loop. -/
theorem LoopOk.start (h : Setup d N n entries maxOff E) (hS : StartsOk d E) (hv : Valid E.tt E.q) {l u : Int} (hw : Window E l u) (hro : Ext E.q → Roomy E l u)
    {s : Search.State Raptor.State} (hs : Search.start d E (init (mkProblem d N)) = some s) : LoopOk d N n entries maxOff E s := by
  unfold Search.start at hs
  rw [Option.map_eq_some_iff] at hs
  obtain ⟨iv, hiv, rfl⟩ := hs
  have hok := hv.start
  unfold Ok at hok
  have hq : E.q.startIv.from' ≤ E.q.startIv.to' := hok
  cases hst : E.q.start with
  | point t =>
    have hon : E.q.ontrip = true := by simp [Query.ontrip, hst]
    rw [hon] at hiv
    have hsi : E.q.startIv = ⟨t, t⟩ := by simp [Query.startIv, hst]
    simp only [if_true, hsi] at hiv
    obtain rfl := Option.some.inj hiv
    have hev : ∀ e, e ∈ addStartLabels d E (.point t) true [] ↔ e.timeAtStart = t ∧ ∃ x, (e.stop, x) ∈ entries ∧ e.timeAtStop = After d t x := by
      intro e
      unfold addStartLabels
      rw [mem_sortStarts, h.starts, C27_point]
      simp
    have haf : ∀ x, toDelta d N (After d t x) = toDelta d N t + x := by
      intro x
      unfold toDelta
      cases d <;> simp only [Dir.sgn, After] <;> omega
    have hsz : ¬ ((⟨t, t⟩ : Interval).size ≠ 0) := by simp [Interval.size]
    simp only [if_neg hsz]
    refine ⟨Int.le_refl _, by rw [hsi]; simp only; omega, ⟨[], algoOk_init, by simp, by simp⟩, by simp, by simp, ?_, ?_⟩
    · intro e he
      obtain ⟨g1, x, g2, g3⟩ := (hev e).mp he
      refine ⟨⟨x, g2, by rw [g3, g1, haf]⟩, ?_, by rw [hon]; intro h; cases h⟩
      rw [g1]
      refine h.fitsD t ?_ ?_ <;> (rw [hsi]; simp only; omega)
    · rintro T j A ⟨hsc, -⟩ ⟨loc, x, hx, hj⟩ hjn hA
      have hsc := hsc hon
      rw [hst] at hsc
      injection hsc with hsc
      subst hsc
      right
      refine ⟨j, A, journey_pos hj, Nat.le_refl _, Int.le_refl _, ⟨t, After d t x, loc⟩, (hev _).mpr ⟨rfl, x, hx, rfl⟩, Int.le_refl _, ?_⟩
      unfold EvJny
      simp only
      rw [haf]
      exact hj
  | interval qiv =>
    have hon : E.q.ontrip = false := by simp [Query.ontrip, hst]
    have hsi : E.q.startIv = qiv := by simp [Query.startIv, hst]
    rw [hon] at hiv
    simp only [Bool.false_eq_true, if_false] at hiv
    have hin : Inside E.q.startIv iv ∧ E.q.startIv.from' - 3600 ≤ iv.from' ∧ iv.to' ≤ E.q.startIv.to' + 3600 := by
      unfold initial at hiv
      by_cases hc : E.q.minConn = 0 ∨ E.q.extEarlier = false ∧ E.q.extLater = false
      · rw [if_pos hc] at hiv
        obtain rfl := Option.some.inj hiv
        unfold Inside
        omega
      · rw [if_neg hc, clampIv_window hw.2] at hiv
        obtain rfl := Option.some.inj hiv
        have hext : Ext E.q := by
          refine ⟨hon, by omega, ?_⟩
          cases h1 : E.q.extEarlier
          · cases h2 : E.q.extLater
            · exact absurd (Or.inr ⟨h1, h2⟩) hc
            · exact Or.inr rfl
          · exact Or.inl rfl
        have hro := hro hext
        have hg := initialRaw_grows d E.tt E.q E.q.startIv
        unfold Roomy at hro
        unfold Inside
        simp only
        omega
    have hstart : (if iv.size ≠ 0 then StartTime.interval iv else E.q.start) = .interval iv := by
      by_cases hsz : iv.size ≠ 0
      · rw [if_pos hsz]
      · rw [if_neg hsz, hst]
        have : qiv = iv := by
          unfold Inside at hin
          unfold Interval.size at hsz
          rw [hsi] at hin hq
          have h1 : qiv.from' = iv.from' := by omega
          have h2 : qiv.to' = iv.to' := by omega
          cases qiv; cases iv; simp_all
        rw [this]
    rw [hst] at hstart
    rw [hstart]
    obtain ⟨hin, hn1, hn2⟩ := hin
    unfold Inside at hin
    have hd := delta_ok d N (iv := iv)
    refine ⟨by simp only; omega, ⟨hn1, hn2⟩, ⟨[], algoOk_init, by simp, by simp⟩, by simp, by simp, ?_, ?_⟩
    · intro e he
      rcases h.starts_ok he with he | ⟨he, ho⟩
      · cases he
      · have hb : iv.from' - 1 ≤ e.timeAtStart ∧ e.timeAtStart ≤ iv.to' := by
          rcases ho with ho | ⟨-, ho⟩
          · omega
          · rw [ho]; cases d <;> simp only [ontripStart] <;> omega
        refine ⟨he, h.fitsD _ (by omega) (by omega), fun _ => ?_⟩
        simp only
        rcases ho with ho | ⟨-, ho⟩
        · have := (contains_delta d N iv e.timeAtStart).mp (by rw [StartTimes.contains_iff]; exact ho)
          omega
        · rw [ho]; omega
    · rintro T j A ⟨-, hsc⟩ ht hjn hA
      have hsc := hsc hon
      right
      rcases h.starts_cov (iv := iv) (b := true) (l := []) (by simp) (Or.inl rfl) ht hsc.1 hsc.2 with hh | ⟨hf, -⟩
      · exact ⟨j, A, by obtain ⟨_, _, _, hjj⟩ := ht; exact journey_pos hjj, Nat.le_refl _, Int.le_refl _, hh⟩
      · cases hf

/-- The state in which a search ends. -/
theorem final_state (h : Setup d N n entries maxOff E) (hv : Valid E.tt E.q) (hx : Ext E.q → Extendable d entries E) (ho : E.overlap = false)
    {m : Nat} {r : Result} (hr : execute d E (init (mkProblem d N)) m = some r) :
    ∃ l u iv0 s0, Inv d E l u iv0 s0 ∧ LoopOk d N n entries maxOff E s0 ∧ r.journeys = finish E (searchInterval d E s0) ∧ r.iv = (searchInterval d E s0).iv := by
  have hS : StartsOk d E := C25_starts d N entries [] maxOff E h.starts
  obtain ⟨l, u, hw, -, hro⟩ := roomy_exists hv hx
  obtain ⟨iv0, s, -, hs, hi, -⟩ := start_inv hS hv hw (init (mkProblem d N))
  unfold execute at hr
  rw [if_neg (by simp [ho]), hs] at hr
  simp only at hr
  have hj := LoopOk.start h hS hv hw hro hs
  cases hl : Search.loop d E m 0 s with
  | done s' =>
    rw [hl] at hr
    obtain rfl := Option.some.inj hr
    obtain ⟨s0, h1, h2, rfl⟩ := LoopOk.loop h hS hw hro hx m 0 s s' hi hj hl
    exact ⟨l, u, iv0, s0, h1, h2, rfl, rfl⟩
  | undef => rw [hl] at hr; cases hr
  | running => rw [hl] at hr; cases hr

end

end Nigiri.EndToEnd
