import Verif.Props.GpuWarp
import Verif.Proofs.GpuOpt
import Verif.Props.Raptor
/-!
# Properties C89, C90, C91: the search on the GPU

`GpuRun d N n qs S`: some execution of the search on the GPU, with at most `n` rides, for the start times `qs`, ends in
the state `S`.  The threads of each kernel run in any order and with any interleaving of their memory accesses
(`Verif.Model.GpuKernel`), so there are many executions.  The specification (journeys, sanity of the timetable) is
the one of the search on the CPU, `Verif.Spec.Network`.
-/

namespace Nigiri.Gpu
open Nigiri.Raptor

/-- An execution for a timetable and range query, with the encodings of `Verif.Model.GpuPacking`. -/
def GpuRun (d : Dir) (N : Net) (n : Nat) (qs : List Start) (S : GState) : Prop := RunAll (mkProblem d N) (codec d N) n qs S

/-- The reported arrivals: (destination, number of rides, time). -/
def gpuReported (d : Dir) (N : Net) (n : Nat) (S : GState) : List (Loc × Nat × Int) := results (mkProblem d N) n S

/-! ## Lookups fit into keys -/

/-- The earliest minute (relative to the base day) that a search between the oriented times `Lo` and `Hi` looks at. -/
def firstMinute (d : Dir) (Lo Hi : Int) : Int := match d with | .fwd => Lo | .bwd => -Hi

/-- What the 32 bit keys of `pack_et` need: no route has more than `2^26` trips, and no trip starts more than 28 days before
the base day and still runs at the first minute of interest. -/
structure EtFits (d : Dir) (N : Net) (Lo Hi : Int) : Prop where
  trips : ∀ r ∈ N.routes, r.nTr ≤ 2 ^ 26
  events : ∀ r ∈ N.routes, ∀ t i, t < r.nTr → i + 1 < r.stops.length → (r.evBoard d t i : Int) ≤ firstMinute d Lo Hi + 40320

theorem packable_of {d : Dir} {N : Net} {Lo Hi : Int} (hf : EtFits d N Lo Hi) (hLo : d.lo < Lo) (hHi : Hi < d.hi) {r : RouteData} (hr : r ∈ N.routes)
    {i : Nat} (hi : i + 1 < r.stops.length) {p lim : Int} (hp : Lo ≤ p) (hl : lim ≤ Hi) {a : Run} (h : getEarliest d N.base r i p lim = some a) :
    Packable N.base a := by
  obtain ⟨h1, -, h3, h4, -⟩ := getEarliest_sound h
  have h5 := hf.events r hr a.1 i h1 hi
  have h6 := hf.trips r hr
  have h7 : evTime d N.base a.2 (r.evBoard d a.1 i) ≤ Hi ∧ Lo ≤ evTime d N.base a.2 (r.evBoard d a.1 i) := by
    unfold Dir.clamp at h4; omega
  have h8 : (0 : Int) ≤ r.evBoard d a.1 i := Int.natCast_nonneg _
  have e : (r.nTr : Int) ≤ 2 ^ 26 := by exact_mod_cast h6
  unfold Packable
  cases d <;> simp only [Dir.lo, Dir.hi, Dir.sgn, evTime, firstMinute] at * <;> refine ⟨by omega, by omega, by omega, by omega⟩

theorem keyOk_of {d : Dir} {N : Net} (hF : NetFifo N) {Lo Hi : Int} (hf : EtFits d N Lo Hi) (hLo : d.lo < Lo) (hHi : Hi < d.hi) :
    KeyOk (mkProblem d N) (codec d N) Lo Hi where
  total := by
    intro a b h
    have : ¬ packEt d N.base a ≤ packEt d N.base b := of_decide_eq_false h
    exact decide_eq_true (by omega)
  mono := by
    intro r hr a b ha hb hle j hj0 hj
    obtain ⟨r0, hr0, rfl⟩ := mkProblem_mem_routes hr
    have hle' : packEt d N.base a ≤ packEt d N.base b := of_decide_eq_true hle
    rw [mkRoute_length] at hj
    obtain ⟨i, p, lim, hi, hp, hl, ha⟩ := ha
    obtain ⟨i', p', lim', hi', hp', hl', hb⟩ := hb
    rw [mkRoute_length] at hi hi'
    have sa := getEarliest_sound (ha : getEarliest d N.base r0 i p lim = some a)
    have sb := getEarliest_sound (hb : getEarliest d N.base r0 i' p' lim' = some b)
    have pa := packable_of hf hLo hHi hr0 hi hp hl ha
    have pb := packable_of hf hLo hHi hr0 hi' hp' hl' hb
    have hc := column_alight (d := d) (hF.aligned r0 hr0) j hj0 hj
    show evTime d N.base a.2 (r0.evAlight d a.1 j) ≤ evTime d N.base b.2 (r0.evAlight d b.1 j)
    rcases (C87_order_partial d N.base a b pa pb).mp hle' with g | ⟨g1, g2⟩
    · exact Int.le_of_lt (column_lt_of_day hc (base := N.base) sa.1 sb.1 g)
    · rw [← g1]
      refine column_le_of_before hc (base := N.base) (D := a.2) sa.1 sb.1 ?_
      unfold Dir.before
      cases d <;> simp only [Dir.sgn] at g2 ⊢ <;> omega

/-- The conditions of C88 hold in the search: the boarding labels lie between `Lo` and the limit `tad ≤ Hi`. -/
theorem warpOk_of {d : Dir} {N : Net} {Lo Hi : Int} (hf : EtFits d N Lo Hi) (hLo : d.lo < Lo) (hHi : Hi < d.hi) {r : RouteData} (hr : r ∈ N.routes)
    (hn : r.stops.length ≤ 2 ^ 32) {rk : Loc → Int} (hrk : ∀ l, Lo ≤ rk l) {tad : Int} (ht : tad ≤ Hi) (prev : Loc → Bool) {sections : Bool}
    (hs : sections = false → ∀ i s, 0 < i → (mkRoute d N r).stops[i]? = some s → s.secOk = true) :
    WarpOk (mkProblem d N) N (mkRoute d N r) rk tad prev sections where
  stops := by rw [mkRoute_length]; exact hn
  fits := by
    intro i s a b h1 h2
    have hlt : i < r.stops.length := by rw [← mkRoute_length d N r]; exact (List.getElem?_eq_some_iff.mp h1).1
    unfold lookup at h2
    split at h2
    · rename_i hc
      simp only [Bool.and_eq_true, Bool.not_eq_true', decide_eq_false_iff_not] at hc
      rw [mkRoute_length] at hc
      rw [Option.map_eq_some_iff] at h2
      obtain ⟨a', e1, e2⟩ := h2
      cases e2
      exact packable_of hf hLo hHi hr (by omega) (hrk _) ht e1
    · cases h2
  plain := hs

/-! ## C89 -/

/-- C89: whatever the schedule of the threads, every label written by the search on the GPU is realised by riding at most as many
vehicles as its round says, from one of the start events. -/
theorem C89_labels (d : Dir) (N : Net) (hN : NetOk N) (n : Nat) (qs : List Start)
    (hq : ∀ x ∈ allStarts qs, d.lo < x.2 ∧ x.2 ≤ d.hi) (S : GState) (hr : GpuRun d N n qs S) (k : Nat) (l : Loc)
    (hl : (S.mem.val (.round k l)).t ≠ d.hi) :
    ∃ j, j ≤ k ∧ (1 ≤ k → 1 ≤ j) ∧ Reach d N (allStarts qs) j l (S.mem.val (.round k l)).t := by
  have h := runAll_sound (sane_of_ok d hN) hr hq k l
  have hle : (S.mem.val (.round k l)).t ≤ d.hi := h.1
  obtain ⟨j, ⟨h1, h2⟩, h3⟩ := h.2 (show (S.mem.val (.round k l)).t < d.hi by omega)
  exact ⟨j, h1, h2, ready_reach hN h3⟩

theorem mem_gpuReported (d : Dir) (N : Net) (n : Nat) (S : GState) (l : Loc) (k : Nat) (A : Int) :
    (l, k, A) ∈ gpuReported d N n S ↔ l < N.nLoc ∧ N.isDest l = true ∧ 1 ≤ k ∧ k ≤ n ∧ A = (S.mem.val (.round k l)).t ∧ A ≠ d.hi := by
  unfold gpuReported results marked
  simp only [List.mem_flatMap, List.mem_filter, List.mem_range, List.mem_map, List.mem_range'_1, Prod.mk.injEq, decide_eq_true_eq]
  constructor
  · rintro ⟨l', ⟨h1, h2⟩, k', ⟨h3, h4⟩, rfl, rfl, rfl⟩
    exact ⟨h1, h2, by omega, by omega, rfl, h4⟩
  · rintro ⟨h1, h2, h3, h4, h5, h6⟩
    refine ⟨l, ⟨h1, h2⟩, k, ⟨⟨by omega, by omega⟩, ?_⟩, rfl, rfl, h5.symm⟩
    rw [← h5]; exact h6

/-- C89: behind every arrival reported by the GPU there is a journey from a start event with at most as many rides that
arrives no later. -/
theorem C89_reported (d : Dir) (N : Net) (hN : NetOk N) (n : Nat) (qs : List Start)
    (hq : ∀ x ∈ allStarts qs, d.lo < x.2 ∧ x.2 ≤ d.hi) (S : GState) (hr : GpuRun d N n qs S) (l : Loc) (k : Nat) (A : Int)
    (hrep : (l, k, A) ∈ gpuReported d N n S) :
    N.isDest l = true ∧ 1 ≤ k ∧ k ≤ n ∧
    ∃ x ∈ allStarts qs, ∃ j A', 1 ≤ j ∧ j ≤ k ∧ A' ≤ A ∧ Journey d N j x.1 x.2 A' := by
  obtain ⟨_, h2, h3, h4, h5, h6⟩ := (mem_gpuReported _ _ _ _ _ _ _).mp hrep
  refine ⟨h2, h3, h4, ?_⟩
  have h := runAll_sound (sane_of_ok d hN) hr hq k l
  have hle : (S.mem.val (.round k l)).t ≤ d.hi := h.1
  obtain ⟨j, ⟨g1, g2⟩, g3⟩ := h.2 (show (S.mem.val (.round k l)).t < d.hi by omega)
  obtain ⟨x, hx, hc⟩ := ready_cont g3 (Cont.here (D := DestOf N) h2)
  rw [Nat.add_zero] at hc
  rcases cont_journey hN hc with ⟨e, _⟩ | ⟨n', A', e1, e2, e3, e4⟩
  · have := g2 h3; omega
  · exact ⟨x, hx, n', A', e1, by omega, by rw [h5]; exact e3, e4⟩

/-! ## C90 -/

theorem gpu_found_reported {d : Dir} {N : Net} (hN : NetOk N) {n : Nat} {qs : List Start} (h : RangeQuery d N qs) {S : GState} (hr : GpuRun d N n qs S)
    {K : Nat} {A : Int} (hK : K ≤ n) (hA : A < d.hi) (hf : Found (DestOf N) S.mem.st K A) :
    ∃ l k A', (l, k, A') ∈ gpuReported d N n S ∧ k ≤ K ∧ A' ≤ A := by
  obtain ⟨k, hk, l, hl, hrr⟩ := hf
  have hs := runAll_sound (sane_of_ok d hN) hr (range_starts h) k l
  have hrr' : (S.mem.val (.round k l)).t ≤ A := hrr
  have hne : (S.mem.val (.round k l)).t < d.hi := by omega
  refine ⟨l, k, _, (mem_gpuReported _ _ _ _ _ _ _).mpr ⟨hN.destLocs l hl, hl, ?_, by omega, rfl, ?_⟩, hk, hrr'⟩
  · apply Classical.byContradiction
    intro h0
    have hk0 : k = 0 := by omega
    subst hk0
    obtain ⟨j, ⟨g1, -⟩, g3⟩ := hs.2 hne
    have hj : j = 0 := by omega
    subst hj
    cases g3 with
    | start hx =>
      obtain ⟨q, hq, hx⟩ := List.mem_flatMap.mp hx
      have := ((h.each q hq).2.2.2 _ hx).2.2
      unfold DestOf at hl
      rw [hl] at this; cases this
  · omega

/-- The keys fit for every start time of the query. -/
def QueryFits (d : Dir) (N : Net) (qs : List Start) : Prop :=
  ∃ Lo Hi, d.lo < Lo ∧ Hi < d.hi ∧ EtFits d N Lo Hi ∧ ∀ q ∈ qs, Lo ≤ q.time ∧ q.worst ≤ Hi

/-- C90: whatever the schedule of the threads, no journey from a start event, with at most `n` rides, that arrives within the
horizon of its start time, is better than everything the GPU reports. -/
theorem C90_optimal (d : Dir) (N : Net) (hN : NetOk N) (hF : NetFifo N) (n : Nat) (hn : n ≤ 15) (qs : List Start) (hq : RangeQuery d N qs)
    (hfit : QueryFits d N qs) (S : GState) (hr : GpuRun d N n qs S) (q : Start) (hqm : q ∈ qs) (x : Loc × Int) (hx : x ∈ q.starts)
    (j : Nat) (A : Int) (hj : Journey d N j x.1 x.2 A) (hjn : j ≤ n) (hA : A ≤ q.horizon) :
    ∃ l k A', (l, k, A') ∈ gpuReported d N n S ∧ k ≤ j ∧ A' ≤ A := by
  obtain ⟨Lo, Hi, hLo, hHi, hef, hwd⟩ := hfit
  obtain ⟨j', A', h1, h2, h3, h4⟩ := journey_cont hN hj
  have hw := (hq.each q hqm).2.2.1
  have hwi : q.within 7200 = q.horizon := rfl
  have hho : q.horizon ≤ q.worst := by unfold Start.horizon; omega
  have hrange : RangeOk (mkProblem d N) 7200 qs := ⟨hq.desc, fun q hq' => by
    obtain ⟨g1, g2, g3, g5⟩ := hq.each q hq'
    exact ⟨g1, g2, g3, by omega, fun x hx => ⟨(g5 x hx).1, (g5 x hx).2.1⟩⟩⟩
  have := runAll_opt (tame_of_ok d hN hF) (keyOk_of hF hef hLo hHi) rfl (fun _ h => h) (N := n) (by unfold nTad; omega) hrange hwd hr q hqm x hx j' A' h4
    (by omega) (by omega)
  obtain ⟨l, k, A'', g1, g2, g3⟩ := gpu_found_reported hN hq hr (by omega) (by omega) this
  exact ⟨l, k, A'', g1, by omega, by omega⟩

/-- Something is reported by the GPU with at most `j` rides that arrives by `A`. -/
def GpuOffered (d : Dir) (N : Net) (n : Nat) (S : GState) (j : Nat) (A : Int) : Prop :=
  ∃ l k A', (l, k, A') ∈ gpuReported d N n S ∧ k ≤ j ∧ A' ≤ A

/-- C90: within the horizon of all start times every execution on the GPU offers exactly what is possible, for every
number of rides and every arrival time. -/
theorem C90_exact (d : Dir) (N : Net) (hN : NetOk N) (hF : NetFifo N) (n : Nat) (hn : n ≤ 15) (qs : List Start) (hq : RangeQuery d N qs)
    (hfit : QueryFits d N qs) (S : GState) (hr : GpuRun d N n qs S) (j : Nat) (hj : j ≤ n) (A : Int) (hA : ∀ q ∈ qs, A ≤ q.horizon) :
    GpuOffered d N n S j A ↔ Possible d N qs j A := by
  constructor
  · rintro ⟨l, k, A', h1, h2, h3⟩
    obtain ⟨-, -, -, x, hx, j', A'', g1, g2, g3, g4⟩ := C89_reported d N hN n qs (range_starts hq) S hr l k A' h1
    obtain ⟨q, hqm, hx⟩ := List.mem_flatMap.mp hx
    exact ⟨q, hqm, x, hx, j', A'', by omega, by omega, g4⟩
  · rintro ⟨q, hqm, x, hx, j', A', h1, h2, h3⟩
    obtain ⟨l, k, A'', g1, g2, g3⟩ := C90_optimal d N hN hF n hn qs hq hfit S hr q hqm x hx j' A' h3 (by omega) (by have := hA q hqm; omega)
    exact ⟨l, k, A'', g1, by omega, by omega⟩

/-! ## C91 -/

/-- C91: two executions with different schedules offer the same. -/
theorem C91_deterministic (d : Dir) (N : Net) (hN : NetOk N) (hF : NetFifo N) (n : Nat) (hn : n ≤ 15) (qs : List Start) (hq : RangeQuery d N qs)
    (hfit : QueryFits d N qs) (S S' : GState) (hr : GpuRun d N n qs S) (hr' : GpuRun d N n qs S') (j : Nat) (hj : j ≤ n) (A : Int)
    (hA : ∀ q ∈ qs, A ≤ q.horizon) : GpuOffered d N n S j A ↔ GpuOffered d N n S' j A := by
  rw [C90_exact d N hN hF n hn qs hq hfit S hr j hj A hA, C90_exact d N hN hF n hn qs hq hfit S' hr' j hj A hA]

/-- C91: the GPU offers what the CPU offers (which also uses lower bounds: they have to be admissible). -/
theorem C91_cpu (d : Dir) (N : Net) (hN : NetOk N) (hF : NetFifo N) (n : Nat) (hn : n ≤ 15) (qs : List Start) (hq : RangeQuery d N qs)
    (hfit : QueryFits d N qs) (hlb : ∀ q ∈ qs, LbOk d N q.time q.horizon) (S : GState) (hr : GpuRun d N n qs S) (j : Nat) (hj : j ≤ n) (A : Int)
    (hA : ∀ q ∈ qs, A ≤ q.horizon) : GpuOffered d N n S j A ↔ Offered d N n qs j A := by
  rw [C90_exact d N hN hF n hn qs hq hfit S hr j hj A hA, C20_exact d N hN hF n qs hq hlb j hj A hA]

theorem round_exists (P : Problem) (C : Codec) (n k : Nat) (S : GState) : ∃ S', Round P C n k S S' := by
  cases hd : S.done with
  | true => exact ⟨S, .finished hd⟩
  | false =>
    obtain ⟨m1, h1⟩ := kernel_exists ((List.range P.nLoc).map (reuse P n k S.mem)) S.mem
    cases ha : anyTouched P m1.mark with
    | false => exact ⟨_, .noRoute hd h1 ha⟩
    | true =>
      obtain ⟨m3, h3⟩ := kernel_exists ((arrivals P C k m1.mark (noMarks m1)).map arrive) (noMarks m1)
      by_cases hm : ∃ l, m3.mark l = true
      · obtain ⟨m5, h5⟩ := kernel_exists (walks P n k m3.mark (noMarks m3)) (noMarks m3)
        exact ⟨_, .full hd h1 ha h3 hm h5⟩
      · refine ⟨_, .noArrival hd h1 ha h3 (fun l => ?_)⟩
        cases h : m3.mark l with
        | false => rfl
        | true => exact absurd ⟨l, h⟩ hm

theorem rounds_exists (P : Problem) (C : Codec) (n : Nat) (S : GState) (j : Nat) : ∃ S', Rounds P C n S j S' := by
  induction j with
  | zero => exact ⟨S, .zero⟩
  | succ j ih =>
    obtain ⟨S1, h1⟩ := ih
    obtain ⟨S2, h2⟩ := round_exists P C n (j + 1) S1
    exact ⟨S2, .succ h1 h2⟩

theorem runFrom_exists (P : Problem) (C : Codec) (n : Nat) (qs : List Start) : ∀ S, ∃ S', RunFrom P C n S qs S' := by
  induction qs with
  | nil => intro S; exact ⟨S, .nil⟩
  | cons q qs ih =>
    intro S
    obtain ⟨S1, h1⟩ : ∃ S1, RunOne P C n S q S1 := by
      by_cases hs : q.starts = []
      · exact ⟨_, .empty hs⟩
      · obtain ⟨m, hm⟩ := kernel_exists (q.starts.map (initStart C) ++ (List.range nTad).map (initTad q.worst)) (nextStart P C S).mem
        obtain ⟨S2, h2⟩ := rounds_exists P C n ⟨m, false⟩ n
        exact ⟨S2, .run hs hm h2⟩
    obtain ⟨S2, h2⟩ := ih S1
    exact ⟨S2, .cons h1 h2⟩

/-- C91: there is an execution for every query: the search does not get stuck. -/
theorem C91_exists (d : Dir) (N : Net) (n : Nat) (qs : List Start) : ∃ S, GpuRun d N n qs S := runFrom_exists _ _ _ _ _

/-! ## What depends on the schedule -/

/-- A thread running alone. -/
def Prog.run : Prog → Mem → Mem
  | .ret, m => m
  | .read a k, m => (k (m.val a).t).run m
  | .amin a w k, m => k.run (m.amin a w)
  | .mark l k, m => k.run (m.setMark l)

theorem exec_run {m0 : Mem} (p : Prog) : ∀ {ps : List Prog} {i : Nat} {m m' : Mem}, ps[i]? = some p → Later m0 m →
    Exec m0 (ps.set i .ret) (p.run m) m' → Exec m0 ps m m' := by
  induction p with
  | ret =>
    intro ps i m m' hi _ h
    have : ps.set i .ret = ps := by
      apply List.ext_getElem?
      intro j
      by_cases hij : i = j
      · subst hij; rw [get_set_self hi, hi]
      · rw [get_set_ne hij]
    rw [this] at h; exact h
  | read a k ih =>
    intro ps i m m' hi hl h
    exact .read i _ hi (Int.le_refl _) (hl.val a) (ih (m.val a).t (get_set_self hi) hl (by rwa [List.set_set]))
  | amin a w k ih =>
    intro ps i m m' hi hl h
    exact .amin i hi (ih (get_set_self hi) (hl.trans (later_amin _ _ _)) (by rwa [List.set_set]))
  | mark l k ih =>
    intro ps i m m' hi hl h
    exact .mark i hi (ih (get_set_self hi) (hl.trans (later_mark _ _)) (by rwa [List.set_set]))

theorem later_run (p : Prog) : ∀ m, Later m (p.run m) := by
  induction p with
  | ret => intro m; exact .refl _
  | read a k ih => intro m; exact ih _ m
  | amin a w k ih => intro m; exact (later_amin _ _ _).trans (ih _)
  | mark l k ih => intro m; exact (later_mark _ _).trans (ih _)

/-- The threads one after the other, in the given order. -/
def runOrder (ps : List Prog) (is : List Nat) (m : Mem) : Mem :=
  is.foldl (fun m i => match ps[i]? with | some p => p.run m | none => m) m

/-- Running the threads one after the other, in any order, is an execution. -/
theorem kernel_order (ps : List Prog) (is : List Nat) (h : ∀ i, i < ps.length → i ∈ is) (hn : is.Nodup) (m : Mem) : Kernel ps m (runOrder ps is m) := by
  suffices H : ∀ (is : List Nat) (qs : List Prog) (m1 : Mem), is.Nodup → Later m m1 → qs.length = ps.length →
      (∀ i, i ∈ is → qs[i]? = ps[i]?) → (∀ i p, qs[i]? = some p → i ∉ is → p = .ret) → Exec m qs m1 (runOrder ps is m1) by
    exact H is ps m hn (.refl _) rfl (fun _ _ => rfl) (fun i p hp hi => absurd (h i (List.getElem?_eq_some_iff.mp hp).1) hi)
  intro is
  induction is with
  | nil =>
    intro qs m1 _ _ _ _ h2
    refine .done fun p hp => ?_
    obtain ⟨i, hi⟩ := List.getElem?_of_mem hp
    exact h2 i p hi (by simp)
  | cons i is ih =>
    intro qs m1 hn hl hlen h1 h2
    rw [List.nodup_cons] at hn
    have hi := h1 i (by simp)
    cases hp : ps[i]? with
    | none =>
      have e : runOrder ps (i :: is) m1 = runOrder ps is m1 := by simp only [runOrder, List.foldl_cons, hp]
      rw [e]
      refine ih qs m1 hn.2 hl hlen (fun j hj => h1 j (by simp [hj])) (fun j p hjp hj => h2 j p hjp ?_)
      intro hc
      rw [List.mem_cons] at hc
      rcases hc with rfl | hc
      · rw [hi, hp] at hjp; cases hjp
      · exact hj hc
    | some p =>
      have e : runOrder ps (i :: is) m1 = runOrder ps is (p.run m1) := by simp only [runOrder, List.foldl_cons, hp]
      rw [e]
      rw [hp] at hi
      refine exec_run p hi hl (ih (qs.set i .ret) (p.run m1) hn.2 (hl.trans (later_run p m1)) (by simpa using hlen) ?_ ?_)
      · intro j hj
        have hne : i ≠ j := fun hc => hn.1 (hc ▸ hj)
        rw [get_set_ne hne]; exact h1 j (by simp [hj])
      · intro j p' hjp hj
        by_cases hne : i = j
        · subst hne; rw [get_set_self hi] at hjp; cases hjp; rfl
        · rw [get_set_ne hne] at hjp
          exact h2 j p' hjp (by simp [hj, Ne.symm hne])

/-- Two stops, 0 and 1, with a footpath of five minutes to stop 2 each. -/
def Race.problem : Problem where
  lo := -32768
  hi := 32767
  nLoc := 3
  routes := []
  rts := []
  transfer := fun _ => 2
  fps := fun l _ => if l = 2 then [] else [(2, 5)]
  intermodal := false
  endDist := fun _ => none
  endTd := fun _ _ => none
  endLoc := 9
  isDest := fun l => l == 2
  lb := fun _ => some 0

/-- Two vehicles (breadcrumbs 7 and 4) arrived at stops 0 and 1 at minute 10. -/
def Race.mem : Mem where
  val := fun a => match a with
    | .tmp 0 => ⟨10, 7⟩
    | .tmp 1 => ⟨10, 4⟩
    | _ => ⟨32767, kBcMask⟩
  mark := fun _ => false

def Race.pool : List Prog := walks Race.problem 8 1 (fun l => l == 0 || l == 1) Race.mem

/-- C91: which of two journeys with the same arrival and number of rides is kept depends on the schedule: `best_` is read before the
word with the breadcrumb is written. -/
theorem C91_legs_race : ∃ m m', Kernel Race.pool Race.mem m ∧ Kernel Race.pool Race.mem m' ∧
    m.val (.round 1 2) = ⟨15, 7⟩ ∧ m'.val (.round 1 2) = ⟨15, 4⟩ := by
  refine ⟨_, _, kernel_order Race.pool [0, 1, 2, 3] ?_ (by decide) Race.mem, kernel_order Race.pool [3, 2, 1, 0] ?_ (by decide) Race.mem, ?_, ?_⟩
  · rw [show Race.pool.length = 4 from rfl]; decide
  · rw [show Race.pool.length = 4 from rfl]; decide
  · decide +kernel
  · decide +kernel

/-! ## Examples -/

theorem Demo.fits : QueryFits .fwd Demo.net Demo.qs := by
  refine ⟨0, 32766, by decide, by decide, ⟨?_, ?_⟩, by decide⟩
  · apply Demo.all_routes <;> decide
  · apply Demo.all_routes <;> intro t i ht hi <;>
      simp only [Demo.lineA, Demo.lineB, Demo.lineC, Demo.lineD, RouteData.evBoard, firstMinute, List.length_cons, List.length_nil] at * <;> omega

/-- In every execution for the timetable of the demo the GPU offers the journey with two rides (and there is an execution). -/
example (S : GState) (h : GpuRun .fwd Demo.net 8 Demo.qs S) : GpuOffered .fwd Demo.net 8 S 2 650 :=
  (C90_exact .fwd Demo.net Demo.net_ok Demo.net_fifo 8 (by decide) Demo.qs Demo.range_query Demo.fits S h 2 (by decide) 650 (by decide)).mpr
    ⟨⟨600, [(0, 600)], 600 + 1440⟩, by simp [Demo.qs], (0, 600), by simp, 2, 650, by omega, by omega, Demo.journey⟩

example : ∃ S, GpuRun .fwd Demo.net 8 Demo.qs S := C91_exists _ _ _ _

/-- ... and nothing better with one ride. -/
example (S : GState) (h : GpuRun .fwd Demo.net 8 Demo.qs S) : ¬ GpuOffered .fwd Demo.net 8 S 1 655 := by
  rw [C91_cpu .fwd Demo.net Demo.net_ok Demo.net_fifo 8 (by decide) Demo.qs Demo.range_query Demo.fits (fun _ _ => Demo.lb_ok _ _) S h 1 (by decide) 655 (by decide)]
  rintro ⟨l, k, A', h1, h2, h3⟩
  rw [show reported .fwd Demo.net 8 Demo.qs = [(3, 1, 660), (3, 2, 650)] by decide +kernel] at h1
  simp only [List.mem_cons, List.not_mem_nil, or_false, Prod.mk.injEq] at h1
  omega

/-- The hypotheses of C88 for line A of the demo: both variants, with marked stop 0 reached at 10:00. -/
example (sections : Bool) : WarpOk (mkProblem .fwd Demo.net) Demo.net (mkRoute .fwd Demo.net Demo.lineA) (fun l => if l = 0 then 600 else 32767) 2000
    (fun l => l == 0) sections :=
  warpOk_of (Lo := 0) (Hi := 32766) (by
    refine ⟨?_, ?_⟩
    · apply Demo.all_routes <;> decide
    · apply Demo.all_routes <;> intro t i ht hi <;>
        simp only [Demo.lineA, Demo.lineB, Demo.lineC, Demo.lineD, RouteData.evBoard, firstMinute, List.length_cons, List.length_nil] at * <;> omega)
    (by decide) (by decide) (by simp [Demo.net]) (by decide) (by intro l; split <;> decide) (by decide) _ (by
      intro _ i s _ h
      have : s ∈ (mkRoute .fwd Demo.net Demo.lineA).stops := List.mem_of_getElem? h
      revert this
      revert s
      have : ∀ s ∈ (mkRoute .fwd Demo.net Demo.lineA).stops, s.secOk = true := by decide +kernel
      intro s _ hs; exact this s hs)

/-- The warp finds the trip of 10:02 for the stops 1 and 2. -/
example : warpArrivals (mkProblem .fwd Demo.net) .fwd Demo.net 1 0 (mkRoute .fwd Demo.net Demo.lineA) 2000 false
    (etResult (mkProblem .fwd Demo.net) .fwd Demo.net (mkRoute .fwd Demo.net Demo.lineA) (fun l => if l = 0 then 600 else 32767) 2000 (fun l => l == 0))
    (secKilled (mkRoute .fwd Demo.net Demo.lineA)) =
    [(1, ⟨610, makePayload 0 0 1⟩), (2, ⟨620, makePayload 0 0 2⟩)] := by decide +kernel

end Nigiri.Gpu
