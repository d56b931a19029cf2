import Verif.Proofs.SearchLoop
import Verif.Proofs.RaptorSound
/-!
# C25, C26: the search driver

The theorems hold for every routing algorithm, every timetable, every query, every set of start times that
belongs to the searched intervals and every clock.  `C25_starts` shows that the modelled `get_starts` meets the
assumption on the start times.
-/

namespace Nigiri.Search
open Nigiri.Raptor (Loc Dir Net)
open Nigiri.StartTimes (Ev StartTime ontripStart)

variable {σ : Type}

/-! ## Specification -/

/-- May the interval of this query change?  (Not for a fixed start time, without a wanted number of connections
or if no direction is allowed.) -/
def Extensible (q : Query) : Prop := (∃ iv, q.start = .interval iv) ∧ 0 < q.minConn ∧ (q.extEarlier = true ∨ q.extLater = true)

/-- The interval is within the timetable, within the maximum given by the query, at most 16 days long and ends at
most 2.5 days before or after the interval of the query. -/
structure WithinLimits (tt : Tt) (q : Query) (iv : Interval) : Prop where
  timetable : tt.ext.from' ≤ iv.from' ∧ iv.to' ≤ tt.ext.to'
  max : ∀ m, q.maxIv = some m → m.from' ≤ iv.from' ∧ iv.to' ≤ m.to'
  size : iv.to' - iv.from' ≤ 16 * 1440 + 2
  near : q.startIv.from' - 3600 ≤ iv.from' ∧ iv.to' ≤ q.startIv.to' + 3600

/-- The query asks for connections in the direction that is searched last only: earlier ones in a forward search,
later ones in a backward search. -/
def OneSided (d : Dir) (q : Query) : Prop := match d with
  | .fwd => q.extEarlier = true ∧ q.extLater = false
  | .bwd => q.extEarlier = false ∧ q.extLater = true

/-- Number of journeys that start in the interval. -/
def NumberIn (iv : Interval) (rs : List Jny) : Nat := rs.countP fun j => decide (iv.from' ≤ j.crit.start ∧ j.crit.start < iv.to')

/-- The interval cannot be extended further: every bound that may be changed is at one of the limits (the
timetable, the query's maximum, the limit of the size). -/
def Maximal (tt : Tt) (q : Query) (iv : Interval) : Prop :=
  (q.extEarlier = true → iv.from' = tt.ext.from' ∨ iv.from' = (dataTypeMax tt q).from' ∨ ∃ m, q.maxIv = some m ∧ iv.from' = m.from') ∧
  (q.extLater = true → iv.to' = tt.ext.to' ∨ iv.to' = (dataTypeMax tt q).to' ∨ ∃ m, q.maxIv = some m ∧ iv.to' = m.to')

/-- The query's interval is at most two weeks long and reaches into the limits. -/
structure Reachable (tt : Tt) (q : Query) : Prop where
  size : q.startIv.to' - q.startIv.from' ≤ 14 * 1440
  point : ∃ p, q.startIv.from' ≤ p ∧ p ≤ q.startIv.to' ∧ tt.ext.from' ≤ p ∧ p ≤ tt.ext.to' ∧ ∀ m, q.maxIv = some m → m.from' ≤ p ∧ p ≤ m.to'

/-! ## Proofs -/

theorem ext_iff (q : Query) : Ext q ↔ Extensible q := by
  unfold Ext Extensible Query.ontrip
  cases h : q.start <;> simp

theorem dataTypeMax_contains {tt : Tt} {q : Query} (h : q.startIv.to' - q.startIv.from' ≤ 14 * 1440) : Inside q.startIv (dataTypeMax tt q) := by
  unfold Inside dataTypeMax
  simp only
  have hms : maxIvSize = 21600 := rfl
  have g1 := tdiv_two (q.startIv.to' - q.startIv.from' - maxIvSize)
  have g2 := tdiv_two (q.startIv.to' - q.startIv.from' + maxIvSize)
  have n1 := roundDay_near tt.epochDay (q.startIv.from' + Int.tdiv (q.startIv.to' - q.startIv.from' - maxIvSize) 2)
  have n2 := roundDay_near tt.epochDay (q.startIv.from' + Int.tdiv (q.startIv.to' - q.startIv.from' + maxIvSize) 2)
  have gx : (1440 : Int) ≤ if q.hasDirect = true then 1440 else 2880 := by split <;> omega
  revert gx
  generalize (if q.hasDirect = true then (1440 : Int) else 2880) = x
  intro gx
  have n3 := roundDay_near tt.epochDay (q.startIv.from' - x)
  have n4 := roundDay_near tt.epochDay (q.startIv.to' + x)
  omega

theorem dataTypeMax_near (tt : Tt) (q : Query) : q.startIv.from' - 3600 ≤ (dataTypeMax tt q).from' ∧ (dataTypeMax tt q).to' ≤ q.startIv.to' + 3600 := by
  unfold dataTypeMax
  simp only
  have gx : (if q.hasDirect = true then (1440 : Int) else 2880) ≤ 2880 := by split <;> omega
  revert gx
  generalize (if q.hasDirect = true then (1440 : Int) else 2880) = x
  intro gx
  have n3 := roundDay_near tt.epochDay (q.startIv.from' - x)
  have n4 := roundDay_near tt.epochDay (q.startIv.to' + x)
  omega

/-- The states of a search that is not skipped. -/
theorem execute_spec {d : Dir} {E : Env σ} (hS : StartsOk d E) (hv : Valid E.tt E.q) (a : σ) {l u : Int} (hw : Window E l u) (hsz : u - l ≤ 23042) :
    ∃ iv0 s0 i, firstIv d E = some iv0 ∧ Inv d E l u iv0 s0 ∧ Reason E (searchInterval d E s0) i ∧
      ∀ n, 23042 < n → E.overlap = false → execute d E a n = some ⟨finish E (searchInterval d E s0), (searchInterval d E s0).iv, (searchInterval d E s0).results⟩ := by
  obtain ⟨iv0, s, h0, hs, hi, hiv⟩ := start_inv hS hv hw a
  obtain ⟨s0, i, hi0, hr, hl⟩ := loop_ends hS hw 23042 0 s hi (by
    intro hx
    have := hi.win hx
    unfold Interval.size
    omega)
  refine ⟨iv0, s0, i, h0, hi0, hr, ?_⟩
  intro n hn ho
  unfold execute
  rw [if_neg (by simp [ho]), hs]
  simp only [hl n hn]

theorem window_exists {E : Env σ} (hv : Valid E.tt E.q) : ∃ l u, Window E l u ∧ u - l ≤ 23042 ∧
    (∀ p, Inside ⟨p, p⟩ E.tt.ext → Inside ⟨p, p⟩ (dataTypeMax E.tt E.q) → (∀ m, E.q.maxIv = some m → Inside ⟨p, p⟩ m) → l ≤ p ∧ p ≤ u ∧
      Inside ⟨l, u⟩ E.tt.ext ∧ Inside ⟨l, u⟩ (dataTypeMax E.tt E.q) ∧ (∀ m, E.q.maxIv = some m → Inside ⟨l, u⟩ m)) := by
  obtain ⟨l, u, hlu, hsz, hc, hp⟩ := clampPoint_window hv
  have := dataTypeMax_size E.tt E.q
  exact ⟨l, u, ⟨hlu, hc⟩, by omega, hp⟩

/-- C25 (termination): for every routing algorithm, every clock and every history of results the search ends, after
at most 23043 searches of an interval, without undefined behaviour. -/
theorem C25_terminates (d : Dir) (E : Env σ) (a : σ) (hS : StartsOk d E) (hv : Valid E.tt E.q) :
    ∃ r, ∀ n, 23042 < n → execute d E a n = some r := by
  obtain ⟨l, u, hw, hsz, _⟩ := window_exists hv
  obtain ⟨iv0, s0, i, _, _, _, h⟩ := execute_spec hS hv a hw hsz
  cases ho : E.overlap
  · exact ⟨_, fun n hn => h n hn ho⟩
  · exact ⟨⟨[], E.q.startIv, []⟩, fun n _ => by simp [execute, ho]⟩

/-- The final interval lies in the window. -/
theorem final_iv {d : Dir} {E : Env σ} {l u : Int} {iv0 : Interval} {s : State σ} (h : Inv d E l u iv0 s) (hx : Ext E.q) :
    l ≤ (searchInterval d E s).iv.from' ∧ (searchInterval d E s).iv.to' ≤ u := by
  obtain ⟨_, _, h3⟩ := h.spec
  have hwin := h.win hx
  rcases h3 with h3 | ⟨_, ⟨e, he, hcut⟩, hmin, hn, hn'⟩
  · rw [h3]; omega
  · obtain ⟨r, hr, hr1⟩ := nInInterval_pos hx.1 (Nat.lt_of_lt_of_le hmin hn)
    have hedge := h.edgeS (by omega) hx.1 e he
    rw [hcut]
    cases d with
    | fwd =>
      have hedge : s.iv.from' ≤ e.timeAtStart := hedge
      show l ≤ e.timeAtStart ∧ s.iv.to' ≤ u
      omega
    | bwd =>
      have hedge : e.timeAtStart ≤ s.iv.to' - 1 := hedge
      show l ≤ s.iv.from' ∧ e.timeAtStart + 1 ≤ u
      omega

/-- C25 (limits): however often the interval is extended, the returned interval stays within the timetable, the
query's maximum interval and the size limit. -/
theorem C25_limits (d : Dir) (E : Env σ) (a : σ) (hS : StartsOk d E) (hv : Valid E.tt E.q) (ho : E.overlap = false) (hx : Extensible E.q)
    (hr : Reachable E.tt E.q) (n : Nat) (hn : 23042 < n) (r : Result) (h : execute d E a n = some r) : WithinLimits E.tt E.q r.iv := by
  obtain ⟨l, u, hw, hsz, hp⟩ := window_exists hv
  obtain ⟨iv0, s0, i, _, hi, _, hex⟩ := execute_spec hS hv a hw hsz
  rw [hex n hn ho] at h
  obtain rfl := Option.some.inj h
  have hf := final_iv hi ((ext_iff _).mpr hx)
  obtain ⟨p, h1, h2, h3, h4, h5⟩ := hr.point
  have hd := dataTypeMax_contains (tt := E.tt) hr.size
  have hnear := dataTypeMax_near E.tt E.q
  obtain ⟨g1, g2, g3, g4, g5⟩ := hp p ⟨h3, h4⟩ (by unfold Inside at *; simp only; omega) (fun m hm => h5 m hm)
  unfold Inside at g3 g4 g5 hd
  refine ⟨?_, ?_, ?_, ?_⟩
  · simp only at *; omega
  · intro m hm
    have := g5 m hm
    simp only at *; omega
  · simp only at *; omega
  · simp only at *; omega

/-- C25 (no extension): if the interval may not change, it does not. -/
theorem C25_fixed (d : Dir) (E : Env σ) (a : σ) (hS : StartsOk d E) (hv : Valid E.tt E.q) (hx : ¬ Extensible E.q) (hq : ∃ iv, E.q.start = .interval iv)
    (n : Nat) (hn : 23042 < n) (r : Result) (h : execute d E a n = some r) : E.q.start = .interval r.iv := by
  obtain ⟨iv, hq⟩ := hq
  have hst : E.q.startIv = iv := by simp [Query.startIv, hq]
  have hont : E.q.ontrip = false := by simp [Query.ontrip, hq]
  rw [hq]
  obtain ⟨l, u, hw, hsz, _⟩ := window_exists hv
  obtain ⟨iv0, s0, i, h0, hi, _, hex⟩ := execute_spec hS hv a hw hsz
  cases ho : E.overlap
  · rw [hex n hn ho] at h
    obtain rfl := Option.some.inj h
    have hfix := hi.fixed (fun h => hx ((ext_iff _).mp h))
    have hno : E.q.minConn = 0 ∨ (E.q.extEarlier = false ∧ E.q.extLater = false) := by
      apply Classical.byContradiction
      intro hc
      apply hx
      refine ⟨⟨iv, hq⟩, by omega, ?_⟩
      cases h1 : E.q.extEarlier
      · cases h2 : E.q.extLater
        · exact absurd (Or.inr ⟨h1, h2⟩) hc
        · exact Or.inr rfl
      · exact Or.inl rfl
    have hiv0 : iv0 = iv := by
      unfold firstIv initial at h0
      rw [if_neg (by simp [hont]), if_pos hno, hst] at h0
      exact (Option.some.inj h0).symm
    obtain ⟨_, _, h3⟩ := hi.spec
    rcases h3 with h3 | ⟨hse, _, hmin, _⟩
    · show StartTime.interval iv = .interval (searchInterval d E s0).iv
      rw [h3, hfix, hiv0]
    · exfalso
      rcases hno with hno | ⟨h1, h2⟩
      · omega
      · cases d <;> simp [stopsEarly, h1, h2] at hse
  · simp only [execute, ho, if_true] at h
    obtain rfl := Option.some.inj h
    rw [hst]

/-- C25 (growth): if the query's interval is inside of the limits, the returned interval contains it, unless the
query asks for connections in the direction that is searched last only (then the search may end early, with enough
connections; see `C25_early`). -/
theorem C25_contains (d : Dir) (E : Env σ) (a : σ) (hS : StartsOk d E) (hv : Valid E.tt E.q)
    (hr : WithinLimits E.tt E.q E.q.startIv) (h14 : E.q.startIv.to' - E.q.startIv.from' ≤ 14 * 1440) (hq : ∃ iv, E.q.start = .interval iv)
    (hse : ¬ OneSided d E.q)
    (n : Nat) (hn : 23042 < n) (r : Result) (h : execute d E a n = some r) :
    r.iv.from' ≤ E.q.startIv.from' ∧ E.q.startIv.to' ≤ r.iv.to' := by
  obtain ⟨iv, hq⟩ := hq
  have hont : E.q.ontrip = false := by simp [Query.ontrip, hq]
  obtain ⟨l, u, hw, hsz, hp⟩ := window_exists hv
  obtain ⟨iv0, s0, i, h0, hi, _, hex⟩ := execute_spec hS hv a hw hsz
  have hnse : stopsEarly d E.q = false := by
    cases d <;> simp only [stopsEarly, OneSided] at * <;> cases h1 : E.q.extEarlier <;> cases h2 : E.q.extLater <;> simp_all
  have hd := dataTypeMax_contains (tt := E.tt) h14
  have hok := hv.start
  have hsub : Inside E.q.startIv iv0 := by
    unfold firstIv initial at h0
    rw [if_neg (by simp [hont])] at h0
    split at h0
    · obtain rfl := Option.some.inj h0; exact ⟨Int.le_refl _, Int.le_refl _⟩
    · rw [clampIv_window hw.2] at h0
      obtain rfl := Option.some.inj h0
      have hg := initialRaw_grows d E.tt E.q E.q.startIv
      have ht := hr.timetable
      have hm := hr.max
      unfold Inside Ok at *
      have p1 := hp E.q.startIv.from' (by simp only; omega) (by simp only; omega) (fun m hm' => by have := hm m hm'; simp only; omega)
      have p2 := hp E.q.startIv.to' (by simp only; omega) (by simp only; omega) (fun m hm' => by have := hm m hm'; simp only; omega)
      simp only
      omega
  cases ho : E.overlap
  · rw [hex n hn ho] at h
    obtain rfl := Option.some.inj h
    obtain ⟨_, _, h3⟩ := hi.spec
    rcases h3 with h3 | ⟨hse', _⟩
    · have := hi.sub
      show (searchInterval d E s0).iv.from' ≤ _ ∧ _ ≤ (searchInterval d E s0).iv.to'
      rw [h3]
      unfold Inside at *
      omega
    · rw [hnse] at hse'; cases hse'
  · simp only [execute, ho, if_true] at h
    obtain rfl := Option.some.inj h
    exact ⟨Int.le_refl _, Int.le_refl _⟩

theorem nInInterval_eq {q : Query} (hq : q.ontrip = false) (iv : Interval) (rs : List Jny) : nInInterval q iv rs = NumberIn iv rs := by
  unfold nInInterval NumberIn
  rw [if_neg (by simp [hq]), ← List.countP_eq_length_filter]
  congr 1
  funext j
  simp [Interval.contains]

/-- C25 (enough connections): without a timeout the search ends only if no journey at all was found, if as many
journeys as wanted start in the returned interval, or if the interval (of at least two minutes) cannot be extended
further.  In particular a search that ends early has found enough journeys in the shortened interval. -/
theorem C25_enough (d : Dir) (E : Env σ) (a : σ) (hS : StartsOk d E) (hv : Valid E.tt E.q) (ho : E.overlap = false) (hx : Extensible E.q)
    (hr : Reachable E.tt E.q) (htime : ∀ i, E.timeout i = false) (n : Nat) (hn : 23042 < n) (r : Result) (h : execute d E a n = some r) :
    r.found = [] ∨ E.q.minConn ≤ NumberIn r.iv r.found ∨ r.iv.to' - r.iv.from' < 2 ∨ Maximal E.tt E.q r.iv := by
  have hont : E.q.ontrip = false := ((ext_iff _).mpr hx).1
  obtain ⟨l, u, hlu, hsz, hc, hp⟩ := clampPoint_window hv
  have hdsz := dataTypeMax_size E.tt E.q
  have hw : Window E l u := ⟨hlu, hc⟩
  obtain ⟨iv0, s0, i, _, hi, hre, hex⟩ := execute_spec hS hv a hw (by omega)
  rw [hex n hn ho] at h
  obtain rfl := Option.some.inj h
  simp only
  rcases hre with hre | ⟨hnf, hre⟩
  · simp only [finished, Bool.or_eq_true, decide_eq_true_eq, htime, hont, Bool.false_eq_true, or_false, List.isEmpty_iff] at hre
    rw [nInInterval_eq hont] at hre
    rcases hre with hre | hre
    · exact Or.inl hre
    · exact Or.inr (Or.inl hre)
  · refine Or.inr (Or.inr ?_)
    have hiv := hi.iv_of_unfinished hnf
    have hwin := hi.win ((ext_iff _).mpr hx)
    simp only [finished, Bool.or_eq_false_iff, decide_eq_false_iff_not] at hnf
    revert hre hnf
    rw [hiv]
    generalize nInInterval E.q s0.iv (searchInterval d E s0).results = c
    intro hre hnf
    by_cases h2 : s0.iv.to' - s0.iv.from' < 2
    · exact Or.inl h2
    · right
      obtain ⟨m, hm⟩ : ∃ m, E.q.minConn - c = m + 1 := ⟨E.q.minConn - c - 1, by omega⟩
      rw [hm] at hre
      unfold extension at hre
      rw [if_neg (by rcases hx.2.2 with h | h <;> simp [h]), clampIv_window hc] at hre
      have hre := Option.some.inj hre
      have hre1 : max l (min u (extensionRaw E.tt E.q s0.iv (m + 1)).from') = s0.iv.from' := congrArg Interval.from' hre
      have hre2 : max l (min u (extensionRaw E.tt E.q s0.iv (m + 1)).to') = s0.iv.to' := congrArg Interval.to' hre
      have hge : 2 ≤ s0.iv.size * ((m + 1 : Nat) : Int) := by
        have h1 : s0.iv.size * 1 ≤ s0.iv.size * ((m + 1 : Nat) : Int) := Int.mul_le_mul_of_nonneg_left (by omega) (by simp only [Interval.size]; omega)
        simp only [Interval.size] at *
        omega
      have hdiv : 1 ≤ Int.tdiv (s0.iv.size * ((m + 1 : Nat) : Int)) 2 := by
        rw [Int.tdiv_eq_ediv_of_nonneg (by omega)]; omega
      obtain ⟨p, h1, h2', h3, h4, h5⟩ := hr.point
      have hd := dataTypeMax_contains (tt := E.tt) hr.size
      obtain ⟨g1, g2, g3, g4, g5⟩ := hp p ⟨h3, h4⟩ (by unfold Inside at *; simp only; omega) (fun m hm => h5 m hm)
      -- the window is given by one of the limits on each side
      have hl : l = E.tt.ext.from' ∨ l = (dataTypeMax E.tt E.q).from' ∨ ∃ m, E.q.maxIv = some m ∧ l = m.from' := by
        have := hc l
        have hle := hc (l - 1)
        unfold clampPoint at hle
        have hdo := dataTypeMax_ok (tt := E.tt) hv.start
        rw [clamp_some hv.ext, Option.bind_some, clamp_some hdo, Option.bind_some] at hle
        unfold Inside at *
        cases hmx : E.q.maxIv with
        | none =>
          simp only [hmx] at hle
          have hle := Option.some.inj hle
          simp only [Ok] at *
          by_cases e1 : l = E.tt.ext.from'
          · exact Or.inl e1
          · exact Or.inr (Or.inl (by omega))
        | some mx =>
          simp only [hmx] at hle
          rw [clamp_some (hv.max mx hmx)] at hle
          have hle := Option.some.inj hle
          have := g5 mx hmx
          have hv3 := hv.max mx hmx
          have hve := hv.ext
          simp only [Ok] at *
          by_cases e1 : l = E.tt.ext.from'
          · exact Or.inl e1
          · by_cases e2 : l = mx.from'
            · exact Or.inr (Or.inr ⟨mx, rfl, e2⟩)
            · exact Or.inr (Or.inl (by omega))
      have hu : u = E.tt.ext.to' ∨ u = (dataTypeMax E.tt E.q).to' ∨ ∃ m, E.q.maxIv = some m ∧ u = m.to' := by
        have hle := hc (u + 1)
        unfold clampPoint at hle
        have hdo := dataTypeMax_ok (tt := E.tt) hv.start
        rw [clamp_some hv.ext, Option.bind_some, clamp_some hdo, Option.bind_some] at hle
        unfold Inside at *
        cases hmx : E.q.maxIv with
        | none =>
          simp only [hmx] at hle
          have hle := Option.some.inj hle
          have hve := hv.ext
          simp only [Ok] at *
          by_cases e1 : u = E.tt.ext.to'
          · exact Or.inl e1
          · exact Or.inr (Or.inl (by omega))
        | some mx =>
          simp only [hmx] at hle
          rw [clamp_some (hv.max mx hmx)] at hle
          have hle := Option.some.inj hle
          have := g5 mx hmx
          have hv3 := hv.max mx hmx
          have hve := hv.ext
          simp only [Ok] at *
          by_cases e1 : u = E.tt.ext.to'
          · exact Or.inl e1
          · by_cases e2 : u = mx.to'
            · exact Or.inr (Or.inr ⟨mx, rfl, e2⟩)
            · exact Or.inr (Or.inl (by omega))
      constructor
      · intro he
        have : s0.iv.from' = l := by
          clear hl hu
          have hraw : (extensionRaw E.tt E.q s0.iv (m + 1)).from' < s0.iv.from' := by
            unfold extensionRaw
            simp only
            split
            · simp only; omega
            · simp only; omega
          omega
        rw [this]; exact hl
      · intro he
        have : s0.iv.to' = u := by
          clear hl hu
          have hraw : s0.iv.to' < (extensionRaw E.tt E.q s0.iv (m + 1)).to' := by
            unfold extensionRaw
            simp only
            split
            · simp only; omega
            · simp only; omega
          omega
        rw [this]; exact hu

/-- C25: the start times computed by `get_starts` belong to the interval that is searched. -/
theorem C25_starts (d : Dir) (N : Net) (entries : List (Loc × Int)) (tds : List (Loc × List TdEntry)) (maxOff : Int) (E : Env σ)
    (hE : ∀ st b l, E.starts st b l = StartTimes.getStarts d N st entries tds maxOff b l) : StartsOk d E := by
  constructor
  · intro iv b l
    rw [hE]
    have key : ∀ (o : StartTimes.Off) (x : Loc) (st : List Ev), (∀ e ∈ st, e ∈ l ∨ iv.contains e.timeAtStart = true ∨ (b = true ∧ e.timeAtStart = ontripStart d iv)) →
        ∀ e ∈ StartTimes.addInInterval d N iv x o maxOff b st, e ∈ l ∨ iv.contains e.timeAtStart = true ∨ (b = true ∧ e.timeAtStart = ontripStart d iv) := by
      intro o x st hst
      unfold StartTimes.addInInterval
      simp only
      have h1 := Raptor.foldl_inv (fun st : List Ev => ∀ e ∈ st, e ∈ l ∨ iv.contains e.timeAtStart = true ∨ (b = true ∧ e.timeAtStart = ontripStart d iv))
        (fun st r => (List.range r.stops.length).foldl (StartTimes.addRouteStop d N.wheelchair iv x o maxOff r) st)
        (N.routes.filter fun r => r.stops.any fun s => s.loc == x) st hst (by
          intro st r _ hst
          refine Raptor.foldl_inv (fun st : List Ev => ∀ e ∈ st, e ∈ l ∨ iv.contains e.timeAtStart = true ∨ (b = true ∧ e.timeAtStart = ontripStart d iv)) _ _ _ hst ?_
          intro st i _ hst
          unfold StartTimes.addRouteStop
          split
          · split
            · unfold StartTimes.addAtStop
              refine Raptor.foldl_inv (fun st : List Ev => ∀ e ∈ st, e ∈ l ∨ iv.contains e.timeAtStart = true ∨ (b = true ∧ e.timeAtStart = ontripStart d iv)) _ _ _ hst ?_
              intro st t _ hst
              refine Raptor.foldl_inv (fun st : List Ev => ∀ e ∈ st, e ∈ l ∨ iv.contains e.timeAtStart = true ∨ (b = true ∧ e.timeAtStart = ontripStart d iv)) _ _ _ hst ?_
              intro st day _ hst
              unfold StartTimes.addDay
              simp only
              split
              · split
                · exact hst
                · split
                  · exact hst
                  · next hc =>
                    simp only [Bool.not_eq_true', Bool.not_eq_false] at hc
                    unfold StartTimes.pushStart
                    have hnew : ∀ ev : Ev, iv.contains ev.timeAtStart = true → ∀ e ∈ st ++ [ev], e ∈ l ∨ iv.contains e.timeAtStart = true ∨ (b = true ∧ e.timeAtStart = ontripStart d iv) := by
                      intro ev hev e he
                      rcases List.mem_append.mp he with he | he
                      · exact hst e he
                      · simp only [List.mem_cons, List.not_mem_nil, or_false] at he
                        subst he
                        exact Or.inr (Or.inl hev)
                    split
                    · split
                      · exact hst
                      · exact hnew _ hc
                    · exact hnew _ hc
              · exact hst
            · exact hst
          · exact hst)
      have h2 := Raptor.foldl_inv (fun st : List Ev => ∀ e ∈ st, e ∈ l ∨ iv.contains e.timeAtStart = true ∨ (b = true ∧ e.timeAtStart = ontripStart d iv))
        (fun st r => (List.range r.stops.length).foldl (StartTimes.addRtStop d N.wheelchair N.base iv x o r) st)
        (N.rts.filter fun r => r.stops.any fun s => s.loc == x) _ h1 (by
          intro st r _ hst
          refine Raptor.foldl_inv (fun st : List Ev => ∀ e ∈ st, e ∈ l ∨ iv.contains e.timeAtStart = true ∨ (b = true ∧ e.timeAtStart = ontripStart d iv)) _ _ _ hst ?_
          intro st i _ hst
          unfold StartTimes.addRtStop
          split
          · split
            · simp only
              split
              · next hc =>
                intro e he
                rcases List.mem_append.mp he with he | he
                · exact hst e he
                · simp only [List.mem_cons, List.not_mem_nil, or_false] at he
                  subst he
                  exact Or.inr (Or.inl hc)
              · exact hst
            · exact hst
          · exact hst)
      split
      · next hb =>
        unfold StartTimes.addOntrip
        simp only
        split
        · intro e he
          rcases List.mem_append.mp he with he | he
          · exact h2 e he
          · simp only [List.mem_cons, List.not_mem_nil, or_false] at he
            subst he
            exact Or.inr (Or.inr ⟨hb, rfl⟩)
        · exact h2
      · exact h2
    unfold StartTimes.getStarts
    refine Raptor.foldl_inv (fun st : List Ev => ∀ e ∈ st, e ∈ l ∨ iv.contains e.timeAtStart = true ∨ (b = true ∧ e.timeAtStart = ontripStart d iv)) _ _ _ ?_ (fun st o _ hst => key (.td o.2) o.1 st hst)
    refine Raptor.foldl_inv (fun st : List Ev => ∀ e ∈ st, e ∈ l ∨ iv.contains e.timeAtStart = true ∨ (b = true ∧ e.timeAtStart = ontripStart d iv)) _ _ _ (fun e he => Or.inl he) (fun st o _ hst => key (.const o.2) o.1 st hst)
  · intro t b l
    rw [hE]
    unfold StartTimes.getStarts
    refine Raptor.foldl_inv (fun st : List Ev => ∀ e ∈ st, e ∈ l ∨ e.timeAtStart = t) _ _ _ ?_ ?_
    · refine Raptor.foldl_inv (fun st : List Ev => ∀ e ∈ st, e ∈ l ∨ e.timeAtStart = t) _ _ _ (fun e he => Or.inl he) ?_
      intro st o _ hst e he
      simp only [StartTimes.addEntry] at he
      rcases List.mem_append.mp he with he | he
      · exact hst e he
      · simp only [List.mem_cons, List.not_mem_nil, or_false] at he
        subst he
        exact Or.inr rfl
    · intro st o _ hst e he
      simp only [StartTimes.addTdEntry] at he
      split at he
      · rcases List.mem_append.mp he with he | he
        · exact hst e he
        · simp only [List.mem_cons, List.not_mem_nil, or_false] at he
          subst he
          exact Or.inr rfl
      · exact hst e he

/-! ## The returned journeys -/

/-- `a` is returned before `b`: it starts earlier, or at the same time with at most as many transfers. -/
def Before (a b : Jny) : Prop := a.crit.start < b.crit.start ∨ (a.crit.start = b.crit.start ∧ a.crit.transfers ≤ b.crit.transfers)

theorem finish_mem {E : Env σ} {s : State σ} (hslow : ∀ iv, ∀ j ∈ E.slow iv, j.reconstructed = false) {j : Jny} :
    j ∈ finish E s ↔ j ∈ s.results ∧ j.reconstructed = true ∧
      (E.q.ontrip = false → s.iv.contains j.crit.start = true ∧ j.crit.travelTime < E.direct ∧ j.crit.travelTime ≤ E.q.maxTravel) := by
  unfold finish
  rw [List.mem_filter]
  by_cases ho : E.q.ontrip = true
  · simp only [if_pos ho]
    simp [ho]
  · simp only [if_neg ho]
    have ho' : E.q.ontrip = false := by simpa using ho
    simp only [mem_sortBy, List.mem_append, List.mem_filter, ho', true_implies, Bool.not_eq_true', Bool.or_eq_false_iff, decide_eq_false_iff_not,
      Bool.not_eq_false']
    constructor
    · rintro ⟨⟨h1, ⟨h2, h3⟩, h4⟩ | h1, hr⟩
      · exact ⟨h1, hr, h2, by omega, by omega⟩
      · rw [hslow _ j h1] at hr; cases hr
    · rintro ⟨h1, h2, h3, h4, h5⟩
      exact ⟨Or.inl ⟨h1, ⟨h3, by omega⟩, by omega⟩, h2⟩

/-- Assumptions about the journeys that are added without a search: they are not marked as reconstructed. -/
def SlowUnmarked (E : Env σ) : Prop := ∀ iv, ∀ j ∈ E.slow iv, j.reconstructed = false

theorem execute_mem {d : Dir} {E : Env σ} {a : σ} (hS : StartsOk d E) (hv : Valid E.tt E.q) (hslow : SlowUnmarked E) {n : Nat} (hn : 23042 < n) {r : Result}
    (h : execute d E a n = some r) {j : Jny} (hj : j ∈ r.journeys) : ∃ l u iv0 s0, Inv d E l u iv0 s0 ∧ r.iv = (searchInterval d E s0).iv ∧
      j ∈ (searchInterval d E s0).results ∧ j.reconstructed = true ∧
      (E.q.ontrip = false → r.iv.contains j.crit.start = true ∧ j.crit.travelTime < E.direct ∧ j.crit.travelTime ≤ E.q.maxTravel) := by
  obtain ⟨l, u, hw, hsz, hp⟩ := window_exists hv
  obtain ⟨iv0, s0, i, h0, hi, _, hex⟩ := execute_spec hS hv a hw hsz
  cases ho : E.overlap
  · rw [hex n hn ho] at h
    obtain rfl := Option.some.inj h
    have := (finish_mem hslow).mp hj
    exact ⟨l, u, iv0, s0, hi, rfl, this.1, this.2.1, this.2.2⟩
  · simp only [execute, ho, if_true] at h
    obtain rfl := Option.some.inj h
    simp at hj

/-- C26 (interval queries): every returned journey starts in the returned interval, is faster than the direct
connection, takes at most the maximum travel time and was reconstructed. -/
theorem C26_interval (d : Dir) (E : Env σ) (a : σ) (hS : StartsOk d E) (hv : Valid E.tt E.q) (hslow : SlowUnmarked E) (hq : ∃ iv, E.q.start = .interval iv)
    (n : Nat) (hn : 23042 < n) (r : Result) (h : execute d E a n = some r) (j : Jny) (hj : j ∈ r.journeys) :
    r.iv.from' ≤ j.crit.start ∧ j.crit.start < r.iv.to' ∧ j.crit.travelTime < E.direct ∧ j.crit.travelTime ≤ E.q.maxTravel ∧ j.reconstructed = true := by
  obtain ⟨iv, hq⟩ := hq
  have hont : E.q.ontrip = false := by simp [Query.ontrip, hq]
  obtain ⟨_, _, _, _, _, _, _, h1, h2⟩ := execute_mem hS hv hslow hn h hj
  obtain ⟨h3, h4, h5⟩ := h2 hont
  have h3 : r.iv.from' ≤ j.crit.start ∧ j.crit.start < r.iv.to' := by simpa [Interval.contains] using h3
  exact ⟨h3.1, h3.2, h4, h5, h1⟩

/-- C26 (fixed start time): every returned journey starts at the given time, is faster than the direct connection
and was reconstructed. -/
theorem C26_point (d : Dir) (E : Env σ) (a : σ) (hS : StartsOk d E) (hv : Valid E.tt E.q) (hslow : SlowUnmarked E) (t : Int) (hq : E.q.start = .point t)
    (n : Nat) (hn : 23042 < n) (r : Result) (h : execute d E a n = some r) (j : Jny) (hj : j ∈ r.journeys) :
    j.crit.start = t ∧ j.crit.travelTime < E.direct ∧ j.reconstructed = true := by
  have hont : E.q.ontrip = true := by simp [Query.ontrip, hq]
  obtain ⟨_, _, _, s0, hi, _, hm, h1, _⟩ := execute_mem hS hv hslow hn h hj
  obtain ⟨hres, hfrom, _⟩ := hi.spec
  obtain ⟨he, hst⟩ := hi.point hont
  refine ⟨?_, hres.fast j hm h1, h1⟩
  rcases hfrom j hm with ⟨e, h1, h2⟩ | ⟨r0, h1, _⟩
  · have := hst e h1
    rw [hq] at this
    injection this with this
    rw [← h2, this]
  · rw [he] at h1; simp at h1

/-- C26 (Pareto set): no returned journey dominates another one. -/
theorem C26_antichain (d : Dir) (E : Env σ) (a : σ) (hS : StartsOk d E) (hv : Valid E.tt E.q) (hslow : SlowUnmarked E)
    (n : Nat) (hn : 23042 < n) (r : Result) (h : execute d E a n = some r) :
    r.journeys.Pairwise fun j j' => j.crit.dominates j'.crit = false ∧ j'.crit.dominates j.crit = false := by
  obtain ⟨l, u, hw, hsz, hp⟩ := window_exists hv
  obtain ⟨iv0, s0, i, h0, hi, _, hex⟩ := execute_spec hS hv a hw hsz
  cases ho : E.overlap
  · rw [hex n hn ho] at h
    obtain rfl := Option.some.inj h
    obtain ⟨hres, _, _⟩ := hi.spec
    show (finish E (searchInterval d E s0)).Pairwise _
    have hanti : ∀ l : List Jny, ParetoSet.Antichain Jny.dom l → ∀ l' : List Jny, (l'.filter fun j => j.reconstructed).Perm (l.filter fun j => j.reconstructed) →
        (l'.filter fun j => j.reconstructed).Pairwise fun j j' => j.crit.dominates j'.crit = false ∧ j'.crit.dominates j.crit = false := by
      intro l hl l' hp
      have h1 : (l.filter fun j => j.reconstructed).Pairwise fun j j' => j.crit.dominates j'.crit = false ∧ j'.crit.dominates j.crit = false :=
        List.Pairwise.sublist List.filter_sublist hl
      exact (hp.pairwise_iff (R := fun j j' : Jny => j.crit.dominates j'.crit = false ∧ j'.crit.dominates j.crit = false) (fun h => ⟨h.2, h.1⟩)).mpr h1
    unfold finish
    by_cases hont : E.q.ontrip = true
    · simp only [if_pos hont]
      exact hanti _ hres.anti _ (List.Perm.refl _)
    · simp only [if_neg hont]
      refine hanti ((searchInterval d E s0).results.filter fun j => !(!(searchInterval d E s0).iv.contains j.crit.start || decide (E.direct ≤ j.crit.travelTime) || decide (E.q.maxTravel < j.crit.travelTime)))
        (List.Pairwise.sublist List.filter_sublist hres.anti) _ ?_
      refine ((sortBy_perm _ _).filter _).trans ?_
      rw [List.filter_append]
      have : (E.slow (searchInterval d E s0).iv).filter (fun j => j.reconstructed) = [] := by
        rw [List.filter_eq_nil_iff]
        intro j hj
        rw [hslow _ j hj]; simp
      rw [this, List.append_nil]
  · simp only [execute, ho, if_true] at h
    obtain rfl := Option.some.inj h
    exact List.Pairwise.nil

/-- C26 (order): the journeys of an interval query are returned by start time, then by the number of transfers. -/
theorem C26_sorted (d : Dir) (E : Env σ) (a : σ) (hS : StartsOk d E) (hv : Valid E.tt E.q) (hq : ∃ iv, E.q.start = .interval iv)
    (n : Nat) (hn : 23042 < n) (r : Result) (h : execute d E a n = some r) : r.journeys.Pairwise Before := by
  obtain ⟨iv, hq⟩ := hq
  have hont : ¬ E.q.ontrip = true := by simp [Query.ontrip, hq]
  obtain ⟨l, u, hw, hsz, hp⟩ := window_exists hv
  obtain ⟨iv0, s0, i, h0, hi, _, hex⟩ := execute_spec hS hv a hw hsz
  cases ho : E.overlap
  · rw [hex n hn ho] at h
    obtain rfl := Option.some.inj h
    show (finish E (searchInterval d E s0)).Pairwise _
    unfold finish
    simp only [if_neg hont]
    refine List.Pairwise.sublist List.filter_sublist ?_
    refine (pairwise_sortBy ?_ ?_ _).imp ?_
    · intro x y z h1 h2
      simp only [Bool.or_eq_true, Bool.and_eq_true, decide_eq_true_eq, beq_iff_eq] at *
      omega
    · intro x y
      simp only [Bool.or_eq_true, Bool.and_eq_true, decide_eq_true_eq, beq_iff_eq]
      omega
    · intro x y h
      simp only [Bool.or_eq_true, Bool.and_eq_true, decide_eq_true_eq, beq_iff_eq] at h
      exact h
  · simp only [execute, ho, if_true] at h
    obtain rfl := Option.some.inj h
    exact List.Pairwise.nil

/-- Finding: the direct journeys that are added when the query asks for slow direct connections
(`enrich_with_slow_direct`) are never returned, since they are not marked as reconstructed. -/
theorem C26_slow_direct_lost (d : Dir) (E : Env σ) (a : σ) (hS : StartsOk d E) (hv : Valid E.tt E.q) (hslow : SlowUnmarked E)
    (n : Nat) (hn : 23042 < n) (r : Result) (h : execute d E a n = some r) (j : Jny) (hj : j ∈ r.journeys) (iv : Interval) : j ∉ E.slow iv := by
  intro hm
  obtain ⟨_, _, _, _, _, _, _, h1, _⟩ := execute_mem hS hv hslow hn h hj
  rw [hslow iv j hm] at h1
  cases h1

/-! ## Examples and findings -/

namespace Demo

/-- A routing algorithm that offers one journey of half an hour to location 1 for every start. -/
def algo : Algo Nat where
  reset := fun _ => 0
  exec := fun n t _ _ => (n + 1, [(1, 0, t + 30)])
  reconstruct := fun _ _ => true

/-- Timetable of 100 days; a departure every hour at location 0. -/
def env (q : Query) (direct : Int) : Env Nat where
  tt := ⟨⟨0, 144000⟩, 0⟩
  q := q
  direct := direct
  starts := fun st b l => match st with
    | .interval iv => l ++ ((List.range 2400).map fun n : Nat => (⟨60 * n, 60 * n, 0⟩ : Ev)).filter (fun e => iv.contains e.timeAtStart) ++ (if b then [⟨iv.to', iv.to', 0⟩] else [])
    | .point t => l ++ [⟨t, t, 0⟩]
  overlap := false
  algo := algo
  timeout := fun _ => false
  slow := fun _ => []

def query : Query := ⟨.interval ⟨14400, 14460⟩, 5, true, true, none, false, 600⟩

theorem starts_ok (q : Query) (direct : Int) : StartsOk .fwd (env q direct) := by
  constructor
  · intro iv b l e he
    simp only [env, List.mem_append, List.mem_filter] at he
    rcases he with (he | ⟨_, he⟩) | he
    · exact Or.inl he
    · exact Or.inr (Or.inl he)
    · cases b
      · simp at he
      · simp only [if_true, List.mem_cons, List.not_mem_nil, or_false] at he
        subst he
        exact Or.inr (Or.inr ⟨rfl, rfl⟩)
  · intro t b l e he
    simp only [env, List.mem_append, List.mem_cons, List.not_mem_nil, or_false] at he
    rcases he with he | he
    · exact Or.inl he
    · subst he; exact Or.inr rfl

theorem valid : Valid (env query 1000).tt query := ⟨by unfold Ok; decide, by unfold Ok; decide, by intro m h; cases h⟩

/-- The hypotheses of the theorems are met, and the search really extends its interval, which then contains six
journeys. -/
example : Extensible query ∧ Reachable (env query 1000).tt query ∧ WithinLimits (env query 1000).tt query query.startIv ∧ ¬ OneSided .fwd query ∧
    SlowUnmarked (env query 1000) := by
  refine ⟨⟨⟨_, rfl⟩, by decide, Or.inl rfl⟩, ⟨by decide, 14400, by decide, by decide, by decide, by decide, by intro m h; cases h⟩,
    ⟨by decide, (by intro m h; cases h), by decide, by decide⟩, by simp [OneSided, query], by intro iv j h; cases h⟩

example : initial .fwd (env query 1000).tt query query.startIv = some ⟨14340, 14760⟩ := by decide +kernel

example : extension (env query 1000).tt query ⟨14340, 14760⟩ 2 = some ⟨13920, 15180⟩ := by decide +kernel

end Demo

/-- Finding: a query interval of almost 15 days is cut although it is inside of the timetable, since the
limits of the window are rounded to days. -/
theorem C25_cut_counterexample :
    let q : Query := ⟨.interval ⟨15300, 15300 + 21500⟩, 5, true, true, none, false, 600⟩
    ∃ iv, initial .fwd ⟨⟨0, 144000⟩, 0⟩ q q.startIv = some iv ∧ q.startIv.from' < iv.from' := by
  exact ⟨_, rfl, by decide +kernel⟩

/-- Finding: journeys that are as slow as the direct connection count for the number of wanted connections but are
not returned: no journey is returned although the interval could be extended. -/
theorem C25_count_counterexample :
    let q : Query := ⟨.interval ⟨14400, 14460⟩, 1, false, true, none, true, 600⟩
    ((execute .fwd (Demo.env q 30) 0 1).map fun r => (r.journeys, NumberIn r.iv r.found, r.iv.from', r.iv.to')) = some ([], 3, 14400, 14580) ∧
    ¬ Maximal (Demo.env q 30).tt q ⟨14400, 14580⟩ ∧
    (execute .fwd (Demo.env q 31) 0 1).map (fun r => r.journeys.length) = some 3 := by
  refine ⟨by decide +kernel, ?_, by decide +kernel⟩
  intro h
  rcases h.2 rfl with h | h | ⟨m, h, _⟩
  · cases h
  · revert h; decide +kernel
  · cases h

end Nigiri.Search
