import Verif.Model.RaptorConcrete
/-!
# Proofs about the boarding lookup
-/

namespace Nigiri.Raptor

theorem sgn_sq (d : Dir) : d.sgn * d.sgn = 1 := by cases d <;> rfl

theorem sgn_cases (d : Dir) : d.sgn = 1 ∨ d.sgn = -1 := by cases d <;> simp [Dir.sgn]

/-- Oriented minute of day of an event. -/
def um (d : Dir) (ev : Nat → Nat) (t : Nat) : Int := d.sgn * ((ev t % 1440 : Nat) : Int)

theorem um_diff (d : Dir) (ev : Nat → Nat) (t t' : Nat) : um d ev t - um d ev t' < 1440 := by
  unfold um
  have h1 : ((ev t % 1440 : Nat) : Int) < 1440 := by omega
  have h2 : ((ev t' % 1440 : Nat) : Int) < 1440 := by omega
  have h3 : (0 : Int) ≤ ((ev t % 1440 : Nat) : Int) := by omega
  have h4 : (0 : Int) ≤ ((ev t' % 1440 : Nat) : Int) := by omega
  rcases sgn_cases d with h | h <;> rw [h] <;> omega

/-- Oriented time of the event of `t` on the calendar day `day`. -/
def ot (d : Dir) (base : Int) (ev : Nat → Nat) (day : Int) (t : Nat) : Int :=
  d.sgn * ((day - base) * 1440 + ((ev t % 1440 : Nat) : Int))

theorem ot_eq (d : Dir) (base : Int) (ev : Nat → Nat) (day0 : Int) (i : Int) (t : Nat) :
    ot d base ev (day0 + d.sgn * i) t = d.sgn * ((day0 - base) * 1440) + 1440 * i + um d ev t := by
  unfold ot um
  rcases sgn_cases d with h | h <;> rw [h] <;> omega

/-- The start day of the trip whose event lies on `day`. -/
def sday (ev : Nat → Nat) (day : Int) (t : Nat) : Int := day - ((ev t / 1440 : Nat) : Int)

theorem scanDay_found {d : Dir} {base : Int} {ev : Nat → Nat} {active : Nat → Int → Bool} {first : Bool} {day mam lim : Int}
    {ts : List Nat} {R : Nat → Nat → Prop} (hp : ts.Pairwise R) {r : Run}
    (h : scanDay d base ev active first day mam lim ts = .found r) :
    r.1 ∈ ts ∧ r.2 = sday ev day r.1 ∧ active r.1 r.2 = true ∧ d.clamp (ot d base ev day r.1) ≤ lim ∧
    (first = true → d.sgn * mam ≤ um d ev r.1) ∧
    ∀ t ∈ ts, active t (sday ev day t) = true → (first = true → d.sgn * mam ≤ um d ev t) → t = r.1 ∨ R r.1 t := by
  induction ts with
  | nil => simp [scanDay] at h
  | cons t ts ih =>
    have hp' := List.pairwise_cons.mp hp
    simp only [scanDay] at h
    split at h
    · simp at h
    · rename_i hl
      split at h
      · rename_i hf
        obtain ⟨h1, h2, h3, h4, h5, h6⟩ := ih hp'.2 h
        refine ⟨List.mem_cons_of_mem _ h1, h2, h3, h4, h5, ?_⟩
        intro t' ht' ha hok
        rcases List.mem_cons.mp ht' with rfl | ht'
        · exact absurd (hok hf.1) hf.2
        · exact h6 t' ht' ha hok
      · rename_i hf
        split at h
        · rename_i ha
          simp at h; subst h
          refine ⟨List.mem_cons_self, rfl, ha, Classical.not_not.mp hl, ?_, ?_⟩
          · intro hfirst
            exact Classical.byContradiction fun hc => hf ⟨hfirst, hc⟩
          · intro t' ht' _ _
            rcases List.mem_cons.mp ht' with rfl | ht'
            · exact Or.inl rfl
            · exact Or.inr (hp'.1 t' ht')
        · rename_i ha
          obtain ⟨h1, h2, h3, h4, h5, h6⟩ := ih hp'.2 h
          refine ⟨List.mem_cons_of_mem _ h1, h2, h3, h4, h5, ?_⟩
          intro t' ht' ha' hok
          rcases List.mem_cons.mp ht' with rfl | ht'
          · exact absurd ha' ha
          · exact h6 t' ht' ha' hok

theorem scanDay_next {d : Dir} {base : Int} {ev : Nat → Nat} {active : Nat → Int → Bool} {first : Bool} {day mam lim : Int}
    {ts : List Nat} (h : scanDay d base ev active first day mam lim ts = .next) :
    ∀ t ∈ ts, active t (sday ev day t) = true → (first = true → d.sgn * mam ≤ um d ev t) → False := by
  induction ts with
  | nil => simp
  | cons t ts ih =>
    simp only [scanDay] at h
    split at h
    · simp at h
    · split at h
      · rename_i hf
        intro t' ht' ha hok
        rcases List.mem_cons.mp ht' with rfl | ht'
        · exact hf.2 (hok hf.1)
        · exact ih h t' ht' ha hok
      · split at h
        · simp at h
        · rename_i ha
          intro t' ht' ha' hok
          rcases List.mem_cons.mp ht' with rfl | ht'
          · exact ha ha'
          · exact ih h t' ht' ha' hok

theorem dclamp_mono (d : Dir) {x y : Int} (h : x ≤ y) : d.clamp x ≤ d.clamp y := by
  unfold Dir.clamp; omega

theorem scanDay_stop {d : Dir} {base : Int} {ev : Nat → Nat} {active : Nat → Int → Bool} {first : Bool} {day mam lim : Int}
    {ts : List Nat} (hp : ts.Pairwise fun a b => um d ev a ≤ um d ev b)
    (h : scanDay d base ev active first day mam lim ts = .stop) :
    (∃ t0 ∈ ts, ¬ d.clamp (ot d base ev day t0) ≤ lim) ∧
    ∀ t ∈ ts, active t (sday ev day t) = true → (first = true → d.sgn * mam ≤ um d ev t) → ¬ d.clamp (ot d base ev day t) ≤ lim := by
  induction ts with
  | nil => simp [scanDay] at h
  | cons t ts ih =>
    have hp' := List.pairwise_cons.mp hp
    simp only [scanDay] at h
    split at h
    · rename_i hl
      refine ⟨⟨t, List.mem_cons_self, hl⟩, ?_⟩
      intro t' ht' _ _
      rcases List.mem_cons.mp ht' with rfl | ht'
      · exact hl
      · have h1 : ot d base ev day t ≤ ot d base ev day t' := by
          have := hp'.1 t' ht'
          unfold ot; unfold um at this
          rcases sgn_cases d with h | h <;> rw [h] at this ⊢ <;> omega
        have := dclamp_mono d h1
        intro hc; apply hl; unfold ot at this hc; omega
    · split at h
      · rename_i hf
        obtain ⟨⟨t0, h0, h0'⟩, h1⟩ := ih hp'.2 h
        refine ⟨⟨t0, List.mem_cons_of_mem _ h0, h0'⟩, ?_⟩
        intro t' ht' ha hok
        rcases List.mem_cons.mp ht' with rfl | ht'
        · exact absurd (hok hf.1) hf.2
        · exact h1 t' ht' ha hok
      · split at h
        · simp at h
        · rename_i ha
          obtain ⟨⟨t0, h0, h0'⟩, h1⟩ := ih hp'.2 h
          refine ⟨⟨t0, List.mem_cons_of_mem _ h0, h0'⟩, ?_⟩
          intro t' ht' ha' hok
          rcases List.mem_cons.mp ht' with rfl | ht'
          · exact absurd ha' ha
          · exact h1 t' ht' ha' hok

theorem dayEvents_sub (d : Dir) (ev : Nat → Nat) (first : Bool) (mam : Int) (order : List Nat) :
    (dayEvents d ev first mam order).Sublist order := by
  unfold dayEvents; split
  · exact List.dropWhile_sublist _
  · exact List.Sublist.refl _

theorem mem_dropWhile_of {α : Type} {p : α → Bool} {l : List α} {x : α} (hx : x ∈ l) (h : p x = false) : x ∈ l.dropWhile p := by
  induction l with
  | nil => simp at hx
  | cons a l ih =>
    rw [List.dropWhile_cons]
    split
    · rename_i ha
      rcases List.mem_cons.mp hx with rfl | hx
      · rw [h] at ha; simp at ha
      · exact ih hx
    · exact hx

theorem dayEvents_mem {d : Dir} {ev : Nat → Nat} {first : Bool} {mam : Int} {order : List Nat} {t : Nat} (ht : t ∈ order)
    (hok : first = true → d.sgn * mam ≤ um d ev t) : t ∈ dayEvents d ev first mam order := by
  unfold dayEvents; split
  · rename_i hf
    apply mem_dropWhile_of ht
    have := hok hf
    unfold um at this
    simp only [decide_eq_false_iff_not]; omega
  · exact ht

/-- A usable event: transport `t` runs such that its event lies on the `i`-th day, and on the first day
not before the label. -/
def Cand (d : Dir) (ev : Nat → Nat) (active : Nat → Int → Bool) (day0 mam : Int) (order : List Nat) (i : Nat) (t : Nat) : Prop :=
  t ∈ order ∧ active t (sday ev (day0 + d.sgn * i) t) = true ∧ (i = 0 → d.sgn * mam ≤ um d ev t)

theorem scanDays_some {d : Dir} {base : Int} {ev : Nat → Nat} {active : Nat → Int → Bool} {routeAct : Int → Bool}
    {day0 mam lim : Int} {order : List Nat} {R : Nat → Nat → Prop} (hp : order.Pairwise R)
    (hra : ∀ i t, Cand d ev active day0 mam order i t → routeAct (day0 + d.sgn * i) = true)
    {is : List Nat} (hi : is.Pairwise (· < ·)) {r : Run}
    (h : scanDays d base ev active routeAct day0 mam lim order is = some r) :
    ∃ i ∈ is, Cand d ev active day0 mam order i r.1 ∧ r.2 = sday ev (day0 + d.sgn * i) r.1 ∧
      d.clamp (ot d base ev (day0 + d.sgn * i) r.1) ≤ lim ∧
      ∀ i' ∈ is, ∀ t', Cand d ev active day0 mam order i' t' → i < i' ∨ (i = i' ∧ (t' = r.1 ∨ R r.1 t')) := by
  induction is with
  | nil => simp [scanDays] at h
  | cons i is ih =>
    have hi' := List.pairwise_cons.mp hi
    simp only [scanDays] at h
    split at h
    · rename_i hna
      obtain ⟨j, h1, h2, h3, h4, h5⟩ := ih hi'.2 h
      refine ⟨j, List.mem_cons_of_mem _ h1, h2, h3, h4, ?_⟩
      intro i' hmem t' hc
      rcases List.mem_cons.mp hmem with rfl | hmem
      · have := hra _ _ hc; simp [this] at hna
      · exact h5 i' hmem t' hc
    · split at h
      · simp at h
      · rename_i r' hf
        simp at h; subst h
        have hsub := dayEvents_sub d ev (i == 0) mam order
        obtain ⟨h1, h2, h3, h4, h5, h6⟩ := scanDay_found (hp.sublist hsub) hf
        refine ⟨i, List.mem_cons_self, ⟨hsub.subset h1, by rw [← h2]; exact h3, fun h0 => h5 (by simp [h0])⟩, h2, h4, ?_⟩
        intro i' hmem t' hc
        rcases List.mem_cons.mp hmem with rfl | hmem
        · right; refine ⟨rfl, ?_⟩
          have hok : (i' == 0) = true → d.sgn * mam ≤ um d ev t' := fun h0 => hc.2.2 (by simpa using h0)
          exact h6 t' (dayEvents_mem hc.1 hok) hc.2.1 hok
        · left; exact hi'.1 i' hmem
      · rename_i hn
        obtain ⟨j, h1, h2, h3, h4, h5⟩ := ih hi'.2 h
        refine ⟨j, List.mem_cons_of_mem _ h1, h2, h3, h4, ?_⟩
        intro i' hmem t' hc
        rcases List.mem_cons.mp hmem with rfl | hmem
        · have hok : (i' == 0) = true → d.sgn * mam ≤ um d ev t' := fun h0 => hc.2.2 (by simpa using h0)
          exact (scanDay_next hn t' (dayEvents_mem hc.1 hok) hc.2.1 hok).elim
        · exact h5 i' hmem t' hc

theorem scanDays_none {d : Dir} {base : Int} {ev : Nat → Nat} {active : Nat → Int → Bool} {routeAct : Int → Bool}
    {day0 mam lim : Int} {order : List Nat} (hp : order.Pairwise fun a b => um d ev a ≤ um d ev b)
    (hra : ∀ i t, Cand d ev active day0 mam order i t → routeAct (day0 + d.sgn * i) = true)
    {is : List Nat} (hi : is.Pairwise (· < ·))
    (h : scanDays d base ev active routeAct day0 mam lim order is = none) :
    ∀ i ∈ is, ∀ t, Cand d ev active day0 mam order i t → ¬ d.clamp (ot d base ev (day0 + d.sgn * i) t) ≤ lim := by
  induction is with
  | nil => simp
  | cons i is ih =>
    have hi' := List.pairwise_cons.mp hi
    simp only [scanDays] at h
    intro i' hmem t' hc
    have hok : i' = i → (i == 0) = true → d.sgn * mam ≤ um d ev t' := fun he h0 => hc.2.2 (by simpa [he] using h0)
    split at h
    · rename_i hna
      rcases List.mem_cons.mp hmem with rfl | hmem
      · have := hra _ _ hc; simp [this] at hna
      · exact ih hi'.2 h i' hmem t' hc
    · split at h
      · rename_i hf
        obtain ⟨⟨t0, h0, h0'⟩, h1⟩ := scanDay_stop (hp.sublist (dayEvents_sub d ev (i == 0) mam order)) hf
        rcases List.mem_cons.mp hmem with rfl | hmem
        · exact h1 t' (dayEvents_mem hc.1 (hok rfl)) hc.2.1 (hok rfl)
        · have hlt := hi'.1 i' hmem
          have := um_diff d ev t0 t'
          have hle : ot d base ev (day0 + d.sgn * (i : Int)) t0 ≤ ot d base ev (day0 + d.sgn * (i' : Int)) t' := by
            rw [ot_eq, ot_eq]; omega
          have := dclamp_mono d hle
          omega
      · simp at h
      · rename_i hn
        rcases List.mem_cons.mp hmem with rfl | hmem
        · exact (scanDay_next hn t' (dayEvents_mem hc.1 (hok rfl)) hc.2.1 (hok rfl)).elim
        · exact ih hi'.2 h i' hmem t' hc

/-! ### the route's traffic days -/

theorem foldl_max_ge (f : Nat → Nat → Nat) (hf : ∀ m s, m ≤ f m s) (l : List Nat) (m : Nat) : m ≤ l.foldl f m := by
  induction l generalizing m with
  | nil => exact Nat.le_refl _
  | cons a l ih => exact Nat.le_trans (hf m a) (ih _)

theorem foldl_max_mem (f : Nat → Nat → Nat) (hf : ∀ m s, m ≤ f m s) (g : Nat → Nat) (l : List Nat) (m : Nat) {s : Nat} (hs : s ∈ l)
    (hg : ∀ m, g s ≤ f m s) : g s ≤ l.foldl f m := by
  induction l generalizing m with
  | nil => simp at hs
  | cons a l ih =>
    rcases List.mem_cons.mp hs with rfl | hs
    · exact Nat.le_trans (hg m) (foldl_max_ge f hf l _)
    · exact ih _ hs

theorem maxDayDelta_arr (r : RouteData) (t s : Nat) (h : s < r.stops.length) (h0 : s ≠ 0) : r.arr t s / 1440 ≤ maxDayDelta r t := by
  unfold maxDayDelta
  refine foldl_max_mem _ ?_ (fun s => r.arr t s / 1440) _ _ (by simpa using h) ?_
  · intro m s; simp only; split <;> split <;> omega
  · intro m; simp only; rw [if_pos h0]; split <;> omega

theorem maxDayDelta_dep (r : RouteData) (t s : Nat) (h : s < r.stops.length) (h0 : s + 1 ≠ r.stops.length) : r.dep t s / 1440 ≤ maxDayDelta r t := by
  unfold maxDayDelta
  refine foldl_max_mem _ ?_ (fun s => r.dep t s / 1440) _ _ (by simpa using h) ?_
  · intro m s; simp only; split <;> split <;> omega
  · intro m; simp only; rw [if_pos h0]; omega

theorem evBoard_le (d : Dir) (r : RouteData) (t i : Nat) (h : i + 1 < r.stops.length) : r.evBoard d t i / 1440 ≤ maxDayDelta r t := by
  unfold RouteData.evBoard
  cases d
  · exact maxDayDelta_dep r t i (by omega) (by omega)
  · exact maxDayDelta_arr r t _ (by omega) (by omega)

theorem routeActive_of (d : Dir) (r : RouteData) (t i : Nat) (day : Int) (ht : t < r.nTr) (h : i + 1 < r.stops.length)
    (ha : r.days t (day - ((r.evBoard d t i / 1440 : Nat) : Int)) = true) : routeActive r day = true := by
  unfold routeActive
  rw [List.any_eq_true]
  refine ⟨t, by simpa using ht, ?_⟩
  rw [List.any_eq_true]
  exact ⟨r.evBoard d t i / 1440, by have := evBoard_le d r t i h; simp; omega, ha⟩

theorem mem_trOrder (d : Dir) (n t : Nat) : t ∈ trOrder d n ↔ t < n := by
  unfold trOrder; cases d <;> simp

theorem trOrder_pairwise (d : Dir) (n : Nat) : (trOrder d n).Pairwise d.before := by
  unfold trOrder Dir.before
  cases d
  · exact List.pairwise_lt_range
  · simp only
    rw [List.pairwise_reverse]
    exact List.pairwise_lt_range

/-- Calendar day of an event of a trip that starts on `D`. -/
def eday (D : Int) (ev : Nat) : Int := D + ((ev / 1440 : Nat) : Int)

theorem evTime_ot (d : Dir) (base D : Int) (ev : Nat → Nat) (t : Nat) :
    evTime d base D (ev t) = ot d base ev (eday D (ev t)) t := by
  unfold evTime ot eday
  have : ((ev t : Nat) : Int) = ((ev t / 1440 : Nat) : Int) * 1440 + ((ev t % 1440 : Nat) : Int) := by omega
  congr 1; omega

theorem evTime_split (d : Dir) (base D p : Int) (ev : Nat → Nat) (t : Nat) (j : Int)
    (hj : j = d.sgn * (eday D (ev t) - (base * 1440 + d.sgn * p) / 1440)) :
    evTime d base D (ev t) - p = 1440 * j + (um d ev t - d.sgn * ((base * 1440 + d.sgn * p) % 1440)) ∧
    eday D (ev t) = (base * 1440 + d.sgn * p) / 1440 + d.sgn * j := by
  have hT := Int.mul_ediv_add_emod (base * 1440 + d.sgn * p) 1440
  generalize (base * 1440 + d.sgn * p) / 1440 = q at *
  generalize (base * 1440 + d.sgn * p) % 1440 = m at *
  rw [evTime_ot]
  unfold ot um
  generalize eday D (ev t) = e at *
  generalize ((ev t % 1440 : Nat) : Int) = u at *
  rcases sgn_cases d with h | h <;> rw [h] at hj hT ⊢ <;> constructor <;> omega

theorem um_mam_diff (d : Dir) (ev : Nat → Nat) (t : Nat) (T : Int) :
    um d ev t - d.sgn * (T % 1440) < 1440 ∧ -1440 < um d ev t - d.sgn * (T % 1440) := by
  unfold um
  have h1 : ((ev t % 1440 : Nat) : Int) < 1440 := by omega
  have h3 : (0 : Int) ≤ ((ev t % 1440 : Nat) : Int) := by omega
  have h4 := Int.emod_nonneg T (by decide : (1440 : Int) ≠ 0)
  have h5 := Int.emod_lt_of_pos T (by decide : (0 : Int) < 1440)
  rcases sgn_cases d with h | h <;> rw [h] <;> omega

/-- A running trip whose event is not before `p` is a candidate of the lookup. -/
theorem cand_of {d : Dir} {base p : Int} {r : RouteData} {i t : Nat} {D : Int} (ht : t < r.nTr) (ha : r.days t D = true)
    (hp : p ≤ evTime d base D (r.evBoard d t i)) :
    ∃ j : Nat, eday D (r.evBoard d t i) = (base * 1440 + d.sgn * p) / 1440 + d.sgn * (j : Int) ∧
      Cand d (fun t => r.evBoard d t i) r.days ((base * 1440 + d.sgn * p) / 1440) ((base * 1440 + d.sgn * p) % 1440) (trOrder d r.nTr) j t ∧
      (evTime d base D (r.evBoard d t i) ≤ p + 7200 → j < nDays) := by
  obtain ⟨h1, h2⟩ := evTime_split d base D p (fun t => r.evBoard d t i) t _ rfl
  have h3 := um_mam_diff d (fun t => r.evBoard d t i) t (base * 1440 + d.sgn * p)
  generalize hj : d.sgn * (eday D (r.evBoard d t i) - (base * 1440 + d.sgn * p) / 1440) = j at *
  have hj0 : 0 ≤ j := by omega
  obtain ⟨n, rfl⟩ := Int.eq_ofNat_of_zero_le hj0
  refine ⟨n, h2, ⟨(mem_trOrder d _ _).mpr ht, ?_, ?_⟩, ?_⟩
  · unfold sday; rw [← h2]; unfold eday; simpa using ha
  · intro h0; subst h0; omega
  · intro hw; unfold nDays; omega

theorem range_pairwise (n : Nat) : (List.range n).Pairwise (· < ·) := List.pairwise_lt_range

theorem cand_routeActive {d : Dir} {r : RouteData} {i : Nat} (hi : i + 1 < r.stops.length) {day0 mam : Int} (j t : Nat)
    (h : Cand d (fun t => r.evBoard d t i) r.days day0 mam (trOrder d r.nTr) j t) :
    routeActive r (day0 + d.sgn * (j : Int)) = true :=
  routeActive_of d r t i _ ((mem_trOrder d _ _).mp h.1) hi h.2.1

/-- Without any assumption on the route the returned trip runs and is not missed. -/
theorem getEarliest_sound {d : Dir} {base : Int} {r : RouteData} {i : Nat} {p lim : Int} {tr : Run}
    (h : getEarliest d base r i p lim = some tr) :
    tr.1 < r.nTr ∧ r.days tr.1 tr.2 = true ∧ p ≤ evTime d base tr.2 (r.evBoard d tr.1 i) ∧
    d.clamp (evTime d base tr.2 (r.evBoard d tr.1 i)) ≤ lim ∧ evTime d base tr.2 (r.evBoard d tr.1 i) < p + 8640 := by
  unfold getEarliest at h
  simp only at h
  -- soundness does not need the route activity, so it is proved by a direct induction
  have key : ∀ is : List Nat, (∀ i ∈ is, i < nDays) → scanDays d base (fun t => r.evBoard d t i) r.days (routeActive r)
      ((base * 1440 + d.sgn * p) / 1440) ((base * 1440 + d.sgn * p) % 1440) lim (trOrder d r.nTr) is = some tr →
      ∃ j, j < nDays ∧ Cand d (fun t => r.evBoard d t i) r.days ((base * 1440 + d.sgn * p) / 1440) ((base * 1440 + d.sgn * p) % 1440) (trOrder d r.nTr) j tr.1 ∧
        tr.2 = sday (fun t => r.evBoard d t i) ((base * 1440 + d.sgn * p) / 1440 + d.sgn * (j : Int)) tr.1 ∧
        d.clamp (ot d base (fun t => r.evBoard d t i) ((base * 1440 + d.sgn * p) / 1440 + d.sgn * (j : Int)) tr.1) ≤ lim := by
    intro is
    induction is with
    | nil => intro _ h; simp [scanDays] at h
    | cons i' is ih =>
      intro hb h
      simp only [scanDays] at h
      split at h
      · exact ih (fun i hi => hb i (by simp [hi])) h
      · split at h
        · simp at h
        · rename_i r' hf
          simp at h; subst h
          obtain ⟨h1, h2, h3, h4, h5, _⟩ := scanDay_found (R := fun _ _ => True) (List.pairwise_of_forall (fun _ _ => trivial)) hf
          exact ⟨i', hb i' (by simp), ⟨(dayEvents_sub d _ _ _ _).subset h1, by rw [← h2]; exact h3, fun h0 => h5 (by simp [h0])⟩, h2, h4⟩
        · exact ih (fun i hi => hb i (by simp [hi])) h
  obtain ⟨j, hjn, hc, h2, h4⟩ := key _ (by simp) h
  have htn := (mem_trOrder d _ _).mp hc.1
  have he : eday tr.2 (r.evBoard d tr.1 i) = (base * 1440 + d.sgn * p) / 1440 + d.sgn * (j : Int) := by
    rw [h2]; unfold eday sday; simp only; omega
  obtain ⟨h5, h6⟩ := evTime_split d base tr.2 p (fun t => r.evBoard d t i) tr.1 _ rfl
  have hj : d.sgn * (eday tr.2 (r.evBoard d tr.1 i) - (base * 1440 + d.sgn * p) / 1440) = (j : Int) := by
    rw [he]; rcases sgn_cases d with h | h <;> rw [h] <;> omega
  rw [hj] at h5
  have hu := um_mam_diff d (fun t => r.evBoard d t i) tr.1 (base * 1440 + d.sgn * p)
  have hnd : nDays = 6 := rfl
  refine ⟨htn, by rw [h2]; exact hc.2.1, ?_, ?_, ?_⟩
  · by_cases h0 : j = 0
    · have := hc.2.2 h0; omega
    · omega
  · rw [evTime_ot d base tr.2 (fun t => r.evBoard d t i) tr.1]
    rw [he]; exact h4
  · omega

/-- The returned trip comes first among all trips that can be caught: its event lies on an earlier day,
or on the same day and it comes earlier in the order of the route. -/
theorem getEarliest_first {d : Dir} {base : Int} {r : RouteData} {i : Nat} (hi : i + 1 < r.stops.length) {p lim : Int} {tr : Run}
    (h : getEarliest d base r i p lim = some tr) {t' : Nat} {D' : Int} (ht' : t' < r.nTr) (ha' : r.days t' D' = true)
    (hp' : p ≤ evTime d base D' (r.evBoard d t' i)) :
    d.sgn * eday tr.2 (r.evBoard d tr.1 i) < d.sgn * eday D' (r.evBoard d t' i) ∨
    (eday tr.2 (r.evBoard d tr.1 i) = eday D' (r.evBoard d t' i) ∧ (t' = tr.1 ∨ d.before tr.1 t')) := by
  unfold getEarliest at h
  simp only at h
  obtain ⟨j, hj, _, h2, _, h5⟩ := scanDays_some (trOrder_pairwise d r.nTr) (fun j t hc => cand_routeActive hi j t hc) (range_pairwise _) h
  obtain ⟨j', he', hc', _⟩ := cand_of ht' ha' hp'
  have he : eday tr.2 (r.evBoard d tr.1 i) = (base * 1440 + d.sgn * p) / 1440 + d.sgn * (j : Int) := by
    rw [h2]; unfold eday sday; simp only; omega
  rw [he, he']
  have hjl : j < nDays := by simpa using hj
  by_cases hj' : j' < nDays
  · rcases h5 j' (by simpa using hj') t' hc' with hlt | ⟨rfl, ho⟩
    · left; rcases sgn_cases d with h | h <;> rw [h] <;> omega
    · right; exact ⟨rfl, ho⟩
  · left; rcases sgn_cases d with h | h <;> rw [h] <;> omega

/-- A lookup fails only if no trip within 7200 minutes departs in time. -/
theorem getEarliest_complete {d : Dir} {base : Int} {r : RouteData} {i : Nat} (hi : i + 1 < r.stops.length)
    (hm : ∀ t t', t < t' → t' < r.nTr → r.evBoard d t i % 1440 ≤ r.evBoard d t' i % 1440) {p lim : Int}
    {t : Nat} {D : Int} (ht : t < r.nTr) (ha : r.days t D = true)
    (hp : p ≤ evTime d base D (r.evBoard d t i)) (hw : evTime d base D (r.evBoard d t i) ≤ p + 7200)
    (hl : d.clamp (evTime d base D (r.evBoard d t i)) ≤ lim) : (getEarliest d base r i p lim).isSome = true := by
  cases hg : getEarliest d base r i p lim with
  | some _ => rfl
  | none =>
    exfalso
    unfold getEarliest at hg
    simp only at hg
    have hpw : (trOrder d r.nTr).Pairwise fun a b => um d (fun t => r.evBoard d t i) a ≤ um d (fun t => r.evBoard d t i) b := by
      refine (List.Pairwise.and_mem.mp (trOrder_pairwise d r.nTr)).imp ?_
      rintro a b ⟨ha, hb, hab⟩
      rw [mem_trOrder] at ha hb
      unfold um
      cases d
      · have := hm a b hab hb; simp only [Dir.sgn]; omega
      · have := hm b a hab ha; simp only [Dir.sgn]; omega
    obtain ⟨j, he, hc, hj⟩ := cand_of ht ha hp
    have := scanDays_none hpw (fun j t hc => cand_routeActive hi j t hc) (range_pairwise _) hg j (by simpa using hj hw) t hc
    apply this
    rw [evTime_ot d base D (fun t => r.evBoard d t i) t] at hl
    rw [he] at hl
    exact hl

end Nigiri.Raptor
