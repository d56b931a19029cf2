import Verif.Spec.VdvMatch

/-! # Scores of the candidates -/

namespace Nigiri.Vdv

open Nigiri.Rt Spec

theorem eventAt_iff (v : VStop) (i n : Nat) (t : Int) (arr : Bool) :
    eventAt v i n = some (t, arr) ↔ Compared v i n arr t := by
  unfold eventAt Compared
  by_cases h0 : i = 0
  · rw [if_pos h0, if_pos h0]
    cases hd : v.dep with
    | none => simp [getEvent, hd]
    | some d => simp [getEvent, hd]; constructor <;> (rintro ⟨a, b⟩; simp_all)
  · rw [if_neg h0, if_neg h0]
    by_cases h1 : i + 1 = n
    · rw [if_pos h1, if_pos h1]
      cases ha : v.arr with
      | none => simp [getEvent, ha]
      | some d => simp [getEvent, ha]; constructor <;> (rintro ⟨a, b⟩; simp_all)
    · rw [if_neg h1, if_neg h1]
      cases hd : v.dep with
      | none =>
        cases ha : v.arr with
        | none => simp [getEvent, hd, ha]
        | some d => simp [getEvent, hd, ha]; constructor <;> (rintro ⟨a, b⟩; simp_all)
      | some d => simp [getEvent, hd]; constructor <;> (rintro ⟨a, b⟩; simp_all)

theorem mamDist_nf {a b : Int} (h1 : 0 ≤ a) (h2 : a < 1440) (h3 : 0 ≤ b) (h4 : b < 1440) :
    (mamDist a b).1 = ((a - b - 1440 * (mamDist a b).2).natAbs : Int) ∧ (mamDist a b).1 ≤ 720 := by
  unfold mamDist
  simp only
  by_cases h : a - b < 0
  · simp only [if_pos h]
    by_cases g : -(a - b) > 1440 / 2
    · simp only [if_pos g]; omega
    · simp only [if_neg g]; omega
  · simp only [if_neg h]
    by_cases g : (a - b) > 1440 / 2
    · simp only [if_pos g]; omega
    · simp only [if_neg g]; omega

theorem dayIdxMam_nf (tt : MTt) (t : Int) (ht : tt.start ≤ t) :
    t = tt.start + (dayIdxMam tt t).1 * 1440 + (dayIdxMam tt t).2 ∧ 0 ≤ (dayIdxMam tt t).2 ∧ (dayIdxMam tt t).2 < 1440 := by
  have h1 := Int.mul_tdiv_add_tmod (t - tt.start) 1440
  have h2 : 0 ≤ (t - tt.start).tmod 1440 := Int.tmod_nonneg _ (by omega)
  have h3 : (t - tt.start).tmod 1440 < 1440 := Int.tmod_lt_of_pos _ (by omega)
  refine ⟨?_, h2, h3⟩
  simp only [dayIdxMam]
  omega

/-- The distance of the minutes and the day computed from it are those of the absolute times. -/
theorem mamDist_abs (tt : MTt) (t : Int) (d m : Nat) (hm : m < 1440) (ht : tt.start ≤ t) :
    (mamDist (dayIdxMam tt t).2 m).1 =
      ((t - (tt.start + (((dayIdxMam tt t).1 - ((d : Int) - (mamDist (dayIdxMam tt t).2 m).2)) + d) * 1440 + m)).natAbs : Int) := by
  obtain ⟨h1, h2, h3⟩ := dayIdxMam_nf tt t ht
  obtain ⟨h4, h5⟩ := mamDist_nf h2 h3 (b := (m : Int)) (by omega) (by omega)
  generalize (mamDist (dayIdxMam tt t).2 m).1 = e at *
  generalize (mamDist (dayIdxMam tt t).2 m).2 = s at *
  generalize (dayIdxMam tt t).1 = q at *
  generalize (dayIdxMam tt t).2 = a at *
  omega

/-- A day is determined by the distance if it is below half a day. -/
theorem mamDist_day (tt : MTt) (t : Int) (d m : Nat) (day : Int) (hm : m < 1440) (ht : tt.start ≤ t)
    (hd : (t - (tt.start + (day + d) * 1440 + m)).natAbs < 720) :
    day = (dayIdxMam tt t).1 - ((d : Int) - (mamDist (dayIdxMam tt t).2 m).2) ∧
    (mamDist (dayIdxMam tt t).2 m).1 = ((t - (tt.start + (day + d) * 1440 + m)).natAbs : Int) := by
  obtain ⟨h1, h2, h3⟩ := dayIdxMam_nf tt t ht
  obtain ⟨h4, h5⟩ := mamDist_nf h2 h3 (b := (m : Int)) (by omega) (by omega)
  generalize (mamDist (dayIdxMam tt t).2 m).1 = e at *
  generalize (mamDist (dayIdxMam tt t).2 m).2 = s at *
  generalize (dayIdxMam tt t).1 = q at *
  generalize (dayIdxMam tt t).2 = a at *
  omega

theorem mem_tripHits {tt : MTt} {vs : List VStop} (hok : MatchOk tt vs) {r i n : Nat} {t : Int} {arr : Bool} {h : Hit}
    (ht : tt.start ≤ t) :
    h ∈ tripHits tt r i n t arr ↔
      tt.active h.t.1 h.t.2 = true ∧ h.stop = i ∧ h.len = n ∧
      ∃ (k d m : Nat) (dist : Nat), (tt.trips r)[k]? = some h.t.1 ∧ (tt.evTimes r i arr)[k]? = some (d, m) ∧
        dist = (t - (tt.start + (h.t.2 + d) * 1440 + m)).natAbs ∧ dist ≤ 15 ∧ h.score = 230 - dist * dist := by
  unfold tripHits
  rw [List.mem_filterMap]
  constructor
  · rintro ⟨⟨ev, k⟩, hmem, hh⟩
    rw [List.mem_zipIdx_iff_getElem?] at hmem
    obtain ⟨d, m⟩ := ev
    simp only at hmem hh
    have hm : m < 1440 := hok.mam r i arr (d, m) (List.mem_of_getElem? hmem)
    have habs := mamDist_abs tt t d m hm ht
    by_cases hneg : ((exactScore : Int) - (mamDist (dayIdxMam tt t).2 m).1 * (mamDist (dayIdxMam tt t).2 m).1) < 0
    · rw [if_pos hneg] at hh
      cases hh
    · rw [if_neg hneg] at hh
      split at hh
      · rename_i hact
        cases hh
        obtain ⟨hlt, _⟩ := List.getElem?_eq_some_iff.mp hmem
        have hk : k < (tt.trips r).length := by rw [← hok.rows r i arr]; exact hlt
        have hgk : (tt.trips r)[k]? = some ((tt.trips r).getD k 0) := by
          rw [List.getD_eq_getElem?_getD, List.getElem?_eq_getElem hk]
          rfl
        refine ⟨hact, rfl, rfl, k, d, m, _, hgk, hmem, rfl, ?_, ?_⟩
        · simp only
          rw [habs] at hneg
          generalize (t - (tt.start + ((dayIdxMam tt t).fst - (↑d - (mamDist (dayIdxMam tt t).snd ↑m).snd) + ↑d) * 1440 + ↑m)).natAbs = z at hneg ⊢
          apply Classical.byContradiction
          intro hz
          apply hneg
          have h16 : 16 * 16 ≤ z * z := Nat.mul_le_mul (by omega) (by omega)
          rw [← Int.natCast_mul]
          show (230 : Int) - _ < 0
          generalize z * z = w at h16 ⊢
          omega
        · simp only
          rw [habs]
          generalize (t - (tt.start + ((dayIdxMam tt t).fst - (↑d - (mamDist (dayIdxMam tt t).snd ↑m).snd) + ↑d) * 1440 + ↑m)).natAbs = z
          rw [← Int.natCast_mul]
          show ((230 : Int) - _).toNat = _
          generalize z * z = w
          omega
      · cases hh
  · rintro ⟨hact, hs, hl, k, d, m, dist, hk, hev, hdist, h15, hscore⟩
    refine ⟨((d, m), k), ?_, ?_⟩
    · rw [List.mem_zipIdx_iff_getElem?]
      exact hev
    · have hm : m < 1440 := hok.mam r i arr (d, m) (List.mem_of_getElem? hev)
      have hday := mamDist_day tt t d m h.t.2 hm ht (by omega)
      rw [← hdist] at hday
      simp only
      rw [hday.2]
      have hle : dist * dist ≤ 15 * 15 := Nat.mul_le_mul h15 h15
      have hsc : ((exactScore : Int) - (dist : Int) * (dist : Int)) = ((230 - dist * dist : Nat) : Int) := by
        rw [← Int.natCast_mul]
        show (230 : Int) - _ = _
        generalize dist * dist = w at hle ⊢
        omega
      rw [hsc, if_neg (by omega)]
      have hgk : (tt.trips r).getD k 0 = h.t.1 := by
        rw [List.getD_eq_getElem?_getD, hk]
        rfl
      rw [hgk, ← hday.1, if_pos hact]
      obtain ⟨⟨a, b⟩, st, ln, sc⟩ := h
      simp only at hs hl hscore ⊢
      subst hs hl hscore
      simp

theorem mem_stopHits {tt : MTt} {vs : List VStop} (hok : MatchOk tt vs) {v : VStop} (hv : v ∈ vs) {loc : Nat}
    (hl : v.loc = some loc) (h : Hit) :
    h ∈ stopHits tt v loc ↔ ∃ dist, NearBy tt v h.t h.stop h.len dist ∧ dist ≤ 15 ∧ h.score = 230 - dist * dist := by
  unfold stopHits
  simp only [List.mem_flatMap]
  constructor
  · rintro ⟨l, hlm, r, hr, ⟨s, i⟩, hsi, hh⟩
    rw [List.mem_zipIdx_iff_getElem?] at hsi
    simp only at hsi hh
    by_cases hsl : s = l
    · rw [if_neg (by simp [hsl])] at hh
      cases he : eventAt v i (tt.routeSeq r).length with
      | none => rw [he] at hh; simp at hh
      | some p =>
        obtain ⟨t, arr⟩ := p
        rw [he] at hh
        simp only at hh
        have hc := (eventAt_iff v i _ t arr).mp he
        have ht : tt.start ≤ t := by
          apply hok.future v t hv
          unfold Compared at hc
          split at hc
          · exact Or.inl hc.2
          · split at hc
            · exact Or.inr hc.2
            · rcases hc with h | h
              · exact Or.inl h.2
              · exact Or.inr h.2.2
        obtain ⟨hact, hs, hlen, k, d, m, dist, hk, hev, hdist, h15, hsc⟩ := (mem_tripHits hok ht).mp hh
        refine ⟨dist, ⟨loc, l, r, arr, t, _, hl, hlm, hr, hlen, ⟨hact, ?_, k, d, m, hk, ?_, rfl⟩, ?_, hdist.symm⟩, h15, hsc⟩
        · rw [hs, hsi, hsl]
        · rw [hs]; exact hev
        · rw [hs, hlen]; exact hc
    · rw [if_pos hsl] at hh
      cases hh
  · rintro ⟨dist, ⟨loc', l, r, arr, t, time, hl', hlm, hr, hlen, hev, hc, hd⟩, h15, hsc⟩
    rw [hl] at hl'
    cases hl'
    refine ⟨l, hlm, r, hr, (l, h.stop), ?_, ?_⟩
    · rw [List.mem_zipIdx_iff_getElem?]
      exact hev.loc
    · simp only [ne_eq, not_true_eq_false, if_false]
      rw [hlen] at hc
      rw [(eventAt_iff v h.stop _ t arr).mpr hc]
      simp only
      have ht : tt.start ≤ t := by
        apply hok.future v t hv
        unfold Compared at hc
        split at hc
        · exact Or.inl hc.2
        · split at hc
          · exact Or.inr hc.2
          · rcases hc with h | h
            · exact Or.inl h.2
            · exact Or.inr h.2.2
      rw [mem_tripHits hok ht]
      obtain ⟨k, d, m, hk, hevt, htime⟩ := hev.time
      exact ⟨hev.active, rfl, hlen, k, d, m, dist, hk, hevt, by rw [← hd, htime], h15, hsc⟩

/-! ## The list of candidates -/

/-- The candidate of a run. -/
def get (cs : List Cand) (x : Nat × Int) : Option Cand := cs.find? fun c => decide (c.t = x)

theorem get_mem {cs : List Cand} {x : Nat × Int} {c : Cand} (h : get cs x = some c) : c ∈ cs ∧ c.t = x := by
  refine ⟨List.mem_of_find?_eq_some h, ?_⟩
  have := List.find?_some h
  exact of_decide_eq_true this

theorem get_addHit (cs : List Cand) (h : Hit) (x : Nat × Int) :
    get (addHit cs h) x = if h.t = x then
        (match get cs x with
          | none => some ⟨h.t, h.stop, h.len, 0, h.score⟩
          | some c => some (if h.stop < c.first then c else { c with best := max c.best h.score }))
      else get cs x := by
  induction cs with
  | nil =>
    by_cases hx : h.t = x
    · simp [addHit, get, hx]
    · simp [addHit, get, hx]
  | cons c cs ih =>
    unfold addHit
    by_cases hc : c.t = h.t
    · rw [if_pos hc]
      by_cases hx : h.t = x
      · have hcx : c.t = x := hc.trans hx
        rw [if_pos hx]
        by_cases hs : h.stop < c.first
        · simp [hs, get, hcx]
        · simp [hs, get, hcx]
      · have hcx : ¬ c.t = x := fun hh => hx (hc.symm.trans hh)
        rw [if_neg hx]
        by_cases hs : h.stop < c.first
        · simp [hs]
        · simp [hs, get, hcx]
    · rw [if_neg hc]
      by_cases hcx : c.t = x
      · have hx : ¬ h.t = x := fun hh => hc (hcx.trans hh.symm)
        rw [if_neg hx]
        simp [get, hcx]
      · have e1 : get (c :: addHit cs h) x = get (addHit cs h) x := by simp [get, hcx]
        have e2 : get (c :: cs) x = get cs x := by simp [get, hcx]
        rw [e1, e2, ih]

theorem mem_addHit {cs : List Cand} {h : Hit} {c : Cand} (hm : c ∈ addHit cs h) :
    c ∈ cs ∨ c = ⟨h.t, h.stop, h.len, 0, h.score⟩ ∨
      ∃ c0 ∈ cs, c0.t = h.t ∧ c = { c0 with best := max c0.best h.score } := by
  induction cs with
  | nil =>
    simp only [addHit, List.mem_singleton] at hm
    exact Or.inr (Or.inl hm)
  | cons a cs ih =>
    unfold addHit at hm
    by_cases ha : a.t = h.t
    · rw [if_pos ha] at hm
      by_cases hs : h.stop < a.first
      · rw [if_pos hs] at hm
        exact Or.inl hm
      · rw [if_neg hs] at hm
        rcases List.mem_cons.mp hm with e | e
        · exact Or.inr (Or.inr ⟨a, List.mem_cons_self, ha, e⟩)
        · exact Or.inl (List.mem_cons_of_mem _ e)
    · rw [if_neg ha] at hm
      rcases List.mem_cons.mp hm with e | e
      · exact Or.inl (e ▸ List.mem_cons_self)
      · rcases ih e with h1 | h1 | ⟨c0, h1, h2, h3⟩
        · exact Or.inl (List.mem_cons_of_mem _ h1)
        · exact Or.inr (Or.inl h1)
        · exact Or.inr (Or.inr ⟨c0, List.mem_cons_of_mem _ h1, h2, h3⟩)

/-! ## Soundness -/

/-- Invariant of a candidate after the reported stops `vs`. -/
def Supported (tt : MTt) (vs : List VStop) (c : Cand) : Prop :=
  tt.active c.t.1 c.t.2 = true ∧ c.best = 0 ∧
  (∃ v ∈ vs, ∃ dist, NearBy tt v c.t c.first c.len dist ∧ dist ≤ 15) ∧
  ∃ sub : List VStop, sub.Sublist vs ∧ (∀ v ∈ sub, ∃ i n dist, NearBy tt v c.t i n dist ∧ dist ≤ 15) ∧
    c.score ≤ 230 * sub.length

/-- The same within a stop. -/
def SupportedIn (tt : MTt) (vs : List VStop) (v : VStop) (c : Cand) : Prop :=
  tt.active c.t.1 c.t.2 = true ∧ c.best ≤ 230 ∧ (c.best ≠ 0 → ∃ i n dist, NearBy tt v c.t i n dist ∧ dist ≤ 15) ∧
  (∃ w ∈ vs ++ [v], ∃ dist, NearBy tt w c.t c.first c.len dist ∧ dist ≤ 15) ∧
  ∃ sub : List VStop, sub.Sublist vs ∧ (∀ v ∈ sub, ∃ i n dist, NearBy tt v c.t i n dist ∧ dist ≤ 15) ∧
    c.score ≤ 230 * sub.length

theorem supported_stop {tt : MTt} {all vs : List VStop} (hok : MatchOk tt all) {v : VStop} (hv : v ∈ all)
    {cs : List Cand} (h : ∀ c ∈ cs, Supported tt vs c) : ∀ c ∈ matchStop tt cs v, Supported tt (vs ++ [v]) c := by
  unfold matchStop
  cases hl : v.loc with
  | none =>
    intro c hc
    obtain ⟨h1, h2, ⟨w, hw, hn⟩, sub, h3, h4, h5⟩ := h c hc
    exact ⟨h1, h2, ⟨w, List.mem_append_left _ hw, hn⟩, sub, h3.trans (List.sublist_append_left _ _), h4, h5⟩
  | some loc =>
    have main : ∀ (hs : List Hit) (cs : List Cand), (∀ x ∈ hs, x ∈ stopHits tt v loc) →
        (∀ c ∈ cs, SupportedIn tt vs v c) → ∀ c ∈ hs.foldl addHit cs, SupportedIn tt vs v c := by
      intro hs
      induction hs with
      | nil => intro cs _ hc; exact hc
      | cons x hs ih =>
        intro cs hx hc
        rw [List.foldl_cons]
        apply ih
        · intro y hy; exact hx y (List.mem_cons_of_mem _ hy)
        · intro c hcm
          obtain ⟨dist, hnear, h15, hsc⟩ := (mem_stopHits hok hv hl x).mp (hx x List.mem_cons_self)
          have hact : tt.active x.t.1 x.t.2 = true := by
            obtain ⟨_, _, _, _, _, _, _, _, _, _, hev, _⟩ := hnear
            exact hev.active
          have hsc' : x.score ≤ 230 := by rw [hsc]; omega
          rcases mem_addHit hcm with h1 | h1 | ⟨c0, h1, h2, h3⟩
          · exact hc c h1
          · subst h1
            exact ⟨hact, hsc', fun _ => ⟨x.stop, x.len, dist, hnear, h15⟩, ⟨v, by simp, dist, hnear, h15⟩, [], List.nil_sublist _, by simp, by simp⟩
          · obtain ⟨a1, a2, a3, a0, sub, a4, a5, a6⟩ := hc c0 h1
            subst h3
            refine ⟨a1, ?_, ?_, a0, sub, a4, a5, a6⟩
            · simp only; omega
            · intro _
              simp only
              rw [h2]
              exact ⟨x.stop, x.len, dist, hnear, h15⟩
    intro c hc
    rw [List.mem_map] at hc
    obtain ⟨c0, hc0, rfl⟩ := hc
    have := main (stopHits tt v loc) cs (fun _ hx => hx) (by
      intro c hc
      obtain ⟨h1, h2, ⟨w, hw, hn⟩, sub, h3, h4, h5⟩ := h c hc
      exact ⟨h1, by omega, fun hne => absurd h2 hne, ⟨w, List.mem_append_left _ hw, hn⟩, sub, h3, h4, h5⟩) c0 hc0
    obtain ⟨a1, a2, a3, a0, sub, a4, a5, a6⟩ := this
    refine ⟨a1, rfl, a0, ?_⟩
    by_cases hb : c0.best = 0
    · refine ⟨sub, a4.trans (List.sublist_append_left _ _), a5, ?_⟩
      show c0.score + c0.best ≤ _
      omega
    · refine ⟨sub ++ [v], List.Sublist.append a4 (List.Sublist.refl _), ?_, ?_⟩
      · intro w hw
        rcases List.mem_append.mp hw with h | h
        · exact a5 w h
        · rw [List.mem_singleton] at h
          subst h
          exact a3 hb
      · show c0.score + c0.best ≤ _
        rw [List.length_append, List.length_singleton]
        omega

theorem candidates_supported {tt : MTt} {vs : List VStop} (hok : MatchOk tt vs) :
    ∀ c ∈ candidates tt vs, Supported tt vs c := by
  have main : ∀ (post pre : List VStop) (cs : List Cand), pre ++ post = vs → (∀ c ∈ cs, Supported tt pre c) →
      ∀ c ∈ post.foldl (matchStop tt) cs, Supported tt vs c := by
    intro post
    induction post with
    | nil =>
      intro pre cs hp h
      rw [List.append_nil] at hp
      subst hp
      exact h
    | cons v post ih =>
      intro pre cs hp h
      rw [List.foldl_cons]
      apply ih (pre ++ [v])
      · rw [List.append_assoc]; exact hp
      · apply supported_stop hok _ h
        rw [← hp]
        simp
  exact main vs [] [] rfl (by simp)

/-! ## Completeness -/

theorem get_map_finish (cs : List Cand) (x : Nat × Int) : get (cs.map finish) x = (get cs x).map finish := by
  unfold get
  rw [List.find?_map]
  rfl

/-- The candidate of a run after a list of hits. -/
theorem get_foldl_some (x : Nat × Int) : ∀ (hs : List Hit) (cs : List Cand) (c : Cand), get cs x = some c →
    (∀ h ∈ hs, h.score ≤ 230) → c.best ≤ 230 →
    ∃ c', get (hs.foldl addHit cs) x = some c' ∧ c'.first = c.first ∧ c'.len = c.len ∧ c'.score = c.score ∧
      c.best ≤ c'.best ∧ c'.best ≤ 230 ∧
      ∀ h ∈ hs, h.t = x → c.first ≤ h.stop → h.score ≤ c'.best := by
  intro hs
  induction hs with
  | nil =>
    intro cs c hc _ hb
    exact ⟨c, hc, rfl, rfl, rfl, Nat.le_refl _, hb, by simp⟩
  | cons h hs ih =>
    intro cs c hc hsc hb
    rw [List.foldl_cons]
    have hg := get_addHit cs h x
    rw [hc] at hg
    by_cases hx : h.t = x
    · rw [if_pos hx] at hg
      simp only at hg
      have hh := hsc h List.mem_cons_self
      by_cases hs' : h.stop < c.first
      · rw [if_pos hs'] at hg
        obtain ⟨c', g1, g2, g3, g4, g5, g6, g7⟩ := ih _ c hg (fun y hy => hsc y (List.mem_cons_of_mem _ hy)) hb
        refine ⟨c', g1, g2, g3, g4, g5, g6, ?_⟩
        intro y hy hyx hyf
        rcases List.mem_cons.mp hy with e | e
        · subst e; omega
        · exact g7 y e hyx hyf
      · rw [if_neg hs'] at hg
        obtain ⟨c', g1, g2, g3, g4, g5, g6, g7⟩ := ih _ _ hg (fun y hy => hsc y (List.mem_cons_of_mem _ hy))
          (by simp only; omega)
        simp only at g2 g3 g4 g5 g7
        refine ⟨c', g1, g2, g3, g4, by omega, g6, ?_⟩
        intro y hy hyx hyf
        rcases List.mem_cons.mp hy with e | e
        · subst e; omega
        · exact g7 y e hyx hyf
    · rw [if_neg hx] at hg
      obtain ⟨c', g1, g2, g3, g4, g5, g6, g7⟩ := ih _ c hg (fun y hy => hsc y (List.mem_cons_of_mem _ hy)) hb
      refine ⟨c', g1, g2, g3, g4, g5, g6, ?_⟩
      intro y hy hyx hyf
      rcases List.mem_cons.mp hy with e | e
      · subst e; exact absurd hyx hx
      · exact g7 y e hyx hyf

/-- A run without candidate gets one at its first hit. -/
theorem get_foldl_none (x : Nat × Int) : ∀ (hs : List Hit) (cs : List Cand), get cs x = none →
    (∀ h ∈ hs, h.score ≤ 230) → (∃ h ∈ hs, h.t = x) →
    ∃ c' h0, get (hs.foldl addHit cs) x = some c' ∧ h0 ∈ hs ∧ h0.t = x ∧ c'.first = h0.stop ∧ c'.len = h0.len ∧
      c'.score = 0 ∧ c'.best ≤ 230 ∧
      ∀ h ∈ hs, h.t = x → c'.first ≤ h.stop → h.score ≤ c'.best := by
  intro hs
  induction hs with
  | nil => intro cs _ _ h; obtain ⟨_, h, _⟩ := h; cases h
  | cons h hs ih =>
    intro cs hc hsc hex
    rw [List.foldl_cons]
    have hg := get_addHit cs h x
    rw [hc] at hg
    by_cases hx : h.t = x
    · rw [if_pos hx] at hg
      simp only at hg
      have hh := hsc h List.mem_cons_self
      obtain ⟨c', g1, g2, g3, g4, g5, g6, g7⟩ := get_foldl_some x hs _ _ hg
        (fun y hy => hsc y (List.mem_cons_of_mem _ hy)) (by simpa using hh)
      simp only at g2 g3 g4 g5 g7
      refine ⟨c', h, g1, List.mem_cons_self, hx, g2, g3, g4, g6, ?_⟩
      intro y hy hyx hyf
      rcases List.mem_cons.mp hy with e | e
      · subst e; exact g5
      · exact g7 y e hyx (by omega)
    · rw [if_neg hx] at hg
      obtain ⟨c', h0, g1, g2, g3⟩ := ih _ hg (fun y hy => hsc y (List.mem_cons_of_mem _ hy)) (by
        obtain ⟨y, hy, hyx⟩ := hex
        rcases List.mem_cons.mp hy with e | e
        · subst e; exact absurd hyx hx
        · exact ⟨y, e, hyx⟩)
      refine ⟨c', h0, g1, List.mem_cons_of_mem _ g2, g3.1, g3.2.1, g3.2.2.1, g3.2.2.2.1, g3.2.2.2.2.1, ?_⟩
      intro y hy hyx hyf
      rcases List.mem_cons.mp hy with e | e
      · subst e; exact absurd hyx hx
      · exact g3.2.2.2.2.2 y e hyx hyf

theorem foldl_inv_idx {α β : Type} (f : β → α → β) (l : List α) (b : β) (Q : Nat → β → Prop) (h0 : Q 0 b)
    (hstep : ∀ (j : Nat) (a : α) (b : β), l[j]? = some a → Q j b → Q (j + 1) (f b a)) : Q l.length (l.foldl f b) := by
  have main : ∀ (post : List α) (k : Nat) (b : β), l.drop k = post → Q k b → k + post.length = l.length →
      Q l.length (post.foldl f b) := by
    intro post
    induction post with
    | nil =>
      intro k b _ hq hk
      have : k = l.length := by simpa using hk
      rw [← this]
      exact hq
    | cons a post ih =>
      intro k b hd hq hk
      rw [List.foldl_cons]
      have ha : l[k]? = some a := by
        have := congrArg (fun z : List α => z[0]?) hd
        simpa [List.getElem?_drop] using this
      have hd' : l.drop (k + 1) = post := by
        have := congrArg (List.drop 1) hd
        simpa [List.drop_drop, Nat.add_comm] using this
      refine ih (k + 1) (f b a) hd' (hstep k a b ha hq) ?_
      rw [List.length_cons] at hk
      omega
  exact main l 0 b rfl h0 (by simp)

/-- A run described exactly has the full score. -/
theorem exact_score {tt : MTt} {vs : List VStop} (hok : MatchOk tt vs) {x : Nat × Int} {n : Nat} {idx : Nat → Nat}
    (hex : ∀ (j : Nat) (v : VStop), vs[j]? = some v → NearBy tt v x (idx j) n 0)
    (horder : ∀ j, j < vs.length → idx 0 ≤ idx j)
    (hfirst : ∀ (v : VStop) (i n' dist : Nat), vs[0]? = some v → NearBy tt v x i n' dist → dist ≤ 15 → i ≤ idx 0 ∧ n' = n)
    (hne : vs ≠ []) :
    ∃ c, get (candidates tt vs) x = some c ∧ c.score = 230 * vs.length ∧ c.first ≤ idx 0 ∧ c.len = n := by
  have h := foldl_inv_idx (matchStop tt) vs []
    (fun j cs => (j = 0 → cs = []) ∧
      (j ≠ 0 → ∃ c, get cs x = some c ∧ c.score = 230 * j ∧ c.best = 0 ∧ c.first ≤ idx 0 ∧ c.len = n))
    ⟨fun _ => rfl, fun h => absurd rfl h⟩ (by
      intro j v cs hj hq
      refine ⟨fun h => by omega, fun _ => ?_⟩
      have hv : v ∈ vs := List.mem_of_getElem? hj
      have hnear := hex j v hj
      have hnear' := hnear
      obtain ⟨loc, l, r, arr, t, time, hl, _⟩ := hnear
      have hhit : (⟨x, idx j, n, 230⟩ : Hit) ∈ stopHits tt v loc :=
        (mem_stopHits hok hv hl _).mpr ⟨0, hnear', by omega, rfl⟩
      have h230 : ∀ h ∈ stopHits tt v loc, h.score ≤ 230 := by
        intro h hh
        obtain ⟨dist, _, _, hs⟩ := (mem_stopHits hok hv hl h).mp hh
        rw [hs]; omega
      obtain ⟨hlt, _⟩ := List.getElem?_eq_some_iff.mp hj
      unfold matchStop
      rw [hl]
      simp only
      rw [get_map_finish]
      by_cases h0 : j = 0
      · subst h0
        rw [hq.1 rfl]
        obtain ⟨c', h0, g1, g2, g3, g4, g5, g6, g7, g8⟩ := get_foldl_none x (stopHits tt v loc) [] rfl h230
          ⟨_, hhit, rfl⟩
        obtain ⟨dist, hn0, h15, _⟩ := (mem_stopHits hok hv hl h0).mp g2
        rw [g3] at hn0
        obtain ⟨hle, hlen⟩ := hfirst v _ _ dist hj hn0 h15
        have hb := g8 _ hhit rfl (by simp only; omega)
        simp only at hb
        rw [g1]
        refine ⟨finish c', rfl, ?_, rfl, ?_, ?_⟩
        · show c'.score + c'.best = _
          omega
        · show c'.first ≤ _
          omega
        · show c'.len = _
          omega
      · obtain ⟨c, hc, hcs, hcb, hcf, hcl⟩ := hq.2 h0
        obtain ⟨c', g1, g2, g3, g4, g5, g6, g7⟩ := get_foldl_some x (stopHits tt v loc) cs c hc h230 (by omega)
        have hb := g7 _ hhit rfl (by simp only; have := horder j hlt; omega)
        simp only at hb
        rw [g1]
        refine ⟨finish c', rfl, ?_, rfl, ?_, ?_⟩
        · show c'.score + c'.best = _
          omega
        · show c'.first ≤ _
          omega
        · show c'.len = _
          omega)
  have hlen : vs.length ≠ 0 := by
    intro hh
    exact hne (List.length_eq_zero_iff.mp hh)
  obtain ⟨c, h1, h2, _, h4, h5⟩ := h.2 hlen
  exact ⟨c, h1, h2, h4, h5⟩

/-! ## Selection -/

theorem mem_takeWhile_sorted {l : List Cand} (hs : l.Pairwise fun a b => Cand.before b a = false) (b : Nat) (c : Cand) :
    c ∈ l.takeWhile (fun c => decide (b < 1000 * c.score)) ↔ c ∈ l ∧ b < 1000 * c.score := by
  induction l with
  | nil => simp
  | cons a l ih =>
    rw [List.pairwise_cons] at hs
    rw [List.takeWhile_cons]
    by_cases ha : b < 1000 * a.score
    · rw [if_pos (decide_eq_true ha), List.mem_cons, List.mem_cons, ih hs.2]
      constructor
      · rintro (h | ⟨h, h'⟩)
        · exact ⟨Or.inl h, h ▸ ha⟩
        · exact ⟨Or.inr h, h'⟩
      · rintro ⟨h | h, h'⟩
        · exact Or.inl h
        · exact Or.inr ⟨h, h'⟩
    · rw [if_neg (by simpa using ha)]
      constructor
      · intro h; cases h
      · rintro ⟨h, h'⟩
        rcases List.mem_cons.mp h with e | e
        · subst e; exact absurd h' ha
        · have := hs.1 c e
          simp only [Cand.before, Bool.or_eq_false_iff, decide_eq_false_iff_not] at this
          omega

theorem mem_select {sort : List Cand → List Cand} (hsort : SortOk sort) (complete : Bool) (n : Nat) (cs : List Cand)
    (c : Cand) :
    c ∈ select sort complete n cs ↔ c ∈ cs ∧ ∃ b ∈ cs, (∀ d ∈ cs, d.score ≤ b.score) ∧
      above complete b.score n = true ∧ 975 * b.score < 1000 * c.score := by
  have hp := hsort.perm cs
  have hs := hsort.sorted cs
  unfold select
  generalize hg : sort cs = l at hp hs
  have hmem : ∀ d, d ∈ l ↔ d ∈ cs := fun d => hp.mem_iff
  cases l with
  | nil =>
    simp only [List.not_mem_nil, false_iff]
    rintro ⟨h, _⟩
    have := (hmem c).mpr h
    cases this
  | cons best rest =>
    simp only
    have hbest : ∀ d ∈ cs, d.score ≤ best.score := by
      intro d hd
      rcases List.mem_cons.mp ((hmem d).mpr hd) with e | e
      · rw [e]; exact Nat.le_refl _
      · have := (List.pairwise_cons.mp hs).1 d e
        simp only [Cand.before, Bool.or_eq_false_iff, decide_eq_false_iff_not] at this
        omega
    have hbm : best ∈ cs := (hmem best).mp List.mem_cons_self
    constructor
    · intro h
      by_cases ha : above complete best.score n = true
      · rw [if_pos ha] at h
        have := (mem_takeWhile_sorted hs (975 * best.score) c).mp h
        exact ⟨(hmem c).mp this.1, best, hbm, hbest, ha, this.2⟩
      · rw [if_neg ha] at h
        cases h
    · rintro ⟨hc, b, hb, hmax, ha, hlt⟩
      have e : b.score = best.score := Nat.le_antisymm (hbest b hb) (hmax best hbm)
      rw [e] at ha hlt
      rw [if_pos ha]
      exact (mem_takeWhile_sorted hs (975 * best.score) c).mpr ⟨(hmem c).mpr hc, hlt⟩

end Nigiri.Vdv
