import Verif.Spec.HrdParse
import Verif.Proofs.VdvHistory
/-! # Lemmas about the HRD parser -/

namespace Nigiri.HrdParse
open Hrd (Stop)

theorem findNth_spec {α : Type} (p : α → Bool) (l : List α) (pos n i : Nat) :
    findNth p l pos (n + 1) = some i ↔
      ∃ j, i = pos + j ∧ (∃ a, l[j]? = some a ∧ p a = true) ∧ ((l.take j).filter p).length = n := by
  induction l generalizing pos n with
  | nil => simp [findNth]
  | cons a l ih =>
    unfold findNth
    by_cases hp : p a = true
    · rw [if_pos hp]
      cases n with
      | zero =>
        rw [if_pos rfl]
        constructor
        · intro h
          cases h
          exact ⟨0, rfl, ⟨a, rfl, hp⟩, rfl⟩
        · rintro ⟨j, rfl, _, h⟩
          cases j with
          | zero => rfl
          | succ j => simp [hp] at h
      | succ n =>
        rw [if_neg (by omega), Nat.add_sub_cancel, ih]
        constructor
        · rintro ⟨j, rfl, h1, h2⟩
          refine ⟨j + 1, by omega, by simpa using h1, ?_⟩
          simp [hp, h2]
        · rintro ⟨j, rfl, h1, h2⟩
          cases j with
          | zero => simp at h2
          | succ j => exact ⟨j, by omega, by simpa using h1, by simpa [hp] using h2⟩
    · rw [if_neg hp, ih]
      constructor
      · rintro ⟨j, rfl, h1, h2⟩
        refine ⟨j + 1, by omega, by simpa using h1, ?_⟩
        simp [hp, h2]
      · rintro ⟨j, rfl, h1, h2⟩
        cases j with
        | zero =>
          obtain ⟨b, hb, hpb⟩ := h1
          cases hb
          exact absurd hpb hp
        | succ j => exact ⟨j, by omega, by simpa using h1, by simpa [hp] using h2⟩

theorem isTime_iff (t : Nat) (x : Int) : x = hhmmToMin t ↔ Spec.IsTime t x := by
  unfold hhmmToMin Spec.IsTime; omega

theorem visit_iff (stops : List Stop) (e n i : Nat) :
    findNth (fun s : Stop => decide (s.eva = e)) stops 0 (n + 1) = some i ↔ Spec.Visit stops e n i := by
  rw [findNth_spec]
  unfold Spec.Visit
  constructor
  · rintro ⟨j, hj, ⟨a, ha, hp⟩, hl⟩
    obtain rfl : i = j := by omega
    exact ⟨⟨a, ha, of_decide_eq_true hp⟩, hl⟩
  · rintro ⟨⟨a, ha, hp⟩, hl⟩
    exact ⟨i, by omega, ⟨a, ha, decide_eq_true hp⟩, hl⟩

theorem findIdx_iff {α : Type} (p : α → Bool) (l : List α) (i : Nat) :
    l.findIdx? p = some i ↔ (∃ a, l[i]? = some a ∧ p a = true) ∧
      ∀ j, j < i → ¬ ∃ a, l[j]? = some a ∧ p a = true := by
  induction l generalizing i with
  | nil => simp
  | cons a l ih =>
    rw [List.findIdx?_cons]
    by_cases hp : p a = true
    · rw [if_pos hp]
      constructor
      · intro h
        cases h
        exact ⟨⟨a, rfl, hp⟩, fun j hj => absurd hj (Nat.not_lt_zero _)⟩
      · rintro ⟨_, h⟩
        cases i with
        | zero => rfl
        | succ i => exact absurd ⟨a, rfl, hp⟩ (h 0 (by omega))
    · rw [if_neg hp]
      constructor
      · intro h
        obtain ⟨j, hj, rfl⟩ := Option.map_eq_some_iff.1 h
        obtain ⟨h1, h2⟩ := (ih j).1 hj
        refine ⟨by simpa using h1, ?_⟩
        intro q hq
        cases q with
        | zero => rintro ⟨b, hb, hpb⟩; cases hb; exact hp hpb
        | succ q => simpa using h2 q (by omega)
      · rintro ⟨h1, h2⟩
        cases i with
        | zero => obtain ⟨b, hb, hpb⟩ := h1; cases hb; exact absurd hpb hp
        | succ i =>
          refine Option.map_eq_some_iff.2 ⟨i, (ih i).2 ⟨by simpa using h1, ?_⟩, rfl⟩
          intro q hq
          simpa using h2 (q + 1) (by omega)

theorem departs_iff (stops : List Stop) (e t i : Nat) :
    (stops.findIdx? fun s => decide (s.eva = e) && decide (s.dep.time = hhmmToMin t)) = some i ↔
      Spec.DepartsAt stops e t i ∧ ∀ j, j < i → ¬ Spec.DepartsAt stops e t j := by
  rw [findIdx_iff]
  have key : ∀ j, (∃ a, stops[j]? = some a ∧
      (decide (a.eva = e) && decide (a.dep.time = hhmmToMin t)) = true) ↔ Spec.DepartsAt stops e t j := by
    intro j
    unfold Spec.DepartsAt
    simp only [Bool.and_eq_true, decide_eq_true_eq, isTime_iff]
  rw [key]
  refine and_congr_right fun _ => ?_
  exact forall_congr' fun j => by rw [key]

theorem arrives_iff (stops : List Stop) (e t i : Nat) :
    ((stops.reverse.findIdx? fun s => decide (s.eva = e) && decide (s.arr.time = hhmmToMin t)).map
      fun i => stops.length - 1 - i) = some i ↔
      Spec.ArrivesAt stops e t i ∧ ∀ j, i < j → ¬ Spec.ArrivesAt stops e t j := by
  have key : ∀ j, (∃ a, stops[j]? = some a ∧
      (decide (a.eva = e) && decide (a.arr.time = hhmmToMin t)) = true) ↔ Spec.ArrivesAt stops e t j := by
    intro j
    unfold Spec.ArrivesAt
    simp only [Bool.and_eq_true, decide_eq_true_eq, isTime_iff]
  have hlt : ∀ j, Spec.ArrivesAt stops e t j → j < stops.length := by
    rintro j ⟨s, hs, _⟩
    exact (List.getElem?_eq_some_iff.1 hs).1
  constructor
  · intro h
    obtain ⟨q, hq, rfl⟩ := Option.map_eq_some_iff.1 h
    obtain ⟨⟨a, ha, hp⟩, h2⟩ := (findIdx_iff _ _ _).1 hq
    have hql : q < stops.length := by
      simpa using (List.getElem?_eq_some_iff.1 ha).1
    rw [List.getElem?_reverse hql] at ha
    refine ⟨(key _).1 ⟨a, ha, hp⟩, ?_⟩
    intro j hj hA
    have hjl := hlt j hA
    refine h2 (stops.length - 1 - j) (by omega) ?_
    rw [List.getElem?_reverse (by omega), show stops.length - 1 - (stops.length - 1 - j) = j by omega]
    exact (key j).2 hA
  · rintro ⟨h1, h2⟩
    have hil := hlt i h1
    refine Option.map_eq_some_iff.2 ⟨stops.length - 1 - i, (findIdx_iff _ _ _).2 ⟨?_, ?_⟩, by omega⟩
    · rw [List.getElem?_reverse (by omega), show stops.length - 1 - (stops.length - 1 - i) = i by omega]
      exact (key i).2 h1
    · intro j hj
      rw [List.getElem?_reverse (by omega)]
      intro hc
      exact h2 _ (by omega) ((key _).1 hc)

/-- No station has the number 0 (the value of a blank column). -/
def NoZero (stops : List Stop) : Prop := ∀ s ∈ stops, s.eva ≠ 0

theorem no_visit_zero {stops : List Stop} (h0 : NoZero stops) (n i : Nat) :
    ¬ findNth (fun s : Stop => decide (s.eva = 0)) stops 0 (n + 1) = some i := by
  rw [visit_iff]
  rintro ⟨⟨s, hs, he⟩, _⟩
  exact h0 s (List.mem_of_getElem? hs) he

theorem begins_iff {stops : List Stop} (h0 : NoZero stops) (eva time : Tok) (i : Nat) :
    getIndex stops eva time true = some i ↔ Spec.Begins stops eva time i := by
  constructor
  · intro h
    unfold getIndex at h
    split at h
    · cases h; exact .index _ _
    · rename_i hni
      cases eva with
      | index q => exact absurd rfl (hni q)
      | blank =>
        split at h
        · exact absurd h (no_visit_zero h0 0 i)
        · exact absurd h (no_visit_zero h0 _ i)
        · rw [if_pos rfl] at h
          obtain ⟨⟨s, hs, he, _⟩, _⟩ := (departs_iff _ _ _ _).1 h
          exact absurd he (h0 s (List.mem_of_getElem? hs))
      | num e =>
        split at h
        · exact .station ((visit_iff _ _ _ _).1 h)
        · exact .visit ((visit_iff _ _ _ _).1 h)
        · rw [if_pos rfl] at h
          obtain ⟨h1, h2⟩ := (departs_iff _ _ _ _).1 h
          exact .time h1 h2
  · intro h
    cases h with
    | index => rfl
    | station h => exact (visit_iff _ _ _ _).2 h
    | visit h => exact (visit_iff _ _ _ _).2 h
    | time h1 h2 => exact (departs_iff _ _ _ _).2 ⟨h1, h2⟩

theorem ends_iff {stops : List Stop} (h0 : NoZero stops) (eva time : Tok) (i : Nat) :
    getIndex stops eva time false = some i ↔ Spec.Ends stops eva time i := by
  constructor
  · intro h
    unfold getIndex at h
    split at h
    · cases h; exact .index _ _
    · rename_i hni
      cases eva with
      | index q => exact absurd rfl (hni q)
      | blank =>
        split at h
        · exact absurd h (no_visit_zero h0 0 i)
        · exact absurd h (no_visit_zero h0 _ i)
        · rw [if_neg (by decide)] at h
          obtain ⟨⟨s, hs, he, _⟩, _⟩ := (arrives_iff _ _ _ _).1 h
          exact absurd he (h0 s (List.mem_of_getElem? hs))
      | num e =>
        split at h
        · exact .station ((visit_iff _ _ _ _).1 h)
        · exact .visit ((visit_iff _ _ _ _).1 h)
        · rw [if_neg (by decide)] at h
          obtain ⟨h1, h2⟩ := (arrives_iff _ _ _ _).1 h
          exact .time h1 h2
  · intro h
    cases h with
    | index => rfl
    | station h => exact (visit_iff _ _ _ _).2 h
    | visit h => exact (visit_iff _ _ _ _).2 h
    | time h1 h2 => exact (arrives_iff _ _ _ _).2 ⟨h1, h2⟩

theorem range_iff {stops : List Stop} (h0 : NoZero stops) (r : RangeSpec) (f t : Nat) :
    rangeOf stops r = some (f, t) ↔ Spec.Range stops r f t := by
  obtain ⟨fe, te, ft, tt⟩ := r
  unfold rangeOf
  constructor
  · intro h
    split at h
    · rename_i hb
      obtain ⟨h1, h2, h3, h4⟩ := hb
      simp only at h1 h2 h3 h4
      subst h1 h2 h3 h4
      cases h
      exact .whole
    · split at h
      · rename_i a b ha hb
        cases h
        exact .part ((begins_iff h0 _ _ _).1 ha) ((ends_iff h0 _ _ _).1 hb)
      · cases h
  · intro h
    cases h with
    | whole => rw [if_pos ⟨rfl, rfl, rfl, rfl⟩]
    | part hb he =>
      rw [if_neg (by
        rintro ⟨h1, _, _, _⟩
        simp only at h1
        subst h1
        cases hb)]
      rw [(begins_iff h0 _ _ _).2 hb, (ends_iff h0 _ _ _).2 he]

/-! ## Sections -/

theorem resize_length (l : List Sec) (n : Nat) (_h : l.length ≤ n) : (resize l n).length = n := by
  unfold resize; simp; omega

theorem resize_get {α : Type} (g : Sec → Option α) (hg : g {} = none) (l : List Sec) (n k : Nat)
    (h : l.length ≤ n) : ((resize l n)[k]?).bind g = (l[k]?).bind g := by
  unfold resize
  rw [List.take_of_length_le h]
  by_cases hk : k < l.length
  · rw [List.getElem?_append_left hk]
  · rw [List.getElem?_append_right (by omega), List.getElem?_eq_none (by omega : l.length ≤ k),
      List.getElem?_replicate]
    split
    · exact hg
    · rfl

/-- The laws of a member. -/
structure LawfulM {α : Type} (m : Member α) : Prop where
  get_set : ∀ v s, m.get (m.set v s) = v
  empty : m.get {} = none

/-- Reading `g` is not affected by writing `m`. -/
structure OtherM {α β : Type} (m : Member α) (g : Sec → Option β) : Prop where
  keep : ∀ v s, g (m.set v s) = g s
  empty : g {} = none

/-- Does the range of a line cover the whole service / section `k` only? -/
def isWhole (stops : List Stop) (rng : Line → RangeSpec) (l : Line) : Bool :=
  decide (rangeOf stops (rng l) = some (0, stops.length - 1))

def rangeD (stops : List Stop) (rng : Line → RangeSpec) (l : Line) : Nat × Nat :=
  (rangeOf stops (rng l)).getD (0, 0)

def isIn (stops : List Stop) (rng : Line → RangeSpec) (k : Nat) (l : Line) : Bool :=
  !isWhole stops rng l && (decide ((rangeD stops rng l).1 ≤ k) && decide (k < (rangeD stops rng l).2))

theorem applyRange_length {α : Type} (m : Member α) (n : Nat) (f : Option α → Option α) (r : Nat × Nat)
    (st : SecState) (h : st.sections.length ≤ n - 1) :
    (applyRange m n f r st).sections.length ≤ n - 1 := by
  unfold applyRange
  split
  · exact h
  · simp [resize_length _ _ h]

theorem bind_mapIdx {α : Type} (g : Sec → Option α) (F : Nat → Sec → Sec) (l : List Sec) (k : Nat) :
    ((l.mapIdx F)[k]?).bind g = (l[k]?).bind fun s => g (F k s) := by
  rw [List.getElem?_mapIdx]
  cases l[k]? <;> rfl

theorem applyRange_other {α β : Type} (m : Member α) (g : Sec → Option β) (ho : OtherM m g) (n : Nat)
    (f : Option α → Option α) (r : Nat × Nat) (st : SecState) (h : st.sections.length ≤ n - 1) :
    g (applyRange m n f r st).whole = g st.whole ∧
    ∀ k : Nat, ((applyRange m n f r st).sections[k]?).bind g = (st.sections[k]?).bind g := by
  unfold applyRange
  split
  · exact ⟨ho.keep _ _, fun k => rfl⟩
  · refine ⟨rfl, fun k => ?_⟩
    simp only
    rw [bind_mapIdx, ← resize_get g ho.empty st.sections (n - 1) k h]
    congr 1
    funext s
    split
    · exact ho.keep _ _
    · rfl

theorem applyRange_own {α : Type} (m : Member α) (hm : LawfulM m) (n : Nat)
    (f : Option α → Option α) (r : Nat × Nat) (st : SecState) (h : st.sections.length ≤ n - 1) :
    m.get (applyRange m n f r st).whole =
      (if r = (0, n - 1) then f (m.get st.whole) else m.get st.whole) ∧
    ∀ k, k < n - 1 → ((applyRange m n f r st).sections[k]?).bind m.get =
      if r ≠ (0, n - 1) ∧ r.1 ≤ k ∧ k < r.2 then f ((st.sections[k]?).bind m.get)
      else (st.sections[k]?).bind m.get := by
  have hr : (r.1 = 0 ∧ r.2 = n - 1) ↔ r = (0, n - 1) := by
    obtain ⟨a, b⟩ := r
    simp
  unfold applyRange
  by_cases hw : r = (0, n - 1)
  · rw [if_pos (hr.2 hw), if_pos hw]
    refine ⟨hm.get_set _ _, fun k _ => ?_⟩
    rw [if_neg (by intro hc; exact hc.1 hw)]
  · rw [if_neg (fun hc => hw (hr.1 hc)), if_neg hw]
    refine ⟨rfl, fun k hk => ?_⟩
    simp only
    rw [bind_mapIdx]
    have hg := resize_get m.get hm.empty st.sections (n - 1) k h
    have hl := resize_length st.sections (n - 1) h
    have hk' : k < (resize st.sections (n - 1)).length := by omega
    rw [List.getElem?_eq_getElem hk'] at hg ⊢
    simp only [Option.bind_some] at hg ⊢
    by_cases hin : r.1 ≤ k ∧ k < r.2
    · rw [if_pos hin, if_pos ⟨hw, hin⟩, hm.get_set, hg]
    · rw [if_neg hin, if_neg (fun hc => hin hc.2), hg]

section
variable {α : Type} (m : Member α) (stops : List Stop) (rng : Line → RangeSpec)
  (upd : Line → Nat × Nat → Option α → Option α) (bad : Line → Nat × Nat → Bool)

theorem parseRange_length (lines : List Line) (st st' : SecState)
    (h : parseRange m stops rng upd bad st lines = some st')
    (hl : st.sections.length ≤ stops.length - 1) : st'.sections.length ≤ stops.length - 1 := by
  induction lines generalizing st with
  | nil => cases h; exact hl
  | cons l ls ih =>
    unfold parseRange at h
    split at h
    · cases h
    · exact ih _ h (applyRange_length _ _ _ _ _ hl)

theorem parseRange_ranges (lines : List Line) (st st' : SecState)
    (h : parseRange m stops rng upd bad st lines = some st') :
    ∀ l ∈ lines, ∃ r, rangeOf stops (rng l) = some r := by
  induction lines generalizing st with
  | nil => intro l hl; cases hl
  | cons l ls ih =>
    unfold parseRange at h
    split at h
    · cases h
    · rename_i r hr
      intro q hq
      cases hq with
      | head => exact ⟨r, hr⟩
      | tail _ hq => exact ih _ h q hq

theorem parseRange_keep {β : Type} (g : Sec → Option β) (ho : OtherM m g) (lines : List Line)
    (st st' : SecState) (h : parseRange m stops rng upd bad st lines = some st')
    (hl : st.sections.length ≤ stops.length - 1) :
    g st'.whole = g st.whole ∧ ∀ k : Nat, (st'.sections[k]?).bind g = (st.sections[k]?).bind g := by
  induction lines generalizing st with
  | nil => cases h; exact ⟨rfl, fun _ => rfl⟩
  | cons l ls ih =>
    unfold parseRange at h
    split at h
    · cases h
    · rename_i r hr
      obtain ⟨h1, h2⟩ := ih _ h (applyRange_length _ _ _ _ _ hl)
      obtain ⟨h3, h4⟩ := applyRange_other m g ho stops.length (upd l r) r st hl
      exact ⟨h1.trans h3, fun k => (h2 k).trans (h4 k)⟩

theorem parseRange_own (hm : LawfulM m) (lines : List Line)
    (st st' : SecState) (h : parseRange m stops rng upd bad st lines = some st')
    (hl : st.sections.length ≤ stops.length - 1) :
    m.get st'.whole = lines.foldl (fun o l =>
      if isWhole stops rng l then upd l (rangeD stops rng l) o else o) (m.get st.whole) ∧
    ∀ k, k < stops.length - 1 → (st'.sections[k]?).bind m.get = lines.foldl (fun o l =>
      if isIn stops rng k l then upd l (rangeD stops rng l) o else o) ((st.sections[k]?).bind m.get) := by
  induction lines generalizing st with
  | nil => cases h; exact ⟨rfl, fun _ _ => rfl⟩
  | cons l ls ih =>
    unfold parseRange at h
    split at h
    · cases h
    · rename_i r hr
      have hrd : rangeD stops rng l = r := by unfold rangeD; rw [hr]; rfl
      have hwh : isWhole stops rng l = decide (r = (0, stops.length - 1)) := by
        unfold isWhole; rw [hr]; simp
      obtain ⟨h1, h2⟩ := ih _ h (applyRange_length _ _ _ _ _ hl)
      obtain ⟨h3, h4⟩ := applyRange_own m hm stops.length (upd l r) r st hl
      constructor
      · rw [List.foldl_cons, h1, hwh, hrd]
        simp only [decide_eq_true_eq]
        rw [← h3]
      · intro k hk
        rw [List.foldl_cons, h2 k hk, hrd]
        have hin : (isIn stops rng k l = true) ↔ (r ≠ (0, stops.length - 1) ∧ r.1 ≤ k ∧ k < r.2) := by
          unfold isIn; rw [hwh, hrd]; simp
        have h4' := h4 k hk
        simp only [← hin] at h4'
        rw [← h4']

theorem parseRange_oob (lines : List Line) (st st' : SecState)
    (h : parseRange m stops rng upd bad st lines = some st') (hno : st'.oob = false) :
    st.oob = false ∧ ∀ l ∈ lines, bad l (rangeD stops rng l) = false := by
  induction lines generalizing st with
  | nil => cases h; exact ⟨hno, fun l hl => absurd hl List.not_mem_nil⟩
  | cons l ls ih =>
    unfold parseRange at h
    split at h
    · cases h
    · rename_i r hr
      have hrd : rangeD stops rng l = r := by unfold rangeD; rw [hr]; rfl
      obtain ⟨h1, h2⟩ := ih _ h
      simp only [Bool.or_eq_false_iff] at h1
      refine ⟨?_, ?_⟩
      · have := h1.1
        unfold applyRange at this
        split at this
        · exact this
        · simp only [Bool.or_eq_false_iff] at this
          exact this.1
      · intro q hq
        cases hq with
        | head => rw [hrd]; exact h1.2
        | tail _ hq => exact h2 q hq

end

theorem nil_or_snoc' {α : Type} (l : List α) : l = [] ∨ ∃ l' a, l = l' ++ [a] := by
  induction l using Vdv.snoc_ind with
  | h0 => exact Or.inl rfl
  | h l a _ => exact Or.inr ⟨l, a, rfl⟩

theorem foldl_last {α : Type} (P : Line → Bool) (f : Line → α) (lines : List Line) :
    (lines.foldl (fun o l => if P l then some (f l) else o) none = none ↔ ∀ q ∈ lines, ¬ P q = true) ∧
    ∀ v, lines.foldl (fun o l => if P l then some (f l) else o) none = some v ↔
      ∃ l, Spec.LastWith (fun q => P q = true) lines l ∧ v = f l := by
  induction lines using Vdv.snoc_ind with
  | h0 =>
    refine ⟨⟨fun _ q hq => absurd hq List.not_mem_nil, fun _ => rfl⟩, fun v => ⟨fun h => (by cases h), ?_⟩⟩
    rintro ⟨l, ⟨pre, post, he, _⟩, _⟩
    simp at he
  | h ls a ih =>
    obtain ⟨ih1, ih2⟩ := ih
    rw [List.foldl_append]
    simp only [List.foldl_cons, List.foldl_nil]
    by_cases hp : P a = true
    · rw [if_pos hp]
      refine ⟨⟨fun h => (by cases h), fun h => absurd hp (h a (by simp))⟩, fun v => ⟨?_, ?_⟩⟩
      · intro h
        cases h
        exact ⟨a, ⟨ls, [], rfl, hp, fun q hq => absurd hq List.not_mem_nil⟩, rfl⟩
      · rintro ⟨l, ⟨pre, post, he, _, hn⟩, rfl⟩
        rcases nil_or_snoc' post with rfl | ⟨post', b, rfl⟩
        · have := List.append_inj_right' he rfl
          cases this
          rfl
        · have he' : ls ++ [a] = (pre ++ l :: post') ++ [b] := by rw [he]; simp
          have := List.append_inj_right' he' rfl
          cases this
          exact absurd hp (hn a (by simp))
    · rw [if_neg hp]
      refine ⟨?_, fun v => ?_⟩
      · rw [ih1]
        constructor
        · intro h q hq
          rcases List.mem_append.1 hq with hq | hq
          · exact h q hq
          · rw [List.mem_singleton.1 hq]; exact hp
        · intro h q hq
          exact h q (by simp [hq])
      · rw [ih2]
        constructor
        · rintro ⟨l, ⟨pre, post, he, h1, hn⟩, rfl⟩
          refine ⟨l, ⟨pre, post ++ [a], by rw [he]; simp, h1, ?_⟩, rfl⟩
          intro q hq
          rcases List.mem_append.1 hq with hq | hq
          · exact hn q hq
          · rw [List.mem_singleton.1 hq]; exact hp
        · rintro ⟨l, ⟨pre, post, he, h1, hn⟩, rfl⟩
          rcases nil_or_snoc' post with rfl | ⟨post', b, rfl⟩
          · have := List.append_inj_right' he rfl
            cases this
            exact absurd h1 hp
          · have he' : ls ++ [a] = (pre ++ l :: post') ++ [b] := by rw [he]; simp
            have h2 := List.append_inj_left' he' rfl
            refine ⟨l, ⟨pre, post', h2, h1, fun q hq => hn q (by simp [hq])⟩, rfl⟩

theorem foldl_all {α : Type} (P : Line → Bool) (f : Line → α) (lines : List Line) (o : Option (List α)) :
    (lines.foldl (fun o l => if P l then some (o.getD [] ++ [f l]) else o) o).getD [] =
      o.getD [] ++ (lines.filter P).map f := by
  induction lines generalizing o with
  | nil => simp
  | cons a l ih =>
    rw [List.foldl_cons, ih]
    by_cases hp : P a = true
    · rw [if_pos hp, List.filter_cons_of_pos hp]; simp
    · rw [if_neg hp, List.filter_cons_of_neg hp]

end Nigiri.HrdParse
