import Verif.Spec.Journey
/-!
# Soundness of the round based search (proofs)
-/

namespace Nigiri.Raptor

theorem clamp_of_lt {P : Problem} {x : Int} (h : P.lo ≤ x) (hc : P.clamp x < P.hi) : P.clamp x = x := by
  unfold Problem.clamp at *; omega

theorem clamp_le_hi {P : Problem} (hl : P.lo < P.hi) (x : Int) : P.clamp x ≤ P.hi := by
  unfold Problem.clamp; omega

theorem le_clamp_hi {P : Problem} {x : Int} (hl : P.lo < P.hi) (h : P.hi ≤ P.clamp x) : P.hi ≤ x := by
  unfold Problem.clamp at h; omega

/-- Ready with at most `k` rides. -/
def Rdy (P : Problem) (st : List (Loc × Int)) (k : Nat) (l : Loc) (t : Int) : Prop :=
  ∃ j, (j ≤ k ∧ (1 ≤ k → 1 ≤ j)) ∧ Ready P st j l t

/-- Alighted after at most `k` rides (at least one). -/
def Alt (P : Problem) (st : List (Loc × Int)) (k : Nat) (m : Loc) (a : Int) : Prop :=
  ∃ j l t, j + 1 ≤ k ∧ Ready P st j l t ∧ Ride P l t m a

theorem rideOn_le {stops : List Stop} {board alight : Nat → Int} {l : Loc} {t : Int} {m : Loc} {a : Int}
    (h : RideOn stops board alight l t m a)
    (hm : ∀ i j, i < j → j < stops.length → board i ≤ alight j) : t ≤ a := by
  obtain ⟨i, j, si, sj, hij, hi, hj, -, -, -, -, -, ht, rfl⟩ := h
  have : j < stops.length := by rw [List.getElem?_eq_some_iff] at hj; exact hj.1
  exact Int.le_trans ht (hm i j hij this)

theorem ride_le {P : Problem} (hs : Sane P) {l : Loc} {t : Int} {m : Loc} {a : Int} (h : Ride P l t m a) : t ≤ a := by
  rcases h with ⟨r, hr, -, tr, hact, h⟩ | ⟨r, hr, -, h⟩
  · exact rideOn_le h (hs.tripMono r hr tr hact)
  · exact rideOn_le h (hs.rtMono r hr)

theorem change_le {P : Problem} (hs : Sane P) {m : Loc} {a : Int} {l' : Loc} {t' : Int} (h : Change P m a l' t') : a ≤ t' := by
  rcases h with ⟨-, rfl⟩ | ⟨d, hd, rfl⟩ | ⟨-, -, d, hd, rfl⟩
  · have := hs.transfer m
    split <;> omega
  · have := hs.fps m a l' d hd; omega
  · rcases hd with h | h
    · have := hs.endDist m d h; omega
    · have := hs.endTd m a d h; omega

theorem ready_ge {P : Problem} (hs : Sane P) {st : List (Loc × Int)} {b : Int} (hst : ∀ x ∈ st, b ≤ x.2)
    {k : Nat} {l : Loc} {t : Int} (h : Ready P st k l t) : b ≤ t := by
  induction h with
  | start h => exact hst _ h
  | ride h1 h2 h3 ih => exact Int.le_trans ih (Int.le_trans (ride_le hs h2) (change_le hs h3))

theorem ready_gt {P : Problem} (hs : Sane P) {st : List (Loc × Int)} {b : Int} (hst : ∀ x ∈ st, b < x.2)
    {k : Nat} {l : Loc} {t : Int} (h : Ready P st k l t) : b < t :=
  ready_ge (b := b + 1) hs (fun x hx => hst x hx) h

theorem ready_mono {P : Problem} {st st' : List (Loc × Int)} (h : ∀ x ∈ st, x ∈ st') {k : Nat} {l : Loc} {t : Int}
    (hr : Ready P st k l t) : Ready P st' k l t := by
  induction hr with
  | start h' => exact .start (h _ h')
  | ride h1 h2 h3 ih => exact .ride ih h2 h3

/-- Soundness of the tentative arrivals during a scan. -/
def ScanOk (P : Problem) (st : List (Loc × Int)) (k : Nat) (sc : Scan) : Prop :=
  ∀ l, sc.tmp l ≤ P.hi ∧ (sc.tmp l < P.hi → Alt P st k l (sc.tmp l))

theorem alightAt_ok {P : Problem} {st : List (Loc × Int)} {k : Nat} {sc : Scan} (h : ScanOk P st k sc) (tad : Int)
    (w : Loc → Int → Bool) (l : Loc) (t : Int) (ht : t ≤ P.hi) (ha : t < P.hi → Alt P st k l t) : ScanOk P st k (alightAt P tad w l t sc) := by
  unfold alightAt
  split
  · intro l'
    simp only [upd]
    split
    · rename_i hl
      subst hl
      have := h l'
      constructor
      · omega
      · intro hlt
        by_cases hc : t ≤ sc.tmp l'
        · rw [Int.min_eq_left hc]; exact ha (by omega)
        · rw [Int.min_eq_right (by omega)]; exact this.2 (by omega)
    · exact h l'
  · exact h

/-- The trip the scan sits on was boarded properly at an earlier stop. -/
private def EtOk (P : Problem) (st : List (Loc × Int)) (k : Nat) (r : Route) (i : Nat) (et : Option Run) : Prop :=
  ∀ tr, et = some tr → r.active tr ∧ ∃ (i0 : Nat) (s0 : Stop) (p : Int), i0 < i ∧ r.stops[i0]? = some s0 ∧ s0.canBoard = true ∧
    Rdy P st k s0.loc p ∧ p ≤ r.board tr i0 ∧
    ∀ (x : Nat) (s : Stop), i0 < x → x < i → r.stops[x]? = some s → s.secOk = true

theorem scanRoute_ok {P : Problem} (hs : Sane P) {st : List (Loc × Int)} (hst : ∀ x ∈ st, P.lo < x.2) (k : Nat)
    (r : Route) (hr : r ∈ P.routes) (hal : r.allowed = true) (rk best : Loc → Int) (tad : Int) (w : Loc → Int → Bool) (prev : Loc → Bool)
    (hrk : ∀ l, rk l ≤ P.hi ∧ (rk l < P.hi → Rdy P st k l (rk l)))
    (rest : List Stop) (i : Nat) (hsuf : ∀ x, r.stops[i + x]? = rest[x]?) (et : Option Run)
    (het : EtOk P st k r i et) (sc : Scan) (hsc : ScanOk P st (k + 1) sc) :
    ScanOk P st (k + 1) (scanRoute P r rk best tad w prev rest i et sc) := by
  induction rest generalizing i et sc with
  | nil => exact hsc
  | cons s rest ih =>
    have hsi : r.stops[i]? = some s := by have := hsuf 0; simpa using this
    have hsuf' : ∀ x, r.stops[i + 1 + x]? = rest[x]? := by
      intro x
      have := hsuf (x + 1)
      rw [show i + (x + 1) = i + 1 + x by omega] at this
      simpa using this
    -- the filtered trip
    have hetf : ∀ tr, filterEt i s none et = some tr → r.active tr ∧ ∃ (i0 : Nat) (s0 : Stop) (p : Int), i0 < i ∧ r.stops[i0]? = some s0 ∧
        s0.canBoard = true ∧ Rdy P st k s0.loc p ∧ p ≤ r.board tr i0 ∧
        ∀ (x : Nat) (s : Stop), i0 < x → x ≤ i → r.stops[x]? = some s → s.secOk = true := by
      intro tr htr
      unfold filterEt at htr
      split at htr
      · simp at htr
      · rename_i hf
        obtain ⟨h1, i0, s0, p, h2, h3, h4, h5, h6, h7⟩ := het tr htr
        refine ⟨h1, i0, s0, p, h2, h3, h4, h5, h6, ?_⟩
        intro x s' hx1 hx2 hx3
        by_cases hxi : x = i
        · subst hxi
          rw [hsi] at hx3
          simp at hx3; subst hx3
          simp at hf
          exact hf (by omega)
        · exact h7 x s' hx1 (by omega) hx3
    have hetNext : EtOk P st k r (i + 1) (filterEt i s none et) := by
      intro tr htr
      obtain ⟨h1, i0, s0, p, h2, h3, h4, h5, h6, h7⟩ := hetf tr htr
      exact ⟨h1, i0, s0, p, by omega, h3, h4, h5, h6, fun x s' a b c => h7 x s' a (by omega) c⟩
    -- arrivals
    have harr : ScanOk P st (k + 1) (arrive P r rk best tad w i s (filterEt i s none et) sc).1 := by
      unfold arrive
      cases hf : filterEt i s none et with
      | none => exact hsc
      | some tr =>
        simp only
        split
        · rename_i hca
          split
          · apply alightAt_ok hsc
            · exact clamp_le_hi hs.lohi _
            · intro hlt
              obtain ⟨h1, i0, s0, p, h2, h3, h4, ⟨j, hj, hrdy⟩, h6, h7⟩ := hetf tr hf
              have hilen : i < r.stops.length := by rw [List.getElem?_eq_some_iff] at hsi; exact hsi.1
              have hp := ready_gt hs hst hrdy
              have hge : P.lo ≤ r.alight tr i :=
                Int.le_trans (Int.le_of_lt hp) (Int.le_trans h6 (hs.tripMono r hr tr h1 i0 i h2 hilen))
              rw [clamp_of_lt hge hlt]
              exact ⟨j, s0.loc, p, by omega, hrdy, Or.inl ⟨r, hr, hal, tr, h1, i0, i, s0, s, h2, h3, hsi, rfl, rfl, h4, hca, h7, h6, rfl⟩⟩
          · exact hsc
        · exact hsc
    unfold scanRoute
    simp only
    split
    · exact ih (i + 1) hsuf' _ hetNext _ harr
    · rename_i hcond
      cases hlb : P.lb s.loc with
      | none => exact harr
      | some x =>
        simp only
        refine ih (i + 1) hsuf' _ ?_ _ harr
        unfold boardAt
        simp only
        split
        · rename_i hp
          cases hnew : r.et i (rk s.loc) (tad - x) with
          | none => exact hetNext
          | some new =>
            simp only
            split
            · intro tr htr
              simp at htr; subst htr
              obtain ⟨g1, g2⟩ := hs.etSound r hr _ _ _ _ hnew
              have hcb : s.canBoard = true := by
                simp at hcond; exact hcond.1.2
              have hk := hrk s.loc
              refine ⟨g1, i, s, rk s.loc, by omega, hsi, hcb, hk.2 (by omega), g2, ?_⟩
              intro x' s' a b; omega
            · exact hetNext
        · exact hetNext

theorem scanRt_ok {P : Problem} (hs : Sane P) {st : List (Loc × Int)} (hst : ∀ x ∈ st, P.lo < x.2) (k : Nat)
    (r : RtTransport) (hr : r ∈ P.rts) (hal : r.allowed = true) (rk : Loc → Int) (tad : Int) (w : Loc → Int → Bool) (prev : Loc → Bool)
    (hrk : ∀ l, rk l ≤ P.hi ∧ (rk l < P.hi → Rdy P st k l (rk l)))
    (rest : List Stop) (i : Nat) (hsuf : ∀ x, r.stops[i + x]? = rest[x]?) (et : Bool)
    (het : et = true → (∃ (i0 : Nat) (s0 : Stop) (p : Int), i0 < i ∧ r.stops[i0]? = some s0 ∧ s0.canBoard = true ∧
      Rdy P st k s0.loc p ∧ p ≤ r.board i0 ∧
      ∀ (x : Nat) (s : Stop), i0 < x → x < i → r.stops[x]? = some s → s.secOk = true) ∨
      (∃ i0, i0 < i ∧ P.hi ≤ r.board i0))
    (sc : Scan) (hsc : ScanOk P st (k + 1) sc) :
    ScanOk P st (k + 1) (scanRt P r rk tad w prev rest i et sc) := by
  induction rest generalizing i et sc with
  | nil => exact hsc
  | cons s rest ih =>
    have hsi : r.stops[i]? = some s := by have := hsuf 0; simpa using this
    have hilen : i < r.stops.length := by rw [List.getElem?_eq_some_iff] at hsi; exact hsi.1
    have hsuf' : ∀ x, r.stops[i + 1 + x]? = rest[x]? := by
      intro x
      have := hsuf (x + 1)
      rw [show i + (x + 1) = i + 1 + x by omega] at this
      simpa using this
    have hetf : filterEt i s false et = true → (∃ (i0 : Nat) (s0 : Stop) (p : Int), i0 < i ∧ r.stops[i0]? = some s0 ∧ s0.canBoard = true ∧
        Rdy P st k s0.loc p ∧ p ≤ r.board i0 ∧
        ∀ (x : Nat) (s : Stop), i0 < x → x ≤ i → r.stops[x]? = some s → s.secOk = true) ∨
        (∃ i0, i0 < i ∧ P.hi ≤ r.board i0) := by
      intro htr
      unfold filterEt at htr
      split at htr
      · simp at htr
      · rename_i hf
        rcases het htr with ⟨i0, s0, p, h2, h3, h4, h5, h6, h7⟩ | h
        · left
          refine ⟨i0, s0, p, h2, h3, h4, h5, h6, ?_⟩
          intro x s' hx1 hx2 hx3
          by_cases hxi : x = i
          · subst hxi
            rw [hsi] at hx3
            simp at hx3; subst hx3
            simp at hf
            exact hf (by omega)
          · exact h7 x s' hx1 (by omega) hx3
        · right; exact h
    have hetNext : filterEt i s false et = true → (∃ (i0 : Nat) (s0 : Stop) (p : Int), i0 < i + 1 ∧ r.stops[i0]? = some s0 ∧ s0.canBoard = true ∧
        Rdy P st k s0.loc p ∧ p ≤ r.board i0 ∧
        ∀ (x : Nat) (s : Stop), i0 < x → x < i + 1 → r.stops[x]? = some s → s.secOk = true) ∨
        (∃ i0, i0 < i + 1 ∧ P.hi ≤ r.board i0) := by
      intro h
      rcases hetf h with ⟨i0, s0, p, h2, h3, h4, h5, h6, h7⟩ | ⟨i0, h1, h2⟩
      · left; exact ⟨i0, s0, p, by omega, h3, h4, h5, h6, fun x s' a b c => h7 x s' a (by omega) c⟩
      · right; exact ⟨i0, by omega, h2⟩
    have harr : ScanOk P st (k + 1) (if i ≠ 0 && filterEt i s false et && s.canAlight then
        alightAt P tad w s.loc (P.clamp (r.alight i)) sc else sc) := by
      split
      · rename_i hc
        simp only [Bool.and_eq_true] at hc
        apply alightAt_ok hsc
        · exact clamp_le_hi hs.lohi _
        · intro hlt
          rcases hetf hc.1.2 with ⟨i0, s0, p, h2, h3, h4, ⟨j, hj, hrdy⟩, h6, h7⟩ | ⟨i0, h1, h2⟩
          · have hp := ready_gt hs hst hrdy
            have hge : P.lo ≤ r.alight i := Int.le_trans (Int.le_of_lt hp) (Int.le_trans h6 (hs.rtMono r hr i0 i h2 hilen))
            rw [clamp_of_lt hge hlt]
            exact ⟨j, s0.loc, p, by omega, hrdy, Or.inr ⟨r, hr, hal, i0, i, s0, s, h2, h3, hsi, rfl, rfl, h4, hc.2, h7, h6, rfl⟩⟩
          · exfalso
            have := hs.rtMono r hr i0 i h1 hilen
            unfold Problem.clamp at hlt; omega
      · exact hsc
    unfold scanRt
    simp only
    cases hlb : P.lb s.loc with
    | none => exact harr
    | some x =>
      simp only
      split
      · exact ih (i + 1) hsuf' _ hetNext _ harr
      · rename_i hcond
        refine ih (i + 1) hsuf' _ ?_ _ harr
        intro h
        rw [Bool.or_eq_true] at h
        rcases h with h | h
        · exact hetNext h
        · simp only [decide_eq_true_eq] at h
          have hk := hrk s.loc
          have hcb : s.canBoard = true := by
            simp at hcond; exact hcond.1.2
          by_cases hp : rk s.loc < P.hi
          · left
            refine ⟨i, s, rk s.loc, by omega, hsi, hcb, hk.2 hp, ?_, ?_⟩
            · obtain ⟨j, -, hrdy⟩ := hk.2 hp
              have := ready_gt hs hst hrdy
              unfold Problem.clamp at h; have := hs.lohi; omega
            · intro x' s' a b; omega
          · right
            refine ⟨i, by omega, ?_⟩
            have h1 := hs.lohi
            have h2 := hk.1
            exact le_clamp_hi h1 (Int.le_trans (Int.not_lt.mp hp) h)

/-- Soundness of a state whose tentative arrivals have at most `k` rides. -/
structure SoundSt (P : Problem) (st : List (Loc × Int)) (k : Nat) (S : State) : Prop where
  round : ∀ k' l, S.round k' l ≤ P.hi ∧ (S.round k' l < P.hi → Rdy P st k' l (S.round k' l))
  tmp : ∀ l, S.tmp l ≤ P.hi ∧ (S.tmp l < P.hi → Alt P st k l (S.tmp l))

theorem alt_mono {P : Problem} {st : List (Loc × Int)} {k k' : Nat} (h : k ≤ k') {m : Loc} {a : Int} (ha : Alt P st k m a) :
    Alt P st k' m a := by
  obtain ⟨j, l, t, h1, h2⟩ := ha
  exact ⟨j, l, t, by omega, h2⟩

theorem alt_change {P : Problem} {st : List (Loc × Int)} {k : Nat} {m : Loc} {a : Int} {l' : Loc} {t' : Int}
    (ha : Alt P st k m a) (hc : Change P m a l' t') : Rdy P st k l' t' := by
  obtain ⟨j, l, t, h1, h2, h3⟩ := ha
  exact ⟨j + 1, ⟨h1, by omega⟩, .ride h2 h3 hc⟩

theorem alt_ge {P : Problem} (hs : Sane P) {st : List (Loc × Int)} (hst : ∀ x ∈ st, P.lo < x.2) {k : Nat} {m : Loc} {a : Int}
    (ha : Alt P st k m a) : P.lo < a := by
  obtain ⟨j, l, t, -, h2, h3⟩ := ha
  exact Int.lt_of_lt_of_le (ready_gt hs hst h2) (ride_le hs h3)

theorem sound_updRound {P : Problem} {st : List (Loc × Int)} {k : Nat} {S : State} (h : SoundSt P st k S) (l : Loc) (v : Int)
    (hv : v ≤ P.hi ∧ (v < P.hi → Rdy P st k l v)) :
    ∀ k' l', updRound S.round k l v k' l' ≤ P.hi ∧ (updRound S.round k l v k' l' < P.hi → Rdy P st k' l' (updRound S.round k l v k' l')) := by
  intro k' l'
  unfold updRound
  split
  · rename_i hc; obtain ⟨rfl, rfl⟩ := hc; exact hv
  · exact h.round k' l'

theorem applyUpd_ok {P : Problem} {st : List (Loc × Int)} {k : Nat} {S : State} (h : SoundSt P st k S) (l : Loc) (t : Int)
    (ht : t ≤ P.hi) (hr : t < P.hi → Rdy P st k l t) : SoundSt P st k (applyUpd P k S l t) := by
  unfold applyUpd
  split
  · split
    · exact ⟨sound_updRound h l t ⟨ht, hr⟩, h.tmp⟩
    · split
      · refine ⟨sound_updRound h l _ ?_, h.tmp⟩
        have := h.round k l
        constructor
        · omega
        · intro hlt
          by_cases hc : t ≤ S.round k l
          · rw [Int.min_eq_left hc]; exact hr (by omega)
          · rw [Int.min_eq_right (by omega)]; exact this.2 (by omega)
      · exact h
  · exact h

theorem applyUpd_tmp (P : Problem) (k : Nat) (S : State) (l : Loc) (t : Int) : (applyUpd P k S l t).tmp = S.tmp := by
  unfold applyUpd; split
  · split
    · rfl
    · split <;> rfl
  · rfl

theorem applyEnd_ok {P : Problem} {st : List (Loc × Int)} {k : Nat} {S : State} (h : SoundSt P st k S) (t : Int)
    (ht : t ≤ P.hi) (hr : t < P.hi → Rdy P st k P.endLoc t) : SoundSt P st k (applyEnd P k S t) := by
  unfold applyEnd
  split
  · exact ⟨sound_updRound h P.endLoc t ⟨ht, hr⟩, h.tmp⟩
  · exact h

theorem applyEndTd_ok {P : Problem} {st : List (Loc × Int)} {k : Nat} {S : State} (h : SoundSt P st k S) (t : Int)
    (ht : t ≤ P.hi) (hr : t < P.hi → Rdy P st k P.endLoc t) : SoundSt P st k (applyEndTd P k S t) := by
  unfold applyEndTd
  split
  · exact ⟨sound_updRound h P.endLoc t ⟨ht, hr⟩, h.tmp⟩
  · exact h

/-- A candidate derived from a tentative arrival is sound. -/
theorem cand_ok {P : Problem} (hs : Sane P) {st : List (Loc × Int)} (hst : ∀ x ∈ st, P.lo < x.2) {k : Nat} {S : State}
    (h : SoundSt P st k S) (i : Loc) (hi : S.tmp i ≠ P.hi) (l' : Loc) (d : Int) (hd : 0 ≤ d)
    (hc : Change P i (S.tmp i) l' (S.tmp i + d)) :
    P.clamp (S.tmp i + d) ≤ P.hi ∧ (P.clamp (S.tmp i + d) < P.hi → Rdy P st k l' (P.clamp (S.tmp i + d))) := by
  refine ⟨clamp_le_hi hs.lohi _, ?_⟩
  intro hlt
  have ht := h.tmp i
  have ha := ht.2 (by omega)
  have := alt_ge hs hst ha
  rw [clamp_of_lt (by omega) hlt]
  exact alt_change ha hc

theorem transferAt_ok {P : Problem} (hs : Sane P) {st : List (Loc × Int)} (hst : ∀ x ∈ st, P.lo < x.2) {k : Nat} {S : State}
    (h : SoundSt P st k S) (i : Loc) : SoundSt P st k (transferAt P k S i) := by
  unfold transferAt
  split
  · exact h
  · rename_i hi
    have hd : 0 ≤ transferTime P i := by
      unfold transferTime; have := hs.transfer i; split <;> omega
    have := cand_ok hs hst h i hi i (transferTime P i) hd (Or.inl ⟨rfl, by
      unfold transferTime
      congr 1
      by_cases h1 : P.intermodal = false <;> by_cases h2 : P.isDest i = true <;> simp [h1, h2]⟩)
    exact applyUpd_ok h i _ this.1 this.2

theorem endAt_ok {P : Problem} (hs : Sane P) {st : List (Loc × Int)} (hst : ∀ x ∈ st, P.lo < x.2) {k : Nat} {S : State}
    (him : P.intermodal = true) (h : SoundSt P st k S) (i : Loc) : SoundSt P st k (endAt P k S i) := by
  unfold endAt
  split
  · exact h
  · rename_i hi
    have h1 : SoundSt P st k (match P.endDist i with
      | some d => applyEnd P k S (P.clamp (S.tmp i + d))
      | none => S) := by
      cases hd : P.endDist i with
      | none => exact h
      | some d =>
        have := cand_ok hs hst h i hi P.endLoc d (hs.endDist i d hd) (Or.inr (Or.inr ⟨him, rfl, d, Or.inl hd, rfl⟩))
        exact applyEnd_ok h _ this.1 this.2
    simp only
    cases hd : P.endTd i (S.tmp i) with
    | none => exact h1
    | some d =>
      have := cand_ok hs hst h i hi P.endLoc d (hs.endTd i _ d hd) (Or.inr (Or.inr ⟨him, rfl, d, Or.inr hd, rfl⟩))
      exact applyEndTd_ok h1 _ this.1 this.2

theorem footpathsAt_ok {P : Problem} (hs : Sane P) {st : List (Loc × Int)} (hst : ∀ x ∈ st, P.lo < x.2) {k : Nat} {S : State}
    (h : SoundSt P st k S) (i : Loc) : SoundSt P st k (footpathsAt P k S i) := by
  unfold footpathsAt
  split
  · exact h
  · rename_i hi
    suffices H : ∀ (fs : List (Loc × Int)) (S' : State), (∀ f ∈ fs, f ∈ P.fps i (S.tmp i)) → S'.tmp = S.tmp → SoundSt P st k S' →
        SoundSt P st k (fs.foldl (fun S fp => applyUpd P k S fp.1 (P.clamp (S.tmp i + fp.2))) S') from
      H _ S (fun _ hf => hf) rfl h
    intro fs
    induction fs with
    | nil => intro S' _ _ h'; exact h'
    | cons f fs ih =>
      intro S' hf htmp h'
      simp only [List.foldl_cons]
      refine ih _ (fun g hg => hf g (by simp [hg])) (by rw [applyUpd_tmp, htmp]) ?_
      have hmem := hf f (by simp)
      have := cand_ok hs hst h' i (by rw [htmp]; exact hi) f.1 f.2 (hs.fps i _ f.1 f.2 hmem)
        (Or.inr (Or.inl ⟨f.2, by rw [htmp]; exact hmem, rfl⟩))
      exact applyUpd_ok h' f.1 _ this.1 this.2

theorem foldl_inv {α β : Type} (Q : β → Prop) (f : β → α → β) (l : List α) (b : β) (hb : Q b)
    (hf : ∀ b a, a ∈ l → Q b → Q (f b a)) : Q (l.foldl f b) := by
  induction l generalizing b with
  | nil => exact hb
  | cons a l ih => exact ih (f b a) (hf b a (by simp) hb) (fun b a' ha' => hf b a' (by simp [ha']))

theorem scanAll_ok {P : Problem} (hs : Sane P) {st : List (Loc × Int)} (hst : ∀ x ∈ st, P.lo < x.2) {k : Nat} {S : State}
    (h : SoundSt P st k S) (best : Loc → Int) (tad : Nat → Int) : ScanOk P st (k + 1) (scanAll P (k + 1) S best tad) := by
  unfold scanAll
  simp only [Nat.add_sub_cancel]
  apply foldl_inv
  · apply foldl_inv
    · intro l
      exact ⟨(h.tmp l).1, fun hl => alt_mono (by omega) ((h.tmp l).2 hl)⟩
    · intro sc r hr hsc
      rw [List.mem_filter, Bool.and_eq_true] at hr
      exact scanRoute_ok hs hst k r hr.1 hr.2.2 _ _ _ _ _ (h.round k) _ 0 (by simp) none (by intro tr h; simp at h) sc hsc
  · intro sc r hr hsc
    rw [List.mem_filter, Bool.and_eq_true] at hr
    exact scanRt_ok hs hst k r hr.1 hr.2.2 _ _ _ _ (h.round k) _ 0 (by simp) false (by intro h; simp at h) sc hsc

theorem roundStep_ok {P : Problem} (hs : Sane P) {st : List (Loc × Int)} (hst : ∀ x ∈ st, P.lo < x.2) {k : Nat} {S : State}
    (h : SoundSt P st k S) : SoundSt P st (k + 1) (roundStep P (k + 1) S) := by
  unfold roundStep
  simp only
  split
  · exact ⟨h.round, fun l => ⟨(h.tmp l).1, fun hl => alt_mono (by omega) ((h.tmp l).2 hl)⟩⟩
  · have hsc := scanAll_ok hs hst h (fun i => min (S.round (k + 1) i) (S.best i))
      (tadOfBest P (k + 1) (fun i => min (S.round (k + 1) i) (S.best i)) S.tad)
    apply foldl_inv
    · split
      · apply foldl_inv
        · apply foldl_inv
          · exact ⟨h.round, hsc⟩
          · intro S' i _ h'; exact transferAt_ok hs hst h' i
        · intro S' i _ h'
          exact endAt_ok hs hst (by assumption) h' i
      · apply foldl_inv
        · exact ⟨h.round, hsc⟩
        · intro S' i _ h'; exact transferAt_ok hs hst h' i
    · intro S' i _ h'; exact footpathsAt_ok hs hst h' i

theorem rounds_ok {P : Problem} (hs : Sane P) {st : List (Loc × Int)} (hst : ∀ x ∈ st, P.lo < x.2) {S : State}
    (h : SoundSt P st 0 S) (n : Nat) : SoundSt P st n (rounds P S n) := by
  induction n with
  | zero => exact h
  | succ n ih =>
    unfold rounds
    simp only
    split
    · exact ⟨ih.round, fun l => ⟨(ih.tmp l).1, fun hl => alt_mono (by omega) ((ih.tmp l).2 hl)⟩⟩
    · exact roundStep_ok hs hst ih

theorem rdy_mono {P : Problem} {st st' : List (Loc × Int)} (h : ∀ x ∈ st, x ∈ st') {k : Nat} {l : Loc} {t : Int}
    (hr : Rdy P st k l t) : Rdy P st' k l t := by
  obtain ⟨j, h1, h2⟩ := hr; exact ⟨j, h1, ready_mono h h2⟩

theorem runOne_ok {P : Problem} (hs : Sane P) {st : List (Loc × Int)} (hst : ∀ x ∈ st, P.lo < x.2) {S : State} (n : Nat)
    (h : ∀ k' l, S.round k' l ≤ P.hi ∧ (S.round k' l < P.hi → Rdy P st k' l (S.round k' l)))
    (q : Start) (hq : ∀ x ∈ q.starts, x ∈ st) (hqhi : ∀ x ∈ q.starts, x.2 ≤ P.hi) :
    SoundSt P st n (runOne P n S q) := by
  unfold runOne
  apply rounds_ok hs hst
  have h0 : SoundSt P st 0 (nextStart P S) := ⟨h, by intro l; simp [nextStart]⟩
  have h1 : SoundSt P st 0 (q.starts.foldl addStart (nextStart P S)) := by
    apply foldl_inv
    · exact h0
    · intro S' x hx h'
      refine ⟨?_, h'.tmp⟩
      have hr := h'.round 0 x.1
      apply sound_updRound h' x.1
      have := hqhi x hx
      constructor
      · omega
      · intro hlt
        by_cases hc : x.2 ≤ S'.round 0 x.1
        · rw [Int.min_eq_left hc]; exact ⟨0, ⟨Nat.le_refl _, by omega⟩, .start (hq x hx)⟩
        · rw [Int.min_eq_right (by omega)]; exact hr.2 (by omega)
  exact ⟨h1.round, h1.tmp⟩

theorem runAll_ok {P : Problem} (hs : Sane P) (n : Nat) (qs : List Start)
    (hlo : ∀ x ∈ allStarts qs, P.lo < x.2 ∧ x.2 ≤ P.hi) (k : Nat) (l : Loc) :
    (runAll P n qs).round k l ≤ P.hi ∧
      ((runAll P n qs).round k l < P.hi → Rdy P (allStarts qs) k l ((runAll P n qs).round k l)) := by
  unfold runAll
  suffices H : ∀ (done todo : List Start), done ++ todo = qs → ∀ S : State,
      (∀ k' l, S.round k' l ≤ P.hi ∧ (S.round k' l < P.hi → Rdy P (allStarts qs) k' l (S.round k' l))) →
      ∀ k l, (todo.foldl (runOne P n) S).round k l ≤ P.hi ∧ ((todo.foldl (runOne P n) S).round k l < P.hi →
        Rdy P (allStarts qs) k l ((todo.foldl (runOne P n) S).round k l)) from
    H [] qs rfl (init P) (by intro k' l; simp [init]) k l
  intro done todo
  induction todo generalizing done with
  | nil => intro _ S hS; exact hS
  | cons q todo ih =>
    intro he S hS
    simp only [List.foldl_cons]
    have hqs : ∀ x ∈ q.starts, x ∈ allStarts qs := by
      intro x hx
      unfold allStarts; rw [List.mem_flatMap]
      exact ⟨q, by rw [← he]; simp, hx⟩
    have := runOne_ok hs (fun x hx => (hlo x hx).1) n hS q hqs (fun x hx => (hlo x (hqs x hx)).2)
    exact ih (done ++ [q]) (by simp [← he]) _ this.round

end Nigiri.Raptor
