import Verif.Proofs.RaptorSound
/-!
# Completeness of the route scans (proofs)
-/

namespace Nigiri.Raptor

theorem lbOk_iff (lb : Option Int) (t tad : Int) : lbOk lb t tad = true ↔ t ≤ tad ∧ ∃ x, lb = some x ∧ t + x ≤ tad := by
  unfold lbOk
  cases lb <;> simp

theorem lbOk_anti {lb : Option Int} {t t' tad tad' : Int} (h : lbOk lb t tad = true) (ht : t' ≤ t) (hd : tad ≤ tad') :
    lbOk lb t' tad' = true := by
  rw [lbOk_iff] at *
  obtain ⟨h1, x, h2, h3⟩ := h
  exact ⟨by omega, x, h2, by omega⟩

/-- Scans only add information. -/
def ScanLe (a b : Scan) : Prop := (∀ l, b.tmp l ≤ a.tmp l) ∧ (∀ l, a.mark l = true → b.mark l = true)

theorem ScanLe.refl (a : Scan) : ScanLe a a := ⟨fun _ => Int.le_refl _, fun _ h => h⟩

theorem ScanLe.trans {a b c : Scan} (h1 : ScanLe a b) (h2 : ScanLe b c) : ScanLe a c :=
  ⟨fun l => Int.le_trans (h2.1 l) (h1.1 l), fun l h => h2.2 l (h1.2 l h)⟩

theorem alightAt_le (P : Problem) (tad : Int) (w : Loc → Int → Bool) (l : Loc) (t : Int) (sc : Scan) : ScanLe sc (alightAt P tad w l t sc) := by
  unfold alightAt
  split
  · constructor
    · intro l'; simp only [upd]; split
      · rename_i h; subst h; omega
      · omega
    · intro l' h; simp only [upd]; split <;> simp_all
  · exact .refl _

theorem arrive_le (P : Problem) (r : Route) (rk best : Loc → Int) (tad : Int) (w : Loc → Int → Bool) (i : Nat) (s : Stop) (et : Option Run)
    (sc : Scan) : ScanLe sc (arrive P r rk best tad w i s et sc).1 := by
  unfold arrive
  cases et with
  | none => exact .refl _
  | some tr =>
    simp only
    split
    · split
      · exact alightAt_le _ _ _ _ _ _
      · exact .refl _
    · exact .refl _

theorem scanRoute_le (P : Problem) (r : Route) (rk best : Loc → Int) (tad : Int) (w : Loc → Int → Bool) (prev : Loc → Bool) (rest : List Stop)
    (i : Nat) (et : Option Run) (sc : Scan) : ScanLe sc (scanRoute P r rk best tad w prev rest i et sc) := by
  induction rest generalizing i et sc with
  | nil => exact .refl _
  | cons s rest ih =>
    unfold scanRoute
    simp only
    have ha := arrive_le P r rk best tad w i s (filterEt i s none et) sc
    split
    · exact ha.trans (ih _ _ _)
    · split
      · exact ha
      · exact ha.trans (ih _ _ _)

theorem scanRt_le (P : Problem) (r : RtTransport) (rk : Loc → Int) (tad : Int) (w : Loc → Int → Bool) (prev : Loc → Bool) (rest : List Stop)
    (i : Nat) (et : Bool) (sc : Scan) : ScanLe sc (scanRt P r rk tad w prev rest i et sc) := by
  induction rest generalizing i et sc with
  | nil => exact .refl _
  | cons s rest ih =>
    unfold scanRt
    simp only
    have ha : ScanLe sc (if i ≠ 0 && filterEt i s false et && s.canAlight then
        alightAt P tad w s.loc (P.clamp (r.alight i)) sc else sc) := by
      split
      · exact alightAt_le _ _ _ _ _ _
      · exact .refl _
    split
    · exact ha
    · split
      · exact ha.trans (ih _ _ _)
      · exact ha.trans (ih _ _ _)

theorem alightAt_hit {P : Problem} {tad : Int} {w : Loc → Int → Bool} {l : Loc} {t a A x : Int} {sc : Scan} (hlb : P.lb l = some x) (hx : 0 ≤ x)
    (ht : t ≤ a) (ha : a + x ≤ A) (hA : A ≤ tad) (hw : ∀ y ≤ a, w l y = true) :
    (alightAt P tad w l t sc).mark l = true ∧ (alightAt P tad w l t sc).tmp l ≤ a := by
  unfold alightAt
  have : lbOk (P.lb l) t tad = true := by
    rw [lbOk_iff]; exact ⟨by omega, x, hlb, by omega⟩
  rw [if_pos (by rw [this, hw t ht]; rfl)]
  simp only [upd]
  simp
  omega

theorem le_of_clamp {P : Problem} {p x : Int} (hlo : P.lo < p) (h : p ≤ P.clamp x) : p ≤ x := by
  unfold Problem.clamp at h; omega

theorem lt_of_clamp {P : Problem} {p x : Int} (hhi : p ≤ P.hi) (h : P.clamp x < p) : x < p := by
  unfold Problem.clamp at h; omega

theorem clamp_le_of_le {P : Problem} {x y : Int} (h : x ≤ y) (hlo : P.lo ≤ y) : P.clamp x ≤ y := by
  unfold Problem.clamp; omega

theorem clamp_mono {P : Problem} {x y : Int} (h : x ≤ y) : P.clamp x ≤ P.clamp y := by
  unfold Problem.clamp; omega

/-- Boarding keeps an active trip. -/
theorem boardAt_active {P : Problem} (hs : Sane P) {r : Route} (hr : r ∈ P.routes) (rk best : Loc → Int) (tad : Int) (i : Nat)
    (s : Stop) (x : Int) (et : Option Run) (sc : Scan) (cb : Int) (h : ∀ e, et = some e → r.active e) :
    ∀ e, boardAt P r rk best tad i s x et sc cb = some e → r.active e := by
  intro e he
  unfold boardAt at he
  simp only at he
  split at he
  · cases hn : r.et i (rk s.loc) (tad - x) with
    | none => rw [hn] at he; exact h e he
    | some new =>
      rw [hn] at he
      simp only at he
      split at he
      · simp at he; subst he
        exact (hs.etSound r hr _ _ _ _ hn).1
      · exact h e he
  · exact h e he

/-- Boarding never makes the trip worse. -/
theorem boardAt_dom {P : Problem} {win : Int} (ht : Tame P win) {r : Route} (hr : r ∈ P.routes) (rk best : Loc → Int) (tad : Int)
    (i : Nat) (hi : i + 1 < r.stops.length) (s : Stop) (hlo : P.lo < rk s.loc) (x : Int) (e : Run) (sc : Scan) (cb : Int) (h : r.active e) :
    ∃ e', boardAt P r rk best tad i s x (some e) sc cb = some e' ∧ r.active e' ∧
      ∀ y, i < y → y < r.stops.length → r.alight e' y ≤ r.alight e y := by
  unfold boardAt
  simp only
  split
  · rename_i hp
    cases hn : r.et i (rk s.loc) (tad - x) with
    | none => exact ⟨e, rfl, h, fun y _ _ => Int.le_refl _⟩
    | some new =>
      simp only
      split
      · have hp' : rk s.loc ≤ r.board e i := le_of_clamp hlo hp.2
        refine ⟨new, rfl, (ht.etSound r hr _ _ _ _ hn).1, ?_⟩
        intro y hy hyl
        exact (ht.etLeast r hr _ _ _ _ hi hn e h hp').2 y hy hyl
      · exact ⟨e, rfl, h, fun y _ _ => Int.le_refl _⟩
  · exact ⟨e, rfl, h, fun y _ _ => Int.le_refl _⟩

/-- Boarding at the stop of a trip that can be caught yields a trip that is at least as good. -/
theorem boardAt_hit {P : Problem} {win : Int} (ht : Tame P win) {r : Route} (hr : r ∈ P.routes) (rk best : Loc → Int) (tad : Int)
    (i : Nat) (hi : i + 1 < r.stops.length) (s : Stop) (hlo : P.lo < rk s.loc) (x : Int) (et : Option Run) (sc : Scan) (cb : Int)
    (het : ∀ e, et = some e → r.active e) (tr : Run) (hact : r.active tr) (hp : rk s.loc ≤ r.board tr i)
    (hhi : r.board tr i < P.hi) (hwin : r.board tr i ≤ rk s.loc + win) (hlim : r.board tr i + x ≤ tad) :
    ∃ e', boardAt P r rk best tad i s x et sc cb = some e' ∧ r.active e' ∧
      ∀ y, i < y → y < r.stops.length → r.alight e' y ≤ r.alight tr y := by
  have hsome := ht.etComplete r hr i (rk s.loc) (tad - x) tr hi hact hlo hp hwin (by omega) hhi
  obtain ⟨new, hn⟩ := Option.isSome_iff_exists.mp hsome
  have hle := ht.etLeast r hr _ _ _ _ hi hn
  unfold boardAt
  simp only
  split
  · rename_i hpe
    rw [hn]
    simp only
    split
    · refine ⟨new, rfl, (ht.etSound r hr _ _ _ _ hn).1, ?_⟩
      intro y hy hyl
      exact (hle tr hact hp).2 y hy hyl
    · rename_i hno
      exfalso
      apply hno
      right
      cases et with
      | none => exact clamp_le_hi ht.lohi _
      | some e =>
        have hpe' : rk s.loc ≤ r.board e i := le_of_clamp hlo hpe.2
        exact clamp_mono (hle e (het e rfl) hpe').1
  · rename_i hpe
    cases et with
    | none => exfalso; apply hpe; simp only [etTime]; omega
    | some e =>
      refine ⟨e, rfl, het e rfl, ?_⟩
      intro y hy hyl
      have hlt : P.clamp (r.board e i) < rk s.loc := by
        apply Classical.byContradiction
        intro hge
        apply hpe
        simp only [etTime]
        omega
      have := lt_of_clamp (by omega) hlt
      exact ht.overtake r hr e tr i (het e rfl) hact (by omega) y hy hyl

/-- A trip that is on board at `idx` and at least as good as `tr` reaches the stop `j` of `tr`. -/
theorem scanRoute_onboard {P : Problem} {win : Int} (ht : Tame P win) (r : Route) (hr : r ∈ P.routes) (rk best : Loc → Int)
    (tad : Int) (w : Loc → Int → Bool) (prev : Loc → Bool) (hlo : ∀ l, P.lo < rk l) (hnn : ∀ l x, P.lb l = some x → 0 ≤ x) (tr : Run) (j : Nat) (sj : Stop)
    (hj : r.stops[j]? = some sj) (hca : sj.canAlight = true)
    (hlbs : ∀ (x : Nat) (s : Stop), x < j → r.stops[x]? = some s → P.lb s.loc ≠ none)
    (A : Int) (hA : A ≤ tad) (hAj : ∃ x, P.lb sj.loc = some x ∧ r.alight tr j + x ≤ A) (hw : ∀ y ≤ r.alight tr j, w sj.loc y = true) (hloj : P.lo ≤ r.alight tr j)
    (rest : List Stop) (idx : Nat) (hidx : idx ≤ j) (hsuf : ∀ x, r.stops[idx + x]? = rest[x]?)
    (hsec : ∀ (x : Nat) (s : Stop), idx ≤ x → x ≤ j → r.stops[x]? = some s → s.secOk = true)
    (e : Run) (he : r.active e)
    (hdom : ∀ y, idx ≤ y → y < r.stops.length → r.alight e y ≤ r.alight tr y) (sc : Scan) :
    (scanRoute P r rk best tad w prev rest idx (some e) sc).mark sj.loc = true ∧
      (scanRoute P r rk best tad w prev rest idx (some e) sc).tmp sj.loc ≤ r.alight tr j := by
  have hjl : j < r.stops.length := by rw [List.getElem?_eq_some_iff] at hj; exact hj.1
  induction rest generalizing idx e sc with
  | nil =>
    exfalso
    have := hsuf (j - idx)
    rw [show idx + (j - idx) = j by omega, hj] at this
    simp at this
  | cons s rest ih =>
    have hsi : r.stops[idx]? = some s := by have := hsuf 0; simpa using this
    have hsuf' : ∀ x, r.stops[idx + 1 + x]? = rest[x]? := by
      intro x
      have := hsuf (x + 1)
      rw [show idx + (x + 1) = idx + 1 + x by omega] at this
      simpa using this
    have hfil : filterEt idx s none (some e) = some e := by
      unfold filterEt
      have := hsec idx s (Nat.le_refl _) hidx hsi
      simp [this]
    by_cases hjj : idx = j
    · subst hjj
      rw [hsi] at hj
      simp at hj; subst hj
      obtain ⟨x, hx1, hx2⟩ := hAj
      have hc : P.clamp (r.alight e idx) ≤ r.alight tr idx :=
        clamp_le_of_le (hdom idx (Nat.le_refl _) hjl) hloj
      have h0 := hnn _ _ hx1
      have harr : (arrive P r rk best tad w idx s (some e) sc).1.mark s.loc = true ∧
          (arrive P r rk best tad w idx s (some e) sc).1.tmp s.loc ≤ r.alight tr idx := by
        unfold arrive
        simp only [hca, if_true]
        have hok : lbOk (P.lb s.loc) (P.clamp (r.alight e idx)) tad = true := by
          rw [lbOk_iff]; exact ⟨by omega, x, hx1, by omega⟩
        rw [if_pos (by rw [hok, hw _ hc]; rfl)]
        exact alightAt_hit hx1 h0 hc hx2 hA hw
      unfold scanRoute
      simp only [hfil]
      split
      · have := scanRoute_le P r rk best tad w prev rest (idx + 1) (some e) (arrive P r rk best tad w idx s (some e) sc).1
        exact ⟨this.2 _ harr.1, Int.le_trans (this.1 _) harr.2⟩
      · rw [hx1]
        simp only
        have := scanRoute_le P r rk best tad w prev rest (idx + 1)
          (boardAt P r rk best tad idx s x (some e) (arrive P r rk best tad w idx s (some e) sc).1 (arrive P r rk best tad w idx s (some e) sc).2)
          (arrive P r rk best tad w idx s (some e) sc).1
        exact ⟨this.2 _ harr.1, Int.le_trans (this.1 _) harr.2⟩
    · unfold scanRoute
      simp only [hfil]
      split
      · exact ih (idx + 1) (by omega) hsuf' (fun x s a b c => hsec x s (by omega) b c) e he (fun y a b => hdom y (by omega) b) _
      · cases hlb : P.lb s.loc with
        | none => exact absurd hlb (hlbs idx s (by omega) hsi)
        | some x =>
          simp only
          obtain ⟨e', h1, h2, h3⟩ := boardAt_dom ht hr rk best tad idx (by omega) s (hlo s.loc) x e
            (arrive P r rk best tad w idx s (some e) sc).1 (arrive P r rk best tad w idx s (some e) sc).2 he
          rw [h1]
          refine ih (idx + 1) (by omega) hsuf' (fun x s a b c => hsec x s (by omega) b c) e' h2 ?_ _
          intro y hy hyl
          have h4 := h3 y (by omega) hyl
          have h5 := hdom y (by omega) hyl
          omega

/-- The scan of a route finds an arrival at least as good as that of any trip that can be caught. -/
theorem scanRoute_complete {P : Problem} {win : Int} (ht : Tame P win) (r : Route) (hr : r ∈ P.routes) (rk best : Loc → Int)
    (tad : Int) (w : Loc → Int → Bool) (prev : Loc → Bool) (hlo : ∀ l, P.lo < rk l) (hnn : ∀ l x, P.lb l = some x → 0 ≤ x) (tr : Run) (hact : r.active tr)
    (i j : Nat) (si sj : Stop) (hij : i < j) (hi : r.stops[i]? = some si)
    (hj : r.stops[j]? = some sj) (hcb : si.canBoard = true) (hca : sj.canAlight = true) (hprev : prev si.loc = true)
    (hlbs : ∀ (x : Nat) (s : Stop), x < j → r.stops[x]? = some s → P.lb s.loc ≠ none)
    (hsec : ∀ (x : Nat) (s : Stop), i < x → x ≤ j → r.stops[x]? = some s → s.secOk = true)
    (A : Int) (hA : A ≤ tad) (hAi : ∃ x, P.lb si.loc = some x ∧ r.board tr i + x ≤ A)
    (hAj : ∃ x, P.lb sj.loc = some x ∧ r.alight tr j + x ≤ A) (hw : ∀ y ≤ r.alight tr j, w sj.loc y = true)
    (hp : rk si.loc ≤ r.board tr i) (hhi : r.board tr i < P.hi) (hwin : r.board tr i ≤ rk si.loc + win)
    (rest : List Stop) (idx : Nat) (hidx : idx ≤ i) (hsuf : ∀ x, r.stops[idx + x]? = rest[x]?)
    (et : Option Run) (het : ∀ e, et = some e → r.active e) (sc : Scan) :
    (scanRoute P r rk best tad w prev rest idx et sc).mark sj.loc = true ∧
      (scanRoute P r rk best tad w prev rest idx et sc).tmp sj.loc ≤ r.alight tr j := by
  have hjl : j < r.stops.length := by rw [List.getElem?_eq_some_iff] at hj; exact hj.1
  have hloj : P.lo ≤ r.alight tr j := by
    have := ht.tripMono r hr tr hact i j hij hjl
    have := hlo si.loc
    omega
  induction rest generalizing idx et sc with
  | nil =>
    exfalso
    have := hsuf (i - idx)
    rw [show idx + (i - idx) = i by omega, hi] at this
    simp at this
  | cons s rest ih =>
    have hsi : r.stops[idx]? = some s := by have := hsuf 0; simpa using this
    have hsuf' : ∀ x, r.stops[idx + 1 + x]? = rest[x]? := by
      intro x
      have := hsuf (x + 1)
      rw [show idx + (x + 1) = idx + 1 + x by omega] at this
      simpa using this
    have hetf : ∀ e, filterEt idx s none et = some e → r.active e := by
      intro e h
      unfold filterEt at h
      split at h
      · simp at h
      · exact het e h
    by_cases hii : idx = i
    · subst hii
      rw [hsi] at hi
      simp at hi; subst hi
      have hne : rest.isEmpty = false := by
        have := hsuf' (j - (idx + 1))
        rw [show idx + 1 + (j - (idx + 1)) = j by omega, hj] at this
        cases rest with
        | nil => simp at this
        | cons _ _ => rfl
      unfold scanRoute
      simp only
      rw [if_neg (by simp [hne, hcb, hprev])]
      obtain ⟨x, hx1, hx2⟩ := hAi
      rw [hx1]
      simp only
      obtain ⟨e', h1, h2, h3⟩ := boardAt_hit ht hr rk best tad idx (by omega) s (hlo s.loc) x (filterEt idx s none et)
        (arrive P r rk best tad w idx s (filterEt idx s none et) sc).1 (arrive P r rk best tad w idx s (filterEt idx s none et) sc).2
        hetf tr hact hp hhi hwin (by omega)
      rw [h1]
      exact scanRoute_onboard ht r hr rk best tad w prev hlo hnn tr j sj hj hca hlbs A hA hAj hw hloj rest (idx + 1) (by omega) hsuf'
        (fun x s a b c => hsec x s (by omega) b c) e' h2 (fun y a b => h3 y (by omega) b) _
    · unfold scanRoute
      simp only
      split
      · exact ih (idx + 1) (by omega) hsuf' _ hetf _
      · cases hlb : P.lb s.loc with
        | none => exact absurd hlb (hlbs idx s (by omega) hsi)
        | some x =>
          simp only
          exact ih (idx + 1) (by omega) hsuf' _ (boardAt_active ht.toSane hr rk best tad idx s x _ _ _ hetf) _

theorem scanRt_onboard {P : Problem} {win : Int} (_ht : Tame P win) (r : RtTransport) (rk : Loc → Int)
    (tad : Int) (w : Loc → Int → Bool) (prev : Loc → Bool) (hnn : ∀ l x, P.lb l = some x → 0 ≤ x) (j : Nat) (sj : Stop)
    (hj : r.stops[j]? = some sj) (hca : sj.canAlight = true)
    (hlbs : ∀ (x : Nat) (s : Stop), x < j → r.stops[x]? = some s → P.lb s.loc ≠ none)
    (A : Int) (hA : A ≤ tad) (hAj : ∃ x, P.lb sj.loc = some x ∧ r.alight j + x ≤ A) (hw : ∀ y ≤ r.alight j, w sj.loc y = true) (hloj : P.lo ≤ r.alight j)
    (rest : List Stop) (idx : Nat) (h0 : 0 < idx) (hidx : idx ≤ j) (hsuf : ∀ x, r.stops[idx + x]? = rest[x]?)
    (hsec : ∀ (x : Nat) (s : Stop), idx ≤ x → x ≤ j → r.stops[x]? = some s → s.secOk = true) (sc : Scan) :
    (scanRt P r rk tad w prev rest idx true sc).mark sj.loc = true ∧
      (scanRt P r rk tad w prev rest idx true sc).tmp sj.loc ≤ r.alight j := by
  induction rest generalizing idx sc with
  | nil =>
    exfalso
    have := hsuf (j - idx)
    rw [show idx + (j - idx) = j by omega, hj] at this
    simp at this
  | cons s rest ih =>
    have hsi : r.stops[idx]? = some s := by have := hsuf 0; simpa using this
    have hsuf' : ∀ x, r.stops[idx + 1 + x]? = rest[x]? := by
      intro x
      have := hsuf (x + 1)
      rw [show idx + (x + 1) = idx + 1 + x by omega] at this
      simpa using this
    have hfil : filterEt idx s false true = true := by
      unfold filterEt
      have := hsec idx s (Nat.le_refl _) hidx hsi
      simp [this]
    by_cases hjj : idx = j
    · subst hjj
      rw [hsi] at hj
      simp at hj; subst hj
      obtain ⟨x, hx1, hx2⟩ := hAj
      have hx0 := hnn _ _ hx1
      have hc : P.clamp (r.alight idx) ≤ r.alight idx := clamp_le_of_le (Int.le_refl _) hloj
      have harr := alightAt_hit (P := P) (tad := tad) (w := w) (l := s.loc) (t := P.clamp (r.alight idx)) (sc := sc) hx1 hx0 hc hx2 hA hw
      unfold scanRt
      simp only [hfil]
      rw [if_pos (by simp [hca]; omega)]
      rw [hx1]
      simp only
      split
      · have := scanRt_le P r rk tad w prev rest (idx + 1) true (alightAt P tad w s.loc (P.clamp (r.alight idx)) sc)
        exact ⟨this.2 _ harr.1, Int.le_trans (this.1 _) harr.2⟩
      · have := scanRt_le P r rk tad w prev rest (idx + 1) (true || decide (rk s.loc ≤ P.clamp (r.board idx)))
          (alightAt P tad w s.loc (P.clamp (r.alight idx)) sc)
        exact ⟨this.2 _ harr.1, Int.le_trans (this.1 _) harr.2⟩
    · unfold scanRt
      simp only [hfil]
      cases hlb : P.lb s.loc with
      | none => exact absurd hlb (hlbs idx s (by omega) hsi)
      | some x =>
        simp only
        split
        · exact ih (idx + 1) (by omega) (by omega) hsuf' (fun x s a b c => hsec x s (by omega) b c) _
        · rw [Bool.true_or]
          exact ih (idx + 1) (by omega) (by omega) hsuf' (fun x s a b c => hsec x s (by omega) b c) _

theorem scanRt_complete {P : Problem} {win : Int} (ht : Tame P win) (r : RtTransport) (hr : r ∈ P.rts) (rk : Loc → Int)
    (tad : Int) (w : Loc → Int → Bool) (prev : Loc → Bool) (hlo : ∀ l, P.lo < rk l) (hnn : ∀ l x, P.lb l = some x → 0 ≤ x)
    (i j : Nat) (si sj : Stop) (hij : i < j) (hi : r.stops[i]? = some si)
    (hj : r.stops[j]? = some sj) (hcb : si.canBoard = true) (hca : sj.canAlight = true) (hprev : prev si.loc = true)
    (hlbs : ∀ (x : Nat) (s : Stop), x < j → r.stops[x]? = some s → P.lb s.loc ≠ none)
    (hsec : ∀ (x : Nat) (s : Stop), i < x → x ≤ j → r.stops[x]? = some s → s.secOk = true)
    (A : Int) (hA : A ≤ tad) (hAj : ∃ x, P.lb sj.loc = some x ∧ r.alight j + x ≤ A) (hw : ∀ y ≤ r.alight j, w sj.loc y = true)
    (hp : rk si.loc ≤ r.board i) (hhi : r.board i < P.hi)
    (rest : List Stop) (idx : Nat) (hidx : idx ≤ i) (hsuf : ∀ x, r.stops[idx + x]? = rest[x]?) (et : Bool) (sc : Scan) :
    (scanRt P r rk tad w prev rest idx et sc).mark sj.loc = true ∧
      (scanRt P r rk tad w prev rest idx et sc).tmp sj.loc ≤ r.alight j := by
  have hjl : j < r.stops.length := by rw [List.getElem?_eq_some_iff] at hj; exact hj.1
  have hloj : P.lo ≤ r.alight j := by
    have := ht.rtMono r hr i j hij hjl
    have := hlo si.loc
    omega
  induction rest generalizing idx et sc with
  | nil =>
    exfalso
    have := hsuf (i - idx)
    rw [show idx + (i - idx) = i by omega, hi] at this
    simp at this
  | cons s rest ih =>
    have hsi : r.stops[idx]? = some s := by have := hsuf 0; simpa using this
    have hsuf' : ∀ x, r.stops[idx + 1 + x]? = rest[x]? := by
      intro x
      have := hsuf (x + 1)
      rw [show idx + (x + 1) = idx + 1 + x by omega] at this
      simpa using this
    by_cases hii : idx = i
    · subst hii
      rw [hsi] at hi
      simp at hi; subst hi
      have hne : rest.isEmpty = false := by
        have := hsuf' (j - (idx + 1))
        rw [show idx + 1 + (j - (idx + 1)) = j by omega, hj] at this
        cases rest with
        | nil => simp at this
        | cons _ _ => rfl
      unfold scanRt
      simp only
      cases hlb : P.lb s.loc with
      | none => exact absurd hlb (hlbs idx s (by omega) hsi)
      | some x =>
        simp only
        rw [if_neg (by simp [hne, hcb, hprev])]
        have hd : decide (rk s.loc ≤ P.clamp (r.board idx)) = true := by
          rw [decide_eq_true_eq]
          unfold Problem.clamp
          have := hlo s.loc
          omega
        rw [hd, Bool.or_true]
        exact scanRt_onboard ht r rk tad w prev hnn j sj hj hca hlbs A hA hAj hw hloj rest (idx + 1) (by omega) (by omega) hsuf'
          (fun x s a b c => hsec x s (by omega) b c) _
    · unfold scanRt
      simp only
      cases hlb : P.lb s.loc with
      | none => exact absurd hlb (hlbs idx s (by omega) hsi)
      | some x =>
        simp only
        split
        · exact ih (idx + 1) (by omega) hsuf' _ _
        · exact ih (idx + 1) (by omega) hsuf' _ _

/-- If one step of a fold establishes a property that all steps keep, the fold establishes it. -/
theorem foldl_hit {α β : Type} (Q : β → Prop) (f : β → α → β) (l : List α) (b : β) (a : α) (ha : a ∈ l)
    (hf : ∀ b, Q (f b a)) (hk : ∀ b a', Q b → Q (f b a')) : Q (l.foldl f b) := by
  induction l generalizing b with
  | nil => simp at ha
  | cons x l ih =>
    simp only [List.foldl_cons]
    rcases List.mem_cons.mp ha with rfl | h
    · have := hf b
      clear ih ha
      generalize f b a = c at this ⊢
      induction l generalizing c with
      | nil => exact this
      | cons y l ih => exact ih (f c y) (hk c y this)
    · exact ih _ h

theorem touches_of {mark : Loc → Bool} {stops : List Stop} {i : Nat} {s : Stop} (h : stops[i]? = some s) (hm : mark s.loc = true) :
    touches mark stops = true := by
  unfold touches
  rw [List.any_eq_true]
  exact ⟨s, List.mem_of_getElem? h, hm⟩

/-- Scans mark stops only. -/
theorem arrive_mark {P : Problem} {r : Route} {rk best : Loc → Int} {tad : Int} {w : Loc → Int → Bool} {i : Nat} {s : Stop} {et : Option Run} {sc : Scan} {l : Loc}
    (h : (arrive P r rk best tad w i s et sc).1.mark l = true) : sc.mark l = true ∨ l = s.loc := by
  unfold arrive alightAt at h
  split at h
  · exact Or.inl h
  · split at h
    · simp only at h
      split at h
      · simp only [upd] at h
        split at h
        · rename_i hl; exact Or.inr hl
        · exact Or.inl h
      · exact Or.inl h
    · exact Or.inl h

theorem scanRoute_mark {P : Problem} {r : Route} {rk best : Loc → Int} {tad : Int} {w : Loc → Int → Bool} {prev : Loc → Bool} {l : Loc} (rest : List Stop)
    (i : Nat) (et : Option Run) (sc : Scan) (h : (scanRoute P r rk best tad w prev rest i et sc).mark l = true) :
    sc.mark l = true ∨ ∃ s ∈ rest, s.loc = l := by
  induction rest generalizing i et sc with
  | nil => exact Or.inl h
  | cons s rest ih =>
    unfold scanRoute at h
    simp only at h
    have hA : (arrive P r rk best tad w i s (filterEt i s none et) sc).1.mark l = true → sc.mark l = true ∨ ∃ x ∈ s :: rest, x.loc = l := by
      intro h
      rcases arrive_mark h with g | g
      · exact Or.inl g
      · exact Or.inr ⟨s, by simp, g.symm⟩
    have hB : ((arrive P r rk best tad w i s (filterEt i s none et) sc).1.mark l = true ∨ ∃ x ∈ rest, x.loc = l) →
        sc.mark l = true ∨ ∃ x ∈ s :: rest, x.loc = l := by
      rintro (g | ⟨x, g1, g2⟩)
      · exact hA g
      · exact Or.inr ⟨x, by simp [g1], g2⟩
    split at h
    · exact hB (ih _ _ _ h)
    · split at h
      · exact hA h
      · exact hB (ih _ _ _ h)

theorem scanRt_mark {P : Problem} {r : RtTransport} {rk : Loc → Int} {tad : Int} {w : Loc → Int → Bool} {prev : Loc → Bool} {l : Loc} (rest : List Stop)
    (i : Nat) (et : Bool) (sc : Scan) (h : (scanRt P r rk tad w prev rest i et sc).mark l = true) :
    sc.mark l = true ∨ ∃ s ∈ rest, s.loc = l := by
  induction rest generalizing i et sc with
  | nil => exact Or.inl h
  | cons s rest ih =>
    unfold scanRt at h
    simp only at h
    have hA : (if i ≠ 0 && filterEt i s false et && s.canAlight then alightAt P tad w s.loc (P.clamp (r.alight i)) sc else sc).mark l = true →
        sc.mark l = true ∨ ∃ x ∈ s :: rest, x.loc = l := by
      intro h
      split at h
      · unfold alightAt at h
        split at h
        · simp only [upd] at h
          split at h
          · rename_i hl; exact Or.inr ⟨s, by simp, hl.symm⟩
          · exact Or.inl h
        · exact Or.inl h
      · exact Or.inl h
    have hB : ((if i ≠ 0 && filterEt i s false et && s.canAlight then alightAt P tad w s.loc (P.clamp (r.alight i)) sc else sc).mark l = true ∨
        ∃ x ∈ rest, x.loc = l) → sc.mark l = true ∨ ∃ x ∈ s :: rest, x.loc = l := by
      rintro (g | ⟨x, g1, g2⟩)
      · exact hA g
      · exact Or.inr ⟨x, by simp [g1], g2⟩
    split at h
    · exact hA h
    · split at h
      · exact hB (ih _ _ _ h)
      · exact hB (ih _ _ _ h)

theorem scanAll_mark {P : Problem} {win : Int} (ht : Tame P win) (hi : P.intermodal = true) (k : Nat) (S : State) (best : Loc → Int)
    (tad : Nat → Int) {l : Loc} (h : (scanAll P k S best tad).mark l = true) : l ≠ P.endLoc := by
  unfold scanAll at h
  simp only at h
  revert h
  apply foldl_inv (fun sc : Scan => sc.mark l = true → l ≠ P.endLoc)
  · apply foldl_inv (fun sc : Scan => sc.mark l = true → l ≠ P.endLoc)
    · intro h; cases h
    · intro sc r hr h g
      rcases scanRoute_mark _ _ _ _ g with g | ⟨s, g1, g2⟩
      · exact h g
      · rw [← g2]; exact (ht.endStop hi).1 r (List.mem_filter.mp hr).1 s g1
  · intro sc r hr h g
    rcases scanRt_mark _ _ _ _ g with g | ⟨s, g1, g2⟩
    · exact h g
    · rw [← g2]; exact (ht.endStop hi).2 r (List.mem_filter.mp hr).1 s g1

theorem ride_end {P : Problem} {win : Int} (ht : Tame P win) (hi : P.intermodal = true) {l : Loc} {t : Int} {m : Loc} {a : Int}
    (h : Ride P l t m a) : l ≠ P.endLoc ∧ m ≠ P.endLoc := by
  rcases h with ⟨r, hr, -, tr, -, i, j, si, sj, -, hsi, hsj, rfl, rfl, -⟩ | ⟨r, hr, -, i, j, si, sj, -, hsi, hsj, rfl, rfl, -⟩
  · exact ⟨(ht.endStop hi).1 r hr si (List.mem_of_getElem? hsi), (ht.endStop hi).1 r hr sj (List.mem_of_getElem? hsj)⟩
  · exact ⟨(ht.endStop hi).2 r hr si (List.mem_of_getElem? hsi), (ht.endStop hi).2 r hr sj (List.mem_of_getElem? hsj)⟩

/-- The scans of a round find an arrival at least as good as that of any ride. -/
theorem scanAll_complete {P : Problem} {win T0 W : Int} {D : Loc → Prop} (ht : Tame P win) (hadm : Admissible P D T0 W) (k : Nat) (S : State)
    (best : Loc → Int) (tad : Nat → Int) (hlo : ∀ l, P.lo < S.round k l) {l : Loc} {t : Int} {m : Loc} {a : Int} {l' : Loc} {t' A : Int} {n : Nat}
    (hmark : S.mark l = true) (hlab : S.round k l ≤ t) (hT : T0 ≤ t) (hTl : W ≤ S.round k l + win)
    (hride : Ride P l t m a) (hch : Change P m a l' t') (hcont : Cont P D n l' t' A) (hAW : A ≤ W) (hW : W < P.hi) (hA : A ≤ tad (k + 1))
    (hwt : ∀ y ≤ a, P.within (k + 1) m y = true) :
    (scanAll P (k + 1) S best tad).mark m = true ∧ (scanAll P (k + 1) S best tad).tmp m ≤ a := by
  have hta := ride_le ht.toSane hride
  obtain ⟨xm, hm1, hm2⟩ := hadm.alight n m a l' t' A (fun hi => (ride_end ht hi hride).2) (by omega) hch hcont hAW
  have hxm := hadm.nonneg _ _ hm1
  have hend := fun hi => (ride_end ht hi hride).1
  have hmono : ∀ (sc : Scan), sc.mark m = true ∧ sc.tmp m ≤ a → ∀ sc', ScanLe sc sc' → sc'.mark m = true ∧ sc'.tmp m ≤ a :=
    fun sc h sc' hl => ⟨hl.2 m h.1, Int.le_trans (hl.1 m) h.2⟩
  unfold scanAll
  simp only [Nat.add_sub_cancel]
  rcases hride with ⟨r, hr, hal, tr, hact, i, j, si, sj, hij, hi, hj, rfl, rfl, hcb, hca, hsec, hb, rfl⟩ |
    ⟨r, hr, hal, i, j, si, sj, hij, hi, hj, rfl, rfl, hcb, hca, hsec, hb, rfl⟩
  · have hjl : j < r.stops.length := by rw [List.getElem?_eq_some_iff] at hj; exact hj.1
    have hba := ht.tripMono r hr tr hact i j hij hjl
    have hlbs : ∀ (x : Nat) (s : Stop), x < j → r.stops[x]? = some s → P.lb s.loc ≠ none :=
      fun x s hx hs => hadm.route r hr x j s sj hx hs hj n _ l' t' A (by omega) hch hcont hAW
    have hCi : ∃ x, P.lb si.loc = some x ∧ r.board tr i + x ≤ A := by
      apply hadm.cont (n + 1) si.loc (r.board tr i) A hend (by omega) _ hAW
      exact .ride (Or.inl ⟨r, hr, hal, tr, hact, i, j, si, sj, hij, hi, hj, rfl, rfl, hcb, hca, hsec, Int.le_refl _, rfl⟩) hch hcont
    apply foldl_inv (fun sc : Scan => sc.mark sj.loc = true ∧ sc.tmp sj.loc ≤ r.alight tr j)
    · apply foldl_hit (fun sc : Scan => sc.mark sj.loc = true ∧ sc.tmp sj.loc ≤ r.alight tr j) _ _ _ r
      · rw [List.mem_filter]
        exact ⟨hr, by rw [touches_of hi hmark, hal]; rfl⟩
      · intro sc
        refine scanRoute_complete ht r hr (S.round k) best (tad (k + 1)) (P.within (k + 1)) S.mark hlo hadm.nonneg tr hact i j si sj hij hi hj hcb hca hmark
          hlbs hsec A hA hCi ⟨xm, hm1, hm2⟩ hwt (by omega) (by omega) (by omega) r.stops 0 (by omega) (by simp) none (by simp) sc
      · intro sc r' h
        exact hmono sc h _ (scanRoute_le _ _ _ _ _ _ _ _ _ _ _)
    · intro sc r' _ h
      exact hmono sc h _ (scanRt_le _ _ _ _ _ _ _ _ _ _)
  · have hjl : j < r.stops.length := by rw [List.getElem?_eq_some_iff] at hj; exact hj.1
    have hba := ht.rtMono r hr i j hij hjl
    have hlbs : ∀ (x : Nat) (s : Stop), x < j → r.stops[x]? = some s → P.lb s.loc ≠ none :=
      fun x s hx hs => hadm.rt r hr x j s sj hx hs hj n _ l' t' A (by omega) hch hcont hAW
    apply foldl_hit (fun sc : Scan => sc.mark sj.loc = true ∧ sc.tmp sj.loc ≤ r.alight j) _ _ _ r
    · rw [List.mem_filter]
      exact ⟨hr, by rw [touches_of hi hmark, hal]; rfl⟩
    · intro sc
      exact scanRt_complete ht r hr (S.round k) (tad (k + 1)) (P.within (k + 1)) S.mark hlo hadm.nonneg i j si sj hij hi hj hcb hca hmark
        hlbs hsec A hA ⟨xm, hm1, hm2⟩ hwt (by omega) (by omega) r.stops 0 (by omega) (by simp) false sc
    · intro sc r' h
      exact hmono sc h _ (scanRt_le _ _ _ _ _ _ _ _ _ _)

end Nigiri.Raptor
