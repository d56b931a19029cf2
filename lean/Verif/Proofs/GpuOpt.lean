import Verif.Proofs.GpuSound
import Verif.Proofs.RaptorOpt
/-!
# Optimality of the search on the GPU, for every schedule (proofs)
-/

namespace Nigiri.Gpu
open Nigiri.Raptor (Problem Route RtTransport Stop Run Start filterEt touches marked transferTime Rdy Alt Sane SoundSt Ready allStarts
  Tame Ride Change Cont TadOk Found Cov)

/-- `a` is the result of a lookup from a time not before `Lo` with a limit not after `Hi`. -/
def Looked (r : Route) (Lo Hi : Int) (a : Run) : Prop :=
  ∃ i p lim, i + 1 < r.stops.length ∧ Lo ≤ p ∧ lim ≤ Hi ∧ r.et i p lim = some a

/-- The keys order the runs of a route that are looked up: a smaller key never alights later, and keys are
comparable. -/
structure KeyOk (P : Problem) (C : Codec) (Lo Hi : Int) : Prop where
  total : ∀ a b, C.le a b = false → C.le b a = true
  mono : ∀ r ∈ P.routes, ∀ a b, Looked r Lo Hi a → Looked r Lo Hi b → C.le a b = true →
    ∀ j, 0 < j → j < r.stops.length → r.alight a j ≤ r.alight b j

/-! ## Arrivals -/

theorem pick_best {P : Problem} {C : Codec} {Lo Hi : Int} (hk : KeyOk P C Lo Hi) {r : Route} (hr : r ∈ P.routes) {c : Option (Run × Nat)} {n : Run} {i : Nat}
    (hc : ∀ e b, c = some (e, b) → Looked r Lo Hi e) (hn : Looked r Lo Hi n) :
    ∃ e b, pick C c (some (n, i)) = some (e, b) ∧ Looked r Lo Hi e ∧ ∀ j, 0 < j → j < r.stops.length → r.alight e j ≤ r.alight n j := by
  cases c with
  | none => exact ⟨n, i, rfl, hn, fun _ _ _ => Int.le_refl _⟩
  | some c =>
    by_cases h : C.le c.1 n = true
    · exact ⟨c.1, c.2, by simp [pick, h], hc _ _ rfl, hk.mono r hr _ _ (hc _ _ rfl) hn h⟩
    · exact ⟨n, i, by simp [pick, h], hn, fun _ _ _ => Int.le_refl _⟩

theorem pick_keep {P : Problem} {C : Codec} {Lo Hi : Int} (hk : KeyOk P C Lo Hi) {r : Route} (hr : r ∈ P.routes) {c : Run} {b : Nat} {n : Option (Run × Nat)}
    (hc : Looked r Lo Hi c) (hn : ∀ e b, n = some (e, b) → Looked r Lo Hi e) :
    ∃ e b', pick C (some (c, b)) n = some (e, b') ∧ Looked r Lo Hi e ∧ ∀ j, 0 < j → j < r.stops.length → r.alight e j ≤ r.alight c j := by
  cases n with
  | none => exact ⟨c, b, rfl, hc, fun _ _ _ => Int.le_refl _⟩
  | some n =>
    by_cases h : C.le c n.1 = true
    · exact ⟨c, b, by simp [pick, h], hc, fun _ _ _ => Int.le_refl _⟩
    · exact ⟨n.1, n.2, by simp [pick, h], hn _ _ rfl, hk.mono r hr _ _ (hn _ _ rfl) hc (hk.total _ _ (by simpa using h))⟩

theorem pick_active {C : Codec} {Lo Hi : Int} {r : Route} {c n : Option (Run × Nat)} (hc : ∀ e b, c = some (e, b) → Looked r Lo Hi e)
    (hn : ∀ e b, n = some (e, b) → Looked r Lo Hi e) : ∀ e b, pick C c n = some (e, b) → Looked r Lo Hi e := by
  intro e b h
  rcases pick_cases C c n with g | g
  · exact hc e b (g ▸ h)
  · exact hn e b (g ▸ h)

theorem lookup_active {P : Problem} {Lo Hi : Int} {r : Route} {rk : Loc → Int} {tad : Int} {prev : Loc → Bool} {last : Bool}
    {i : Nat} {s : Stop} (hlen : last = false → i + 1 < r.stops.length) (hLo : ∀ l, Lo ≤ rk l) (hHi : tad ≤ Hi) : ∀ e b, lookup P r rk tad prev last i s = some (e, b) → Looked r Lo Hi e := by
  intro e b h
  unfold lookup at h
  split at h
  · rename_i hc
    rw [Option.map_eq_some_iff] at h
    obtain ⟨n, h1, h2⟩ := h
    cases h2
    refine ⟨i, rk s.loc, tad, hlen ?_, hLo _, hHi, h1⟩
    cases last
    · rfl
    · simp at hc
  · cases h

theorem filterEt_active {Lo Hi : Int} {r : Route} {i : Nat} {s : Stop} {c : Option (Run × Nat)} (hc : ∀ e b, c = some (e, b) → Looked r Lo Hi e) :
    ∀ e b, filterEt i s none c = some (e, b) → Looked r Lo Hi e := by
  intro e b h
  unfold filterEt at h
  split at h
  · cases h
  · exact hc e b h

theorem last_len {r : Route} {idx : Nat} {s : Stop} {rest : List Stop} (hsuf : ∀ x, r.stops[idx + x]? = (s :: rest)[x]?) :
    rest.isEmpty = false → idx + 1 < r.stops.length := by
  intro h
  cases rest with
  | nil => cases h
  | cons s' rest =>
    have := hsuf 1
    simp only [List.getElem?_cons_succ, List.getElem?_cons_zero] at this
    exact (List.getElem?_eq_some_iff.mp this).1

theorem mem_arrival {P : Problem} {k : Nat} {tad : Int} {l : Loc} {w : Word} (h1 : w.t ≤ tad) (h2 : P.within k l w.t = true) :
    (l, w) ∈ arrival P k tad l w := by
  unfold arrival
  rw [if_pos (by simp [h1, h2])]
  simp

/-- On board of something as good as `tr`, one arrives not later. -/
theorem routeArrivals_onboard {P : Problem} {C : Codec} {Lo Hi : Int} (hk : KeyOk P C Lo Hi) (k ri : Nat) (r : Route) (hr : r ∈ P.routes)
    (rk : Loc → Int) (tad : Int) (prev : Loc → Bool) (hLo : ∀ l, Lo ≤ rk l) (hHi : tad ≤ Hi) (tr : Run) (j : Nat) (sj : Stop) (hj : r.stops[j]? = some sj) (hca : sj.canAlight = true)
    (hA : r.alight tr j ≤ tad) (hw : ∀ y ≤ r.alight tr j, P.within k sj.loc y = true) (hloj : P.lo ≤ r.alight tr j)
    (rest : List Stop) (idx : Nat) (h0 : 0 < idx) (hidx : idx ≤ j) (hsuf : ∀ x, r.stops[idx + x]? = rest[x]?)
    (hsec : ∀ (x : Nat) (s : Stop), idx ≤ x → x ≤ j → r.stops[x]? = some s → s.secOk = true)
    (e : Run) (b : Nat) (he : Looked r Lo Hi e) (hdom : r.alight e j ≤ r.alight tr j) :
    ∃ x ∈ routeArrivals P C k ri r rk tad prev rest idx (some (e, b)), x.1 = sj.loc ∧ x.2.t ≤ r.alight tr j := by
  have hjl : j < r.stops.length := by rw [List.getElem?_eq_some_iff] at hj; exact hj.1
  induction rest generalizing idx e b with
  | nil =>
    exfalso
    have := hsuf (j - idx)
    rw [show idx + (j - idx) = j by omega, hj] at this
    simp at this
  | cons s rest ih =>
    have hsi := suf_head hsuf
    have hso := hsec idx s (Nat.le_refl _) hidx hsi
    have hf : filterEt idx s none (some (e, b)) = some (e, b) := by unfold filterEt; rw [hso]; simp
    unfold routeArrivals
    rw [hf]
    simp only
    by_cases hij : idx = j
    · subst hij
      rw [hj] at hsi; cases hsi
      have hle : P.clamp (r.alight e idx) ≤ r.alight tr idx := Raptor.clamp_le_of_le hdom hloj
      refine ⟨(sj.loc, ⟨P.clamp (r.alight e idx), C.bcStatic ri e b idx⟩), ?_, rfl, hle⟩
      rw [List.mem_append, if_pos hca]
      exact Or.inl (mem_arrival (by simp only; omega) (hw _ hle))
    · obtain ⟨e', b', g1, g2, g3⟩ := pick_keep hk hr he (lookup_active (Lo := Lo) (Hi := Hi) (r := r) (last_len hsuf) hLo hHi (P := P) (rk := rk) (tad := tad) (prev := prev) (last := rest.isEmpty) (i := idx) (s := s)) (b := b)
      rw [g1]
      obtain ⟨x, hx1, hx2⟩ := ih (idx + 1) (by omega) (by omega) (suf_tail hsuf) (fun x s h1 h2 => hsec x s (by omega) h2) e' b' g2
        (Int.le_trans (g3 j (by omega) hjl) hdom)
      exact ⟨x, by rw [List.mem_append]; exact Or.inr hx1, hx2⟩

theorem routeArrivals_complete {P : Problem} {C : Codec} {win : Int} (ht : Tame P win) {Lo Hi : Int} (hk : KeyOk P C Lo Hi) (k ri : Nat) (r : Route) (hr : r ∈ P.routes)
    (rk : Loc → Int) (tad : Int) (prev : Loc → Bool) (hlo : ∀ l, P.lo < rk l) (hLo : ∀ l, Lo ≤ rk l) (hHi : tad ≤ Hi) (tr : Run) (hact : r.active tr)
    (i j : Nat) (si sj : Stop) (hij : i < j) (hi : r.stops[i]? = some si)
    (hj : r.stops[j]? = some sj) (hcb : si.canBoard = true) (hca : sj.canAlight = true) (hprev : prev si.loc = true)
    (hsec : ∀ (x : Nat) (s : Stop), i < x → x ≤ j → r.stops[x]? = some s → s.secOk = true)
    (hA : r.alight tr j ≤ tad) (hw : ∀ y ≤ r.alight tr j, P.within k sj.loc y = true)
    (hp : rk si.loc ≤ r.board tr i) (hhi : r.board tr i < P.hi) (hwin : r.board tr i ≤ rk si.loc + win)
    (rest : List Stop) (idx : Nat) (hidx : idx ≤ i) (hsuf : ∀ x, r.stops[idx + x]? = rest[x]?)
    (c : Option (Run × Nat)) (hc : ∀ e b, c = some (e, b) → Looked r Lo Hi e) :
    ∃ x ∈ routeArrivals P C k ri r rk tad prev rest idx c, x.1 = sj.loc ∧ x.2.t ≤ r.alight tr j := by
  have hjl : j < r.stops.length := by rw [List.getElem?_eq_some_iff] at hj; exact hj.1
  have hmono := ht.tripMono r hr tr hact i j hij hjl
  have hl := hlo si.loc
  induction rest generalizing idx c with
  | nil =>
    exfalso
    have := hsuf (i - idx)
    rw [show idx + (i - idx) = i by omega, hi] at this
    simp at this
  | cons s rest ih =>
    have hsi := suf_head hsuf
    unfold routeArrivals
    simp only
    have hfa := filterEt_active (i := idx) (s := s) hc
    by_cases hii : idx = i
    · subst hii
      rw [hi] at hsi; cases hsi
      have hne : rest.isEmpty = false := by
        cases rest with
        | nil =>
          exfalso
          have := hsuf (j - idx)
          rw [show idx + (j - idx) = j by omega, hj, List.getElem?_eq_none (by simp; omega)] at this
          cases this
        | cons _ _ => rfl
      obtain ⟨n, hn⟩ := Option.isSome_iff_exists.mp (ht.etComplete r hr idx (rk si.loc) tad tr (by omega) hact hl hp hwin (by omega) hhi)
      have hlk : lookup P r rk tad prev rest.isEmpty idx si = some (n, idx) := by
        unfold lookup
        rw [hne, hprev, hcb, hn, if_pos (by simp; omega)]
        rfl
      have hna : Looked r Lo Hi n := ⟨idx, rk si.loc, tad, by omega, hLo _, hHi, hn⟩
      have hnle := (ht.etLeast r hr _ _ _ _ (by omega) hn tr hact hp).2 j (by omega) hjl
      obtain ⟨e, b, g1, g2, g3⟩ := pick_best hk hr hfa hna (i := idx)
      rw [hlk, g1]
      obtain ⟨x, hx1, hx2⟩ := routeArrivals_onboard hk k ri r hr rk tad prev hLo hHi tr j sj hj hca hA hw (by omega) rest (idx + 1) (by omega) (by omega)
        (suf_tail hsuf) (fun x s h1 h2 => hsec x s (by omega) h2) e b g2 (Int.le_trans (g3 j (by omega) hjl) hnle)
      exact ⟨x, by rw [List.mem_append]; exact Or.inr hx1, hx2⟩
    · obtain ⟨x, hx1, hx2⟩ := ih (idx + 1) (by omega) (suf_tail hsuf) _ (pick_active hfa (lookup_active (Lo := Lo) (Hi := Hi) (r := r) (last_len hsuf) hLo hHi (P := P) (rk := rk) (tad := tad) (prev := prev) (last := rest.isEmpty) (i := idx) (s := s)) (C := C))
      exact ⟨x, by rw [List.mem_append]; exact Or.inr hx1, hx2⟩

theorem rtArrivals_onboard {P : Problem} {C : Codec} (k ri : Nat) (r : RtTransport)
    (rk : Loc → Int) (tad : Int) (prev : Loc → Bool) (j : Nat) (sj : Stop) (hj : r.stops[j]? = some sj) (hca : sj.canAlight = true)
    (hA : r.alight j ≤ tad) (hw : ∀ y ≤ r.alight j, P.within k sj.loc y = true) (hloj : P.lo ≤ r.alight j)
    (rest : List Stop) (idx : Nat) (h0 : 0 < idx) (hidx : idx ≤ j) (hsuf : ∀ x, r.stops[idx + x]? = rest[x]?)
    (hsec : ∀ (x : Nat) (s : Stop), idx ≤ x → x ≤ j → r.stops[x]? = some s → s.secOk = true) (b : Nat) :
    ∃ x ∈ rtArrivals P C k ri r rk tad prev rest idx (some b), x.1 = sj.loc ∧ x.2.t ≤ r.alight j := by
  induction rest generalizing idx b with
  | nil =>
    exfalso
    have := hsuf (j - idx)
    rw [show idx + (j - idx) = j by omega, hj] at this
    simp at this
  | cons s rest ih =>
    have hsi := suf_head hsuf
    have hso := hsec idx s (Nat.le_refl _) hidx hsi
    have hf : filterEt idx s none (some b) = some b := by unfold filterEt; rw [hso]; simp
    unfold rtArrivals
    rw [hf]
    simp only
    by_cases hij : idx = j
    · subst hij
      rw [hj] at hsi; cases hsi
      have hle : P.clamp (r.alight idx) ≤ r.alight idx := Raptor.clamp_le_of_le (Int.le_refl _) hloj
      refine ⟨(sj.loc, ⟨P.clamp (r.alight idx), C.bcRt ri b idx⟩), ?_, rfl, hle⟩
      rw [List.mem_append, if_pos (by simp [hca]; omega)]
      exact Or.inl (mem_arrival (by simp only; omega) (hw _ hle))
    · have : ∃ b', (if !rest.isEmpty && s.canBoard && prev s.loc && decide (rk s.loc ≤ P.clamp (r.board idx)) then some idx else some b) = some b' := by
        split
        · exact ⟨_, rfl⟩
        · exact ⟨_, rfl⟩
      obtain ⟨b', hb'⟩ := this
      rw [hb']
      obtain ⟨x, hx1, hx2⟩ := ih (idx + 1) (by omega) (by omega) (suf_tail hsuf) (fun x s h1 h2 => hsec x s (by omega) h2) b'
      exact ⟨x, by rw [List.mem_append]; exact Or.inr hx1, hx2⟩

theorem rtArrivals_complete {P : Problem} {C : Codec} (hs : Sane P) (k ri : Nat) (r : RtTransport) (hr : r ∈ P.rts)
    (rk : Loc → Int) (tad : Int) (prev : Loc → Bool) (hlo : ∀ l, P.lo < rk l)
    (i j : Nat) (si sj : Stop) (hij : i < j) (hi : r.stops[i]? = some si)
    (hj : r.stops[j]? = some sj) (hcb : si.canBoard = true) (hca : sj.canAlight = true) (hprev : prev si.loc = true)
    (hsec : ∀ (x : Nat) (s : Stop), i < x → x ≤ j → r.stops[x]? = some s → s.secOk = true)
    (hA : r.alight j ≤ tad) (hw : ∀ y ≤ r.alight j, P.within k sj.loc y = true)
    (hp : rk si.loc ≤ r.board i) (hhi : r.board i < P.hi)
    (rest : List Stop) (idx : Nat) (hidx : idx ≤ i) (hsuf : ∀ x, r.stops[idx + x]? = rest[x]?) (et : Option Nat) :
    ∃ x ∈ rtArrivals P C k ri r rk tad prev rest idx et, x.1 = sj.loc ∧ x.2.t ≤ r.alight j := by
  have hjl : j < r.stops.length := by rw [List.getElem?_eq_some_iff] at hj; exact hj.1
  have hmono := hs.rtMono r hr i j hij hjl
  have hl := hlo si.loc
  induction rest generalizing idx et with
  | nil =>
    exfalso
    have := hsuf (i - idx)
    rw [show idx + (i - idx) = i by omega, hi] at this
    simp at this
  | cons s rest ih =>
    have hsi := suf_head hsuf
    unfold rtArrivals
    simp only
    by_cases hii : idx = i
    · subst hii
      rw [hi] at hsi; cases hsi
      have hne : rest.isEmpty = false := by
        cases rest with
        | nil =>
          exfalso
          have := hsuf (j - idx)
          rw [show idx + (j - idx) = j by omega, hj, List.getElem?_eq_none (by simp; omega)] at this
          cases this
        | cons _ _ => rfl
      have hcl : rk si.loc ≤ P.clamp (r.board idx) := by unfold Problem.clamp; omega
      rw [if_pos (by simp [hne, hcb, hprev, hcl])]
      obtain ⟨x, hx1, hx2⟩ := rtArrivals_onboard (P := P) (C := C) k ri r rk tad prev j sj hj hca hA hw (by omega) rest (idx + 1) (by omega) (by omega)
        (suf_tail hsuf) (fun x s h1 h2 => hsec x s (by omega) h2) idx
      exact ⟨x, by rw [List.mem_append]; exact Or.inr hx1, hx2⟩
    · obtain ⟨x, hx1, hx2⟩ := ih (idx + 1) (by omega) (suf_tail hsuf) _
      exact ⟨x, by rw [List.mem_append]; exact Or.inr hx1, hx2⟩

/-- Every ride from a marked label is among the arrivals. -/
theorem arrivals_complete {P : Problem} {C : Codec} {win : Int} (ht : Tame P win) {Lo Hi : Int} (hk : KeyOk P C Lo Hi) (k : Nat) (prev : Loc → Bool) (m : Mem)
    (hlo : ∀ l, P.lo < (m.val (.round k l)).t) (hLo : ∀ l, Lo ≤ (m.val (.round k l)).t) (hHi : (m.val (.tad (k + 1))).t ≤ Hi) {l : Loc} {t : Int} {u : Loc} {a : Int} (hride : Ride P l t u a) (hprev : prev l = true)
    (hval : (m.val (.round k l)).t ≤ t) (ha : a < P.hi) (hwin : a ≤ (m.val (.round k l)).t + win)
    (hA : a ≤ (m.val (.tad (k + 1))).t) (hw : P.within (k + 1) u a = true) :
    ∃ x ∈ arrivals P C (k + 1) prev m, x.1 = u ∧ x.2.t ≤ a := by
  have hw' : ∀ y ≤ a, P.within (k + 1) u y = true := fun y hy => Raptor.within_anti hw hy
  unfold arrivals
  simp only [Nat.add_sub_cancel]
  rcases hride with ⟨r, hr, hal, tr, hact, i, j, si, sj, hij, hi, hj, hl, hu, hcb, hca, hsec, hb, he⟩ |
    ⟨r, hr, hal, i, j, si, sj, hij, hi, hj, hl, hu, hcb, hca, hsec, hb, he⟩
  · subst hl; subst hu; subst he
    have hjl : j < r.stops.length := by rw [List.getElem?_eq_some_iff] at hj; exact hj.1
    have hmono := ht.tripMono r hr tr hact i j hij hjl
    obtain ⟨ri, hri⟩ := List.getElem?_of_mem hr
    obtain ⟨x, hx1, hx2⟩ := routeArrivals_complete (C := C) ht hk (k + 1) ri r hr (fun l => (m.val (.round k l)).t) (m.val (.tad (k + 1))).t prev hlo hLo hHi tr hact i j si sj
      hij hi hj hcb hca hprev hsec hA hw' (by omega) (by omega) (by omega) r.stops 0 (by omega) (by simp) none (by intro e b h; cases h)
    refine ⟨x, ?_, hx2⟩
    rw [List.mem_append, List.mem_flatMap]
    left
    refine ⟨(r, ri), ?_, hx1⟩
    rw [List.mem_filter]
    refine ⟨List.mem_zipIdx_iff_getElem?.mpr hri, ?_⟩
    simp only [Bool.and_eq_true]
    exact ⟨Raptor.touches_of hi hprev, hal⟩
  · subst hl; subst hu; subst he
    have hjl : j < r.stops.length := by rw [List.getElem?_eq_some_iff] at hj; exact hj.1
    have hmono := ht.rtMono r hr i j hij hjl
    obtain ⟨ri, hri⟩ := List.getElem?_of_mem hr
    obtain ⟨x, hx1, hx2⟩ := rtArrivals_complete (C := C) ht.toSane (k + 1) ri r hr (fun l => (m.val (.round k l)).t) (m.val (.tad (k + 1))).t prev hlo i j si sj
      hij hi hj hcb hca hprev hsec hA hw' (by omega) (by omega) r.stops 0 (by omega) (by simp) none
    refine ⟨x, ?_, hx2⟩
    rw [List.mem_append, List.mem_flatMap, List.mem_flatMap]
    right
    refine ⟨(r, ri), ?_, hx1⟩
    rw [List.mem_filter]
    refine ⟨List.mem_zipIdx_iff_getElem?.mpr hri, ?_⟩
    simp only [Bool.and_eq_true]
    exact ⟨Raptor.touches_of hi hprev, hal⟩

/-! ## The kernels of a round -/

/-- `reuse_previous_arrivals`: labels stay, best times are the old ones or those of the label of the round. -/
theorem reuse_facts {P : Problem} {n k : Nat} {m m' : Mem} (h : Kernel ((List.range P.nLoc).map (reuse P n k m)) m m') :
    (∀ i l, m'.val (.round i l) = m.val (.round i l)) ∧ (∀ l, m'.val (.tmp l) = m.val (.tmp l)) ∧ (∀ l, m'.mark l = true → m.mark l = true) ∧
    (∀ l, (m'.val (.best l)).t = (m.val (.best l)).t ∨ (m'.val (.best l)).t = (m.val (.round k l)).t) ∧
    (∀ i, (m'.val (.tad i)).t = (m.val (.tad i)).t ∨ (k ≤ i ∧ ∃ d, P.isDest d = true ∧ (m'.val (.best d)).t ≤ (m'.val (.tad i)).t)) := by
  have hp := h.prov (W := fun a w m1 => match a with
      | .round _ _ => False
      | .tmp _ => False
      | .best l => w.t = (m.val (.round k l)).t
      | .tad i => k ≤ i ∧ ∃ d, P.isDest d = true ∧ (m1.val (.best d)).t ≤ w.t) (M := fun _ _ => False)
    (by
      intro a w m1 m2 hl
      cases a with
      | round _ _ => exact id
      | tmp _ => exact id
      | best _ => exact id
      | tad i => rintro ⟨h1, d, h2, h3⟩; exact ⟨h1, d, h2, Int.le_trans (hl.val _) h3⟩)
    (fun _ _ _ _ h => h)
    (by
      intro p hp
      rw [List.mem_map] at hp
      obtain ⟨l, -, rfl⟩ := hp
      unfold reuse
      intro m1 _
      refine ⟨will_of (fun _ _ _ h => h) _ _ rfl, ?_⟩
      split
      · rename_i hd
        intro m2 v _ hv _
        have aux : ∀ (is : List Nat), (∀ i ∈ is, k ≤ i) → ∀ m3, (m3.val (.best l)).t ≤ v → Prov m (fun a w m1 => match a with
            | .round _ _ => False
            | .tmp _ => False
            | .best l => w.t = (m.val (.round k l)).t
            | .tad i => k ≤ i ∧ ∃ d, P.isDest d = true ∧ (m1.val (.best d)).t ≤ w.t) (fun _ _ => False) (tadUpd v is) m3 := by
          intro is
          induction is with
          | nil => intro _ m3 _; trivial
          | cons i is ih =>
            intro hi m3 h3 m4 h34
            have h4 : ((m4.amin (.tad i) ⟨v, 0⟩).val (.best l)).t ≤ v := Int.le_trans ((h34.trans (later_amin _ _ _)).val _) h3
            refine ⟨will_of ?_ _ _ ⟨hi i (by simp), l, hd, h4⟩, ih (fun x hx => hi x (by simp [hx])) _ h4⟩
            rintro a b hl ⟨g1, d, g2, g3⟩
            exact ⟨g1, d, g2, Int.le_trans (hl.val _) g3⟩
        exact aux _ (fun i hi => by unfold tadRange at hi; rw [List.mem_range'_1] at hi; omega) m2 hv
      · trivial)
  refine ⟨?_, ?_, ?_, ?_, ?_⟩
  · intro i l; exact (hp.1 (.round i l)).resolve_right id
  · intro l; exact (hp.1 (.tmp l)).resolve_right id
  · intro l hm; exact (hp.2 l hm).resolve_right id
  · intro l
    rcases hp.1 (.best l) with g | g
    · exact Or.inl (by rw [g])
    · exact Or.inr g
  · intro i
    rcases hp.1 (.tad i) with g | g
    · exact Or.inl (by rw [g])
    · exact Or.inr g

/-- The transit kernels: only tentative arrivals are written. -/
theorem arrive_facts {m m' : Mem} {xs : List (Loc × Word)} (h : Kernel (xs.map arrive) m m') :
    (∀ i l, m'.val (.round i l) = m.val (.round i l)) ∧ (∀ l, m'.val (.best l) = m.val (.best l)) ∧ (∀ i, m'.val (.tad i) = m.val (.tad i)) ∧
    ∀ x ∈ xs, m'.mark x.1 = true ∧ (m'.val (.tmp x.1)).t ≤ x.2.t := by
  have hv := h.vals (W := fun a _ => ∃ l, a = .tmp l) (by
    intro p hp
    rw [List.mem_map] at hp
    obtain ⟨x, -, rfl⟩ := hp
    exact ⟨⟨_, rfl⟩, trivial⟩)
  refine ⟨?_, ?_, ?_, ?_⟩
  · intro i l; rcases hv (.round i l) with g | ⟨_, g⟩ <;> first | exact g | cases g
  · intro l; rcases hv (.best l) with g | ⟨_, g⟩ <;> first | exact g | cases g
  · intro i; rcases hv (.tad i) with g | ⟨_, g⟩ <;> first | exact g | cases g
  · intro x hx
    apply h.hit (Q := fun m => m.mark x.1 = true ∧ (m.val (.tmp x.1)).t ≤ x.2.t) (p := arrive x)
    · rintro a b hl ⟨h1, h2⟩
      exact ⟨hl.mark _ h1, Int.le_trans (hl.val _) h2⟩
    · exact List.mem_map.mpr ⟨x, hx, rfl⟩
    · intro m1 _ m2 h2
      refine ⟨by simp [Mem.setMark], ?_⟩
      exact Int.le_trans (h2.val _) (amin_same _ _ _)

/-- What the writes of the footpath kernel in round `k` amount to when it ends. -/
def WalkW (P : Problem) (k : Nat) (m0 : Mem) : Addr → Word → Mem → Prop
  | .round k' l, w, m => k' = k ∧ (m.mark l = true ∨ (m.val (.tad k)).t < w.t ∨ P.isDest l = true ∨ (m.val (.best l)).t < (m0.val (.best l)).t)
  | .best l, w, m => (m.mark l = true ∨ P.isDest l = true) ∧ (m.val (.round k l)).t ≤ w.t
  | .tmp _, _, _ => False
  | .tad i, w, m => k ≤ i ∧ ∃ d, P.isDest d = true ∧ (m.val (.round k d)).t ≤ w.t

theorem walkW_stable (P : Problem) (k : Nat) (m0 : Mem) (a : Addr) (w : Word) : Stable (WalkW P k m0 a w) := by
  intro m m' hl h
  cases a with
  | round k' l =>
    obtain ⟨h1, h2⟩ := h
    refine ⟨h1, ?_⟩
    have h3 := hl.val (.tad k)
    have h4 := hl.val (.best l)
    rcases h2 with h | h | h | h
    · exact Or.inl (hl.mark _ h)
    · right; left; omega
    · exact Or.inr (Or.inr (Or.inl h))
    · right; right; right; omega
  | best l =>
    refine ⟨?_, Int.le_trans (hl.val _) h.2⟩
    rcases h.1 with g | g
    · exact Or.inl (hl.mark _ g)
    · exact Or.inr g
  | tmp l => exact h
  | tad i =>
    obtain ⟨h1, d, h2, h3⟩ := h
    exact ⟨h1, d, h2, Int.le_trans (hl.val _) h3⟩

theorem tadUpd_prov {P : Problem} {k : Nat} {m0 : Mem} {t : Int} {d : Loc} (hd : P.isDest d = true) (is : List Nat) (hi : ∀ i ∈ is, k ≤ i) :
    ∀ m, (m.val (.round k d)).t ≤ t → Prov m0 (WalkW P k m0) (fun _ _ => True) (tadUpd t is) m := by
  induction is with
  | nil => intro m _; trivial
  | cons i is ih =>
    intro m h m1 h1
    have h4 : ((m1.amin (.tad i) ⟨t, 0⟩).val (.round k d)).t ≤ t := Int.le_trans ((h1.trans (later_amin _ _ _)).val _) h
    exact ⟨will_of (walkW_stable _ _ _ _ _) _ _ ⟨hi i (by simp), d, hd, h4⟩, ih (fun x hx => hi x (by simp [hx])) _ h4⟩

theorem mem_tadRange {n k i : Nat} (h : i ∈ tadRange n k) : k ≤ i := by
  unfold tadRange at h; rw [List.mem_range'_1] at h; omega

theorem setMark_same (m : Mem) (l : Loc) : (m.setMark l).mark l = true := by simp [Mem.setMark]

/-- The writes of the second part of `relax_fp_target`; `Q` is something stable that its first part needs. -/
theorem relaxTail_prov {P : Problem} {n k : Nat} {m0 : Mem} {l : Loc} {w : Word} {td : Int} (m : Mem) :
    Prov m0 (WalkW P k m0) (fun _ _ => True) (relaxTail P n k l w td) m := by
  unfold relaxTail
  split
  · intro m1 v _ _ _
    show Prov m0 _ _ (if _ then _ else _) m1
    split
    · intro m2 h2
      refine ⟨?_, ?_⟩
      · intro m3 h3 m4 h4
        exact will_of (walkW_stable _ _ _ _ _) _ _ ⟨rfl, Or.inl (setMark_same _ _)⟩
      · intro m3 h3
        have hr3 : ((m3.amin (.best l) ⟨w.t, 0⟩).val (.round k l)).t ≤ w.t :=
          Int.le_trans ((h3.trans (later_amin _ _ _)).val _) (amin_same _ _ _)
        refine ⟨?_, ?_⟩
        · intro m4 h4
          have : ((m4.setMark l).val (.round k l)).t ≤ w.t := Int.le_trans ((h4.trans (later_mark _ _)).val _) hr3
          exact will_of (walkW_stable _ _ _ _ _) _ _ ⟨Or.inl (setMark_same _ _), this⟩
        · intro m4 h4
          have hr4 : ((m4.setMark l).val (.round k l)).t ≤ w.t := Int.le_trans ((h4.trans (later_mark _ _)).val _) hr3
          refine ⟨will_of (fun _ _ _ h => h) _ _ trivial, ?_⟩
          split
          · rename_i hd
            exact tadUpd_prov hd _ (fun _ => mem_tadRange) _ hr4
          · trivial
    · trivial
  · trivial

/-- Whoever ran the second part with a better time than the best time at the launch has marked the location, was pruned, or
was overtaken. -/
theorem relaxTail_will {P : Problem} {n k : Nat} {m0 : Mem} {l : Loc} {w : Word} {td : Int} (hbn : P.bound.isNone = true)
    (hlt : w.t < (m0.val (.best l)).t) (m : Mem) (htd : (m.val (.tad k)).t ≤ td) :
    Will m0 (WalkW P k m0 (.round k l) w) (relaxTail P n k l w td) m := by
  unfold relaxTail
  split
  · intro m1 v h1 hv1 hv2
    show Will m0 _ (if _ then _ else _) m1
    split
    · intro m2 h2 m3 h3 m4 h4
      exact will_of (walkW_stable _ _ _ _ _) _ _ ⟨rfl, Or.inl (setMark_same _ _)⟩
    · rename_i hc
      have hc' : ¬ w.t < v := by
        intro hh; apply hc; simp [hh, Raptor.within_none hbn]
      refine ⟨rfl, Or.inr (Or.inr (Or.inr ?_))⟩
      omega
  · rename_i hc
    exact ⟨rfl, Or.inr (Or.inl (by omega))⟩

theorem relax_prov {P : Problem} {n k : Nat} {m0 : Mem} {l : Loc} {w : Word} (m : Mem) :
    Prov m0 (WalkW P k m0) (fun _ _ => True) (relax P n k l w) m := by
  intro m1 td h1 htd _
  show Prov m0 _ _ (if _ then _ else _) m1
  split
  · rename_i hbn
    intro m2 v h2 hv hv2
    show Prov m0 _ _ (if _ then _ else _) m2
    split
    · rename_i hlt
      intro m3 h3
      refine ⟨relaxTail_will hbn (by omega) _ ?_, relaxTail_prov _⟩
      exact Int.le_trans ((h2.trans (h3.trans (later_amin _ _ _))).val _) htd
    · exact relaxTail_prov _
  · exact relaxTail_prov _

theorem endWrite_prov {P : Problem} {n k : Nat} {m0 : Mem} {w : Word} (hed : P.isDest P.endLoc = true) (m : Mem) :
    Prov m0 (WalkW P k m0) (fun _ _ => True) (endWrite P n k w) m := by
  intro m1 h1
  refine ⟨will_of (walkW_stable _ _ _ _ _) _ _ ⟨rfl, Or.inr (Or.inr (Or.inl hed))⟩, ?_⟩
  intro m2 h2
  have hr : ((m2.amin (.best P.endLoc) ⟨w.t, 0⟩).val (.round k P.endLoc)).t ≤ w.t :=
    Int.le_trans ((h2.trans (later_amin _ _ _)).val _) (amin_same _ _ _)
  exact ⟨will_of (walkW_stable _ _ _ _ _) _ _ ⟨Or.inr hed, hr⟩, tadUpd_prov hed _ (fun _ => mem_tadRange) _ hr⟩

theorem egress_prov {P : Problem} {n k : Nat} {m0 : Mem} {w : Word} (hed : P.isDest P.endLoc = true) (m : Mem) :
    Prov m0 (WalkW P k m0) (fun _ _ => True) (egress P n k w) m := by
  intro m1 td _ _ _
  show Prov m0 _ _ (if _ then _ else _) m1
  split
  · exact endWrite_prov hed _
  · trivial

theorem tdEgress_prov {P : Problem} {n k : Nat} {m0 : Mem} {w : Word} (hed : P.isDest P.endLoc = true) (m : Mem) :
    Prov m0 (WalkW P k m0) (fun _ _ => True) (tdEgress P n k w) m := by
  intro m1 td _ _ _
  show Prov m0 _ _ (if _ then _ else _) m1
  split
  · intro m2 v _ _ _
    show Prov m0 _ _ (if _ then _ else _) m2
    split
    · exact endWrite_prov hed _
    · trivial
  · trivial

/-- The footpath kernel. -/
theorem walks_facts {P : Problem} (hed : P.intermodal = true → P.isDest P.endLoc = true) {n k : Nat} {prev : Loc → Bool} {m m' : Mem}
    (h : Kernel (walks P n k prev m) m m') :
    (∀ l, m'.val (.tmp l) = m.val (.tmp l)) ∧ (∀ i l, i ≠ k → m'.val (.round i l) = m.val (.round i l)) ∧
    (∀ l, (m'.val (.round k l)).t = (m.val (.round k l)).t ∨ m'.mark l = true ∨ (m'.val (.tad k)).t < (m'.val (.round k l)).t ∨ P.isDest l = true) ∧
    (∀ l, (m'.val (.best l)).t = (m.val (.best l)).t ∨ ((m'.mark l = true ∨ P.isDest l = true) ∧ (m'.val (.round k l)).t ≤ (m'.val (.best l)).t)) ∧
    (∀ i, (m'.val (.tad i)).t = (m.val (.tad i)).t ∨ (k ≤ i ∧ ∃ d, P.isDest d = true ∧ (m'.val (.round k d)).t ≤ (m'.val (.tad i)).t)) := by
  have hp := (h.prov (W := WalkW P k m) (M := fun _ _ => True) (walkW_stable P k m) (fun _ _ _ _ h => h) (by
    intro p hp
    obtain ⟨l, -, -, hne, hc⟩ := walks_cases hp
    rcases hc with rfl | ⟨him, d, hd, rfl⟩ | ⟨him, d, hd, rfl⟩ | ⟨fp, hfp, rfl⟩
    · exact relax_prov _
    · exact egress_prov (hed him) _
    · exact tdEgress_prov (hed him) _
    · exact relax_prov _)).1
  have hbest : ∀ l, (m'.val (.best l)).t = (m.val (.best l)).t ∨ ((m'.mark l = true ∨ P.isDest l = true) ∧ (m'.val (.round k l)).t ≤ (m'.val (.best l)).t) := by
    intro l
    rcases hp (.best l) with g | g
    · exact Or.inl (by rw [g])
    · exact Or.inr g
  refine ⟨fun l => (hp (.tmp l)).resolve_right id, ?_, ?_, hbest, ?_⟩
  · intro i l hi
    rcases hp (.round i l) with g | g
    · exact g
    · exact absurd g.1 hi
  · intro l
    rcases hp (.round k l) with g | ⟨-, g | g | g | g⟩
    · exact Or.inl (by rw [g])
    · exact Or.inr (Or.inl g)
    · exact Or.inr (Or.inr (Or.inl g))
    · exact Or.inr (Or.inr (Or.inr g))
    · rcases hbest l with b | ⟨b | b, -⟩
      · omega
      · exact Or.inr (Or.inl b)
      · exact Or.inr (Or.inr (Or.inr b))
  · intro i
    rcases hp (.tad i) with g | g
    · exact Or.inl (by rw [g])
    · exact Or.inr g

/-- What a relaxation achieves. -/
theorem relax_will {P : Problem} {n k : Nat} {m0 : Mem} {l : Loc} {w : Word} (hw : P.within k l w.t = true) (m : Mem) :
    Will m0 (fun m => (m.val (.best l)).t ≤ w.t ∨ (m.val (.tad k)).t < w.t) (relax P n k l w) m := by
  have hst : Stable (fun m : Mem => (m.val (.best l)).t ≤ w.t ∨ (m.val (.tad k)).t < w.t) := by
    intro a b hl h
    have h1 := hl.val (.best l); have h2 := hl.val (.tad k)
    omega
  have htail : ∀ (td : Int) (m : Mem), (m.val (.tad k)).t ≤ td →
      Will m0 (fun m => (m.val (.best l)).t ≤ w.t ∨ (m.val (.tad k)).t < w.t) (relaxTail P n k l w td) m := by
    intro td m htd
    unfold relaxTail
    split
    · intro m1 v h1 hv1 hv2
      show Will m0 _ (if _ then _ else _) m1
      split
      · intro m2 h2 m3 h3
        exact will_of hst _ _ (Or.inl (amin_same _ _ _))
      · rename_i hc
        have hc' : ¬ w.t < v := by
          intro hh; apply hc; simp [hh, hw]
        left; omega
    · right; omega
  intro m1 td h1 htd _
  show Will m0 _ (if _ then _ else _) m1
  split
  · intro m2 v h2 _ _
    show Will m0 _ (if _ then _ else _) m2
    have g := Int.le_trans (h2.val (.tad k)) htd
    split
    · intro m3 h3
      exact htail td _ (Int.le_trans ((h3.trans (later_amin _ _ _)).val _) g)
    · exact htail td _ g
  · exact htail td _ htd

theorem endWrite_will {P : Problem} {n k : Nat} {m0 : Mem} {w : Word} (m : Mem) :
    Will m0 (fun m => (m.val (.best P.endLoc)).t ≤ w.t ∨ (m.val (.tad k)).t < w.t) (endWrite P n k w) m := by
  intro m1 _ m2 _
  exact will_of (by
    intro a b hl h
    have h1 := hl.val (.best P.endLoc); have h2 := hl.val (.tad k)
    omega) _ _ (Or.inl (amin_same _ _ _))

theorem egress_will {P : Problem} {n k : Nat} {m0 : Mem} {w : Word} (m : Mem) :
    Will m0 (fun m => (m.val (.best P.endLoc)).t ≤ w.t ∨ (m.val (.tad k)).t < w.t) (egress P n k w) m := by
  intro m1 td _ htd _
  show Will m0 _ (if _ then _ else _) m1
  split
  · exact endWrite_will _
  · right; omega

theorem tdEgress_will {P : Problem} {n k : Nat} {m0 : Mem} {w : Word} (m : Mem) :
    Will m0 (fun m => (m.val (.best P.endLoc)).t ≤ w.t ∨ (m.val (.tad k)).t < w.t) (tdEgress P n k w) m := by
  intro m1 td _ htd _
  show Will m0 _ (if _ then _ else _) m1
  split
  · intro m2 v _ hv _
    show Will m0 _ (if _ then _ else _) m2
    split
    · exact endWrite_will _
    · left; omega
  · right; omega

/-- The work items of the footpath kernel: they are there. -/
theorem mem_walks {P : Problem} {n k : Nat} {prev : Loc → Bool} {m : Mem} {l : Loc} (hl : l < P.nLoc) (hm : prev l = true)
    (hne : (m.val (.tmp l)).t ≠ P.hi) :
    relax P n k l ⟨P.clamp ((m.val (.tmp l)).t + transferTime P l), (m.val (.tmp l)).bc⟩ ∈ walks P n k prev m ∧
    (P.intermodal = true → ∀ d, P.endDist l = some d → egress P n k ⟨P.clamp ((m.val (.tmp l)).t + d), (m.val (.tmp l)).bc⟩ ∈ walks P n k prev m) ∧
    (P.intermodal = true → ∀ d, P.endTd l (m.val (.tmp l)).t = some d →
      tdEgress P n k ⟨P.clamp ((m.val (.tmp l)).t + d), (m.val (.tmp l)).bc⟩ ∈ walks P n k prev m) ∧
    (∀ fp ∈ P.fps l (m.val (.tmp l)).t, relax P n k fp.1 ⟨P.clamp ((m.val (.tmp l)).t + fp.2), (m.val (.tmp l)).bc⟩ ∈ walks P n k prev m) := by
  have hmem : ∀ p, p ∈ walksAt P n k m l → p ∈ walks P n k prev m := by
    intro p hp
    unfold walks
    rw [List.mem_flatMap]
    exact ⟨l, by unfold marked; rw [List.mem_filter, List.mem_range]; exact ⟨hl, hm⟩, hp⟩
  have hw : walksAt P n k m l = [relax P n k l ⟨P.clamp ((m.val (.tmp l)).t + transferTime P l), (m.val (.tmp l)).bc⟩] ++
      (if P.intermodal then
        (match P.endDist l with | some d => [egress P n k ⟨P.clamp ((m.val (.tmp l)).t + d), (m.val (.tmp l)).bc⟩] | none => []) ++
        (match P.endTd l (m.val (.tmp l)).t with | some d => [tdEgress P n k ⟨P.clamp ((m.val (.tmp l)).t + d), (m.val (.tmp l)).bc⟩] | none => [])
      else []) ++
      (P.fps l (m.val (.tmp l)).t).map fun fp => relax P n k fp.1 ⟨P.clamp ((m.val (.tmp l)).t + fp.2), (m.val (.tmp l)).bc⟩ := by
    unfold walksAt
    simp only
    rw [if_neg hne]
    rfl
  refine ⟨?_, ?_, ?_, ?_⟩
  · apply hmem; rw [hw]; simp
  · intro hi d hd; apply hmem; rw [hw, if_pos hi, hd]; simp
  · intro hi d hd; apply hmem; rw [hw, if_pos hi, hd]; simp
  · intro fp hfp; apply hmem; rw [hw]
    rw [List.mem_append]
    exact Or.inr (List.mem_map.mpr ⟨fp, hfp, rfl⟩)

/-- What a ride followed by a change leads to, or the bound already excludes it. -/
theorem changes_hit {P : Problem} {win : Int} (ht : Tame P win) {n k : Nat} {prev : Loc → Bool} {m m' : Mem} (h : Kernel (walks P n k prev m) m m')
    {u : Loc} {a : Int} {l' : Loc} {t' : Int} (hu : u < P.nLoc) (hue : P.intermodal = true → u ≠ P.endLoc) (hm : prev u = true) (htmp : (m.val (.tmp u)).t ≤ a) (hahi : a < P.hi) (hlo : P.lo ≤ a)
    (hwin : t' ≤ (m.val (.tmp u)).t + win ∧ P.lo < (m.val (.tmp u)).t) (hch : Change P u a l' t')
    (hwi : (P.intermodal = true → l' ≠ P.endLoc) → P.within k l' t' = true) :
    (m'.val (.best l')).t ≤ t' ∨ (m'.val (.tad k)).t < t' := by
  have hne : (m.val (.tmp u)).t ≠ P.hi := by omega
  obtain ⟨w1, w2, w3, w4⟩ := mem_walks (n := n) (k := k) hu hm hne
  have hta := Raptor.change_le ht.toSane hch
  have hst : ∀ (l : Loc) (t : Int), Stable (fun m : Mem => (m.val (.best l)).t ≤ t ∨ (m.val (.tad k)).t < t) := by
    intro l t a b hl h
    have h1 := hl.val (.best l); have h2 := hl.val (.tad k)
    omega
  rcases hch with ⟨rfl, rfl⟩ | ⟨d, hd, rfl⟩ | ⟨him, rfl, d, hd, rfl⟩
  · have htt : transferTime P l' = (if P.intermodal = false ∧ P.isDest l' = true then 0 else P.transfer l') := by
      unfold transferTime
      by_cases g1 : P.intermodal = false <;> by_cases g2 : P.isDest l' = true <;> simp [g1, g2]
    have hle : P.clamp ((m.val (.tmp l')).t + transferTime P l') ≤ a + (if P.intermodal = false ∧ P.isDest l' = true then 0 else P.transfer l') := by
      rw [htt]; exact Raptor.clamp_le_of_le (by omega) (by omega)
    have := h.hit (hst _ _) w1 (relax_will (Raptor.within_anti (hwi hue) hle) m)
    simp only at this
    omega
  · have hne : P.intermodal = true → l' ≠ P.endLoc := fun hi he => ht.endFps hi _ _ d (by rw [← he]; exact hd)
    obtain ⟨d', hd', hle⟩ := ht.fpsFifo u a (m.val (.tmp u)).t l' d hwin.2 htmp hwin.1 hd
    have hle' : P.clamp ((m.val (.tmp u)).t + d') ≤ a + d := Raptor.clamp_le_of_le hle (by omega)
    have := h.hit (hst _ _) (w4 (l', d') hd') (relax_will (Raptor.within_anti (hwi hne) hle') m)
    simp only at this
    omega
  · rcases hd with hd | hd
    · have hle : P.clamp ((m.val (.tmp u)).t + d) ≤ a + d := Raptor.clamp_le_of_le (by omega) (by omega)
      have := h.hit (hst _ _) (w2 him d hd) (egress_will m)
      simp only at this
      omega
    · obtain ⟨d', hd', hle⟩ := ht.endFifo u a (m.val (.tmp u)).t d hwin.2 htmp hwin.1 hd
      have hle' : P.clamp ((m.val (.tmp u)).t + d') ≤ a + d := Raptor.clamp_le_of_le hle (by omega)
      have := h.hit (hst _ _) (w3 him d' hd') (tdEgress_will m)
      simp only at this
      omega

/-! ## Runs -/

/-- The states of a run between its rounds. -/
structure IsRun (P : Problem) (C : Codec) (N : Nat) (f : Nat → GState) : Prop where
  step : ∀ j, j < N → Round P C N (j + 1) (f j) (f (j + 1))

theorem rounds_seq {P : Problem} {C : Codec} {n : Nat} {S S' : GState} {N : Nat} (h : Rounds P C n S N S') :
    ∃ f : Nat → GState, f 0 = S ∧ f N = S' ∧ ∀ j, j < N → Round P C n (j + 1) (f j) (f (j + 1)) := by
  induction h with
  | zero => exact ⟨fun _ => S, rfl, rfl, fun j hj => by omega⟩
  | @succ j S' S'' _ h2 ih =>
    obtain ⟨f, f0, fN, fs⟩ := ih
    refine ⟨fun i => if i = j + 1 then S'' else f i, by simp [f0], by simp, ?_⟩
    intro i hi
    by_cases hij : i = j
    · subst hij
      simp only [if_true]
      rw [if_neg (by omega), fN]; exact h2
    · simp only
      rw [if_neg (by omega), if_neg (by omega)]
      exact fs i (by omega)

theorem rounds_of_seq {P : Problem} {C : Codec} {n : Nat} {f : Nat → GState} {N : Nat}
    (h : ∀ j, j < N → Round P C n (j + 1) (f j) (f (j + 1))) : ∀ j, j ≤ N → Rounds P C n (f 0) j (f j) := by
  intro j
  induction j with
  | zero => intro _; exact .zero
  | succ j ih => intro hj; exact .succ (ih (by omega)) (h j (by omega))

/-- A label of round `j` whose location is marked for the next round. -/
def Lab (f : Nat → GState) (j : Nat) (l : Loc) (x : Int) : Prop :=
  (f j).done = false ∧ (f j).mem.mark l = true ∧ (f j).mem.st.round j l ≤ x

/-- Invariant of a run after `j` rounds. -/
structure RunInv (P : Problem) (W : Int) (f : Nat → GState) (j : Nat) : Prop where
  T : TadOk P W (f j).mem.st
  high : ∀ i l, j < i → (f j).mem.st.round i l = (f 0).mem.st.round i l
  mono : ∀ i l, (f j).mem.st.round i l ≤ (f 0).mem.st.round i l
  best : ∀ l x, (f j).mem.st.best l ≤ x → P.hi ≤ x ∨ (∃ i, i ≤ j ∧ Lab f i l x) ∨
    (∃ i, 1 ≤ i ∧ i ≤ j ∧ (f 0).mem.st.round i l ≤ x) ∨ (P.isDest l = true ∧ ∃ i, i ≤ j ∧ (f j).mem.st.round i l ≤ x)
  rows : ∀ i l, i ≤ j → (f j).mem.st.round i l = (f 0).mem.st.round i l ∨ Lab f i l ((f j).mem.st.round i l) ∨
    (f j).mem.st.tad i < (f j).mem.st.round i l ∨ P.isDest l = true
  low : ∀ i l, i ≤ j → (f j).mem.st.round i l = (f i).mem.st.round i l

theorem RunInv.bestReal {P : Problem} {W : Int} {f : Nat → GState} {j : Nat} (h : RunInv P W f j) : Raptor.BestReal P j (f j).mem.st := by
  intro l
  rcases h.best l _ (Int.le_refl _) with g | ⟨i, g1, g2⟩ | ⟨i, g0, g1, g2⟩ | ⟨_, i, g1, g2⟩
  · exact Or.inl g
  · right; exact ⟨i, g1, by rw [h.low i l g1]; exact g2.2.2⟩
  · right; exact ⟨i, g1, Int.le_trans (h.mono i l) g2⟩
  · right; exact ⟨i, g1, g2⟩

/-- After `reuse_previous_arrivals`. -/
theorem tadOk_reuse {P : Problem} {W : Int} (hW : W ≤ P.hi) {n k : Nat} {m m' : Mem} (h : Kernel ((List.range P.nLoc).map (reuse P n (k + 1) m)) m m')
    (hT : TadOk P W m.st) (hB : Raptor.BestReal P k m.st) : TadOk P W m'.st := by
  obtain ⟨r1, -, -, r4, r5⟩ := reuse_facts h
  intro i
  show W ≤ (m'.val (.tad i)).t ∨ ∃ k', k' ≤ i ∧ ∃ d, P.isDest d = true ∧ (m'.val (.round k' d)).t ≤ (m'.val (.tad i)).t
  rcases r5 i with g | ⟨g1, d, g2, g3⟩
  · rw [g]
    rcases hT i with e | ⟨k', e1, d, e2, e3⟩
    · exact Or.inl e
    · exact Or.inr ⟨k', e1, d, e2, by rw [r1]; exact e3⟩
  · rcases r4 d with e | e
    · rcases hB d with b | ⟨i', b1, b2⟩
      · left; have : P.hi ≤ (m.val (.best d)).t := b; omega
      · right; refine ⟨i', by omega, d, g2, ?_⟩
        rw [r1]
        have : (m.val (.round i' d)).t ≤ (m.val (.best d)).t := b2
        omega
    · right; refine ⟨k + 1, g1, d, g2, ?_⟩
      rw [r1]; omega

theorem runInv_succ {P : Problem} {C : Codec} {win W : Int} (ht : Tame P win) (hW : W ≤ P.hi) {N : Nat} {f : Nat → GState} {j : Nat}
    (hr : Round P C N (j + 1) (f j) (f (j + 1))) (h : RunInv P W f j) : RunInv P W f (j + 1) := by
  -- rounds that end the search keep all labels
  have key : ∀ S', f (j + 1) = S' → (∀ i l, S'.mem.val (.round i l) = (f j).mem.val (.round i l)) → TadOk P W S'.mem.st →
      (∀ i, S'.mem.st.tad i ≤ (f j).mem.st.tad i) →
      (∀ l, (S'.mem.val (.best l)).t = ((f j).mem.val (.best l)).t ∨ (S'.mem.val (.best l)).t = ((f j).mem.val (.round (j + 1) l)).t) →
      RunInv P W f (j + 1) := by
    intro S' hS hround hT htad hbest
    have hrd : ∀ i l, (f (j + 1)).mem.st.round i l = (f j).mem.st.round i l := by
      intro i l; rw [hS]; show (S'.mem.val _).t = _; rw [hround]; rfl
    refine ⟨by rw [hS]; exact hT, ?_, ?_, ?_, ?_, ?_⟩
    · intro i l hi; rw [hrd]; exact h.high i l (by omega)
    · intro i l; rw [hrd]; exact h.mono i l
    · intro l x hx
      have hx' : (S'.mem.val (.best l)).t ≤ x := by rw [hS] at hx; exact hx
      rcases hbest l with g | g
      · rcases h.best l x (by show ((f j).mem.val (.best l)).t ≤ x; omega) with g | ⟨i, g1, g2⟩ | ⟨i, g0, g1, g2⟩ | ⟨g0, i, g1, g2⟩
        · exact Or.inl g
        · exact Or.inr (Or.inl ⟨i, by omega, g2⟩)
        · exact Or.inr (Or.inr (Or.inl ⟨i, g0, by omega, g2⟩))
        · exact Or.inr (Or.inr (Or.inr ⟨g0, i, by omega, by rw [hrd]; exact g2⟩))
      · right; right; left
        refine ⟨j + 1, by omega, Nat.le_refl _, ?_⟩
        rw [← h.high (j + 1) l (by omega)]
        show ((f j).mem.val (.round (j + 1) l)).t ≤ x
        omega
    · intro i l hi
      rw [hrd]
      by_cases hij : i ≤ j
      · rcases h.rows i l hij with g | g | g | g
        · exact Or.inl g
        · exact Or.inr (Or.inl g)
        · right; right; left; rw [hS]; exact Int.lt_of_le_of_lt (htad i) g
        · exact Or.inr (Or.inr (Or.inr g))
      · left; exact h.high i l (by omega)
    · intro i l hi
      by_cases hij : i ≤ j
      · rw [hrd]; exact h.low i l hij
      · rw [show i = j + 1 by omega]
  generalize hS : f j = S at hr
  generalize hS' : f (j + 1) = S'' at hr
  cases hr with
  | finished _ =>
    refine key S hS' ?_ ?_ ?_ ?_
    · intro i l; rw [hS]
    · rw [← hS]; exact h.T
    · intro i; rw [hS]; omega
    · intro l; left; rw [hS]
  | @noRoute m1 _ h1 _ =>
    obtain ⟨r1, r2, r3, r4, r5⟩ := reuse_facts h1
    refine key ⟨m1, true⟩ hS' ?_ ?_ ?_ ?_
    · intro i l; rw [hS]; exact r1 i l
    · exact tadOk_reuse hW h1 (by rw [← hS]; exact h.T) (by rw [← hS]; exact h.bestReal)
    · intro i; rw [hS]; exact h1.later.val _
    · intro l; rw [hS]; exact r4 l
  | @noArrival m1 m3 _ h1 _ h2 _ =>
    obtain ⟨r1, r2, r3, r4, r5⟩ := reuse_facts h1
    obtain ⟨a1, a2, a3, -⟩ := arrive_facts h2
    have hT := tadOk_reuse hW h1 (by rw [← hS]; exact h.T) (by rw [← hS]; exact h.bestReal)
    refine key ⟨m3, true⟩ hS' ?_ ?_ ?_ ?_
    · intro i l; rw [hS, ← r1 i l]; exact a1 i l
    · intro i
      show W ≤ (m3.val (.tad i)).t ∨ ∃ k', k' ≤ i ∧ ∃ d, P.isDest d = true ∧ (m3.val (.round k' d)).t ≤ (m3.val (.tad i)).t
      rw [a3]
      rcases hT i with e | ⟨k', e1, d, e2, e3⟩
      · exact Or.inl e
      · exact Or.inr ⟨k', e1, d, e2, by rw [a1]; exact e3⟩
    · intro i; rw [hS]; show (m3.val (.tad i)).t ≤ _; rw [a3]; exact h1.later.val _
    · intro l; rw [hS]; show (m3.val (.best l)).t = _ ∨ (m3.val (.best l)).t = _; rw [a2]; exact r4 l
  | @full m1 m3 m5 _ h1 _ h2 _ h3 =>
    obtain ⟨r1, r2, r3, r4, r5⟩ := reuse_facts h1
    obtain ⟨a1, a2, a3, -⟩ := arrive_facts h2
    obtain ⟨w1, w2, w3, w4, w5⟩ := walks_facts ht.endDest h3
    have hT := tadOk_reuse hW h1 (by rw [← hS]; exact h.T) (by rw [← hS]; exact h.bestReal)
    have e0 : ∀ i l, (f j).mem.st.round i l = (m3.val (.round i l)).t := by
      intro i l; rw [hS, a1]; show _ = (m1.val _).t; rw [r1]; rfl
    have e1 : ∀ i l, (f (j + 1)).mem.st.round i l = (m5.val (.round i l)).t := by intro i l; rw [hS']; rfl
    have eb : ∀ l, (f (j + 1)).mem.st.best l = (m5.val (.best l)).t := by intro l; rw [hS']; rfl
    have et : ∀ i, (f (j + 1)).mem.st.tad i = (m5.val (.tad i)).t := by intro i; rw [hS']; rfl
    have em : ∀ l, (f (j + 1)).mem.mark l = m5.mark l := by intro l; rw [hS']
    have ed : (f (j + 1)).done = false := by rw [hS']
    have hlow : ∀ i l, i ≠ j + 1 → (f (j + 1)).mem.st.round i l = (f j).mem.st.round i l := by
      intro i l hi; rw [e1, e0, w2 i l hi]; rfl
    have hrow : ∀ i l, (f (j + 1)).mem.st.round i l ≤ (f j).mem.st.round i l := by
      intro i l; rw [e1, e0]; exact h3.later.val _
    have htad : ∀ i, (f (j + 1)).mem.st.tad i ≤ (f j).mem.st.tad i := by
      intro i; rw [et, hS]
      have g1 := h3.later.val (.tad i)
      have g2 := h2.later.val (.tad i)
      have g3 := h1.later.val (.tad i)
      exact Int.le_trans g1 (Int.le_trans g2 g3)
    refine ⟨?_, ?_, ?_, ?_, ?_, ?_⟩
    · intro i
      rw [et]
      rcases w5 i with g | ⟨g1, d, g2, g3⟩
      · have g' : (m5.val (.tad i)).t = (m1.val (.tad i)).t := by rw [g]; show (m3.val _).t = _; rw [a3]; rfl
        rw [g']
        rcases hT i with e | ⟨k', e1', d, e2, e3⟩
        · exact Or.inl e
        · refine Or.inr ⟨k', e1', d, e2, ?_⟩
          refine Int.le_trans (hrow k' d) ?_
          rw [e0, a1]; exact e3
      · exact Or.inr ⟨j + 1, g1, d, g2, by rw [e1]; exact g3⟩
    · intro i l hi; rw [hlow i l (by omega)]; exact h.high i l (by omega)
    · intro i l; exact Int.le_trans (hrow i l) (h.mono i l)
    · intro l x hx
      rw [eb] at hx
      rcases w4 l with hb | ⟨hb1, hb2⟩
      · have hb' : (m5.val (.best l)).t = (m1.val (.best l)).t := by rw [hb]; show (m3.val _).t = _; rw [a2]; rfl
        rcases r4 l with g | g
        · rcases h.best l x (by rw [hS]; show (S.mem.val (.best l)).t ≤ x; omega) with g | ⟨i, g1, g2⟩ | ⟨i, g0, g1, g2⟩ | ⟨g0, i, g1, g2⟩
          · exact Or.inl g
          · exact Or.inr (Or.inl ⟨i, by omega, g2⟩)
          · exact Or.inr (Or.inr (Or.inl ⟨i, g0, by omega, g2⟩))
          · exact Or.inr (Or.inr (Or.inr ⟨g0, i, by omega, by rw [hlow i l (by omega)]; exact g2⟩))
        · right; right; left
          refine ⟨j + 1, by omega, Nat.le_refl _, ?_⟩
          rw [← h.high (j + 1) l (by omega), hS]
          show (S.mem.val (.round (j + 1) l)).t ≤ x
          omega
      · right
        rcases hb1 with hb1 | hb1
        · left; exact ⟨j + 1, Nat.le_refl _, ed, by rw [em]; exact hb1, by rw [e1]; omega⟩
        · right; right; exact ⟨hb1, j + 1, Nat.le_refl _, by rw [e1]; omega⟩
    · intro i l hi
      by_cases hij : i ≤ j
      · rw [hlow i l (by omega)]
        rcases h.rows i l hij with g | g | g | g
        · exact Or.inl g
        · exact Or.inr (Or.inl g)
        · exact Or.inr (Or.inr (Or.inl (Int.lt_of_le_of_lt (htad i) g)))
        · exact Or.inr (Or.inr (Or.inr g))
      · have : i = j + 1 := by omega
        subst this
        rw [e1, et]
        rcases w3 l with g | g | g | g
        · left; rw [g]; show (m3.val (.round (j + 1) l)).t = _; rw [← e0]; exact h.high _ l (by omega)
        · right; left; exact ⟨ed, by rw [em]; exact g, by rw [e1]; omega⟩
        · exact Or.inr (Or.inr (Or.inl g))
        · exact Or.inr (Or.inr (Or.inr g))
    · intro i l hi
      by_cases hij : i ≤ j
      · rw [hlow i l (by omega)]; exact h.low i l hij
      · rw [show i = j + 1 by omega]

/-- Whatever can be reached from the labels of a run on the way to a target passes the test of `within_bounds`. -/
def InReach (P : Problem) (D : Loc → Prop) (N : Nat) (W : Int) (f : Nat → GState) : Prop :=
  ∀ j l t m a l' t' n A, Lab f j l t → Ride P l t m a → Change P m a l' t' → Cont P D n l' t' A → A ≤ W → j + 1 + n ≤ N →
    P.within (j + 1) m a = true ∧ ((P.intermodal = true → l' ≠ P.endLoc) → P.within (j + 1) l' t' = true)

theorem inReach_none {P : Problem} (h : P.bound = none) (D : Loc → Prop) (N : Nat) (W : Int) (f : Nat → GState) : InReach P D N W f := by
  intro j l t m a l' t' n A _ _ _ _ _ _
  have h : P.bound.isNone = true := by rw [h]; rfl
  exact ⟨Raptor.within_none h _ _ _, fun _ => Raptor.within_none h _ _ _⟩

theorem ride_not_end {P : Problem} {win : Int} (ht : Tame P win) {l : Loc} {t : Int} {u : Loc} {a : Int} (h : Ride P l t u a)
    (hi : P.intermodal = true) : u ≠ P.endLoc := by
  rcases h with ⟨r, hr, -, tr, -, i, j, si, sj, -, -, hj, -, hm, -⟩ | ⟨r, hr, -, i, j, si, sj, -, -, hj, -, hm, -⟩
  · rw [← hm]; exact (ht.endStop hi).1 r hr sj (List.mem_of_getElem? hj)
  · rw [← hm]; exact (ht.endStop hi).2 r hr sj (List.mem_of_getElem? hj)

/-- Every continuation of a marked label is found. -/
theorem lab_found {P : Problem} {C : Codec} {win T0 W : Int} {D : Loc → Prop} (ht : Tame P win) {Lo Hi : Int} (hk : KeyOk P C Lo Hi)
    (hD : ∀ d, P.isDest d = true → D d) (hW : W < P.hi) (hT0 : P.lo < T0) (hwin : W ≤ T0 + win) {f : Nat → GState} {N : Nat}
    (hrun : ∀ j, j < N → Round P C N (j + 1) (f j) (f (j + 1)))
    (hinv : ∀ j, j ≤ N → RunInv P W f j) (hlow : ∀ j, j ≤ N → ∀ i l, T0 ≤ (f j).mem.st.round i l) (hlowt : ∀ j, j ≤ N → ∀ l, T0 ≤ (f j).mem.st.tmp l)
    (hLT : Lo ≤ T0) (hHi : ∀ j, j < N → (f j).mem.st.tad (j + 1) ≤ Hi)
    (hpre : ∀ i l n A t, 1 ≤ i → (f 0).mem.st.round i l ≤ t → Cont P D n l t A → A ≤ W → i + n ≤ N → Found D (f 0).mem.st (i + n) A)
    (hreach : InReach P D N W f) (n : Nat) : ∀ (j : Nat) (l : Loc) (t A : Int), Lab f j l t → Cont P D n l t A → A ≤ W → j + n ≤ N →
      Found D (f N).mem.st (j + n) A := by
  have hkeep : ∀ j, j ≤ N → ∀ i l, (f N).mem.st.round i l ≤ (f j).mem.st.round i l := by
    intro j hj i l
    by_cases hij : i ≤ j
    · rw [(hinv N (Nat.le_refl _)).low i l (by omega), (hinv j hj).low i l hij]; omega
    · rw [(hinv j hj).high i l (by omega)]; exact (hinv N (Nat.le_refl _)).mono i l
  induction n with
  | zero =>
    intro j l t A hlab hc _ hjN
    cases hc with
    | here hd => exact ⟨j, by omega, l, hd, Int.le_trans (hkeep j (by omega) j l) hlab.2.2⟩
  | succ n ih =>
    intro j l t A hlab hc hAW hjN
    cases hc with
    | @ride _ _ _ u a l' t' _ hride hch hcont =>
      obtain ⟨hw1, hw2⟩ := hreach j l t u a l' t' n A hlab hride hch hcont hAW (by omega)
      obtain ⟨hnd, hmark, hval⟩ := hlab
      have hTt : T0 ≤ t := Int.le_trans (hlow j (by omega) j l) hval
      have hta := Raptor.ride_le ht.toSane hride
      have hat := Raptor.change_le ht.toSane hch
      have htA := Raptor.cont_le ht.toSane hcont
      have hinv1 := hinv (j + 1) (by omega)
      have hbad : (f (j + 1)).mem.st.tad (j + 1) < A → Found D (f N).mem.st (j + (n + 1)) A := by
        intro hlt
        exact (Raptor.found_of_tad hD hinv1.T hlt hAW).mono (by omega) (hkeep (j + 1) (by omega))
      have hlowj := hlow j (by omega)
      have hlowt1 := hlowt (j + 1) (by omega)
      have hr := hrun j (by omega)
      generalize hS : f j = S at hr
      generalize hS' : f (j + 1) = S' at hr
      have hround0 : ∀ l, T0 ≤ (S.mem.val (.round j l)).t := by intro l; rw [hS] at hlowj; exact hlowj j l
      have hval' : (S.mem.val (.round j l)).t ≤ t := by rw [hS] at hval; exact hval
      have hmark' : S.mem.mark l = true := by rw [hS] at hmark; exact hmark
      -- what the transit kernel finds
      have arr : ∀ m1, Kernel ((List.range P.nLoc).map (reuse P N (j + 1) S.mem)) S.mem m1 → A ≤ (m1.val (.tad (j + 1))).t →
          ∃ x ∈ arrivals P C (j + 1) m1.mark (noMarks m1), x.1 = u ∧ x.2.t ≤ a := by
        intro m1 h1 hA
        obtain ⟨r1, r2, r3, r4, r5⟩ := reuse_facts h1
        have e : ∀ l, ((noMarks m1).val (.round j l)).t = (S.mem.val (.round j l)).t := by intro l; show (m1.val _).t = _; rw [r1]
        have g := hround0 l
        exact arrivals_complete ht hk j m1.mark (noMarks m1) (by intro l; rw [e]; have := hround0 l; omega) (by intro l; rw [e]; have := hround0 l; omega)
          (by
            have g1 : (m1.val (.tad (j + 1))).t ≤ (S.mem.val (.tad (j + 1))).t := h1.later.val _
            have g2 := hHi j (by omega)
            rw [hS] at g2
            exact Int.le_trans g1 g2) hride
          (h1.later.mark l hmark') (by rw [e]; omega) (by omega) (by rw [e]; omega) (by show a ≤ (m1.val _).t; omega) hw1
      have touch : ∀ m1, Kernel ((List.range P.nLoc).map (reuse P N (j + 1) S.mem)) S.mem m1 → anyTouched P m1.mark = true := by
        intro m1 h1
        have := Raptor.ride_touch hride (h1.later.mark l hmark')
        unfold anyTouched
        cases h : (P.routes.any fun r => touches m1.mark r.stops)
        · cases h' : (P.rts.any fun r => touches m1.mark r.stops)
          · rw [h, h'] at this; cases this
          · rfl
        · rfl
      cases hr with
      | finished hd => rw [hS] at hnd; rw [hnd] at hd; cases hd
      | @noRoute m1 _ h1 hno => rw [touch m1 h1] at hno; cases hno
      | @noArrival m1 m3 _ h1 _ h2 hno =>
        obtain ⟨a1, a2, a3, a4⟩ := arrive_facts h2
        by_cases hA : A ≤ (m1.val (.tad (j + 1))).t
        · obtain ⟨x, hx1, hx2, hx3⟩ := arr m1 h1 hA
          have := (a4 x hx1).1
          rw [hno] at this; cases this
        · apply hbad
          rw [hS']
          show (m3.val (.tad (j + 1))).t < A
          rw [a3]; show (m1.val _).t < A; omega
      | @full m1 m3 m5 _ h1 _ h2 _ h3 =>
        obtain ⟨a1, a2, a3, a4⟩ := arrive_facts h2
        obtain ⟨w1, w2, w3, w4, w5⟩ := walks_facts ht.endDest h3
        by_cases hA : A ≤ (m1.val (.tad (j + 1))).t
        · obtain ⟨x, hx1, hx2, hx3⟩ := arr m1 h1 hA
          obtain ⟨b1, b2⟩ := a4 x hx1
          rw [hx2] at b1 b2
          have htmp : ∀ l, ((noMarks m3).val (.tmp l)).t = (f (j + 1)).mem.st.tmp l := by
            intro l; rw [hS']; show _ = (m5.val _).t; rw [w1]
          have hT3 := hlowt1 u
          rw [← htmp] at hT3
          rcases changes_hit ht h3 (Raptor.ride_loc ht hride) (ride_not_end ht hride) b1 (show (m3.val (.tmp u)).t ≤ a by omega)
              (by omega) (by omega) (by omega) hch hw2 with hb | hb
          · rcases hinv1.best l' t' (by rw [hS']; exact hb) with g | ⟨i, g1, g2⟩ | ⟨i, g0, g1, g2⟩ | ⟨g0, i, g1, g2⟩
            · omega
            · exact (ih i l' t' A g2 hcont hAW (by omega)).mono (by omega) (fun _ _ => Int.le_refl _)
            · exact (hpre i l' n A t' g0 g2 hcont hAW (by omega)).mono (by omega) (hinv N (Nat.le_refl _)).mono
            · exact ⟨i, by omega, l', hD l' g0, by have := hkeep (j + 1) (by omega) i l'; omega⟩
          · apply hbad
            rw [hS']; show (m5.val (.tad (j + 1))).t < A; omega
        · apply hbad
          rw [hS']
          have g := h3.later.val (.tad (j + 1))
          show (m5.val (.tad (j + 1))).t < A
          have g' : ((noMarks m3).val (.tad (j + 1))).t = (m1.val (.tad (j + 1))).t := by show (m3.val _).t = _; rw [a3]; rfl
          omega

/-! ## Starts -/

theorem begin_facts {P : Problem} {C : Codec} {S : GState} {q : Start} {m : Mem}
    (h : Kernel (q.starts.map (initStart C) ++ (List.range nTad).map (initTad q.worst)) (nextStart P C S).mem m) :
    (∀ i l, 1 ≤ i → m.val (.round i l) = S.mem.val (.round i l)) ∧ (∀ l, (m.val (.round 0 l)).t ≤ (S.mem.val (.round 0 l)).t) ∧
    (∀ i, (m.val (.tad i)).t = (S.mem.val (.tad i)).t ∨ (m.val (.tad i)).t = q.worst) ∧
    (∀ l, (m.val (.round 0 l)).t = (S.mem.val (.round 0 l)).t ∨ m.mark l = true) ∧
    (∀ l, P.hi ≤ (m.val (.best l)).t ∨ (m.mark l = true ∧ (m.val (.round 0 l)).t ≤ (m.val (.best l)).t)) ∧
    ∀ x ∈ q.starts, m.mark x.1 = true ∧ (m.val (.round 0 x.1)).t ≤ x.2 := by
  let WW : Addr → Word → Mem → Prop := fun a w m1 => match a with
      | .round i l => i = 0 ∧ m1.mark l = true
      | .best l => m1.mark l = true ∧ (m1.val (.round 0 l)).t ≤ w.t
      | .tmp _ => True
      | .tad _ => w.t = q.worst
  have hst : ∀ a w, Stable (WW a w) := by
    intro a w m1 m2 hl h
    cases a with
    | round i l => exact ⟨h.1, hl.mark _ h.2⟩
    | best l => exact ⟨hl.mark _ h.1, Int.le_trans (hl.val _) h.2⟩
    | tmp _ => trivial
    | tad _ => exact h
  have hp := (h.prov (W := WW) (M := fun _ _ => True) hst (fun _ _ _ _ h => h) (by
    intro p hp
    rw [List.mem_append, List.mem_map, List.mem_map] at hp
    rcases hp with ⟨x, hx, rfl⟩ | ⟨i, -, rfl⟩
    · intro m1 _
      refine ⟨?_, ?_⟩
      · intro m2 _ m3 h3
        refine ⟨setMark_same _ _, ?_⟩
        exact Int.le_trans ((h3.trans (later_mark _ _)).val _) (amin_same _ _ _)
      · intro m2 _
        refine ⟨?_, ?_⟩
        · intro m3 h3; exact ⟨rfl, setMark_same _ _⟩
        · intro m3 _; exact ⟨trivial, trivial⟩
    · intro m1 _
      exact ⟨rfl, trivial⟩)).1
  refine ⟨?_, ?_, ?_, ?_, ?_, ?_⟩
  · intro i l hi
    rcases hp (.round i l) with g | g
    · exact g
    · have := g.1; omega
  · intro l; exact h.later.val (.round 0 l)
  · intro i
    rcases hp (.tad i) with g | g
    · left; rw [g]; rfl
    · exact Or.inr g
  · intro l
    rcases hp (.round 0 l) with g | g
    · left; rw [g]; rfl
    · exact Or.inr g.2
  · intro l
    rcases hp (.best l) with g | g
    · left; rw [g]; simp [nextStart, invalid]
    · exact Or.inr g
  · intro x hx
    apply h.hit (Q := fun m => m.mark x.1 = true ∧ (m.val (.round 0 x.1)).t ≤ x.2) (p := initStart C x)
    · rintro a b hl ⟨h1, h2⟩
      exact ⟨hl.mark _ h1, Int.le_trans (hl.val _) h2⟩
    · rw [List.mem_append, List.mem_map]; exact Or.inl ⟨x, hx, rfl⟩
    · intro m1 _ m2 _ m3 h3
      exact ⟨setMark_same _ _, Int.le_trans ((h3.trans (later_mark _ _)).val _) (amin_same _ _ _)⟩

theorem runInv_zero {P : Problem} {C : Codec} {S : GState} {q : Start} {W : Int} (hT : TadOk P W S.mem.st) (hW : W ≤ q.worst) {m : Mem}
    (h : Kernel (q.starts.map (initStart C) ++ (List.range nTad).map (initTad q.worst)) (nextStart P C S).mem m) {f : Nat → GState}
    (hf : f 0 = ⟨m, false⟩) : RunInv P W f 0 := by
  obtain ⟨h1, h2, h3, h5, h6, h7⟩ := begin_facts h
  refine ⟨?_, fun _ _ _ => rfl, fun _ _ => Int.le_refl _, ?_, fun _ _ _ => Or.inl rfl, ?_⟩
  · intro i
    rw [hf]
    show W ≤ (m.val (.tad i)).t ∨ ∃ k', k' ≤ i ∧ ∃ d, P.isDest d = true ∧ (m.val (.round k' d)).t ≤ (m.val (.tad i)).t
    rcases h3 i with g | g
    · rw [g]
      rcases hT i with e | ⟨k', e1, d, e2, e3⟩
      · exact Or.inl e
      · refine Or.inr ⟨k', e1, d, e2, ?_⟩
        have e3' : (S.mem.val (.round k' d)).t ≤ (S.mem.val (.tad i)).t := e3
        by_cases h0 : 1 ≤ k'
        · rw [h1 k' d h0]; exact e3'
        · rw [show k' = 0 by omega] at e3' ⊢
          have := h2 d; omega
    · left; omega
  · intro l x hx
    rw [hf] at hx
    have hx' : (m.val (.best l)).t ≤ x := hx
    rcases h6 l with g | ⟨g1, g2⟩
    · left; omega
    · right; left
      refine ⟨0, Nat.le_refl _, by rw [hf], by rw [hf]; exact g1, ?_⟩
      rw [hf]; show (m.val (.round 0 l)).t ≤ x; omega
  · intro i l hi; rw [show i = 0 by omega]

theorem round_tad {P : Problem} {C : Codec} {n k : Nat} {S S' : GState} (h : Round P C n k S S') (i : Nat) : S'.mem.st.tad i ≤ S.mem.st.tad i := by
  cases h with
  | finished _ => exact Int.le_refl _
  | noRoute _ h1 _ => exact h1.later.val (.tad i)
  | noArrival _ h1 _ h2 _ => exact Int.le_trans (h2.later.val (.tad i)) (h1.later.val (.tad i))
  | full _ h1 _ h2 _ h3 => exact Int.le_trans (h3.later.val (.tad i)) (Int.le_trans (h2.later.val (.tad i)) (h1.later.val (.tad i)))

/-- After the start no entry of `time_at_dest_` that is used is later than the worst arrival. -/
theorem begin_tad {C : Codec} {q : Start} {m0 m : Mem}
    (h : Kernel (q.starts.map (initStart C) ++ (List.range nTad).map (initTad q.worst)) m0 m) (i : Nat) (hi : i < nTad) :
    (m.val (.tad i)).t ≤ q.worst := by
  apply h.hit (Q := fun m => (m.val (.tad i)).t ≤ q.worst) (p := initTad q.worst i)
  · intro a b hl h1; exact Int.le_trans (hl.val _) h1
  · rw [List.mem_append, List.mem_map, List.mem_map]; exact Or.inr ⟨i, List.mem_range.mpr hi, rfl⟩
  · intro m1 _; exact amin_same _ _ _

/-- One run. -/
theorem runOne_opt {P : Problem} {C : Codec} {win : Int} {D : Loc → Prop} (ht : Tame P win) {Lo Hi : Int} (hk : KeyOk P C Lo Hi) (q : Start) {W : Int} (hWq : W ≤ q.worst)
    (hD : ∀ d, P.isDest d = true → D d) (hW : W < P.hi) (hT0 : P.lo < q.time) (hwin : W ≤ q.time + win)
    {S S' : GState} {N : Nat} (hT : TadOk P W S.mem.st) (hcov : Cov P D N W S.mem.st)
    {st : List (Loc × Int)} (hst : ∀ x ∈ st, q.time ≤ x.2) (hq : ∀ x ∈ q.starts, x ∈ st) (hqhi : ∀ x ∈ q.starts, x.2 ≤ P.hi)
    (hS : ∀ k' l, (S.mem.val (.round k' l)).t ≤ P.hi ∧ ((S.mem.val (.round k' l)).t < P.hi → Rdy P st k' l (S.mem.val (.round k' l)).t))
    (hTh : q.time ≤ P.hi) (hbn : P.bound = none) (hN : N < nTad) (hLo : Lo ≤ q.time) (hHi : q.worst ≤ Hi) (hr : RunOne P C N S q S') :
    TadOk P W S'.mem.st ∧ Cov P D N W S'.mem.st ∧ (∀ i l, S'.mem.st.round i l ≤ S.mem.st.round i l) ∧
      ∀ x ∈ q.starts, ∀ n A, Cont P D n x.1 x.2 A → A ≤ W → n ≤ N → Found D S'.mem.st n A := by
  cases hr with
  | empty he => exact ⟨hT, hcov, fun _ _ => Int.le_refl _, by rw [he]; simp⟩
  | @run m _ hne hini hrs =>
    obtain ⟨f, f0, fN, fs⟩ := rounds_seq hrs
    have hsnd0 := sound_begin hS hq hqhi hini
    have hlo : ∀ x ∈ st, P.lo < x.2 := fun x hx => by have := hst x hx; omega
    have hsnd : ∀ j, j ≤ N → SoundSt P st j (f j).mem.st := by
      intro j hj
      exact sound_rounds ht.toSane hlo (S := f 0) (by rw [f0]; exact hsnd0) (rounds_of_seq fs j hj)
    have hlow : ∀ j, j ≤ N → ∀ i l, q.time ≤ (f j).mem.st.round i l := by
      intro j hj i l
      have := (hsnd j hj).round i l
      by_cases hc : (f j).mem.st.round i l < P.hi
      · obtain ⟨k, _, hr⟩ := this.2 hc
        exact Raptor.ready_ge ht.toSane hst hr
      · omega
    have hlowt : ∀ j, j ≤ N → ∀ l, q.time ≤ (f j).mem.st.tmp l := by
      intro j hj l
      have := (hsnd j hj).tmp l
      by_cases hc : (f j).mem.st.tmp l < P.hi
      · obtain ⟨k, l', t, _, hr, hride⟩ := this.2 hc
        exact Int.le_trans (Raptor.ready_ge ht.toSane hst hr) (Raptor.ride_le ht.toSane hride)
      · omega
    have hinv : ∀ j, j ≤ N → RunInv P W f j := by
      intro j
      induction j with
      | zero => intro _; exact runInv_zero hT hWq hini f0
      | succ j ih => intro hj; exact runInv_succ ht (Int.le_of_lt hW) (fs j (by omega)) (ih (by omega))
    obtain ⟨h1, h2, h3, h5, h6, h7⟩ := begin_facts hini
    have hle : ∀ i l, (f 0).mem.st.round i l ≤ S.mem.st.round i l := by
      intro i l
      rw [f0]
      by_cases h0 : 1 ≤ i
      · show (m.val _).t ≤ (S.mem.val _).t; rw [h1 i l h0]; omega
      · rw [show i = 0 by omega]; exact h2 l
    have htad : ∀ j, j ≤ N → ∀ i, i < nTad → (f j).mem.st.tad i ≤ q.worst := by
      intro j
      induction j with
      | zero => intro _ i hi; rw [f0]; exact begin_tad hini i hi
      | succ j ih => intro hj i hi; exact Int.le_trans (round_tad (fs j (by omega)) i) (ih (by omega) i hi)
    have hmain := fun n => lab_found ht hk hD hW hT0 hwin fs hinv hlow hlowt hLo
      (fun j hj => Int.le_trans (htad j (by omega) (j + 1) (by omega)) hHi) (by
      intro i l n A t hi hr hc hA hN
      refine (hcov i l n A t ?_ hc hA hN).mono (Nat.le_refl _) hle
      rw [f0] at hr
      have hr' : (m.val (.round i l)).t ≤ t := hr
      rw [h1 i l hi] at hr'; exact hr') (inReach_none hbn D N W f) n
    have hinvN := hinv N (Nat.le_refl _)
    have hmono : ∀ i l, (f N).mem.st.round i l ≤ S.mem.st.round i l := fun i l => Int.le_trans (hinvN.mono i l) (hle i l)
    rw [← fN]
    refine ⟨hinvN.T, ?_, hmono, ?_⟩
    · intro i l n A t hr hc hA hN
      have hold : S.mem.st.round i l ≤ t → Found D (f N).mem.st (i + n) A :=
        fun hs => (hcov i l n A t hs hc hA hN).mono (Nat.le_refl _) hmono
      rcases hinvN.rows i l (by omega) with g | g | g | g
      · rw [g] at hr
        by_cases h0 : 1 ≤ i
        · rw [f0] at hr
          have hr' : (m.val (.round i l)).t ≤ t := hr
          rw [h1 i l h0] at hr'; exact hold hr'
        · have hi0 : i = 0 := by omega
          subst hi0
          rcases h5 l with e | e
          · rw [f0] at hr
            have hr' : (m.val (.round 0 l)).t ≤ t := hr
            exact hold (by show (S.mem.val (.round 0 l)).t ≤ t; omega)
          · exact hmain n 0 l t A ⟨by rw [f0], by rw [f0]; exact e, hr⟩ hc hA hN
      · exact hmain n i l t A ⟨g.1, g.2.1, Int.le_trans g.2.2 hr⟩ hc hA hN
      · have := Raptor.cont_le ht.toSane hc
        exact (Raptor.found_of_tad hD hinvN.T (k := i) (A := A) (by omega) hA).mono (by omega) (fun _ _ => Int.le_refl _)
      · exact ⟨i, by omega, l, hD l g, by have := Raptor.cont_le ht.toSane hc; omega⟩
    · intro x hx n A hc hA hn
      obtain ⟨g1, g2⟩ := h7 x hx
      have := hmain n 0 x.1 x.2 A ⟨by rw [f0], by rw [f0]; exact g1, by rw [f0]; exact g2⟩ hc hA (by omega)
      rwa [Nat.zero_add] at this

/-- The conditions on the start times of a range query. -/
structure RangeOk (P : Problem) (win : Int) (qs : List Start) : Prop where
  desc : qs.Pairwise fun q q' => q'.time ≤ q.time ∧ q'.worst ≤ q.worst
  each : ∀ q ∈ qs, P.lo < q.time ∧ q.time ≤ q.worst ∧ q.worst < P.hi ∧ 0 ≤ win ∧ (∀ x ∈ q.starts, q.time ≤ x.2 ∧ x.2 ≤ P.hi)

theorem runFrom_opt {P : Problem} {C : Codec} {win : Int} {D : Loc → Prop} (ht : Tame P win) {Lo Hi : Int} (hk : KeyOk P C Lo Hi) (hbn : P.bound = none)
    (hD : ∀ d, P.isDest d = true → D d) {N : Nat} (hN : N < nTad) {qs : List Start} (h : RangeOk P win qs)
    (hwd : ∀ q ∈ qs, Lo ≤ q.time ∧ q.worst ≤ Hi) {todo : List Start} {S S' : GState}
    (hr : RunFrom P C N S todo S') : ∀ done, done ++ todo = qs →
      (∀ k' l, (S.mem.val (.round k' l)).t ≤ P.hi ∧ ((S.mem.val (.round k' l)).t < P.hi → Rdy P (allStarts done) k' l (S.mem.val (.round k' l)).t)) →
      (∀ q ∈ todo, TadOk P (q.within win) S.mem.st ∧ Cov P D N (q.within win) S.mem.st) →
      (∀ i l, S'.mem.st.round i l ≤ S.mem.st.round i l) ∧
      ∀ q ∈ todo, ∀ x ∈ q.starts, ∀ n A, Cont P D n x.1 x.2 A → A ≤ q.within win → n ≤ N → Found D S'.mem.st n A := by
  induction hr with
  | nil => intro _ _ _ _; exact ⟨fun _ _ => Int.le_refl _, by simp⟩
  | @cons S S1 S2 q todo hr1 hr2 ih =>
    intro done he hS hcov
    have hq : q ∈ qs := by rw [← he]; simp
    obtain ⟨e1, e2, e3, e4, e5⟩ := h.each q hq
    have hdesc := h.desc
    rw [← he, List.pairwise_append] at hdesc
    obtain ⟨d1, d2, d3⟩ := hdesc
    rw [List.pairwise_cons] at d2
    have hst : ∀ x ∈ allStarts (done ++ [q]), q.time ≤ x.2 := by
      intro x hx
      unfold allStarts at hx
      rw [List.mem_flatMap] at hx
      obtain ⟨q', hq', hx⟩ := hx
      rw [List.mem_append, List.mem_singleton] at hq'
      rcases hq' with hq' | rfl
      · have := (d3 q' hq' q (by simp)).1
        have := ((h.each q' (by rw [← he]; simp [hq'])).2.2.2.2 x hx).1
        omega
      · exact (e5 x hx).1
    have hqs : ∀ x ∈ q.starts, x ∈ allStarts (done ++ [q]) := by
      intro x hx; unfold allStarts; rw [List.mem_flatMap]; exact ⟨q, by simp, hx⟩
    have hS0 : ∀ k' l, (S.mem.val (.round k' l)).t ≤ P.hi ∧ ((S.mem.val (.round k' l)).t < P.hi → Rdy P (allStarts (done ++ [q])) k' l (S.mem.val (.round k' l)).t) := by
      intro k' l
      refine ⟨(hS k' l).1, fun hlt => Raptor.rdy_mono ?_ ((hS k' l).2 hlt)⟩
      intro x hx; unfold allStarts at *; rw [List.flatMap_append, List.mem_append]; exact Or.inl hx
    obtain ⟨c1, c2⟩ := hcov q (by simp)
    have hw1 : q.within win ≤ q.worst := by unfold Raptor.Start.within; omega
    have hw2 : q.within win ≤ q.time + win := by unfold Raptor.Start.within; omega
    obtain ⟨r1, r2, r3, r4⟩ := runOne_opt ht hk q hw1 hD (by omega) e1 hw2 c1 c2 hst hqs (fun x hx => (e5 x hx).2) hS0 (by omega) hbn hN (hwd q hq).1 (hwd q hq).2 hr1
    have hsnd := sound_runOne ht.toSane (fun x hx => by have := hst x hx; omega) hS0 hqs (fun x hx => (e5 x hx).2) hr1
    obtain ⟨i1, i2⟩ := ih (done ++ [q]) (by simp [← he]) hsnd (by
      intro q' hq'
      have : q'.within win ≤ q.within win := by
        have := d2.1 q' hq'
        unfold Raptor.Start.within; omega
      exact ⟨Raptor.tadOk_weaken r1 this, Raptor.cov_weaken r2 this⟩)
    refine ⟨fun i l => Int.le_trans (i1 i l) (r3 i l), ?_⟩
    intro q' hq' x hx n A hc hA hn
    rcases List.mem_cons.mp hq' with rfl | hq'
    · exact (r4 x hx n A hc hA hn).mono (Nat.le_refl _) i1
    · exact i2 q' hq' x hx n A hc hA hn

/-- The range query: after each start time, everything reachable from it is found, for every schedule. -/
theorem runAll_opt {P : Problem} {C : Codec} {win : Int} {D : Loc → Prop} (ht : Tame P win) {Lo Hi : Int} (hk : KeyOk P C Lo Hi) (hbn : P.bound = none)
    (hD : ∀ d, P.isDest d = true → D d) {N : Nat} (hN : N < nTad) {qs : List Start} (h : RangeOk P win qs)
    (hwd : ∀ q ∈ qs, Lo ≤ q.time ∧ q.worst ≤ Hi) {S : GState} (hr : RunAll P C N qs S) :
    ∀ q ∈ qs, ∀ x ∈ q.starts, ∀ n A, Cont P D n x.1 x.2 A → A ≤ q.within win → n ≤ N → Found D S.mem.st n A :=
  (runFrom_opt ht hk hbn hD hN h hwd hr [] rfl (by intro k' l; simp [init, invalid]) (by
    intro q hq
    have hW := (h.each q hq).2.2.1
    refine ⟨fun i => Or.inl ?_, ?_⟩
    · show q.within win ≤ (invalid P C).t; unfold Raptor.Start.within invalid; simp only; omega
    · intro i l n A t hr hc hA _
      have h1 : (invalid P C).t ≤ t := hr
      have h2 := Raptor.cont_le ht.toSane hc
      unfold Raptor.Start.within at hA
      unfold invalid at h1
      simp only at h1
      omega)).2

end Nigiri.Gpu
