import Verif.Model.GpuRaptor
import Verif.Proofs.GpuKernel
import Verif.Proofs.RaptorSound
/-!
# Soundness of the search on the GPU (proofs)
-/

namespace Nigiri.Gpu
open Nigiri.Raptor (Problem Route RtTransport Stop Run Start filterEt touches marked transferTime Rdy Alt Sane SoundSt Ready allStarts)

/-- The times of a memory as a state of the search on the CPU. -/
def Mem.st (m : Mem) : Raptor.State where
  round := fun k l => (m.val (.round k l)).t
  best := fun l => (m.val (.best l)).t
  tmp := fun l => (m.val (.tmp l)).t
  mark := m.mark
  tad := fun i => (m.val (.tad i)).t
  done := false

/-- All writes a thread may perform satisfy `W`. -/
def AllW (W : Addr → Word → Prop) : Prog → Prop
  | .ret => True
  | .read _ k => ∀ v, AllW W (k v)
  | .amin a w k => W a w ∧ AllW W k
  | .mark _ k => AllW W k

theorem AllW.prov {W : Addr → Word → Prop} {m0 : Mem} (p : Prog) : ∀ m, AllW W p → Prov m0 (fun a w _ => W a w) (fun _ _ => True) p m := by
  induction p with
  | ret => intro m _; trivial
  | read a k ih => intro m h m' v _ _ _; exact ih v m' (h v)
  | amin a w k ih => intro m h m' _; exact ⟨will_of (fun _ _ _ h => h) _ _ h.1, ih _ h.2⟩
  | mark l k ih => intro m h m' _; exact ⟨will_of (fun _ _ _ h => h) _ _ trivial, ih _ h⟩

/-- Values left by a kernel are old or allowed. -/
theorem Kernel.vals {W : Addr → Word → Prop} {ps : List Prog} {m m' : Mem} (h : Kernel ps m m') (hp : ∀ p ∈ ps, AllW W p) (a : Addr) :
    m'.val a = m.val a ∨ W a (m'.val a) :=
  (h.prov (W := fun a w _ => W a w) (M := fun _ _ => True) (fun _ _ _ _ _ h => h) (fun _ _ _ _ h => h) (fun p hp' => AllW.prov p m (hp p hp'))).1 a

theorem AllW.mono {W V : Addr → Word → Prop} (hWV : ∀ a w, W a w → V a w) (p : Prog) : AllW W p → AllW V p := by
  induction p with
  | ret => intro _; trivial
  | read a k ih => intro h v; exact ih v (h v)
  | amin a w k ih => intro h; exact ⟨hWV _ _ h.1, ih h.2⟩
  | mark l k ih => intro h; exact ih h

theorem tadUpd_allW {W : Addr → Word → Prop} {t : Int} (is : List Nat) (h : ∀ i, W (.tad i) ⟨t, 0⟩) : AllW W (tadUpd t is) := by
  induction is with
  | nil => trivial
  | cons i is ih => exact ⟨h i, ih⟩

theorem reuse_allW {W : Addr → Word → Prop} {P : Problem} {n k : Nat} {m : Mem} {l : Loc} (hb : ∀ w, W (.best l) w)
    (ht : ∀ i w, W (.tad i) w) : AllW W (reuse P n k m l) := by
  unfold reuse
  refine ⟨hb _, ?_⟩
  split
  · intro v; exact tadUpd_allW _ fun i => ht i _
  · trivial

theorem relaxTail_allW {W : Addr → Word → Prop} {P : Problem} {n k : Nat} {l : Loc} {w : Word} {td : Int} (hr : W (.round k l) w)
    (hb : W (.best l) ⟨w.t, 0⟩) (ht : ∀ i, W (.tad i) ⟨w.t, 0⟩) : AllW W (relaxTail P n k l w td) := by
  unfold relaxTail
  split
  · intro v
    show AllW W (if _ then _ else _)
    split
    · refine ⟨hr, hb, ?_⟩
      show AllW W (if _ then _ else _)
      split
      · exact tadUpd_allW _ ht
      · trivial
    · trivial
  · trivial

theorem relax_allW {W : Addr → Word → Prop} {P : Problem} {n k : Nat} {l : Loc} {w : Word} (hr : W (.round k l) w)
    (hb : W (.best l) ⟨w.t, 0⟩) (ht : ∀ i, W (.tad i) ⟨w.t, 0⟩) : AllW W (relax P n k l w) := by
  unfold relax
  intro td
  show AllW W (if _ then _ else _)
  split
  · intro v
    show AllW W (if _ then _ else _)
    split
    · exact ⟨hr, relaxTail_allW hr hb ht⟩
    · exact relaxTail_allW hr hb ht
  · exact relaxTail_allW hr hb ht

theorem endWrite_allW {W : Addr → Word → Prop} {P : Problem} {n k : Nat} {w : Word} (hr : W (.round k P.endLoc) w)
    (hb : W (.best P.endLoc) ⟨w.t, 0⟩) (ht : ∀ i, W (.tad i) ⟨w.t, 0⟩) : AllW W (endWrite P n k w) :=
  ⟨hr, hb, tadUpd_allW _ ht⟩

theorem egress_allW {W : Addr → Word → Prop} {P : Problem} {n k : Nat} {w : Word} (hr : W (.round k P.endLoc) w)
    (hb : W (.best P.endLoc) ⟨w.t, 0⟩) (ht : ∀ i, W (.tad i) ⟨w.t, 0⟩) : AllW W (egress P n k w) := by
  intro td
  show AllW W (if _ then _ else _)
  split
  · exact endWrite_allW hr hb ht
  · trivial

theorem tdEgress_allW {W : Addr → Word → Prop} {P : Problem} {n k : Nat} {w : Word} (hr : W (.round k P.endLoc) w)
    (hb : W (.best P.endLoc) ⟨w.t, 0⟩) (ht : ∀ i, W (.tad i) ⟨w.t, 0⟩) : AllW W (tdEgress P n k w) := by
  intro td
  show AllW W (if _ then _ else _)
  split
  · intro v
    show AllW W (if _ then _ else _)
    split
    · exact endWrite_allW hr hb ht
    · trivial
  · trivial

/-- The work items of the footpath kernel: what they are. -/
theorem walks_cases {P : Problem} {n k : Nat} {prev : Loc → Bool} {m : Mem} {p : Prog} (h : p ∈ walks P n k prev m) :
    ∃ l, l < P.nLoc ∧ prev l = true ∧ (m.val (.tmp l)).t ≠ P.hi ∧
      (p = relax P n k l ⟨P.clamp ((m.val (.tmp l)).t + transferTime P l), (m.val (.tmp l)).bc⟩ ∨
      (P.intermodal = true ∧ ∃ d, P.endDist l = some d ∧ p = egress P n k ⟨P.clamp ((m.val (.tmp l)).t + d), (m.val (.tmp l)).bc⟩) ∨
      (P.intermodal = true ∧ ∃ d, P.endTd l (m.val (.tmp l)).t = some d ∧ p = tdEgress P n k ⟨P.clamp ((m.val (.tmp l)).t + d), (m.val (.tmp l)).bc⟩) ∨
      (∃ fp ∈ P.fps l (m.val (.tmp l)).t, p = relax P n k fp.1 ⟨P.clamp ((m.val (.tmp l)).t + fp.2), (m.val (.tmp l)).bc⟩)) := by
  unfold walks at h
  rw [List.mem_flatMap] at h
  obtain ⟨l, hl, h⟩ := h
  unfold marked at hl
  rw [List.mem_filter, List.mem_range] at hl
  unfold walksAt at h
  simp only at h
  split at h
  · simp at h
  · rename_i hne
    refine ⟨l, hl.1, hl.2, hne, ?_⟩
    rw [List.mem_append, List.mem_append] at h
    rcases h with (h | h) | h
    · rw [List.mem_singleton] at h; exact Or.inl h
    · split at h
      · rename_i him
        rw [List.mem_append] at h
        rcases h with h | h
        · cases hd : P.endDist l with
          | none => rw [hd] at h; simp at h
          | some d => rw [hd] at h; simp only [List.mem_singleton] at h; exact Or.inr (Or.inl ⟨him, d, rfl, h⟩)
        · cases hd : P.endTd l (m.val (.tmp l)).t with
          | none => rw [hd] at h; simp at h
          | some d => rw [hd] at h; simp only [List.mem_singleton] at h; exact Or.inr (Or.inr (Or.inl ⟨him, d, rfl, h⟩))
      · simp at h
    · rw [List.mem_map] at h
      obtain ⟨fp, h1, h2⟩ := h
      exact Or.inr (Or.inr (Or.inr ⟨fp, h1, h2.symm⟩))

/-! ## Arrivals -/

/-- Sound arrivals. -/
def ArrOk (P : Problem) (st : List (Loc × Int)) (k : Nat) (xs : List (Loc × Word)) : Prop :=
  ∀ x ∈ xs, x.2.t ≤ P.hi ∧ (x.2.t < P.hi → Alt P st k x.1 x.2.t)

theorem arrOk_append {P : Problem} {st : List (Loc × Int)} {k : Nat} {xs ys : List (Loc × Word)} (h1 : ArrOk P st k xs) (h2 : ArrOk P st k ys) :
    ArrOk P st k (xs ++ ys) := by
  intro x hx
  rcases List.mem_append.mp hx with h | h
  · exact h1 x h
  · exact h2 x h

theorem arrOk_arrival {P : Problem} {st : List (Loc × Int)} {k k' : Nat} {tad : Int} {l : Loc} {w : Word}
    (h : w.t ≤ P.hi ∧ (w.t < P.hi → Alt P st k l w.t)) : ArrOk P st k (arrival P k' tad l w) := by
  intro x hx
  unfold arrival at hx
  split at hx
  · rw [List.mem_singleton] at hx; subst hx; exact h
  · simp at hx

theorem suf_head {stops rest : List Stop} {s : Stop} {i : Nat} (h : ∀ x, stops[i + x]? = (s :: rest)[x]?) : stops[i]? = some s := by
  have := h 0; simpa using this

theorem suf_tail {stops rest : List Stop} {s : Stop} {i : Nat} (h : ∀ x, stops[i + x]? = (s :: rest)[x]?) :
    ∀ x, stops[i + 1 + x]? = rest[x]? := by
  intro x
  have := h (x + 1)
  rw [show i + (x + 1) = i + 1 + x by omega] at this
  simpa using this

/-- The carried trip was boarded properly. -/
def CarOk (P : Problem) (st : List (Loc × Int)) (k : Nat) (r : Route) (i : Nat) (c : Option (Run × Nat)) : Prop :=
  ∀ tr b, c = some (tr, b) → r.active tr ∧ b < i ∧ ∃ (s0 : Stop) (p : Int), r.stops[b]? = some s0 ∧ s0.canBoard = true ∧
    Rdy P st k s0.loc p ∧ p ≤ r.board tr b ∧ ∀ (x : Nat) (s : Stop), b < x → x < i → r.stops[x]? = some s → s.secOk = true

theorem pick_cases (C : Codec) (a b : Option (Run × Nat)) : pick C a b = a ∨ pick C a b = b := by
  cases a with
  | none => exact Or.inr (by cases b <;> rfl)
  | some a => cases b with
    | none => exact Or.inl rfl
    | some b =>
      by_cases h : C.le a.1 b.1 = true
      · left; simp [pick, h]
      · right; simp [pick, h]

theorem filter_car {P : Problem} {st : List (Loc × Int)} {k : Nat} {r : Route} {i : Nat} {s : Stop} {c : Option (Run × Nat)}
    (hsi : r.stops[i]? = some s) (h : CarOk P st k r i c) (tr : Run) (b : Nat) (he : filterEt i s none c = some (tr, b)) :
    r.active tr ∧ b < i ∧ ∃ (s0 : Stop) (p : Int), r.stops[b]? = some s0 ∧ s0.canBoard = true ∧
    Rdy P st k s0.loc p ∧ p ≤ r.board tr b ∧ ∀ (x : Nat) (s : Stop), b < x → x ≤ i → r.stops[x]? = some s → s.secOk = true := by
  unfold filterEt at he
  split at he
  · cases he
  · rename_i hf
    obtain ⟨h1, h2, s0, p, h3, h4, h5, h6, h7⟩ := h tr b he
    refine ⟨h1, h2, s0, p, h3, h4, h5, h6, ?_⟩
    intro x s' hx1 hx2 hx3
    by_cases hxi : x = i
    · subst hxi
      rw [hsi] at hx3
      simp at hx3; subst hx3
      simp at hf
      exact hf (by omega)
    · exact h7 x s' hx1 (by omega) hx3

theorem routeArrivals_ok {P : Problem} (hs : Sane P) (C : Codec) {st : List (Loc × Int)} (hst : ∀ x ∈ st, P.lo < x.2) (k k' ri : Nat)
    (r : Route) (hr : r ∈ P.routes) (hal : r.allowed = true) (rk : Loc → Int) (tad : Int) (prev : Loc → Bool)
    (hrk : ∀ l, rk l ≤ P.hi ∧ (rk l < P.hi → Rdy P st k l (rk l)))
    (rest : List Stop) (i : Nat) (hsuf : ∀ x, r.stops[i + x]? = rest[x]?) (c : Option (Run × Nat)) (hc : CarOk P st k r i c) :
    ArrOk P st (k + 1) (routeArrivals P C k' ri r rk tad prev rest i c) := by
  induction rest generalizing i c with
  | nil => intro x hx; simp [routeArrivals] at hx
  | cons s rest ih =>
    have hsi := suf_head hsuf
    have hf := filter_car hsi hc
    unfold routeArrivals
    apply arrOk_append
    · cases hfe : filterEt i s none c with
      | none => intro x hx; simp at hx
      | some y =>
        obtain ⟨tr, b⟩ := y
        simp only
        split
        · rename_i hca
          apply arrOk_arrival
          refine ⟨Raptor.clamp_le_hi hs.lohi _, ?_⟩
          intro hlt
          obtain ⟨h1, h2, s0, p, h3, h4, ⟨j, hj, hrdy⟩, h6, h7⟩ := hf tr b hfe
          have hilen : i < r.stops.length := by rw [List.getElem?_eq_some_iff] at hsi; exact hsi.1
          have hp := Raptor.ready_gt hs hst hrdy
          have hge : P.lo ≤ r.alight tr i :=
            Int.le_trans (Int.le_of_lt hp) (Int.le_trans h6 (hs.tripMono r hr tr h1 b i h2 hilen))
          simp only at hlt ⊢
          rw [Raptor.clamp_of_lt hge hlt]
          exact ⟨j, s0.loc, p, by omega, hrdy, Or.inl ⟨r, hr, hal, tr, h1, b, i, s0, s, h2, h3, hsi, rfl, rfl, h4, hca, h7, h6, rfl⟩⟩
        · intro x hx; simp at hx
    · apply ih (i + 1) (suf_tail hsuf)
      intro tr b he
      rcases pick_cases C (filterEt i s none c) (lookup P r rk tad prev rest.isEmpty i s) with h | h
      · rw [h] at he
        obtain ⟨h1, h2, s0, p, h3, h4, h5, h6, h7⟩ := hf tr b he
        exact ⟨h1, by omega, s0, p, h3, h4, h5, h6, fun x s' a b c => h7 x s' a (by omega) c⟩
      · rw [h] at he
        unfold lookup at he
        split at he
        · rename_i hcond
          simp only [Bool.and_eq_true, decide_eq_true_eq, Bool.not_eq_true'] at hcond
          rw [Option.map_eq_some_iff] at he
          obtain ⟨tr', he, hx⟩ := he
          cases hx
          obtain ⟨g1, g2⟩ := hs.etSound r hr _ _ _ _ he
          have := hrk s.loc
          exact ⟨g1, by omega, s, rk s.loc, hsi, hcond.1.2, this.2 (by omega), g2, fun x s' a b => by omega⟩
        · cases he

theorem rtArrivals_ok {P : Problem} (hs : Sane P) (C : Codec) {st : List (Loc × Int)} (hst : ∀ x ∈ st, P.lo < x.2) (k k' ri : Nat)
    (r : RtTransport) (hr : r ∈ P.rts) (hal : r.allowed = true) (rk : Loc → Int) (tad : Int) (prev : Loc → Bool)
    (hrk : ∀ l, rk l ≤ P.hi ∧ (rk l < P.hi → Rdy P st k l (rk l)))
    (rest : List Stop) (i : Nat) (hsuf : ∀ x, r.stops[i + x]? = rest[x]?) (et : Option Nat)
    (het : ∀ b, et = some b → b < i ∧ ((∃ (s0 : Stop) (p : Int), r.stops[b]? = some s0 ∧ s0.canBoard = true ∧
      Rdy P st k s0.loc p ∧ p ≤ r.board b ∧ ∀ (x : Nat) (s : Stop), b < x → x < i → r.stops[x]? = some s → s.secOk = true) ∨
      P.hi ≤ r.board b)) :
    ArrOk P st (k + 1) (rtArrivals P C k' ri r rk tad prev rest i et) := by
  induction rest generalizing i et with
  | nil => intro x hx; simp [rtArrivals] at hx
  | cons s rest ih =>
    have hsi := suf_head hsuf
    have hilen : i < r.stops.length := by rw [List.getElem?_eq_some_iff] at hsi; exact hsi.1
    have hf : ∀ b, filterEt i s none et = some b → b < i ∧ ((∃ (s0 : Stop) (p : Int), r.stops[b]? = some s0 ∧ s0.canBoard = true ∧
        Rdy P st k s0.loc p ∧ p ≤ r.board b ∧ ∀ (x : Nat) (s : Stop), b < x → x ≤ i → r.stops[x]? = some s → s.secOk = true) ∨
        P.hi ≤ r.board b) := by
      intro b he
      unfold filterEt at he
      split at he
      · cases he
      · rename_i hf
        obtain ⟨h1, h2⟩ := het b he
        refine ⟨h1, ?_⟩
        rcases h2 with ⟨s0, p, h3, h4, h5, h6, h7⟩ | h2
        · left
          refine ⟨s0, p, h3, h4, h5, h6, ?_⟩
          intro x s' hx1 hx2 hx3
          by_cases hxi : x = i
          · subst hxi
            rw [hsi] at hx3
            simp at hx3; subst hx3
            simp at hf
            exact hf (by omega)
          · exact h7 x s' hx1 (by omega) hx3
        · exact Or.inr h2
    unfold rtArrivals
    apply arrOk_append
    · cases hfe : filterEt i s none et with
      | none => intro x hx; simp at hx
      | some b =>
        simp only
        split
        · rename_i hca
          simp only [Bool.and_eq_true] at hca
          apply arrOk_arrival
          refine ⟨Raptor.clamp_le_hi hs.lohi _, ?_⟩
          intro hlt
          obtain ⟨h2, h | h⟩ := hf b hfe
          · obtain ⟨s0, p, h3, h4, ⟨j, hj, hrdy⟩, h6, h7⟩ := h
            have hp := Raptor.ready_gt hs hst hrdy
            have hge : P.lo ≤ r.alight i :=
              Int.le_trans (Int.le_of_lt hp) (Int.le_trans h6 (hs.rtMono r hr b i h2 hilen))
            simp only at hlt ⊢
            rw [Raptor.clamp_of_lt hge hlt]
            exact ⟨j, s0.loc, p, by omega, hrdy, Or.inr ⟨r, hr, hal, b, i, s0, s, h2, h3, hsi, rfl, rfl, h4, hca.2, h7, h6, rfl⟩⟩
          · exfalso
            have := hs.rtMono r hr b i h2 hilen
            simp only [Problem.clamp] at hlt; omega
        · intro x hx; simp at hx
    · apply ih (i + 1) (suf_tail hsuf)
      intro b he
      split at he
      · rename_i hcond
        simp only [Bool.and_eq_true, decide_eq_true_eq, Bool.not_eq_true'] at hcond
        cases he
        refine ⟨by omega, ?_⟩
        have hk := hrk s.loc
        by_cases hp : rk s.loc < P.hi
        · left
          refine ⟨s, rk s.loc, hsi, hcond.1.1.2, hk.2 hp, ?_, fun x s' a b => by omega⟩
          obtain ⟨j, -, hrdy⟩ := hk.2 hp
          have h1 := Raptor.ready_gt hs hst hrdy
          have h2 := hcond.2
          unfold Problem.clamp at h2; have := hs.lohi; omega
        · right
          exact Raptor.le_clamp_hi hs.lohi (Int.le_trans (Int.not_lt.mp hp) hcond.2)
      · obtain ⟨h1, h2⟩ := hf b he
        refine ⟨by omega, ?_⟩
        rcases h2 with ⟨s0, p, h3, h4, h5, h6, h7⟩ | h2
        · exact Or.inl ⟨s0, p, h3, h4, h5, h6, fun x s' a b c => h7 x s' a (by omega) c⟩
        · exact Or.inr h2

theorem arrivals_ok {P : Problem} (hs : Sane P) (C : Codec) {st : List (Loc × Int)} (hst : ∀ x ∈ st, P.lo < x.2) {k : Nat} {m : Mem}
    (h : SoundSt P st k m.st) (prev : Loc → Bool) : ArrOk P st (k + 1) (arrivals P C (k + 1) prev m) := by
  unfold arrivals
  simp only [Nat.add_sub_cancel]
  apply arrOk_append
  · intro x hx
    rw [List.mem_flatMap] at hx
    obtain ⟨y, hy, hx⟩ := hx
    rw [List.mem_filter, Bool.and_eq_true] at hy
    exact routeArrivals_ok hs C hst k _ _ y.1 (List.fst_mem_of_mem_zipIdx hy.1) hy.2.2 _ _ _ (h.round k) _ 0 (by simp) none
      (by intro tr b h; cases h) x hx
  · intro x hx
    rw [List.mem_flatMap] at hx
    obtain ⟨y, hy, hx⟩ := hx
    rw [List.mem_filter, Bool.and_eq_true] at hy
    exact rtArrivals_ok hs C hst k _ _ y.1 (List.fst_mem_of_mem_zipIdx hy.1) hy.2.2 _ _ _ (h.round k) _ 0 (by simp) none
      (by intro b h; cases h) x hx

/-! ## Kernels -/

/-- A kernel whose writes to labels and tentative arrivals are sound keeps a memory sound. -/
theorem sound_kernel {P : Problem} {st : List (Loc × Int)} {k : Nat} {ps : List Prog} {m m' : Mem} (h : SoundSt P st k m.st) (hk : Kernel ps m m')
    (hp : ∀ p ∈ ps, AllW (fun a w => match a with
      | .round k' l => w.t ≤ P.hi ∧ (w.t < P.hi → Rdy P st k' l w.t)
      | .tmp l => w.t ≤ P.hi ∧ (w.t < P.hi → Alt P st k l w.t)
      | _ => True) p) : SoundSt P st k m'.st := by
  refine ⟨?_, ?_⟩
  · intro k' l
    rcases hk.vals hp (.round k' l) with g | g
    · show (m'.val _).t ≤ _ ∧ ((m'.val _).t < _ → Rdy P st k' l (m'.val _).t)
      rw [g]; exact h.round k' l
    · exact g
  · intro l
    rcases hk.vals hp (.tmp l) with g | g
    · show (m'.val _).t ≤ _ ∧ ((m'.val _).t < _ → Alt P st k l (m'.val _).t)
      rw [g]; exact h.tmp l
    · exact g

theorem sound_noMarks {P : Problem} {st : List (Loc × Int)} {k : Nat} {m : Mem} (h : SoundSt P st k m.st) : SoundSt P st k (noMarks m).st :=
  ⟨h.round, h.tmp⟩

theorem sound_succ {P : Problem} {st : List (Loc × Int)} {k : Nat} {m : Mem} (h : SoundSt P st k m.st) : SoundSt P st (k + 1) m.st :=
  ⟨h.round, fun l => ⟨(h.tmp l).1, fun hl => Raptor.alt_mono (by omega) ((h.tmp l).2 hl)⟩⟩

theorem sound_reuse {P : Problem} {st : List (Loc × Int)} {k n j : Nat} {m m' : Mem} (h : SoundSt P st k m.st)
    (hk : Kernel ((List.range P.nLoc).map (reuse P n j m)) m m') : SoundSt P st k m'.st := by
  apply sound_kernel h hk
  intro p hp
  rw [List.mem_map] at hp
  obtain ⟨l, -, rfl⟩ := hp
  exact reuse_allW (fun _ => trivial) (fun _ _ => trivial)

theorem sound_arrive {P : Problem} (hs : Sane P) {C : Codec} {st : List (Loc × Int)} (hst : ∀ x ∈ st, P.lo < x.2) {k : Nat} {m m' : Mem}
    {prev : Loc → Bool} (h : SoundSt P st k m.st) (hk : Kernel ((arrivals P C (k + 1) prev m).map arrive) m m') : SoundSt P st (k + 1) m'.st := by
  apply sound_kernel (sound_succ h) hk
  intro p hp
  rw [List.mem_map] at hp
  obtain ⟨x, hx, rfl⟩ := hp
  exact ⟨arrivals_ok hs C hst h prev x hx, trivial⟩

theorem sound_walks {P : Problem} (hs : Sane P) {st : List (Loc × Int)} (hst : ∀ x ∈ st, P.lo < x.2) {n k : Nat} {m m' : Mem}
    {prev : Loc → Bool} (h : SoundSt P st k m.st) (hk : Kernel (walks P n k prev m) m m') : SoundSt P st k m'.st := by
  apply sound_kernel h hk
  intro p hp
  obtain ⟨l, -, -, hne, hc⟩ := walks_cases hp
  have cand := fun l' d hd hc => Raptor.cand_ok hs hst h l hne l' d hd hc
  rcases hc with rfl | ⟨him, d, hd, rfl⟩ | ⟨him, d, hd, rfl⟩ | ⟨fp, hfp, rfl⟩
  · refine relax_allW (cand l (transferTime P l) ?_ ?_) trivial (fun _ => trivial)
    · unfold transferTime; have := hs.transfer l; split <;> omega
    · refine Or.inl ⟨rfl, ?_⟩
      unfold transferTime
      congr 1
      by_cases h1 : P.intermodal = false <;> by_cases h2 : P.isDest l = true <;> simp [h1, h2]
  · exact egress_allW (cand _ d (hs.endDist l d hd) (Or.inr (Or.inr ⟨him, rfl, d, Or.inl hd, rfl⟩))) trivial (fun _ => trivial)
  · exact tdEgress_allW (cand _ d (hs.endTd l _ d hd) (Or.inr (Or.inr ⟨him, rfl, d, Or.inr hd, rfl⟩))) trivial (fun _ => trivial)
  · exact relax_allW (cand fp.1 fp.2 (hs.fps l _ fp.1 fp.2 hfp) (Or.inr (Or.inl ⟨fp.2, hfp, rfl⟩))) trivial (fun _ => trivial)

theorem sound_round {P : Problem} (hs : Sane P) {C : Codec} {st : List (Loc × Int)} (hst : ∀ x ∈ st, P.lo < x.2) {n k : Nat} {S S' : GState}
    (h : SoundSt P st k S.mem.st) (hr : Round P C n (k + 1) S S') : SoundSt P st (k + 1) S'.mem.st := by
  cases hr with
  | finished _ => exact sound_succ h
  | noRoute _ h1 _ => exact sound_succ (sound_reuse h h1)
  | noArrival _ h1 _ h2 _ => exact sound_arrive hs hst (sound_noMarks (sound_reuse h h1)) h2
  | full _ h1 _ h2 _ h3 => exact sound_walks hs hst (sound_noMarks (sound_arrive hs hst (sound_noMarks (sound_reuse h h1)) h2)) h3

theorem sound_rounds {P : Problem} (hs : Sane P) {C : Codec} {st : List (Loc × Int)} (hst : ∀ x ∈ st, P.lo < x.2) {n : Nat} {S S' : GState}
    (h : SoundSt P st 0 S.mem.st) {j : Nat} (hr : Rounds P C n S j S') : SoundSt P st j S'.mem.st := by
  induction hr with
  | zero => exact h
  | succ _ h2 ih => exact sound_round hs hst ih h2

theorem sound_begin {P : Problem} {C : Codec} {st : List (Loc × Int)} {S : GState} {q : Start} {m : Mem}
    (h : ∀ k' l, (S.mem.val (.round k' l)).t ≤ P.hi ∧ ((S.mem.val (.round k' l)).t < P.hi → Rdy P st k' l (S.mem.val (.round k' l)).t))
    (hq : ∀ x ∈ q.starts, x ∈ st) (hqhi : ∀ x ∈ q.starts, x.2 ≤ P.hi)
    (hk : Kernel (q.starts.map (initStart C) ++ (List.range nTad).map (initTad q.worst)) (nextStart P C S).mem m) : SoundSt P st 0 m.st := by
  have h0 : SoundSt P st 0 (nextStart P C S).mem.st := ⟨h, fun l => by simp [Mem.st, nextStart, invalid]⟩
  apply sound_kernel h0 hk
  intro p hp
  rw [List.mem_append, List.mem_map, List.mem_map] at hp
  rcases hp with ⟨x, hx, rfl⟩ | ⟨i, -, rfl⟩
  · exact ⟨trivial, ⟨hqhi x hx, fun _ => ⟨0, ⟨Nat.le_refl _, by omega⟩, .start (hq x hx)⟩⟩, trivial⟩
  · exact ⟨trivial, trivial⟩

theorem sound_runOne {P : Problem} (hs : Sane P) {C : Codec} {st : List (Loc × Int)} (hst : ∀ x ∈ st, P.lo < x.2) {n : Nat} {S S' : GState}
    {q : Start} (h : ∀ k' l, (S.mem.val (.round k' l)).t ≤ P.hi ∧ ((S.mem.val (.round k' l)).t < P.hi → Rdy P st k' l (S.mem.val (.round k' l)).t))
    (hq : ∀ x ∈ q.starts, x ∈ st) (hqhi : ∀ x ∈ q.starts, x.2 ≤ P.hi) (hr : RunOne P C n S q S') :
    ∀ k' l, (S'.mem.val (.round k' l)).t ≤ P.hi ∧ ((S'.mem.val (.round k' l)).t < P.hi → Rdy P st k' l (S'.mem.val (.round k' l)).t) := by
  cases hr with
  | empty _ => exact h
  | run _ h1 h2 => exact (sound_rounds hs hst (sound_begin h hq hqhi h1) h2).round

theorem sound_runFrom {P : Problem} (hs : Sane P) {C : Codec} {st : List (Loc × Int)} (hst : ∀ x ∈ st, P.lo < x.2 ∧ x.2 ≤ P.hi) {n : Nat} {S S' : GState}
    {qs : List Start} (hr : RunFrom P C n S qs S')
    (h : ∀ k' l, (S.mem.val (.round k' l)).t ≤ P.hi ∧ ((S.mem.val (.round k' l)).t < P.hi → Rdy P st k' l (S.mem.val (.round k' l)).t))
    (hq : ∀ x ∈ allStarts qs, x ∈ st) :
    ∀ k' l, (S'.mem.val (.round k' l)).t ≤ P.hi ∧ ((S'.mem.val (.round k' l)).t < P.hi → Rdy P st k' l (S'.mem.val (.round k' l)).t) := by
  induction hr with
  | nil => exact h
  | @cons S S' S'' q qs h1 h2 ih =>
    have hq1 : ∀ x ∈ q.starts, x ∈ st := fun x hx => hq x (by unfold allStarts; rw [List.mem_flatMap]; exact ⟨q, by simp, hx⟩)
    have hq2 : ∀ x ∈ allStarts qs, x ∈ st := fun x hx => hq x (by
      unfold allStarts at *; rw [List.mem_flatMap] at *
      obtain ⟨q', g1, g2⟩ := hx
      exact ⟨q', by simp [g1], g2⟩)
    exact ih (sound_runOne hs (fun x hx => (hst x hx).1) h hq1 (fun x hx => (hst x (hq1 x hx)).2) h1) hq2

/-- Every label left by any execution is realised. -/
theorem runAll_sound {P : Problem} (hs : Sane P) {C : Codec} {n : Nat} {qs : List Start} {S : GState} (hr : RunAll P C n qs S)
    (hlo : ∀ x ∈ allStarts qs, P.lo < x.2 ∧ x.2 ≤ P.hi) (k : Nat) (l : Loc) :
    (S.mem.val (.round k l)).t ≤ P.hi ∧ ((S.mem.val (.round k l)).t < P.hi → Rdy P (allStarts qs) k l (S.mem.val (.round k l)).t) :=
  sound_runFrom hs hlo hr (by intro k' l; simp [init, invalid]) (fun _ h => h) k l

end Nigiri.Gpu
