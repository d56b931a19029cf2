import Verif.Proofs.GpuOpt
import Verif.Proofs.Reconstruct
/-!
# Where the labels of the search on the GPU come from (proofs)

Every label is explained by a ride from a label of the round before and a change (`Fresh`), or it is of no use because a
destination is reached earlier or with fewer rides (`Beaten`).
-/

namespace Nigiri.Gpu
open Nigiri.Raptor (Problem Route RtTransport Stop Run Start filterEt touches marked transferTime Rdy Alt Sane SoundSt Ready allStarts
  Tame Ride Change Cont TadOk Found Cov Vehicle OLeg ORide RideIdx BestReal)

/-- The breadcrumb of a ride. -/
def Codec.bc (C : Codec) (v : Vehicle) (i j : Nat) : Nat := match v with
  | .trip r t day => C.bcStatic r (t, day) i j
  | .rt r => C.bcRt r i j

/-- The word describes a ride to `u` that can be boarded with the labels `rk`. -/
def RideW (P : Problem) (C : Codec) (rk : Loc → Int) (u : Loc) (w : Word) : Prop :=
  ∃ (v : Vehicle) (n i j : Nat) (x : OLeg), ORide P v n i j x ∧ x.b = u ∧ x.tb = w.t ∧ rk x.a ≤ x.ta ∧ rk x.a < P.hi ∧ w.bc = C.bc v i j

/-- The times of the labels of a round. -/
def Mem.row (m : Mem) (k : Nat) (l : Loc) : Int := (m.val (.round k l)).t

/-- The word describes a ride and a change from the labels of the round before. -/
def Fresh (P : Problem) (C : Codec) (rk : Loc → Int) (l : Loc) (w : Word) : Prop :=
  ∃ (u : Loc) (tw : Word), RideW P C rk u tw ∧ tw.t < P.hi ∧ Change P u tw.t l w.t ∧ w.bc = tw.bc

/-- A destination is reached earlier with at most `k` rides, or no later with fewer; or the time is later than `W`. -/
def Beaten (P : Problem) (W : Int) (m : Mem) (k : Nat) (x : Int) : Prop :=
  W < x ∨ ∃ d k', P.isDest d = true ∧ ((k' ≤ k ∧ m.row k' d < x) ∨ (k' < k ∧ m.row k' d ≤ x))

/-- Labels only got better. -/
def Rows (m m' : Mem) : Prop := ∀ k l, m'.row k l ≤ m.row k l

theorem Later.rows {m m' : Mem} (h : Later m m') : Rows m m' := fun k l => h.val (.round k l)

theorem Rows.trans {a b c : Mem} (h1 : Rows a b) (h2 : Rows b c) : Rows a c := fun k l => Int.le_trans (h2 k l) (h1 k l)

theorem RideW.mono {P : Problem} {C : Codec} {rk rk' : Loc → Int} (h : ∀ l, rk' l ≤ rk l) {u : Loc} {w : Word} (hr : RideW P C rk u w) : RideW P C rk' u w := by
  obtain ⟨v, n, i, j, x, h1, h2, h3, h4, h5, h6⟩ := hr
  have := h x.a
  exact ⟨v, n, i, j, x, h1, h2, h3, by omega, by omega, h6⟩

theorem Fresh.mono {P : Problem} {C : Codec} {rk rk' : Loc → Int} (h : ∀ l, rk' l ≤ rk l) {l : Loc} {w : Word} (hf : Fresh P C rk l w) : Fresh P C rk' l w := by
  obtain ⟨u, tw, h1, h2⟩ := hf
  exact ⟨u, tw, h1.mono h, h2⟩

theorem Beaten.mono {P : Problem} {W : Int} {m m' : Mem} (h : Rows m m') {k k' : Nat} (hk : k ≤ k') {x x' : Int} (hx : x ≤ x') (hb : Beaten P W m k x) :
    Beaten P W m' k' x' := by
  rcases hb with hb | ⟨d, i, h1, h2⟩
  · left; omega
  · right
    have := h i d
    exact ⟨d, i, h1, by omega⟩

theorem beaten_of_tad {P : Problem} {W : Int} {m : Mem} {k : Nat} {x : Int} (hT : TadOk P W m.st) (h : (m.val (.tad k)).t < x) : Beaten P W m k x := by
  rcases hT k with g | ⟨k', g1, d, g2, g3⟩
  · left; have : W ≤ (m.val (.tad k)).t := g; omega
  · right
    have : m.row k' d ≤ (m.val (.tad k)).t := g3
    exact ⟨d, k', g2, Or.inl ⟨g1, by omega⟩⟩

/-! ## Arrivals are rides -/

/-- The carried trip was boarded with a label. -/
def CarW (P : Problem) (rk : Loc → Int) (r : Route) (i : Nat) (c : Option (Run × Nat)) : Prop :=
  ∀ tr b, c = some (tr, b) → r.active tr ∧ b < i ∧ ∃ (s0 : Stop), r.stops[b]? = some s0 ∧ s0.canBoard = true ∧
    rk s0.loc ≤ r.board tr b ∧ rk s0.loc < P.hi ∧ ∀ (x : Nat) (s : Stop), b < x → x < i → r.stops[x]? = some s → s.secOk = true

theorem filter_carW {P : Problem} {rk : Loc → Int} {r : Route} {i : Nat} {s : Stop} {c : Option (Run × Nat)}
    (hsi : r.stops[i]? = some s) (h : CarW P rk r i c) (tr : Run) (b : Nat) (he : filterEt i s none c = some (tr, b)) :
    r.active tr ∧ b < i ∧ ∃ (s0 : Stop), r.stops[b]? = some s0 ∧ s0.canBoard = true ∧
    rk s0.loc ≤ r.board tr b ∧ rk s0.loc < P.hi ∧ ∀ (x : Nat) (s : Stop), b < x → x ≤ i → r.stops[x]? = some s → s.secOk = true := by
  unfold filterEt at he
  split at he
  · cases he
  · rename_i hf
    obtain ⟨h1, h2, s0, h3, h4, h5, h6, h7⟩ := h tr b he
    refine ⟨h1, h2, s0, h3, h4, h5, h6, ?_⟩
    intro x s' hx1 hx2 hx3
    by_cases hxi : x = i
    · subst hxi
      rw [hsi] at hx3
      simp at hx3; subst hx3
      simp at hf
      exact hf (by omega)
    · exact h7 x s' hx1 (by omega) hx3

/-- Arrivals before the end of time are rides. -/
def ArrW (P : Problem) (C : Codec) (rk : Loc → Int) (xs : List (Loc × Word)) : Prop := ∀ x ∈ xs, x.2.t < P.hi → RideW P C rk x.1 x.2

theorem arrW_append {P : Problem} {C : Codec} {rk : Loc → Int} {xs ys : List (Loc × Word)} (h1 : ArrW P C rk xs) (h2 : ArrW P C rk ys) : ArrW P C rk (xs ++ ys) := by
  intro x hx
  rcases List.mem_append.mp hx with h | h
  · exact h1 x h
  · exact h2 x h

theorem arrW_arrival {P : Problem} {C : Codec} {rk : Loc → Int} {k' : Nat} {tad : Int} {l : Loc} {w : Word} (h : w.t < P.hi → RideW P C rk l w) :
    ArrW P C rk (arrival P k' tad l w) := by
  intro x hx
  unfold arrival at hx
  split at hx
  · rw [List.mem_singleton] at hx; subst hx; exact h
  · simp at hx

theorem routeArrivals_ride {P : Problem} (hs : Sane P) (C : Codec) (k' ri : Nat) (r : Route) (hri : P.routes[ri]? = some r) (hal : r.allowed = true)
    (rk : Loc → Int) (hlo : ∀ l, P.lo < rk l) (hhi : ∀ l, rk l ≤ P.hi) (tad : Int) (prev : Loc → Bool)
    (rest : List Stop) (i : Nat) (hsuf : ∀ x, r.stops[i + x]? = rest[x]?) (c : Option (Run × Nat)) (hc : CarW P rk r i c) :
    ArrW P C rk (routeArrivals P C k' ri r rk tad prev rest i c) := by
  have hr : r ∈ P.routes := List.mem_of_getElem? hri
  induction rest generalizing i c with
  | nil => intro x hx; simp [routeArrivals] at hx
  | cons s rest ih =>
    have hsi := suf_head hsuf
    have hf := filter_carW hsi hc
    unfold routeArrivals
    apply arrW_append
    · cases hfe : filterEt i s none c with
      | none => intro x hx; simp at hx
      | some y =>
        obtain ⟨tr, b⟩ := y
        simp only
        split
        · rename_i hca
          apply arrW_arrival
          intro hlt
          obtain ⟨h1, h2, s0, h3, h4, h5, h6, h7⟩ := hf tr b hfe
          have hilen : i < r.stops.length := by rw [List.getElem?_eq_some_iff] at hsi; exact hsi.1
          have hge : P.lo ≤ r.alight tr i := by
            have := hs.tripMono r hr tr h1 b i h2 hilen
            have := hlo s0.loc
            omega
          simp only at hlt
          have e := Raptor.clamp_of_lt hge hlt
          exact ⟨.trip ri tr.1 tr.2, r.stops.length, b, i, ⟨s0.loc, s.loc, r.board tr b, r.alight tr i, .ride (.trip ri tr.1 tr.2) r.stops.length b i⟩,
            ⟨r, hri, hal, h1, rfl, ⟨h2, ⟨s0, h3, rfl, h4⟩, ⟨s, hsi, rfl, hca⟩, h7⟩, rfl, rfl⟩, rfl, e.symm, h5, h6, rfl⟩
        · intro x hx; simp at hx
    · apply ih (i + 1) (suf_tail hsuf)
      intro tr b he
      rcases pick_cases C (filterEt i s none c) (lookup P r rk tad prev rest.isEmpty i s) with h | h
      · rw [h] at he
        obtain ⟨h1, h2, s0, h3, h4, h5, h6, h7⟩ := hf tr b he
        exact ⟨h1, by omega, s0, h3, h4, h5, h6, fun x s' a b c => h7 x s' a (by omega) c⟩
      · rw [h] at he
        unfold lookup at he
        split at he
        · rename_i hcond
          simp only [Bool.and_eq_true, decide_eq_true_eq, Bool.not_eq_true'] at hcond
          rw [Option.map_eq_some_iff] at he
          obtain ⟨tr', he, hx⟩ := he
          cases hx
          obtain ⟨g1, g2⟩ := hs.etSound r hr _ _ _ _ he
          have := hhi s.loc
          have := hcond.2
          exact ⟨g1, by omega, s, hsi, hcond.1.2, g2, by omega, fun x s' a b => by omega⟩
        · cases he

theorem rtArrivals_ride {P : Problem} (hs : Sane P) (C : Codec) (k' ri : Nat) (r : RtTransport) (hri : P.rts[ri]? = some r) (hal : r.allowed = true)
    (rk : Loc → Int) (hlo : ∀ l, P.lo < rk l) (tad : Int) (prev : Loc → Bool)
    (rest : List Stop) (i : Nat) (hsuf : ∀ x, r.stops[i + x]? = rest[x]?) (et : Option Nat)
    (het : ∀ b, et = some b → b < i ∧ ∃ (s0 : Stop), r.stops[b]? = some s0 ∧ s0.canBoard = true ∧
      rk s0.loc ≤ P.clamp (r.board b) ∧ ∀ (x : Nat) (s : Stop), b < x → x < i → r.stops[x]? = some s → s.secOk = true) :
    ArrW P C rk (rtArrivals P C k' ri r rk tad prev rest i et) := by
  have hr : r ∈ P.rts := List.mem_of_getElem? hri
  induction rest generalizing i et with
  | nil => intro x hx; simp [rtArrivals] at hx
  | cons s rest ih =>
    have hsi := suf_head hsuf
    have hilen : i < r.stops.length := by rw [List.getElem?_eq_some_iff] at hsi; exact hsi.1
    have hf : ∀ b, filterEt i s none et = some b → b < i ∧ ∃ (s0 : Stop), r.stops[b]? = some s0 ∧ s0.canBoard = true ∧
        rk s0.loc ≤ P.clamp (r.board b) ∧ ∀ (x : Nat) (s : Stop), b < x → x ≤ i → r.stops[x]? = some s → s.secOk = true := by
      intro b he
      unfold filterEt at he
      split at he
      · cases he
      · rename_i hf
        obtain ⟨h1, s0, h3, h4, h5, h7⟩ := het b he
        refine ⟨h1, s0, h3, h4, h5, ?_⟩
        intro x s' hx1 hx2 hx3
        by_cases hxi : x = i
        · subst hxi
          rw [hsi] at hx3
          simp at hx3; subst hx3
          simp at hf
          exact hf (by omega)
        · exact h7 x s' hx1 (by omega) hx3
    unfold rtArrivals
    apply arrW_append
    · cases hfe : filterEt i s none et with
      | none => intro x hx; simp at hx
      | some b =>
        simp only
        split
        · rename_i hca
          simp only [Bool.and_eq_true] at hca
          apply arrW_arrival
          intro hlt
          obtain ⟨h2, s0, h3, h4, h5, h7⟩ := hf b hfe
          have hm := hs.rtMono r hr b i h2 hilen
          have hl := hlo s0.loc
          have hlh := hs.lohi
          simp only at hlt
          have hb : r.alight i < P.hi := by
            unfold Problem.clamp at hlt; omega
          have hb2 : rk s0.loc ≤ r.board b := by
            unfold Problem.clamp at h5; omega
          have e : P.clamp (r.alight i) = r.alight i := Raptor.clamp_of_lt (by omega) hlt
          exact ⟨.rt ri, r.stops.length, b, i, ⟨s0.loc, s.loc, r.board b, r.alight i, .ride (.rt ri) r.stops.length b i⟩,
            ⟨r, hri, hal, rfl, ⟨h2, ⟨s0, h3, rfl, h4⟩, ⟨s, hsi, rfl, hca.2⟩, h7⟩, rfl, rfl⟩, rfl, e.symm, hb2, by simp only; omega, rfl⟩
        · intro x hx; simp at hx
    · apply ih (i + 1) (suf_tail hsuf)
      intro b he
      split at he
      · rename_i hcond
        simp only [Bool.and_eq_true, decide_eq_true_eq, Bool.not_eq_true'] at hcond
        cases he
        exact ⟨by omega, s, hsi, hcond.1.1.2, hcond.2, fun x s' a b => by omega⟩
      · obtain ⟨h1, s0, h3, h4, h5, h7⟩ := hf b he
        exact ⟨by omega, s0, h3, h4, h5, fun x s' a b c => h7 x s' a (by omega) c⟩

theorem arrivals_ride {P : Problem} (hs : Sane P) (C : Codec) {k : Nat} {m : Mem} (hlo : ∀ l, P.lo < m.row k l) (hhi : ∀ l, m.row k l ≤ P.hi) (prev : Loc → Bool) :
    ArrW P C (m.row k) (arrivals P C (k + 1) prev m) := by
  unfold arrivals
  simp only [Nat.add_sub_cancel]
  apply arrW_append
  · intro x hx
    rw [List.mem_flatMap] at hx
    obtain ⟨y, hy, hx⟩ := hx
    rw [List.mem_filter, Bool.and_eq_true] at hy
    exact routeArrivals_ride hs C _ _ y.1 (by simpa using (List.mem_zipIdx_iff_getElem?.mp hy.1)) hy.2.2 _ hlo hhi _ _ _ 0 (by simp) none
      (by intro tr b h; cases h) x hx
  · intro x hx
    rw [List.mem_flatMap] at hx
    obtain ⟨y, hy, hx⟩ := hx
    rw [List.mem_filter, Bool.and_eq_true] at hy
    exact rtArrivals_ride hs C _ _ y.1 (by simpa using (List.mem_zipIdx_iff_getElem?.mp hy.1)) hy.2.2 _ hlo _ _ _ 0 (by simp) none
      (by intro b h; cases h) x hx

/-! ## Kernels -/

/-- What the transit kernels write. -/
theorem arrive_tmp {m m' : Mem} {xs : List (Loc × Word)} (h : Kernel (xs.map arrive) m m') (l : Loc) :
    m'.val (.tmp l) = m.val (.tmp l) ∨ (m'.mark l = true ∧ (l, m'.val (.tmp l)) ∈ xs) := by
  have hp := (h.prov (W := fun a w m1 => match a with
      | .tmp l => m1.mark l = true ∧ (l, w) ∈ xs
      | _ => True) (M := fun _ _ => True)
    (by
      intro a w m1 m2 hl
      cases a with
      | tmp l => rintro ⟨h1, h2⟩; exact ⟨hl.mark _ h1, h2⟩
      | round _ _ => exact id
      | best _ => exact id
      | tad _ => exact id) (fun _ _ _ _ h => h) (by
    intro p hp
    rw [List.mem_map] at hp
    obtain ⟨x, hx, rfl⟩ := hp
    intro m1 _
    refine ⟨?_, ?_⟩
    · intro m2 _; exact ⟨setMark_same _ _, hx⟩
    · intro m2 _; exact ⟨trivial, trivial⟩)).1 (.tmp l)
  exact hp

/-- A relaxation that cannot improve writes nothing. -/
theorem relax_noop {P : Problem} {W : Addr → Word → Mem → Prop} {M : Loc → Mem → Prop} {n k : Nat} {m0 : Mem} {l : Loc} {w : Word}
    (h : (m0.val (.best l)).t ≤ w.t) (m : Mem) : Prov m0 W M (relax P n k l w) m := by
  have tail : ∀ td m, Prov m0 W M (relaxTail P n k l w td) m := by
    intro td m
    unfold relaxTail
    split
    · intro m1 v _ _ hv
      show Prov m0 W M (if _ then _ else _) m1
      rw [if_neg (by simp; omega)]
      trivial
    · trivial
  intro m1 td _ _ _
  show Prov m0 W M (if _ then _ else _) m1
  split
  · intro m2 v _ _ hv
    show Prov m0 W M (if _ then _ else _) m2
    rw [if_neg (by omega)]
    exact tail _ _
  · exact tail _ _

/-- Tentative arrivals have been dealt with: what follows from them is no news. -/
def TmpOk (P : Problem) (W : Int) (m : Mem) (k : Nat) : Prop :=
  ∀ l, l < P.nLoc → (m.val (.tmp l)).t < P.hi → ∀ l' t', Change P l (m.val (.tmp l)).t l' t' → t' < P.hi →
    (m.val (.best l')).t ≤ t' ∨ Beaten P W m k t'

/-- All labels are explained or of no use. -/
def LabOk (P : Problem) (C : Codec) (W : Int) (m : Mem) : Prop :=
  ∀ k l, (m.val (.round (k + 1) l)).t < P.hi → Fresh P C (m.row k) l (m.val (.round (k + 1) l)) ∨ Beaten P W m (k + 1) (m.val (.round (k + 1) l)).t

theorem transfer_change {P : Problem} (l : Loc) (a : Int) : Change P l a l (a + transferTime P l) := by
  refine Or.inl ⟨rfl, ?_⟩
  unfold transferTime
  congr 1
  by_cases h1 : P.intermodal = false <;> by_cases h2 : P.isDest l = true <;> simp [h1, h2]

/-- The work of the footpath kernel is done. -/
theorem walks_done {P : Problem} (hs : Sane P) (hbn : P.bound = none) {W : Int} {n k : Nat} {prev : Loc → Bool} {m m' : Mem} (h : Kernel (walks P n k prev m) m m')
    (hT : TadOk P W m'.st) {l : Loc} (hl : l < P.nLoc) (hm : prev l = true) (hlo : P.lo ≤ (m.val (.tmp l)).t) (hhi : (m.val (.tmp l)).t < P.hi)
    {l' : Loc} {t' : Int} (hc : Change P l (m.val (.tmp l)).t l' t') : (m'.val (.best l')).t ≤ t' ∨ Beaten P W m' k t' := by
  obtain ⟨w1, w2, w3, w4⟩ := mem_walks (n := n) (k := k) hl hm (by omega : (m.val (.tmp l)).t ≠ P.hi)
  have hst : ∀ (l : Loc) (t : Int), Stable (fun m : Mem => (m.val (.best l)).t ≤ t ∨ (m.val (.tad k)).t < t) := by
    intro l t a b hl h
    have h1 := hl.val (.best l); have h2 := hl.val (.tad k)
    omega
  have hwi : ∀ l x, P.within k l x = true := by intro l x; unfold Problem.within; rw [hbn]
  have hta := Raptor.change_le hs hc
  have fin : ∀ x, P.clamp x ≤ x → x = t' → ((m'.val (.best l')).t ≤ P.clamp x ∨ (m'.val (.tad k)).t < P.clamp x) → (m'.val (.best l')).t ≤ t' ∨ Beaten P W m' k t' := by
    intro x h1 h2 h3
    rcases h3 with h3 | h3
    · left; omega
    · right; exact beaten_of_tad hT (by omega)
  have hcl : ∀ x, P.lo ≤ x → P.clamp x ≤ x := fun x hx => Raptor.clamp_le_of_le (Int.le_refl _) hx
  rcases hc with ⟨rfl, e⟩ | ⟨d, hd, rfl⟩ | ⟨him, rfl, d, hd, rfl⟩
  · have htt : (m.val (.tmp l')).t + transferTime P l' = t' := by
      rcases transfer_change (P := P) l' (m.val (.tmp l')).t with ⟨_, g⟩ | g | g
      · rw [g, ← e]
      all_goals
        rw [e]
        unfold transferTime
        congr 1
        by_cases h1 : P.intermodal = false <;> by_cases h2 : P.isDest l' = true <;> simp [h1, h2]
    have g := h.hit (hst _ _) w1 (relax_will (w := ⟨P.clamp ((m.val (.tmp l')).t + transferTime P l'), (m.val (.tmp l')).bc⟩) (hwi _ _) m)
    simp only at g
    exact fin _ (hcl _ (by omega)) htt g
  · have g := h.hit (hst _ _) (w4 (l', d) hd) (relax_will (w := ⟨P.clamp ((m.val (.tmp l)).t + d), (m.val (.tmp l)).bc⟩) (hwi _ _) m)
    simp only at g
    exact fin _ (hcl _ (by omega)) rfl g
  · rcases hd with hd | hd
    · have g := h.hit (hst _ _) (w2 him d hd) (egress_will (w := ⟨P.clamp ((m.val (.tmp l)).t + d), (m.val (.tmp l)).bc⟩) m)
      simp only at g
      exact fin _ (hcl _ (by omega)) rfl g
    · have g := h.hit (hst _ _) (w3 him d hd) (tdEgress_will (w := ⟨P.clamp ((m.val (.tmp l)).t + d), (m.val (.tmp l)).bc⟩) m)
      simp only at g
      exact fin _ (hcl _ (by omega)) rfl g

/-- What the footpath kernel writes into the labels: `new` are the locations whose tentative arrival is of this round. -/
theorem walks_labels {P : Problem} (hs : Sane P) {C : Codec} {W : Int} {n k : Nat} {prev : Loc → Bool} {m m' : Mem} (h : Kernel (walks P n (k + 1) prev m) m m')
    (hed : P.intermodal = true → P.isDest P.endLoc = true) (hlo : ∀ l, P.lo ≤ (m.val (.tmp l)).t)
    (hhi : ∀ l, (m.val (.tmp l)).t ≤ P.hi)
    (hnew : ∀ l, l < P.nLoc → (m.val (.tmp l)).t < P.hi → RideW P C (m.row k) l (m.val (.tmp l)) ∨
      ∀ l' t', Change P l (m.val (.tmp l)).t l' t' → t' < P.hi →
        ((m.val (.best l')).t ≤ t' ∧ (P.isDest l' = true → Beaten P W m (k + 1) t')) ∨ Beaten P W m (k + 1) t') (l : Loc) :
    m'.val (.round (k + 1) l) = m.val (.round (k + 1) l) ∨
      ((m'.val (.round (k + 1) l)).t < P.hi → Fresh P C (m.row k) l (m'.val (.round (k + 1) l)) ∨ Beaten P W m (k + 1) (m'.val (.round (k + 1) l)).t) := by
  have hp := (h.prov (W := fun a w _ => match a with
      | .round k' l => k' = k + 1 → w.t < P.hi → Fresh P C (m.row k) l w ∨ Beaten P W m (k + 1) w.t
      | _ => True) (M := fun _ _ => True) (fun _ _ _ _ _ h => h) (fun _ _ _ _ h => h) (by
    intro p hp
    obtain ⟨l0, h0, h1, hne, hc⟩ := walks_cases hp
    have h2 : (m.val (.tmp l0)).t < P.hi := by have := hhi l0; omega
    have h3 := hlo l0
    -- the value written is the exact one
    have hcl : ∀ d, 0 ≤ d → P.clamp ((m.val (.tmp l0)).t + d) < P.hi → P.clamp ((m.val (.tmp l0)).t + d) = (m.val (.tmp l0)).t + d :=
      fun d hd hlt => Raptor.clamp_of_lt (by omega) hlt
    -- if the change is fresh or beaten, all writes are
    have good : ∀ l' d, 0 ≤ d → Change P l0 (m.val (.tmp l0)).t l' ((m.val (.tmp l0)).t + d) →
        (RideW P C (m.row k) l0 (m.val (.tmp l0)) ∨ ((m.val (.tmp l0)).t + d < P.hi → Beaten P W m (k + 1) ((m.val (.tmp l0)).t + d))) →
        ∀ k', k' = k + 1 → P.clamp ((m.val (.tmp l0)).t + d) < P.hi →
          Fresh P C (m.row k) l' ⟨P.clamp ((m.val (.tmp l0)).t + d), (m.val (.tmp l0)).bc⟩ ∨ Beaten P W m (k + 1) (P.clamp ((m.val (.tmp l0)).t + d)) := by
      intro l' d hd hch hor k' _ hlt
      have e := hcl d hd hlt
      rw [e] at hlt ⊢
      rcases hor with g | g
      · exact Or.inl ⟨l0, _, g, h2, hch, rfl⟩
      · exact Or.inr (g hlt)
    have relaxCase : ∀ l' d, 0 ≤ d → Change P l0 (m.val (.tmp l0)).t l' ((m.val (.tmp l0)).t + d) →
        Prov m (fun a w _ => match a with
          | .round k' l => k' = k + 1 → w.t < P.hi → Fresh P C (m.row k) l w ∨ Beaten P W m (k + 1) w.t
          | _ => True) (fun _ _ => True) (relax P n (k + 1) l' ⟨P.clamp ((m.val (.tmp l0)).t + d), (m.val (.tmp l0)).bc⟩) m := by
      intro l' d hd hch
      rcases hnew l0 h0 h2 with g | g
      · exact AllW.prov (W := fun a w => match a with
          | .round k' l => k' = k + 1 → w.t < P.hi → Fresh P C (m.row k) l w ∨ Beaten P W m (k + 1) w.t
          | _ => True) _ _ (relax_allW (good l' d hd hch (Or.inl g) _) trivial (fun _ => trivial))
      · by_cases hlt : P.clamp ((m.val (.tmp l0)).t + d) < P.hi
        · have e := hcl d hd hlt
          rcases g l' _ hch (by omega) with ⟨g1, -⟩ | g1
          · exact relax_noop (by rw [e]; exact g1) _
          · exact AllW.prov (W := fun a w => match a with
              | .round k' l => k' = k + 1 → w.t < P.hi → Fresh P C (m.row k) l w ∨ Beaten P W m (k + 1) w.t
              | _ => True) _ _ (relax_allW (good l' d hd hch (Or.inr fun _ => g1) _) trivial (fun _ => trivial))
        · exact AllW.prov (W := fun a w => match a with
            | .round k' l => k' = k + 1 → w.t < P.hi → Fresh P C (m.row k) l w ∨ Beaten P W m (k + 1) w.t
            | _ => True) _ _ (relax_allW (fun _ hh => absurd hh hlt) trivial (fun _ => trivial))
    have endCase : ∀ d, 0 ≤ d → P.intermodal = true → Change P l0 (m.val (.tmp l0)).t P.endLoc ((m.val (.tmp l0)).t + d) →
        ∀ k', k' = k + 1 → P.clamp ((m.val (.tmp l0)).t + d) < P.hi →
          Fresh P C (m.row k) P.endLoc ⟨P.clamp ((m.val (.tmp l0)).t + d), (m.val (.tmp l0)).bc⟩ ∨ Beaten P W m (k + 1) (P.clamp ((m.val (.tmp l0)).t + d)) := by
      intro d hd him hch
      refine good _ d hd hch ?_
      rcases hnew l0 h0 h2 with g | g
      · exact Or.inl g
      · right
        intro hlt
        rcases g _ _ hch hlt with ⟨-, g1⟩ | g1
        · exact g1 (hed him)
        · exact g1
    rcases hc with rfl | ⟨him, d, hd, rfl⟩ | ⟨him, d, hd, rfl⟩ | ⟨fp, hfp, rfl⟩
    · refine relaxCase l0 (transferTime P l0) ?_ (transfer_change _ _)
      unfold transferTime; have := hs.transfer l0; split <;> omega
    · exact AllW.prov (W := fun a w => match a with
        | .round k' l => k' = k + 1 → w.t < P.hi → Fresh P C (m.row k) l w ∨ Beaten P W m (k + 1) w.t
        | _ => True) _ _ (egress_allW (endCase d (hs.endDist _ d hd) him (Or.inr (Or.inr ⟨him, rfl, d, Or.inl hd, rfl⟩)) _) trivial (fun _ => trivial))
    · exact AllW.prov (W := fun a w => match a with
        | .round k' l => k' = k + 1 → w.t < P.hi → Fresh P C (m.row k) l w ∨ Beaten P W m (k + 1) w.t
        | _ => True) _ _ (tdEgress_allW (endCase d (hs.endTd _ _ d hd) him (Or.inr (Or.inr ⟨him, rfl, d, Or.inr hd, rfl⟩)) _) trivial (fun _ => trivial))
    · exact relaxCase fp.1 fp.2 (hs.fps _ _ _ _ hfp) (Or.inr (Or.inl ⟨fp.2, hfp, rfl⟩)))).1 (.round (k + 1) l)
  rcases hp with g | g
  · exact Or.inl g
  · exact Or.inr (g rfl)

theorem rideW_ge {P : Problem} (hs : Sane P) {C : Codec} {rk : Loc → Int} {u : Loc} {w : Word} (h : RideW P C rk u w) : ∃ a, rk a ≤ w.t := by
  obtain ⟨v, n, i, j, x, h1, h2, h3, h4, h5, h6⟩ := h
  have := Raptor.ride_le hs (Raptor.oride_ride h1 h4)
  exact ⟨x.a, by omega⟩

theorem TmpOk.mono {P : Problem} {W : Int} {m m' : Mem} {k k' : Nat} (hk : k ≤ k') (hl : ∀ a, (m'.val a).t ≤ (m.val a).t) {l : Loc} (he : m'.val (.tmp l) = m.val (.tmp l))
    (h : ∀ l' t', Change P l (m.val (.tmp l)).t l' t' → t' < P.hi → (m.val (.best l')).t ≤ t' ∨ Beaten P W m k t') :
    ∀ l' t', Change P l (m'.val (.tmp l)).t l' t' → t' < P.hi → (m'.val (.best l')).t ≤ t' ∨ Beaten P W m' k' t' := by
  intro l' t' hc ht
  rw [he] at hc
  rcases h l' t' hc ht with g | g
  · left; have := hl (.best l'); omega
  · exact Or.inr (g.mono (fun k l => hl (.round k l)) hk (Int.le_refl _))

/-- One round keeps the explanations. -/
theorem round_labels {P : Problem} (hs : Sane P) {C : Codec} {W : Int} (hbn : P.bound = none) (hed : P.intermodal = true → P.isDest P.endLoc = true)
    {N : Nat} {j : Nat} {S S' : GState} (hr : Round P C N (j + 1) S S') (hB : BestReal P j S.mem.st) (hT' : TadOk P W S'.mem.st)
    (hrow : ∀ l, P.lo < S.mem.row j l ∧ S.mem.row j l ≤ P.hi) (htmp : ∀ l, P.lo ≤ (S.mem.val (.tmp l)).t ∧ (S.mem.val (.tmp l)).t ≤ P.hi)
    (hL : LabOk P C W S.mem) (hTm : S.done = false → TmpOk P W S.mem j) :
    LabOk P C W S'.mem ∧ (S'.done = false → TmpOk P W S'.mem (j + 1)) := by
  -- unchanged labels stay explained
  have keep : ∀ m' : Mem, Rows S.mem m' → ∀ k l, m'.val (.round (k + 1) l) = S.mem.val (.round (k + 1) l) → (m'.val (.round (k + 1) l)).t < P.hi →
      Fresh P C (m'.row k) l (m'.val (.round (k + 1) l)) ∨ Beaten P W m' (k + 1) (m'.val (.round (k + 1) l)).t := by
    intro m' hrs k l he hlt
    rw [he] at hlt ⊢
    rcases hL k l hlt with g | g
    · exact Or.inl (g.mono (fun l => hrs k l))
    · exact Or.inr (g.mono hrs (Nat.le_refl _) (Int.le_refl _))
  cases hr with
  | finished hd => exact ⟨hL, fun h => by rw [hd] at h; cases h⟩
  | @noRoute m1 hd h1 _ =>
    obtain ⟨r1, -⟩ := reuse_facts h1
    exact ⟨fun k l hlt => keep m1 h1.later.rows k l (r1 _ _) hlt, fun h => by cases h⟩
  | @noArrival m1 m3 _ h1 _ h2 _ =>
    obtain ⟨r1, -⟩ := reuse_facts h1
    obtain ⟨a1, -⟩ := arrive_facts h2
    exact ⟨fun k l hlt => keep m3 (h1.later.rows.trans h2.later.rows) k l (by rw [a1]; exact r1 _ _) hlt, fun h => by cases h⟩
  | @full m1 m3 m5 hd h1 _ h2 _ h3 =>
    obtain ⟨r1, r2, -⟩ := reuse_facts h1
    obtain ⟨a1, a2, -⟩ := arrive_facts h2
    obtain ⟨w1, w2, -⟩ := walks_facts hed h3
    have hTm := hTm hd
    have l13 : ∀ a, (m3.val a).t ≤ (S.mem.val a).t := fun a => Int.le_trans (h2.later.val a) (h1.later.val a)
    have l15 : ∀ a, (m5.val a).t ≤ (S.mem.val a).t := fun a => Int.le_trans (h3.later.val a) (l13 a)
    have r13 : Rows S.mem m3 := fun k l => l13 (.round k l)
    have r15 : Rows S.mem m5 := fun k l => l15 (.round k l)
    have erow : m3.row j = S.mem.row j := by
      funext l; unfold Mem.row; rw [a1]; show (m1.val _).t = _; rw [r1]
    -- tentative arrivals are old or rides of this round
    have hcase : ∀ l, m3.val (.tmp l) = S.mem.val (.tmp l) ∨ (m3.mark l = true ∧ ((m3.val (.tmp l)).t < P.hi → RideW P C (S.mem.row j) l (m3.val (.tmp l)))) := by
      intro l
      rcases arrive_tmp h2 l with g | ⟨g1, g2⟩
      · left; rw [g]; exact r2 l
      · right
        refine ⟨g1, fun hlt => ?_⟩
        have e1 : (noMarks m1).row j = S.mem.row j := by
          funext l; unfold Mem.row; show (m1.val _).t = _; rw [r1]
        have := arrivals_ride hs C (k := j) (m := noMarks m1) (by rw [e1]; exact fun l => (hrow l).1) (by rw [e1]; exact fun l => (hrow l).2) m1.mark _ g2 hlt
        rwa [e1] at this
    have htlo : ∀ l, P.lo ≤ (m3.val (.tmp l)).t := by
      intro l
      rcases hcase l with g | ⟨-, g⟩
      · rw [g]; exact (htmp l).1
      · by_cases hlt : (m3.val (.tmp l)).t < P.hi
        · obtain ⟨a, ha⟩ := rideW_ge hs (g hlt)
          have := (hrow a).1; omega
        · have := hs.lohi; omega
    have hthi : ∀ l, (m3.val (.tmp l)).t ≤ P.hi := fun l => Int.le_trans (l13 (.tmp l)) (htmp l).2
    refine ⟨?_, ?_⟩
    · intro k l hlt
      show Fresh P C (m5.row k) l (m5.val (.round (k + 1) l)) ∨ Beaten P W m5 (k + 1) (m5.val (.round (k + 1) l)).t
      have hlt' : (m5.val (.round (k + 1) l)).t < P.hi := hlt
      have e3 : m3.val (.round (k + 1) l) = S.mem.val (.round (k + 1) l) := by rw [a1]; exact r1 _ _
      by_cases hk : k = j
      · subst hk
        have := walks_labels hs (C := C) (W := W) h3 hed htlo hthi (by
          intro l0 h0 hlt0
          rcases hcase l0 with g | ⟨-, g⟩
          · right
            intro l' t' hc ht'
            have hc' : Change P l0 (S.mem.val (.tmp l0)).t l' t' := by rw [← g]; exact hc
            have hlt' : (S.mem.val (.tmp l0)).t < P.hi := by rw [← g]; exact hlt0
            rcases hTm l0 h0 hlt' l' t' hc' ht' with e | e
            · left
              refine ⟨Int.le_trans (l13 (.best l')) e, ?_⟩
              intro hd'
              rcases hB l' with b | ⟨i, b1, b2⟩
              · have : P.hi ≤ (S.mem.val (.best l')).t := b
                omega
              · right
                have b2' : S.mem.row i l' ≤ (S.mem.val (.best l')).t := b2
                have := r13 i l'
                have e5 : (noMarks m3).row i l' = m3.row i l' := rfl
                exact ⟨l', i, hd', Or.inr ⟨by omega, by omega⟩⟩
            · right
              exact e.mono r13 (by omega) (Int.le_refl _)
          · left
            have := g hlt0
            rw [← erow] at this
            exact this) l
        rcases this with g | g
        · exact keep m5 r15 k l (by rw [g]; exact e3) hlt'
        · rcases g hlt' with e | e
          · exact Or.inl (e.mono (fun l => h3.later.rows k l))
          · exact Or.inr (e.mono h3.later.rows (Nat.le_refl _) (Int.le_refl _))
      · exact keep m5 r15 k l (by rw [w2 _ _ (by omega)]; exact e3) hlt'
    · intro _ l hl hlt
      show ∀ l' t', Change P l (m5.val (.tmp l)).t l' t' → t' < P.hi → (m5.val (.best l')).t ≤ t' ∨ Beaten P W m5 (j + 1) t'
      have hlt' : (m5.val (.tmp l)).t < P.hi := hlt
      rcases hcase l with g | ⟨g1, g2⟩
      · have e : m5.val (.tmp l) = S.mem.val (.tmp l) := by rw [w1]; exact g
        exact TmpOk.mono (Nat.le_succ j) l15 e (fun l' t' => hTm l hl (by rw [← e]; exact hlt') l' t')
      · intro l' t' hc _
        rw [w1] at hc hlt'
        exact walks_done hs hbn h3 hT' hl g1 (htlo l) hlt' hc

/-! ## Runs -/

/-- The labels of round 0 are starts. -/
def ZeroOk (P : Problem) (C : Codec) (st : List (Loc × Int)) (m : Mem) : Prop :=
  ∀ l, (m.val (.round 0 l)).t < P.hi → (l, (m.val (.round 0 l)).t) ∈ st ∧ (m.val (.round 0 l)).bc = C.bcStart

theorem round_zero {P : Problem} {C : Codec} (hed : P.intermodal = true → P.isDest P.endLoc = true) {N j : Nat} {S S' : GState}
    (hr : Round P C N (j + 1) S S') (l : Loc) : S'.mem.val (.round 0 l) = S.mem.val (.round 0 l) := by
  cases hr with
  | finished _ => rfl
  | noRoute _ h1 _ => exact (reuse_facts h1).1 _ _
  | noArrival _ h1 _ h2 _ => rw [(arrive_facts h2).1]; exact (reuse_facts h1).1 _ _
  | full _ h1 _ h2 _ h3 =>
    rw [(walks_facts hed h3).2.1 _ _ (by omega)]
    show Mem.val _ _ = _
    unfold noMarks
    simp only
    rw [(arrive_facts h2).1]; exact (reuse_facts h1).1 _ _

theorem begin_zero {P : Problem} {C : Codec} {S : GState} {q : Start} {m : Mem} {st : List (Loc × Int)} (hz : ZeroOk P C st S.mem) (hq : ∀ x ∈ q.starts, x ∈ st)
    (h : Kernel (q.starts.map (initStart C) ++ (List.range nTad).map (initTad q.worst)) (nextStart P C S).mem m) : ZeroOk P C st m := by
  intro l hlt
  rcases h.vals (W := fun a w => match a with
      | .round _ l => (l, w.t) ∈ st ∧ w.bc = C.bcStart
      | _ => True) (by
    intro p hp
    rw [List.mem_append, List.mem_map, List.mem_map] at hp
    rcases hp with ⟨x, hx, rfl⟩ | ⟨i, -, rfl⟩
    · exact ⟨trivial, ⟨hq x hx, rfl⟩, trivial⟩
    · exact ⟨trivial, trivial⟩) (.round 0 l) with g | g
  · rw [g] at hlt ⊢
    exact hz l hlt
  · exact g

/-- One run keeps the explanations. -/
theorem runOne_labels {P : Problem} {C : Codec} {win : Int} (ht : Tame P win) (hbn : P.bound = none) {W : Int} (hW : W ≤ P.hi) (q : Start) (hWq : W ≤ q.worst)
    {S S' : GState} {N : Nat} {st : List (Loc × Int)} (hst : ∀ x ∈ st, P.lo < x.2) (hq : ∀ x ∈ q.starts, x ∈ st) (hqhi : ∀ x ∈ q.starts, x.2 ≤ P.hi)
    (hS : ∀ k' l, (S.mem.val (.round k' l)).t ≤ P.hi ∧ ((S.mem.val (.round k' l)).t < P.hi → Rdy P st k' l (S.mem.val (.round k' l)).t))
    (hT : TadOk P W S.mem.st) (hL : LabOk P C W S.mem) (hz : ZeroOk P C st S.mem) (hr : RunOne P C N S q S') :
    TadOk P W S'.mem.st ∧ LabOk P C W S'.mem ∧ ZeroOk P C st S'.mem := by
  cases hr with
  | empty _ => exact ⟨hT, hL, hz⟩
  | @run m _ _ hini hrs =>
    obtain ⟨f, f0, fN, fs⟩ := rounds_seq hrs
    have hsnd0 := sound_begin hS hq hqhi hini
    have hsnd : ∀ j, j ≤ N → SoundSt P st j (f j).mem.st := by
      intro j hj
      exact sound_rounds ht.toSane hst (S := f 0) (by rw [f0]; exact hsnd0) (rounds_of_seq fs j hj)
    have hinv : ∀ j, j ≤ N → RunInv P W f j := by
      intro j
      induction j with
      | zero => intro _; exact runInv_zero hT hWq hini f0
      | succ j ih => intro hj; exact runInv_succ ht hW (fs j (by omega)) (ih (by omega))
    obtain ⟨h1, h2, h3, h5, h6, h7⟩ := begin_facts hini
    have hrows : Rows S.mem m := by
      intro i l
      unfold Mem.row
      by_cases h0 : 1 ≤ i
      · rw [h1 i l h0]; omega
      · rw [show i = 0 by omega]; exact h2 l
    have hmain : ∀ j, j ≤ N → LabOk P C W (f j).mem ∧ ((f j).done = false → TmpOk P W (f j).mem j) ∧ ZeroOk P C st (f j).mem := by
      intro j
      induction j with
      | zero =>
        intro _
        rw [f0]
        refine ⟨?_, ?_, begin_zero hz hq hini⟩
        · intro k l hlt
          show Fresh P C (m.row k) l (m.val (.round (k + 1) l)) ∨ Beaten P W m (k + 1) (m.val (.round (k + 1) l)).t
          have e := h1 (k + 1) l (by omega)
          have hlt' : (S.mem.val (.round (k + 1) l)).t < P.hi := by rw [← e]; exact hlt
          rw [e]
          rcases hL k l hlt' with g | g
          · exact Or.inl (g.mono (fun l => hrows k l))
          · exact Or.inr (g.mono hrows (Nat.le_refl _) (Int.le_refl _))
        · intro _ l _ hlt
          exfalso
          have e : m.val (.tmp l) = invalid P C := by
            rcases hini.vals (W := fun a w => match a with
                | .tmp _ => False
                | _ => True) (by
              intro p hp
              rw [List.mem_append, List.mem_map, List.mem_map] at hp
              rcases hp with ⟨x, hx, rfl⟩ | ⟨i, -, rfl⟩
              · exact ⟨trivial, trivial, trivial⟩
              · exact ⟨trivial, trivial⟩) (.tmp l) with g | g
            · rw [g]; rfl
            · exact g.elim
          have hlt' : (m.val (.tmp l)).t < P.hi := hlt
          rw [e] at hlt'
          exact Int.lt_irrefl _ hlt'
      | succ j ih =>
        intro hj
        obtain ⟨i1, i2, i3⟩ := ih (by omega)
        have sj := hsnd j (by omega)
        obtain ⟨a, b⟩ := round_labels ht.toSane hbn ht.endDest (fs j (by omega)) (hinv j (by omega)).bestReal (hinv (j + 1) hj).T
          (by
            intro l
            obtain ⟨g1, g2⟩ := sj.round j l
            refine ⟨?_, g1⟩
            show P.lo < (f j).mem.st.round j l
            by_cases hc : (f j).mem.st.round j l < P.hi
            · obtain ⟨_, _, hr⟩ := g2 hc
              exact Raptor.ready_gt ht.toSane hst hr
            · have := ht.lohi; omega)
          (by
            intro l
            obtain ⟨g1, g2⟩ := sj.tmp l
            refine ⟨?_, g1⟩
            show P.lo ≤ (f j).mem.st.tmp l
            by_cases hc : (f j).mem.st.tmp l < P.hi
            · obtain ⟨_, _, _, _, hr, hride⟩ := g2 hc
              have h1 := Raptor.ready_gt ht.toSane hst hr
              have h2 := Raptor.ride_le ht.toSane hride
              omega
            · have := ht.lohi; omega) i1 i2
        refine ⟨a, b, ?_⟩
        intro l hlt
        rw [round_zero ht.endDest (fs j (by omega))] at hlt ⊢
        exact i3 l hlt
    obtain ⟨a, -, b⟩ := hmain N (Nat.le_refl _)
    rw [← fN]
    exact ⟨(hinv N (Nat.le_refl _)).T, a, b⟩

theorem runFrom_labels {P : Problem} {C : Codec} {win : Int} (ht : Tame P win) (hbn : P.bound = none) {W : Int} (hW : W ≤ P.hi)
    {S S' : GState} {N : Nat} {st : List (Loc × Int)} (hst : ∀ x ∈ st, P.lo < x.2 ∧ x.2 ≤ P.hi) {qs : List Start} (hr : RunFrom P C N S qs S')
    (hq : ∀ x ∈ allStarts qs, x ∈ st) (hWq : ∀ q ∈ qs, W ≤ q.worst)
    (hS : ∀ k' l, (S.mem.val (.round k' l)).t ≤ P.hi ∧ ((S.mem.val (.round k' l)).t < P.hi → Rdy P st k' l (S.mem.val (.round k' l)).t))
    (hT : TadOk P W S.mem.st) (hL : LabOk P C W S.mem) (hz : ZeroOk P C st S.mem) : LabOk P C W S'.mem ∧ ZeroOk P C st S'.mem := by
  induction hr with
  | nil => exact ⟨hL, hz⟩
  | @cons S S' S'' q qs h1 h2 ih =>
    have hq1 : ∀ x ∈ q.starts, x ∈ st := fun x hx => hq x (by unfold allStarts; rw [List.mem_flatMap]; exact ⟨q, by simp, hx⟩)
    have hq2 : ∀ x ∈ allStarts qs, x ∈ st := fun x hx => hq x (by
      unfold allStarts at *; rw [List.mem_flatMap] at *
      obtain ⟨q', g1, g2⟩ := hx
      exact ⟨q', by simp [g1], g2⟩)
    obtain ⟨a, b, c⟩ := runOne_labels ht hbn hW q (hWq q (by simp)) (fun x hx => (hst x hx).1) hq1 (fun x hx => (hst x (hq1 x hx)).2) hS hT hL hz h1
    exact ih hq2 (fun q' hq' => hWq q' (by simp [hq'])) (sound_runOne ht.toSane (fun x hx => (hst x hx).1) hS hq1 (fun x hx => (hst x (hq1 x hx)).2) h1) a b c

/-- Every label left by any execution is a start, explained by a ride and a change from the labels of the round before, or of no use. -/
theorem runAll_labels {P : Problem} {C : Codec} {win : Int} (ht : Tame P win) (hbn : P.bound = none) {W : Int} (hW : W ≤ P.hi) {N : Nat} {qs : List Start}
    {S : GState} (hr : RunAll P C N qs S) (hst : ∀ x ∈ allStarts qs, P.lo < x.2 ∧ x.2 ≤ P.hi) (hWq : ∀ q ∈ qs, W ≤ q.worst) :
    LabOk P C W S.mem ∧ ZeroOk P C (allStarts qs) S.mem :=
  runFrom_labels ht hbn hW hst hr (fun _ h => h) hWq (by intro k' l; simp [init, invalid]) (fun i => Or.inl hW)
    (fun k l hlt => absurd hlt (Int.lt_irrefl _)) (fun l hlt => absurd hlt (Int.lt_irrefl _))

end Nigiri.Gpu
