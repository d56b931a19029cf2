import Verif.Proofs.Reconstruct
/-!
# Optimising footpaths keeps itineraries (proofs)
-/

namespace Nigiri.Raptor

theorem head_app {α : Type} {L M : List α} (h : L ≠ []) : (L ++ M).head? = L.head? := by
  cases L with
  | nil => exact absurd rfl h
  | cons a L => rfl

theorem last_app {α : Type} {L M : List α} (h : M ≠ []) : (L ++ M).getLast? = M.getLast? := by
  rw [List.getLast?_append]
  cases hm : M.getLast? with
  | none => exact absurd (List.getLast?_eq_none_iff.mp hm) h
  | some a => rfl


/-- A list of legs that fit. -/
structure LegChain (ok : Leg → Prop) (L : List Leg) : Prop where
  ok : ∀ x ∈ L, ok x
  adj : Adj Joined L

/-- Same kinds of legs, same ends, not earlier departure, not later arrival. -/
structure Improves (L L' : List Leg) : Prop where
  kinds : L'.map Leg.isRide = L.map Leg.isRide
  head : ∀ x, L.head? = some x → ∃ x', L'.head? = some x' ∧ x'.fr = x.fr ∧ x.dep ≤ x'.dep
  last : ∀ x, L.getLast? = some x → ∃ x', L'.getLast? = some x' ∧ x'.to = x.to ∧ x'.arr ≤ x.arr

theorem Improves.refl (L : List Leg) : Improves L L :=
  ⟨rfl, fun x hx => ⟨x, hx, rfl, Int.le_refl _⟩, fun x hx => ⟨x, hx, rfl, Int.le_refl _⟩⟩

theorem Improves.trans {L L' L'' : List Leg} (h : Improves L L') (h' : Improves L' L'') : Improves L L'' := by
  refine ⟨h'.kinds.trans h.kinds, ?_, ?_⟩
  · intro x hx
    obtain ⟨y, h1, h2, h3⟩ := h.head x hx
    obtain ⟨z, g1, g2, g3⟩ := h'.head y h1
    exact ⟨z, g1, g2.trans h2, Int.le_trans h3 g3⟩
  · intro x hx
    obtain ⟨y, h1, h2, h3⟩ := h.last x hx
    obtain ⟨z, g1, g2, g3⟩ := h'.last y h1
    exact ⟨z, g1, g2.trans h2, Int.le_trans g3 h3⟩

theorem Improves.len {L L' : List Leg} (h : Improves L L') : L'.length = L.length := by
  have := congrArg List.length h.kinds
  simpa using this

theorem Improves.headKind {L L' : List Leg} (h : Improves L L') {x x' : Leg} (hx : L.head? = some x) (hx' : L'.head? = some x') : x'.isRide = x.isRide := by
  have := congrArg List.head? h.kinds
  rw [List.head?_map, List.head?_map, hx, hx'] at this
  simpa using this

theorem Improves.lastKind {L L' : List Leg} (h : Improves L L') {x x' : Leg} (hx : L.getLast? = some x) (hx' : L'.getLast? = some x') : x'.isRide = x.isRide := by
  have := congrArg List.getLast? h.kinds
  rw [List.getLast?_map, List.getLast?_map, hx, hx'] at this
  simpa using this

/-- Replacing the legs at the front. -/
theorem chain_front {ok : Leg → Prop} {L L' M : List Leg} (hne : L ≠ []) (h : LegChain ok (L ++ M)) (h' : LegChain ok L') (hi : Improves L L') :
    LegChain ok (L' ++ M) ∧ Improves (L ++ M) (L' ++ M) := by
  have hne' : L' ≠ [] := by
    intro h0
    have := hi.len
    rw [h0] at this
    exact hne (List.eq_nil_of_length_eq_zero this.symm)
  have hadj := adj_append.mp h.adj
  refine ⟨⟨?_, ?_⟩, ?_, ?_, ?_⟩
  · intro x hx
    rcases List.mem_append.mp hx with hx | hx
    · exact h'.ok x hx
    · exact h.ok x (List.mem_append.mpr (Or.inr hx))
  · refine adj_append.mpr ⟨h'.adj, hadj.2.1, ?_⟩
    intro x y hx hy
    obtain ⟨z, hz⟩ : ∃ z, L.getLast? = some z := by
      cases L with
      | nil => exact absurd rfl hne
      | cons a L => exact ⟨_, List.getLast?_cons⟩
    obtain ⟨z', e1, e2, e3⟩ := hi.last z hz
    rw [hx] at e1; cases e1
    obtain ⟨j1, j2, j3⟩ := hadj.2.2 z y hz hy
    exact ⟨e2.trans j1, Int.le_trans e3 j2, by rw [hi.lastKind hz hx]; exact j3⟩
  · rw [List.map_append, List.map_append, hi.kinds]
  · intro x hx
    rw [head_app hne] at hx
    rw [head_app hne']
    exact hi.head x hx
  · intro x hx
    cases M with
    | nil => rw [List.append_nil] at hx ⊢; exact hi.last x hx
    | cons m M =>
      rw [last_app (List.cons_ne_nil m M)] at hx
      rw [last_app (List.cons_ne_nil m M)]
      exact ⟨x, hx, rfl, Int.le_refl _⟩

/-- Replacing the legs at the end. -/
theorem chain_back {ok : Leg → Prop} {L L' M : List Leg} (hne : L ≠ []) (h : LegChain ok (M ++ L)) (h' : LegChain ok L') (hi : Improves L L') :
    LegChain ok (M ++ L') ∧ Improves (M ++ L) (M ++ L') := by
  have hne' : L' ≠ [] := by
    intro h0
    have := hi.len
    rw [h0] at this
    exact hne (List.eq_nil_of_length_eq_zero this.symm)
  have hadj := adj_append.mp h.adj
  refine ⟨⟨?_, ?_⟩, ?_, ?_, ?_⟩
  · intro x hx
    rcases List.mem_append.mp hx with hx | hx
    · exact h.ok x (List.mem_append.mpr (Or.inl hx))
    · exact h'.ok x hx
  · refine adj_append.mpr ⟨hadj.1, h'.adj, ?_⟩
    intro x y hx hy
    obtain ⟨z, hz⟩ : ∃ z, L.head? = some z := by
      cases L with
      | nil => exact absurd rfl hne
      | cons a L => exact ⟨_, rfl⟩
    obtain ⟨z', e1, e2, e3⟩ := hi.head z hz
    rw [hy] at e1; cases e1
    obtain ⟨j1, j2, j3⟩ := hadj.2.2 x z hx hz
    exact ⟨j1.trans e2.symm, Int.le_trans j2 e3, by rw [hi.headKind hz hy]; exact j3⟩
  · rw [List.map_append, List.map_append, hi.kinds]
  · intro x hx
    cases M with
    | nil => exact hi.head x hx
    | cons m M => exact ⟨x, hx, rfl, Int.le_refl _⟩
  · intro x hx
    rw [last_app hne] at hx
    rw [last_app hne']
    exact hi.last x hx

theorem overStops_inv {σ : Type} (I : σ → Prop) {stops : List StopData} {idx : List Nat} {ok : StopData → Bool} {f : Nat → StopData → σ → σ} {st : σ} (h0 : I st)
    (h : ∀ s ∈ idx, ∀ sd, stops[s]? = some sd → ok sd = true → ∀ st, I st → I (f s sd st)) : I (overStops stops idx ok f st) := by
  unfold overStops
  refine foldl_inv I _ _ _ h0 ?_
  intro st s hs hI
  cases hg : stops[s]? with
  | none => exact hI
  | some sd =>
    simp only
    split
    · rename_i hok; exact h s hs sd hg hok st hI
    · exact hI

/-! ## Rides -/

theorem vehicleLeg_board {N : Net} {stops : List StopData} {clasz : Nat} {secFlags : List (List Bool)} {dep arr : Nat → Int} {i j s : Nat} {x y : Leg} {sd : StopData}
    (h : VehicleLeg N stops clasz secFlags dep arr i j x) (hs : s < j) (hsd : stops[s]? = some sd) (hb : MayBoard N.wheelchair sd)
    (hsec : ∀ x, x + 1 < stops.length → SectionPermitted N.required secFlags x)
    (h1 : y.fr = sd.loc) (h2 : y.dep = dep s) (h3 : y.to = x.to) (h4 : y.arr = x.arr) : VehicleLeg N stops clasz secFlags dep arr s j y := by
  obtain ⟨hm, si, sj, g1, g2, g3, g4, g5, g6, g7, g8, g9, g10⟩ := h
  have hj : j < stops.length := (List.getElem?_eq_some_iff.mp g3).1
  exact ⟨hm, sd, sj, hs, hsd, g3, h1.symm, g5.trans h3.symm, hb, g7, fun x _ hx => hsec x (by omega), h2, h4.trans g10⟩

theorem vehicleLeg_alight {N : Net} {stops : List StopData} {clasz : Nat} {secFlags : List (List Bool)} {dep arr : Nat → Int} {i j s : Nat} {x y : Leg} {sd : StopData}
    (h : VehicleLeg N stops clasz secFlags dep arr i j x) (hs : i < s) (hsd : stops[s]? = some sd) (hb : MayAlight N.wheelchair sd)
    (hsec : ∀ x, x + 1 < stops.length → SectionPermitted N.required secFlags x)
    (h1 : y.to = sd.loc) (h2 : y.arr = arr s) (h3 : y.fr = x.fr) (h4 : y.dep = x.dep) : VehicleLeg N stops clasz secFlags dep arr i s y := by
  obtain ⟨hm, si, sj, g1, g2, g3, g4, g5, g6, g7, g8, g9, g10⟩ := h
  have hj : s < stops.length := (List.getElem?_eq_some_iff.mp hsd).1
  exact ⟨hm, si, sd, hs, g2, hsd, g4.trans h3.symm, h1.symm, g6, hb, fun x _ hx => hsec x (by omega), h4.trans g9, h2⟩

theorem rideLeg_board {N : Net} {v : Vehicle} (hu : Unrestricted N v) {i j s : Nat} {x y : Leg} {sd : StopData} (h : RideLeg N v i j x) (hs : s < j)
    (hsd : (N.vStops v)[s]? = some sd) (hb : sd.inAllowed = true) (h1 : y.fr = sd.loc) (h2 : y.dep = N.vDep v s) (h3 : y.to = x.to) (h4 : y.arr = x.arr) :
    RideLeg N v s j y := by
  obtain ⟨u1, u2⟩ := hu
  have hmb := (u1 sd (List.mem_of_getElem? hsd)).1 hb
  cases v with
  | trip r t day =>
    obtain ⟨rd, e1, e2, e3, e4⟩ := h
    unfold Net.vStops Net.vFlags at *
    unfold Net.vDep at h2
    simp only [e1] at hsd u2 h2
    exact ⟨rd, e1, e2, e3, vehicleLeg_board e4 hs hsd hmb u2 h1 h2 h3 h4⟩
  | rt r =>
    obtain ⟨rd, e1, e4⟩ := h
    unfold Net.vStops Net.vFlags at *
    unfold Net.vDep at h2
    simp only [e1] at hsd u2 h2
    exact ⟨rd, e1, vehicleLeg_board e4 hs hsd hmb u2 h1 h2 h3 h4⟩

theorem rideLeg_alight {N : Net} {v : Vehicle} (hu : Unrestricted N v) {i j s : Nat} {x y : Leg} {sd : StopData} (h : RideLeg N v i j x) (hs : i < s)
    (hsd : (N.vStops v)[s]? = some sd) (hb : sd.outAllowed = true) (h1 : y.to = sd.loc) (h2 : y.arr = N.vArr v s) (h3 : y.fr = x.fr) (h4 : y.dep = x.dep) :
    RideLeg N v i s y := by
  obtain ⟨u1, u2⟩ := hu
  have hmb := (u1 sd (List.mem_of_getElem? hsd)).2 hb
  cases v with
  | trip r t day =>
    obtain ⟨rd, e1, e2, e3, e4⟩ := h
    unfold Net.vStops Net.vFlags at *
    unfold Net.vArr at h2
    simp only [e1] at hsd u2 h2
    exact ⟨rd, e1, e2, e3, vehicleLeg_alight e4 hs hsd hmb u2 h1 h2 h3 h4⟩
  | rt r =>
    obtain ⟨rd, e1, e4⟩ := h
    unfold Net.vStops Net.vFlags at *
    unfold Net.vArr at h2
    simp only [e1] at hsd u2 h2
    exact ⟨rd, e1, vehicleLeg_alight e4 hs hsd hmb u2 h1 h2 h3 h4⟩

/-- The stops of a ride are stops of the vehicle. -/
theorem rideLeg_stops {N : Net} {v : Vehicle} {i j : Nat} {x : Leg} (h : RideLeg N v i j x) :
    i < j ∧ (∃ s ∈ N.vStops v, s.loc = x.fr) ∧ ∃ s ∈ N.vStops v, s.loc = x.to := by
  cases v with
  | trip r t day =>
    obtain ⟨rd, e1, e2, e3, hm, si, sj, g1, g2, g3, g4, g5, -⟩ := h
    unfold Net.vStops
    simp only [e1]
    exact ⟨g1, ⟨si, List.mem_of_getElem? g2, g4⟩, ⟨sj, List.mem_of_getElem? g3, g5⟩⟩
  | rt r =>
    obtain ⟨rd, e1, hm, si, sj, g1, g2, g3, g4, g5, -⟩ := h
    unfold Net.vStops
    simp only [e1]
    exact ⟨g1, ⟨si, List.mem_of_getElem? g2, g4⟩, ⟨sj, List.mem_of_getElem? g3, g5⟩⟩

/-- A permitted leg; vehicles are not restricted. -/
def FreeLeg (d : Dir) (N : Net) (Q : RcData) (x : Leg) : Prop := LegOk d N Q x ∧ ∀ v i j, x.uses = .ride v i j → Unrestricted N v

theorem free_ride {d : Dir} {N : Net} {Q : RcData} {x : Leg} {v : Vehicle} {i j : Nat} (hu : x.uses = .ride v i j) :
    FreeLeg d N Q x ↔ RideLeg N v i j x ∧ Unrestricted N v := by
  unfold FreeLeg LegOk
  rw [hu]
  constructor
  · rintro ⟨h1, h2⟩; exact ⟨h1, h2 v i j rfl⟩
  · rintro ⟨h1, h2⟩; refine ⟨h1, ?_⟩; intro v' i' j' he; cases he; exact h2

theorem free_walk {d : Dir} {N : Net} {Q : RcData} {x : Leg} (h : x.isRide = false) : FreeLeg d N Q x ↔ LegOk d N Q x := by
  unfold FreeLeg
  constructor
  · exact fun h => h.1
  · intro h1; refine ⟨h1, ?_⟩
    intro v i j he; unfold Leg.isRide at h; rw [he] at h; cases h

theorem walk_of_footpath {d : Dir} {N : Net} {Q : RcData} {x : Leg} {w : Int} (hu : x.uses = .foot w) (h : Footpath d N x.fr x.to w) (ht : x.arr = x.dep + w) :
    LegOk d N Q x := by
  unfold LegOk
  rw [hu]
  refine ⟨h.1, Or.inl ht, Or.inr ?_⟩
  cases d
  · exact h.2 _
  · exact h.2 _

theorem isRide_of {x : Leg} {v : Vehicle} {i j : Nat} (h : x.uses = .ride v i j) : x.isRide = true := by unfold Leg.isRide; rw [h]
theorem isWalk_of {x : Leg} {w : Int} (h : x.uses = .foot w ∨ x.uses = .offset w) : x.isRide = false := by
  unfold Leg.isRide; rcases h with h | h <;> rw [h]

/-! ## The first walk -/

/-- What holds for the first two legs. -/
structure FrontInv (d : Dir) (N : Net) (Q : RcData) (a b : Leg) (v : Vehicle) (j : Nat) (st : EndState) : Prop where
  walkOk : LegOk d N Q st.walk
  walk : st.walk.isRide = false
  ride : ∃ i, st.ride.uses = .ride v i j ∧ RideLeg N v i j st.ride
  join : st.walk.to = st.ride.fr ∧ st.walk.arr ≤ st.ride.dep
  fr : st.walk.fr = a.fr
  dep : a.dep ≤ st.walk.dep
  to : st.ride.to = b.to
  arr : st.ride.arr = b.arr

theorem optBoard_inv {d : Dir} {N : Net} {Q : RcData} {a b : Leg} {v : Vehicle} (hu : Unrestricted N v) {j s : Nat} {sd : StopData} (hs : s < j)
    (hsd : (N.vStops v)[s]? = some sd) (hb : sd.inAllowed = true) {mk : Int → Uses} {w : Int}
    (hmk : ∀ x : Leg, x.fr = a.fr → x.to = sd.loc → x.uses = mk w → x.arr = x.dep + w → LegOk d N Q x ∧ x.isRide = false)
    {st : EndState} (h : FrontInv d N Q a b v j st) : FrontInv d N Q a b v j (optBoard N v j mk s sd w st) := by
  unfold optBoard
  split
  · rename_i hc
    obtain ⟨i, e1, e2⟩ := h.ride
    have hm := hmk { st.walk with to := sd.loc, dep := N.vDep v s - w, arr := N.vDep v s, uses := mk w } h.fr rfl rfl (by simp only; omega)
    refine ⟨hm.1, hm.2, ⟨s, rfl, ?_⟩, ⟨rfl, Int.le_refl _⟩, h.fr, ?_, h.to, h.arr⟩
    · exact rideLeg_board hu e2 hs hsd hb rfl rfl rfl rfl
    · have := h.dep; simp only; omega
  · exact h

theorem front_result {d : Dir} {N : Net} {Q : RcData} {a b : Leg} {rest : List Leg} {v : Vehicle} (hu : Unrestricted N v) {j : Nat} (ha : a.isRide = false) (hb : b.isRide = true) {st : EndState}
    (h : FrontInv d N Q a b v j st) (hc : LegChain (FreeLeg d N Q) (a :: b :: rest)) :
    LegChain (FreeLeg d N Q) (st.walk :: st.ride :: rest) ∧ Improves (a :: b :: rest) (st.walk :: st.ride :: rest) := by
  obtain ⟨i, e1, e2⟩ := h.ride
  have hr := isRide_of e1
  refine chain_front (L := [a, b]) (L' := [st.walk, st.ride]) (by simp) hc ⟨?_, ?_⟩ ⟨?_, ?_, ?_⟩
  · intro x hx
    simp only [List.mem_cons, List.not_mem_nil, or_false] at hx
    rcases hx with rfl | rfl
    · exact (free_walk h.walk).mpr h.walkOk
    · exact (free_ride e1).mpr ⟨e2, hu⟩
  · exact ⟨⟨h.join.1, h.join.2, by rw [h.walk, hr]; decide⟩, trivial⟩
  · simp [h.walk, hr, ha, hb]
  · intro x hx; cases hx; exact ⟨st.walk, rfl, h.fr, h.dep⟩
  · intro x hx; cases hx; exact ⟨st.ride, rfl, h.to, Int.le_of_eq h.arr⟩

theorem front_init {d : Dir} {N : Net} {Q : RcData} {a b : Leg} {rest : List Leg} {v : Vehicle} {i j : Nat} (hb : b.uses = .ride v i j) (ha : a.isRide = false) (w : Int)
    (hc : LegChain (FreeLeg d N Q) (a :: b :: rest)) : FrontInv d N Q a b v j ⟨a, b, w⟩ := by
  have h1 := hc.ok a (by simp)
  have h2 := (free_ride hb).mp (hc.ok b (by simp))
  obtain ⟨j1, j2, _⟩ := hc.adj.1
  exact ⟨h1.1, ha, ⟨i, hb, h2.1⟩, ⟨j1, j2⟩, rfl, Int.le_refl _, rfl, rfl⟩

/-- The first mile of a journey starts at the right place. -/
theorem first_mile {d : Dir} {N : Net} {Q : RcData} {D : OptData} (hD : OptOk d N Q D) {a b : Leg} {w : Int} {v : Vehicle} {i j : Nat}
    (ha : a.uses = .offset w) (hok : LegOk d N Q a) (hb : RideLeg N v i j b) (hj : a.to = b.fr) {o : Loc × Int} (ho : o ∈ D.startOffs)
    {x : Leg} (h1 : x.fr = a.fr) (h2 : x.to = o.1) (h3 : x.uses = .offset o.2) (h4 : x.arr = x.dep + o.2) : LegOk d N Q x := by
  obtain ⟨-, ⟨s, hs, hsl⟩, -⟩ := rideLeg_stops hb
  have hoff := hD.startOffs o ho
  unfold LegOk at hok ⊢
  rw [ha] at hok
  rw [h3]
  cases d with
  | fwd =>
    rcases hok with ⟨e1, e2, e3, e4⟩ | ⟨e1, e2, e3, e4⟩
    · exact absurd (hsl.trans (hj.symm.trans e3)) (hD.endStop e1 v s hs)
    · exact Or.inr ⟨e1, h4, h1.trans e3, by rw [h2]; exact hoff⟩
  | bwd =>
    rcases hok with ⟨e1, e2, e3, e4⟩ | ⟨e1, e2, e3, e4⟩
    · exact Or.inl ⟨e1, h4, h1.trans e3, by rw [h2]; exact hoff⟩
    · exact absurd (hsl.trans (hj.symm.trans e3)) (hD.startStop e1 v s hs)

theorem initialDeparture_ok {d : Dir} {N : Net} {Q : RcData} {D : OptData} (hD : OptOk d N Q D) {L : List Leg} (h : LegChain (FreeLeg d N Q) L) :
    LegChain (FreeLeg d N Q) (initialDeparture N D L) ∧ Improves L (initialDeparture N D L) := by
  unfold initialDeparture
  split
  · rename_i a b rest
    split
    · rename_i w v i j ha hb
      have haw := isWalk_of (Or.inr ha)
      obtain ⟨hr, hu⟩ := (free_ride hb).mp (h.ok b (by simp))
      refine front_result (v := v) (j := j) hu haw (isRide_of hb) ?_ h
      refine overStops_inv _ (front_init hb haw w h) ?_
      intro s hs sd hsd hin st hst
      refine foldl_inv _ _ _ _ hst ?_
      intro st o ho hst
      split
      · rename_i hl
        refine optBoard_inv hu (List.mem_range.mp hs) hsd hin ?_ hst
        intro x h1 h2 h3 h4
        exact ⟨first_mile hD ha (h.ok a (by simp)).1 hr h.adj.1.1 ho h1 (h2.trans hl.symm) h3 h4, isWalk_of (Or.inr h3)⟩
      · exact hst
    · exact ⟨h, Improves.refl _⟩
  · exact ⟨h, Improves.refl _⟩

theorem initialFootpath_ok {d : Dir} {N : Net} {Q : RcData} {D : OptData} (hD : OptOk d N Q D) {L : List Leg} (h : LegChain (FreeLeg d N Q) L) :
    LegChain (FreeLeg d N Q) (initialFootpath N D L) ∧ Improves L (initialFootpath N D L) := by
  unfold initialFootpath
  split
  · rename_i a b rest
    split
    · rename_i w v i j ha hb
      split
      · exact ⟨h, Improves.refl _⟩
      have haw := isWalk_of (Or.inl ha)
      obtain ⟨hr, hu⟩ := (free_ride hb).mp (h.ok b (by simp))
      refine front_result (v := v) (j := j) hu haw (isRide_of hb) ?_ h
      refine overStops_inv _ (front_init hb haw _ h) ?_
      intro s hs sd hsd hin st hst
      cases hf : (D.fpsOut a.fr).find? fun fp => fp.1 == sd.loc with
      | none => exact hst
      | some fp =>
        have hm := List.mem_of_find?_eq_some hf
        have hl : fp.1 = sd.loc := by simpa using List.find?_some hf
        refine optBoard_inv hu (List.mem_range.mp hs) hsd hin ?_ hst
        intro x h1 h2 h3 h4
        refine ⟨walk_of_footpath h3 ?_ h4, isWalk_of (Or.inl h3)⟩
        rw [h1, h2, ← hl, hD.adj]
        exact hD.fpsOut _ _ _ hm
    · exact ⟨h, Improves.refl _⟩
  · exact ⟨h, Improves.refl _⟩

/-! ## The last walk -/

structure BackInv (d : Dir) (N : Net) (Q : RcData) (a b : Leg) (v : Vehicle) (i : Nat) (st : EndState) : Prop where
  walkOk : LegOk d N Q st.walk
  walk : st.walk.isRide = false
  ride : ∃ j, st.ride.uses = .ride v i j ∧ RideLeg N v i j st.ride
  join : st.ride.to = st.walk.fr ∧ st.ride.arr ≤ st.walk.dep
  to : st.walk.to = a.to
  arr : st.walk.arr ≤ a.arr
  fr : st.ride.fr = b.fr
  dep : st.ride.dep = b.dep

theorem optAlight_inv {d : Dir} {N : Net} {Q : RcData} {a b : Leg} {v : Vehicle} (hu : Unrestricted N v) {i s : Nat} {sd : StopData} (hs : i < s)
    (hsd : (N.vStops v)[s]? = some sd) (hb : sd.outAllowed = true) {mk : Int → Uses} {w : Int}
    (hmk : ∀ x : Leg, x.to = a.to → x.fr = sd.loc → x.uses = mk w → x.arr = x.dep + w → LegOk d N Q x ∧ x.isRide = false)
    {st : EndState} (h : BackInv d N Q a b v i st) : BackInv d N Q a b v i (optAlight N v i mk s sd w st) := by
  unfold optAlight
  split
  · rename_i hc
    obtain ⟨j, e1, e2⟩ := h.ride
    have hm := hmk { st.walk with fr := sd.loc, dep := N.vArr v s, arr := N.vArr v s + w, uses := mk w } h.to rfl rfl rfl
    refine ⟨hm.1, hm.2, ⟨s, rfl, ?_⟩, ⟨rfl, Int.le_refl _⟩, h.to, ?_, h.fr, h.dep⟩
    · exact rideLeg_alight hu e2 hs hsd hb rfl rfl rfl rfl
    · have := h.arr; simp only; omega
  · exact h

theorem back_result {d : Dir} {N : Net} {Q : RcData} {a b : Leg} {rest : List Leg} {v : Vehicle} (hu : Unrestricted N v) {i : Nat} (ha : a.isRide = false) (hb : b.isRide = true) {st : EndState}
    (h : BackInv d N Q a b v i st) (hc : LegChain (FreeLeg d N Q) (a :: b :: rest).reverse) :
    LegChain (FreeLeg d N Q) (st.walk :: st.ride :: rest).reverse ∧ Improves (a :: b :: rest).reverse (st.walk :: st.ride :: rest).reverse := by
  obtain ⟨j, e1, e2⟩ := h.ride
  have hr := isRide_of e1
  have er : ∀ x y : Leg, (x :: y :: rest).reverse = rest.reverse ++ [y, x] := by intro x y; simp
  rw [er] at hc ⊢
  rw [er]
  refine chain_back (L := [b, a]) (L' := [st.ride, st.walk]) (by simp) hc ⟨?_, ?_⟩ ⟨?_, ?_, ?_⟩
  · intro x hx
    simp only [List.mem_cons, List.not_mem_nil, or_false] at hx
    rcases hx with rfl | rfl
    · exact (free_ride e1).mpr ⟨e2, hu⟩
    · exact (free_walk h.walk).mpr h.walkOk
  · exact ⟨⟨h.join.1, h.join.2, by rw [h.walk, hr]; decide⟩, trivial⟩
  · simp [h.walk, hr, ha, hb]
  · intro x hx; cases hx; exact ⟨st.ride, rfl, h.fr, Int.le_of_eq h.dep.symm⟩
  · intro x hx; cases hx; exact ⟨st.walk, rfl, h.to, h.arr⟩

theorem back_init {d : Dir} {N : Net} {Q : RcData} {a b : Leg} {rest : List Leg} {v : Vehicle} {i j : Nat} (hb : b.uses = .ride v i j) (ha : a.isRide = false) (w : Int)
    (hc : LegChain (FreeLeg d N Q) (a :: b :: rest).reverse) : BackInv d N Q a b v i ⟨a, b, w⟩ := by
  have h1 := hc.ok a (by simp)
  have h2 := (free_ride hb).mp (hc.ok b (by simp))
  have hadj := adj_reverse.mp hc.adj
  obtain ⟨j1, j2, _⟩ := hadj.1
  exact ⟨h1.1, ha, ⟨j, hb, h2.1⟩, ⟨j1, j2⟩, rfl, Int.le_refl _, rfl, rfl⟩

theorem last_mile {d : Dir} {N : Net} {Q : RcData} {D : OptData} (hD : OptOk d N Q D) {a b : Leg} {w : Int} {v : Vehicle} {i j : Nat}
    (ha : a.uses = .offset w) (hok : LegOk d N Q a) (hb : RideLeg N v i j b) (hj : b.to = a.fr) {o : Loc × Int} (ho : o ∈ D.destOffs)
    {x : Leg} (h1 : x.to = a.to) (h2 : x.fr = o.1) (h3 : x.uses = .offset o.2) (h4 : x.arr = x.dep + o.2) : LegOk d N Q x := by
  obtain ⟨-, -, s, hs, hsl⟩ := rideLeg_stops hb
  have hoff := hD.destOffs o ho
  unfold LegOk at hok ⊢
  rw [ha] at hok
  rw [h3]
  cases d with
  | fwd =>
    rcases hok with ⟨e1, e2, e3, e4⟩ | ⟨e1, e2, e3, e4⟩
    · exact Or.inl ⟨e1, h4, h1.trans e3, by rw [h2]; exact hoff⟩
    · exact absurd (hsl.trans (hj.trans e3)) (hD.startStop e1 v s hs)
  | bwd =>
    rcases hok with ⟨e1, e2, e3, e4⟩ | ⟨e1, e2, e3, e4⟩
    · exact absurd (hsl.trans (hj.trans e3)) (hD.endStop e1 v s hs)
    · exact Or.inr ⟨e1, h4, h1.trans e3, by rw [h2]; exact hoff⟩

theorem mem_stopsAfter {N : Net} {v : Vehicle} {i s : Nat} (h : s ∈ stopsAfter N v i) : i < s := by
  unfold stopsAfter at h
  simpa using (List.mem_filter.mp h).2

theorem lastArrivalRev_ok {d : Dir} {N : Net} {Q : RcData} {D : OptData} (hD : OptOk d N Q D) {L : List Leg} (h : LegChain (FreeLeg d N Q) L.reverse) :
    LegChain (FreeLeg d N Q) (lastArrivalRev N D L).reverse ∧ Improves L.reverse (lastArrivalRev N D L).reverse := by
  unfold lastArrivalRev
  split
  · rename_i a b rest
    split
    · rename_i w v i j ha hb
      have haw := isWalk_of (Or.inr ha)
      obtain ⟨hr, hu⟩ := (free_ride hb).mp (h.ok b (by simp))
      refine back_result (v := v) (i := i) hu haw (isRide_of hb) ?_ h
      refine overStops_inv _ (back_init hb haw w h) ?_
      intro s hs sd hsd hin st hst
      refine foldl_inv _ _ _ _ hst ?_
      intro st o ho hst
      split
      · rename_i hl
        refine optAlight_inv hu (mem_stopsAfter hs) hsd hin ?_ hst
        intro x h1 h2 h3 h4
        exact ⟨last_mile hD ha (h.ok a (by simp)).1 hr (adj_reverse.mp h.adj).1.1 ho h1 (h2.trans hl.symm) h3 h4, isWalk_of (Or.inr h3)⟩
      · exact hst
    · exact ⟨h, Improves.refl _⟩
  · exact ⟨h, Improves.refl _⟩

theorem finalEgressRev_ok {d : Dir} {N : Net} {Q : RcData} {D : OptData} (hD : OptOk d N Q D) {L : List Leg} (h : LegChain (FreeLeg d N Q) L.reverse) :
    LegChain (FreeLeg d N Q) (finalEgressRev N D L).reverse ∧ Improves L.reverse (finalEgressRev N D L).reverse := by
  unfold finalEgressRev
  split
  · rename_i a b rest
    split
    · rename_i w v i j ha hb
      split
      · exact ⟨h, Improves.refl _⟩
      have haw := isWalk_of (Or.inl ha)
      obtain ⟨hr, hu⟩ := (free_ride hb).mp (h.ok b (by simp))
      refine back_result (v := v) (i := i) hu haw (isRide_of hb) ?_ h
      refine overStops_inv _ (back_init hb haw _ h) ?_
      intro s hs sd hsd hin st hst
      cases hf : (D.fpsIn a.to).find? fun fp => fp.1 == sd.loc with
      | none => exact hst
      | some fp =>
        have hm := List.mem_of_find?_eq_some hf
        have hl : fp.1 = sd.loc := by simpa using List.find?_some hf
        refine optAlight_inv hu (mem_stopsAfter hs) hsd hin ?_ hst
        intro x h1 h2 h3 h4
        refine ⟨walk_of_footpath h3 ?_ h4, isWalk_of (Or.inl h3)⟩
        rw [h1, h2, ← hl, hD.adj]
        exact hD.fpsIn _ _ _ hm
    · exact ⟨h, Improves.refl _⟩
  · exact ⟨h, Improves.refl _⟩

theorem lastArrival_ok {d : Dir} {N : Net} {Q : RcData} {D : OptData} (hD : OptOk d N Q D) {L : List Leg} (h : LegChain (FreeLeg d N Q) L) :
    LegChain (FreeLeg d N Q) (lastArrival N D L) ∧ Improves L (lastArrival N D L) := by
  have := lastArrivalRev_ok (L := L.reverse) hD (by rw [List.reverse_reverse]; exact h)
  rw [List.reverse_reverse] at this
  exact this

theorem finalEgress_ok {d : Dir} {N : Net} {Q : RcData} {D : OptData} (hD : OptOk d N Q D) {L : List Leg} (h : LegChain (FreeLeg d N Q) L) :
    LegChain (FreeLeg d N Q) (finalEgress N D L) ∧ Improves L (finalEgress N D L) := by
  have := finalEgressRev_ok (L := L.reverse) hD (by rw [List.reverse_reverse]; exact h)
  rw [List.reverse_reverse] at this
  exact this

/-! ## Transfers -/

structure ChangeInv (d : Dir) (N : Net) (Q : RcData) (x z : Leg) (v v' : Vehicle) (i j' : Nat) (st : TransferState) : Prop where
  fr : ∃ j, st.fr.uses = .ride v i j ∧ RideLeg N v i j st.fr
  to : ∃ i', st.to.uses = .ride v' i' j' ∧ RideLeg N v' i' j' st.to
  walkOk : LegOk d N Q st.walk
  walk : st.walk.isRide = false
  join : st.fr.to = st.walk.fr ∧ st.fr.arr ≤ st.walk.dep
  join' : st.walk.to = st.to.fr ∧ st.walk.arr ≤ st.to.dep
  head : st.fr.fr = x.fr ∧ st.fr.dep = x.dep
  last : st.to.to = z.to ∧ st.to.arr = z.arr

theorem optChange_inv {d : Dir} {N : Net} {Q : RcData} {D : OptData} (hD : OptOk d N Q D) {x z : Leg} {v v' : Vehicle} (hu : Unrestricted N v) (hu' : Unrestricted N v')
    {i j' s s' : Nat} {sd sd' : StopData} (hs : i < s) (hs' : s' < j') (hsd : (N.vStops v)[s]? = some sd) (hsd' : (N.vStops v')[s']? = some sd')
    (ho : sd.outAllowed = true) (hi : sd'.inAllowed = true) {st : TransferState} (h : ChangeInv d N Q x z v v' i j' st) :
    ChangeInv d N Q x z v v' i j' (optChange N D v v' i j' s s' sd sd' st) := by
  unfold optChange
  split
  · exact h
  · rename_i fp hf
    have hm := List.mem_of_find?_eq_some hf
    have hl : fp.1 = sd'.loc := by simpa using List.find?_some hf
    simp only
    split
    · rename_i hc
      obtain ⟨j, e1, e2⟩ := h.fr
      obtain ⟨i', e3, e4⟩ := h.to
      refine ⟨⟨s, rfl, rideLeg_alight hu e2 hs hsd ho rfl rfl rfl rfl⟩, ⟨s', rfl, rideLeg_board hu' e4 hs' hsd' hi rfl rfl rfl rfl⟩, ?_, rfl,
        ⟨rfl, Int.le_refl _⟩, ⟨rfl, hc.1⟩, h.head, h.last⟩
      refine walk_of_footpath rfl ?_ (by rw [hD.adj])
      simp only
      rw [← hl]; exact hD.fpsOut _ _ _ hm
    · exact h

theorem optTransfer_ok {d : Dir} {N : Net} {Q : RcData} {D : OptData} (hD : OptOk d N Q D) {x y z : Leg} {rest : List Leg} (h : LegChain (FreeLeg d N Q) (x :: y :: z :: rest)) :
    LegChain (FreeLeg d N Q) ((optTransfer N D x y z).1 :: (optTransfer N D x y z).2.1 :: (optTransfer N D x y z).2.2 :: rest) ∧
    Improves (x :: y :: z :: rest) ((optTransfer N D x y z).1 :: (optTransfer N D x y z).2.1 :: (optTransfer N D x y z).2.2 :: rest) := by
  unfold optTransfer
  split
  · rename_i v i j w v' i' j' hx hy hz
    simp only
    obtain ⟨hr, hu⟩ := (free_ride hx).mp (h.ok x (by simp))
    obtain ⟨hr', hu'⟩ := (free_ride hz).mp (h.ok z (by simp))
    have hyw := isWalk_of (Or.inl hy)
    obtain ⟨⟨a1, a2, _⟩, ⟨b1, b2, _⟩, _⟩ := h.adj
    have hinv : ChangeInv d N Q x z v v' i j' (overStops (N.vStops v) (stopsAfter N v i) (·.outAllowed) (fun s sd st =>
      overStops (N.vStops v') (List.range j') (·.inAllowed) (fun s' sd' st => optChange N D v v' i j' s s' sd sd' st) st)
      (⟨x, y, z, (w, z.dep - y.arr, x.fr, z.to)⟩ : TransferState)) := by
      refine overStops_inv _ ⟨⟨j, hx, hr⟩, ⟨i', hz, hr'⟩, (h.ok y (by simp)).1, hyw, ⟨a1, a2⟩, ⟨b1, b2⟩, ⟨rfl, rfl⟩, ⟨rfl, rfl⟩⟩ ?_
      intro s hs sd hsd ho st hst
      refine overStops_inv _ hst ?_
      intro s' hs' sd' hsd' hi st hst
      exact optChange_inv hD hu hu' (mem_stopsAfter hs) (List.mem_range.mp hs') hsd hsd' ho hi hst
    generalize overStops (N.vStops v) (stopsAfter N v i) (·.outAllowed) (fun s sd st =>
      overStops (N.vStops v') (List.range j') (·.inAllowed) (fun s' sd' st => optChange N D v v' i j' s s' sd sd' st) st)
      (⟨x, y, z, (w, z.dep - y.arr, x.fr, z.to)⟩ : TransferState) = st at hinv ⊢
    obtain ⟨j1, e1, e2⟩ := hinv.fr
    obtain ⟨i1, e3, e4⟩ := hinv.to
    refine chain_front (L := [x, y, z]) (L' := [st.fr, st.walk, st.to]) (by simp) h ⟨?_, ?_⟩ ⟨?_, ?_, ?_⟩
    · intro q hq
      simp only [List.mem_cons, List.not_mem_nil, or_false] at hq
      rcases hq with rfl | rfl | rfl
      · exact (free_ride e1).mpr ⟨e2, hu⟩
      · exact (free_walk hinv.walk).mpr hinv.walkOk
      · exact (free_ride e3).mpr ⟨e4, hu'⟩
    · exact ⟨⟨hinv.join.1, hinv.join.2, by rw [isRide_of e1, hinv.walk]; decide⟩, ⟨hinv.join'.1, hinv.join'.2, by rw [isRide_of e3, hinv.walk]; decide⟩, trivial⟩
    · simp [isRide_of e1, isRide_of e3, hinv.walk, isRide_of hx, isRide_of hz, hyw]
    · intro q hq; cases hq; exact ⟨st.fr, rfl, hinv.head.1, Int.le_of_eq hinv.head.2.symm⟩
    · intro q hq; cases hq; exact ⟨st.to, rfl, hinv.last.1, Int.le_of_eq hinv.last.2⟩
  · exact ⟨h, Improves.refl _⟩

theorem optTransfers_ok {d : Dir} {N : Net} {Q : RcData} {D : OptData} (hD : OptOk d N Q D) : ∀ (L : List Leg), LegChain (FreeLeg d N Q) L →
    LegChain (FreeLeg d N Q) (optTransfers N D L) ∧ Improves L (optTransfers N D L) := by
  intro L
  fun_induction optTransfers N D L with
  | case1 => exact fun h => ⟨h, Improves.refl _⟩
  | case2 x => exact fun h => ⟨h, Improves.refl _⟩
  | case3 x y => exact fun h => ⟨h, Improves.refl _⟩
  | case4 x y z rest t ih =>
    intro h
    obtain ⟨h1, h2⟩ := optTransfer_ok hD h
    have h3 : LegChain (FreeLeg d N Q) (t.2.1 :: t.2.2 :: rest) := ⟨fun q hq => h1.ok q (List.mem_cons_of_mem _ hq), h1.adj.2⟩
    obtain ⟨g1, g2⟩ := ih h3
    obtain ⟨k1, k2⟩ := chain_back (M := [t.1]) (L := t.2.1 :: t.2.2 :: rest) (by simp) h1 g1 g2
    exact ⟨k1, h2.trans k2⟩

theorem optimize_ok {d : Dir} {N : Net} {Q : RcData} {D : OptData} (hD : OptOk d N Q D) {L : List Leg} (h : LegChain (FreeLeg d N Q) L) :
    LegChain (FreeLeg d N Q) (optimizeFootpaths N D L) ∧ Improves L (optimizeFootpaths N D L) := by
  obtain ⟨a1, a2⟩ := initialDeparture_ok hD h
  obtain ⟨b1, b2⟩ := initialFootpath_ok hD a1
  obtain ⟨c1, c2⟩ := lastArrival_ok hD b1
  obtain ⟨e1, e2⟩ := finalEgress_ok hD c1
  obtain ⟨f1, f2⟩ := optTransfers_ok hD _ e1
  exact ⟨f1, (((a2.trans b2).trans c2).trans e2).trans f2⟩

end Nigiri.Raptor
