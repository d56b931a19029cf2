import Verif.Proofs.TbHist
import Verif.Proofs.TbReduce
/-!
# Trip-based search: continuations of a journey
-/

namespace Nigiri.TB
open Raptor (Loc StopData Net)

/-! ## The stored transfers -/

theorem preprocess_complete {tt : TT} {prf : Nat} {tbd : TbData} (h : preprocess tt prf = some tbd) {r o i : Nat}
    (hr : r < tt.routes.length) (ho : o < (tt.route r).nTr) (hi : i + 1 < (tt.route r).stops.length) {z : Xfer}
    (hz : z ∈ preprocessRoute tt prf r o i) :
    ∃ y ∈ tbd.segTransfers.getD (firstSeg tt (trFrom tt r + o) + i) [], toTransfer tt z = some y := by
  unfold preprocess at h
  cases hm : (((trList tt).flatMap fun x => (List.range (nSeg tt x)).map fun seg => preprocessRoute tt prf x.1 x.2 seg).mapM
    fun (xs : List Xfer) => xs.mapM (toTransfer tt)) with
  | none => rw [hm] at h; simp at h
  | some segs =>
    rw [hm] at h
    simp only [Option.map_some, Option.some.injEq] at h
    subst h
    simp only
    obtain ⟨b, hb, hs⟩ := mapM_get _ _ _ hm _ _ (flatX_get tt prf _ (r, o) i (trList_get tt r o hr ho) (by unfold nSeg; simp only; omega))
    rw [List.getD_eq_getElem?_getD, hs]
    obtain ⟨p, hp⟩ := List.mem_iff_getElem?.1 hz
    obtain ⟨y, hy, hyp⟩ := mapM_get _ _ _ hb p z hp
    exact ⟨y, List.mem_of_getElem? hyp, hy⟩

/-! ## Times of a trip -/

theorem Regular.trip {tt : TT} {prf : Nat} (h : Regular tt prf) {r o : Nat} (hr : r < tt.routes.length) (ho : o < (tt.route r).nTr) :
    (∀ j q, j < q → q < (tt.route r).stops.length → (tt.route r).dep o j ≤ (tt.route r).arr o q) ∧
    (∀ i i', 0 < i → i ≤ i' → i' < (tt.route r).stops.length → (tt.route r).arr o i ≤ (tt.route r).arr o i') ∧
    (∀ i, 0 < i → i + 1 < (tt.route r).stops.length → (tt.route r).arr o i ≤ (tt.route r).dep o i) ∧
    (∀ j, j + 2 < (tt.route r).stops.length → (tt.route r).dep o j ≤ (tt.route r).dep o (j + 1)) := by
  obtain ⟨h1, h2⟩ := h.times _ (List.mem_of_getElem? (route_getElem hr)) o ho
  have h1 : ∀ s, s + 1 < (tt.route r).stops.length → (tt.route r).dep o s ≤ (tt.route r).arr o (s + 1) := by
    intro s hs; have := h1 s hs; simp only at this; omega
  have h2 : ∀ s, 0 < s → s + 1 < (tt.route r).stops.length → (tt.route r).arr o s ≤ (tt.route r).dep o s := by
    intro s h0 hs; have := h2 s h0 hs; simp only at this; omega
  have h3 : ∀ n j, j + 1 + n < (tt.route r).stops.length → (tt.route r).dep o j ≤ (tt.route r).arr o (j + 1 + n) := by
    intro n
    induction n with
    | zero => intro j hj; exact h1 j hj
    | succ n ih =>
      intro j hj
      have a := ih j (by omega)
      have b := h2 (j + 1 + n) (by omega) (by omega)
      have c := h1 (j + 1 + n) (by omega)
      rw [show j + 1 + (n + 1) = j + 1 + n + 1 by omega]
      omega
  refine ⟨?_, ?_, h2, ?_⟩
  · intro j q hj hq
    have := h3 (q - j - 1) j (by omega)
    rwa [show j + 1 + (q - j - 1) = q by omega] at this
  · intro i i' h0 hi hl
    by_cases e : i = i'
    · subst e; exact Nat.le_refl _
    · have a := h2 i h0 (by omega)
      have b := h3 (i' - i - 1) i (by omega)
      rw [show i + 1 + (i' - i - 1) = i' by omega] at b
      omega
  · intro j hj
    have a := h1 j (by omega)
    have b := h2 (j + 1) (by omega) (by omega)
    omega

/-- An earlier or the same trip of the route does not arrive later. -/
theorem Regular.arr_le {tt : TT} {prf : Nat} (h : Regular tt prf) {r o o' d d' i : Nat} (hr : r < tt.routes.length)
    (ho : o < (tt.route r).nTr) (ho' : o' < (tt.route r).nTr) (hi : 0 < i) (hl : i < (tt.route r).stops.length) (hn : NotLater o d o' d') :
    d * 1440 + (tt.route r).arr o i ≤ d' * 1440 + (tt.route r).arr o' i := by
  have ha := h.aligned _ (List.mem_of_getElem? (route_getElem hr))
  have hd : (tt.route r).arr o i / 1440 = (tt.route r).arr o' i / 1440 := ha.arrDay o o' ho ho' i hi hl
  rcases hn with hn | ⟨hn, hle⟩
  · omega
  · by_cases e : o = o'
    · subst e; omega
    · have : (tt.route r).arr o i % 1440 ≤ (tt.route r).arr o' i % 1440 := ha.arr o o' (by omega) ho' i hi hl
      omega

/-! ## Journeys -/

theorem Leg.ride {tt : TT} {l : Loc} {t : Int} {r o day j q : Nat} (h : Leg tt l t r o day j q) (prf : Nat) (Q : Query) :
    Raptor.RideDir .fwd (net tt prf Q) l t ((tt.route r).stop q).loc ((day : Int) * 1440 + ((tt.route r).arr o q : Nat)) := by
  refine ⟨_, h.time, Or.inl ⟨(tt.route r).data, ?_, o, day, h.trip, ?_, ?_, j, q, _, _, h.lt, stop_getElem (Nat.lt_trans h.lt h.len),
    stop_getElem h.len, h.loc, rfl, ?_, ?_, ?_, ?_, ?_⟩⟩
  · exact List.mem_map_of_mem (List.mem_of_getElem? (route_getElem h.route))
  · simp only [Route.data, Bool.and_eq_true, decide_eq_true_eq]
    exact ⟨by omega, by simpa using h.runs⟩
  · show (1 : Nat).testBit 0 = true
    decide
  · simp only [Raptor.MayBoard, net, Bool.false_eq_true, if_false]; exact h.board
  · simp only [Raptor.MayAlight, net, Bool.false_eq_true, if_false]; exact h.alight
  · intro s _ _ f sec hf
    simp [net] at hf
  · simp [net, Route.data]
  · simp [net, Route.data]

theorem ride_leg {tt : TT} {prf : Nat} {Q : Query} {l m : Loc} {t a : Int} (h : Raptor.RideDir .fwd (net tt prf Q) l t m a) :
    ∃ r o day j q, Leg tt l t r o day j q ∧ m = ((tt.route r).stop q).loc ∧ a = (day : Int) * 1440 + ((tt.route r).arr o q : Nat) := by
  obtain ⟨dep, ht, hr⟩ := h
  rcases hr with ⟨R, hR, o, day, ho, hday, -, j, q, sj, sq, hjq, hj, hq, e1, e2, hb, hal, -, e3, e4⟩ | ⟨R, hR, _⟩
  · simp only [net, List.mem_map] at hR
    obtain ⟨R', hR', rfl⟩ := hR
    obtain ⟨r, hr⟩ := List.mem_iff_getElem?.1 hR'
    have hlt := (List.getElem?_eq_some_iff.1 hr).1
    have eR : R' = tt.route r := by
      rw [route_getElem hlt] at hr
      injection hr with hr
      exact hr.symm
    subst eR
    simp only [Route.data] at ho hday hj hq e3 e4
    simp only [Bool.and_eq_true, decide_eq_true_eq] at hday
    have hql := (List.getElem?_eq_some_iff.1 hq).1
    rw [stop_getElem (Nat.lt_trans hjq hql)] at hj
    rw [stop_getElem hql] at hq
    injection hj with hj
    injection hq with hq
    subst hj hq
    simp only [Raptor.MayBoard, Raptor.MayAlight, net, Bool.false_eq_true, if_false] at hb hal
    refine ⟨r, o, day.toNat, j, q, ⟨hlt, ho, hday.2, hjq, hql, e1, hb, hal, ?_⟩, e2.symm, ?_⟩
    · simp only [net] at e3
      omega
    · simp only [net] at e4
      omega
  · simp [net] at hR

theorem lastWalk_arrive {tt : TT} {prf : Nat} {Q : Query} {m : Loc} {a : Int} {A : Int} :
    Raptor.Arrive (net tt prf Q) m a A ↔ ∃ w : Nat, LastWalk tt prf Q m w ∧ A = a + (w : Int) := by
  unfold Raptor.Arrive LastWalk
  by_cases hd : Q.dist = []
  · rw [if_neg (by simp [net, hd])]
    simp only [if_pos hd]
    simp only [net, List.mem_map, decide_eq_true_eq]
    constructor
    · rintro (⟨h1, h2⟩ | ⟨l, w, h1, ⟨x, hx, e⟩, h3⟩)
      · exact ⟨0, Or.inl ⟨h1, rfl⟩, by omega⟩
      · injection e with e1 e2
        subst e1
        exact ⟨x.2, Or.inr ⟨x.1, h1, hx⟩, by omega⟩
    · rintro ⟨w, ⟨h1, rfl⟩ | ⟨l, h1, h2⟩, h3⟩
      · exact Or.inl ⟨h1, by omega⟩
      · exact Or.inr ⟨l, w, h1, ⟨_, h2, rfl⟩, h3⟩
  · rw [if_pos (by simp [net, hd])]
    simp only [if_neg hd]
    simp only [net]
    constructor
    · rintro ⟨w, h1 | h1, h2⟩
      · cases hh : Q.dist.getD m none with
        | none => rw [hh] at h1; simp at h1
        | some d =>
          rw [hh] at h1
          simp at h1
          exact ⟨d, rfl, by omega⟩
      · simp at h1
    · rintro ⟨w, h1, h2⟩
      exact ⟨w, Or.inl (by rw [h1]; rfl), h2⟩

theorem changeWalk_walk {tt : TT} {prf : Nat} {Q : Query} {m l : Loc} {a t : Int} :
    Raptor.Walk (net tt prf Q) m a l t ↔ ∃ w : Nat, ChangeWalk tt prf m l w ∧ t = a + (w : Int) := by
  unfold Raptor.Walk ChangeWalk
  simp only [net, List.mem_map]
  constructor
  · rintro (⟨h1, h2⟩ | ⟨w, ⟨x, hx, e⟩, h3⟩)
    · exact ⟨_, Or.inl ⟨h1, rfl⟩, h2⟩
    · injection e with e1 e2
      subst e1
      exact ⟨x.2, Or.inr hx, by omega⟩
  · rintro ⟨w, ⟨h1, rfl⟩ | h1, h2⟩
    · exact Or.inl ⟨h1, h2⟩
    · exact Or.inr ⟨w, ⟨_, h1, rfl⟩, h2⟩

/-- After alighting at `m` at `a` the destination can be reached by `A` with `n` more rides. -/
inductive After (tt : TT) (prf : Nat) (Q : Query) : Nat → Loc → Nat → Nat → Prop
  | fin {m a A w} : LastWalk tt prf Q m w → a + w ≤ A → After tt prf Q 0 m a A
  | ride {n m a A l w r o day j q} : ChangeWalk tt prf m l w → Leg tt l ((a + w : Nat) : Int) r o day j q →
      After tt prf Q n ((tt.route r).stop q).loc (day * 1440 + (tt.route r).arr o q) A → After tt prf Q (n + 1) m a A

theorem Leg.earlier {tt : TT} {l : Loc} {t t' : Int} {r o day j q : Nat} (h : Leg tt l t r o day j q) (ht : t' ≤ t) :
    Leg tt l t' r o day j q := ⟨h.route, h.trip, h.runs, h.lt, h.len, h.loc, h.board, h.alight, by have := h.time; omega⟩

theorem After.mono {tt : TT} {prf : Nat} {Q : Query} {n : Nat} {m : Loc} {a A : Nat} (h : After tt prf Q n m a A) :
    ∀ {a' : Nat}, a' ≤ a → After tt prf Q n m a' A := by
  intro a' ha
  cases h with
  | fin h1 h2 => exact .fin h1 (by omega)
  | ride h1 h2 h3 => exact .ride h1 (h2.earlier (by omega)) h3

/-- Departure and arrival of a ride. -/
theorem Leg.dep_arr {tt : TT} {prf : Nat} (hreg : Regular tt prf) {l : Loc} {t : Int} {r o day j q : Nat} (h : Leg tt l t r o day j q) :
    day * 1440 + (tt.route r).dep o j ≤ day * 1440 + (tt.route r).arr o q := by
  have := (hreg.trip h.route h.trip).1 j q h.lt h.len
  omega

theorem After.le {tt : TT} {prf : Nat} (hreg : Regular tt prf) {Q : Query} {n : Nat} {m : Loc} {a A : Nat} (h : After tt prf Q n m a A) :
    a ≤ A := by
  induction h with
  | fin _ h => omega
  | ride h1 h2 h3 ih =>
    have a := h2.dep_arr hreg
    have b := h2.time
    omega

/-- A continuation as journey of the specification. -/
theorem After.next {tt : TT} {prf : Nat} {Q : Query} {n : Nat} {m : Loc} {a A : Nat} (h : After tt prf Q n m a A) :
    ∃ A' : Int, A' ≤ (A : Int) ∧ ∀ (l : Loc) (t : Int), Raptor.RideDir .fwd (net tt prf Q) l t m (a : Int) →
      Raptor.Journey .fwd (net tt prf Q) (n + 1) l t A' := by
  induction h with
  | @fin m a A w h1 h2 =>
    exact ⟨(a : Int) + (w : Int), by omega, fun l t hr => .last hr (lastWalk_arrive.2 ⟨w, h1, rfl⟩)⟩
  | @ride n m a A l w r o day j q h1 h2 h3 ih =>
    obtain ⟨A', hA, ih⟩ := ih
    refine ⟨A', hA, fun l0 t0 hr => .more hr (changeWalk_walk.2 ⟨w, h1, rfl⟩) (ih _ _ ?_)⟩
    have := h2.ride prf Q
    simpa using this

theorem After.onward {tt : TT} {prf : Nat} {Q : Query} {n : Nat} {m : Loc} {a A : Nat} (h : After tt prf Q n m a A) :
    ∃ A' : Int, A' ≤ (A : Int) ∧ Raptor.Onward .fwd (net tt prf Q) m (a : Int) A' := by
  cases h with
  | @fin _ _ _ w h1 h2 => exact ⟨(a : Int) + (w : Int), by omega, Or.inl (lastWalk_arrive.2 ⟨w, h1, rfl⟩)⟩
  | @ride n _ _ _ l w r o day j q h1 h2 h3 =>
    obtain ⟨A', hA, hj⟩ := h3.next
    refine ⟨A', hA, Or.inr ⟨n + 1, l, _, changeWalk_walk.2 ⟨w, h1, rfl⟩, hj _ _ ?_⟩⟩
    have := h2.ride prf Q
    simpa using this

/-- Every journey starts with a ride. -/
theorem journey_after {tt : TT} {prf : Nat} {Q : Query} {n : Nat} {l : Loc} {t A : Int} (h : Raptor.Journey .fwd (net tt prf Q) n l t A) :
    ∃ r o day j q n' A', Leg tt l t r o day j q ∧ n = n' + 1 ∧ A = ((A' : Nat) : Int) ∧
      After tt prf Q n' ((tt.route r).stop q).loc (day * 1440 + (tt.route r).arr o q) A' := by
  induction h with
  | @last l t m a A h1 h2 =>
    obtain ⟨r, o, day, j, q, hl, rfl, rfl⟩ := ride_leg h1
    obtain ⟨w, hw, rfl⟩ := lastWalk_arrive.1 h2
    exact ⟨r, o, day, j, q, 0, day * 1440 + (tt.route r).arr o q + w, hl, rfl, by omega, .fin hw (Nat.le_refl _)⟩
  | @more n l t m a l' t' A h1 h2 _ ih =>
    obtain ⟨r, o, day, j, q, hl, rfl, rfl⟩ := ride_leg h1
    obtain ⟨w, hw, rfl⟩ := changeWalk_walk.1 h2
    obtain ⟨r', o', day', j', q', n', A', hl', rfl, rfl, ha⟩ := ih
    exact ⟨r, o, day, j, q, n' + 1, A', hl, rfl, rfl, .ride hw (hl'.earlier (by omega)) ha⟩

/-- Walking from `m` to `l` and continuing from there. -/
theorem After.back {tt : TT} {prf : Nat} (hreg : Regular tt prf) {Q : Query}
    (hdest : ∀ m l w w', (l, w) ∈ tt.fpsOut prf m → LastWalk tt prf Q l w' → ∃ w'', w'' ≤ w + w' ∧ LastWalk tt prf Q m w'')
    {n : Nat} {m l : Loc} {a a' w A : Nat} (hw : ChangeWalk tt prf m l w) (ha : a + w ≤ a') (h : After tt prf Q n l a' A) :
    After tt prf Q n m a A := by
  rcases hw with ⟨rfl, _⟩ | hw
  · exact h.mono (by omega)
  · cases h with
    | @fin _ _ _ w' h1 h2 =>
      obtain ⟨w'', h3, h4⟩ := hdest _ _ _ _ hw h1
      exact .fin h4 (by omega)
    | @ride n _ _ _ l' w' r o day j q h1 h2 h3 =>
      rcases h1 with ⟨rfl, rfl⟩ | h1
      · exact .ride (Or.inr hw) (h2.earlier (by omega)) h3
      · rcases hreg.closed _ _ _ _ _ hw h1 with ⟨w3, h4, h5⟩ | ⟨rfl, h5⟩
        · exact .ride (Or.inr h5) (h2.earlier (by omega)) h3
        · exact .ride (Or.inl ⟨rfl, rfl⟩) (h2.earlier (by omega)) h3

/-- Times along a chain. -/
theorem Chain.ge {tt : TT} {prf : Nat} (hreg : Regular tt prf) {Q : Query} {starts : List (Loc × Nat)} {T0 : Nat} (hs : ∀ x ∈ starts, T0 ≤ x.2)
    {k : Nat} {l : Loc} {t : Int} (h : Chain (net tt prf Q) starts k l t) : (T0 : Int) ≤ t := by
  induction h with
  | start hx => have := hs _ hx; simp only at this; omega
  | walk _ h2 h3 ih =>
    obtain ⟨r, o, day, j, q, hl, rfl, rfl⟩ := ride_leg h2
    obtain ⟨w, _, rfl⟩ := changeWalk_walk.1 h3
    have a := hl.dep_arr hreg
    have b := hl.time
    omega

end Nigiri.TB
