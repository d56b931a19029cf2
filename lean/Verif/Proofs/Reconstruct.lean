import Verif.Spec.Itinerary
import Verif.Proofs.NetTame
import Verif.Proofs.RaptorSound
/-!
# Reconstruction yields itineraries (proofs)
-/

namespace Nigiri.Raptor

/-- A ride along a vehicle between two stops in search order. -/
structure RideIdx (stops : List Stop) (i j : Nat) (a b : Loc) : Prop where
  lt : i < j
  board : ∃ s, stops[i]? = some s ∧ s.loc = a ∧ s.canBoard = true
  alight : ∃ s, stops[j]? = some s ∧ s.loc = b ∧ s.canAlight = true
  sec : ∀ (x : Nat) (s : Stop), i < x → x ≤ j → stops[x]? = some s → s.secOk = true

theorem findStart_spec {P : Problem} {rk : Loc → Int} {stops : List Stop} {board : Nat → Int} {j i : Nat}
    (h : findStart P rk stops board j = some i) :
    i < j ∧ (∃ s, stops[i]? = some s ∧ s.canBoard = true ∧ rk s.loc ≤ P.clamp (board i)) ∧
    ∀ (x : Nat) (s : Stop), i < x → x ≤ j → stops[x]? = some s → s.secOk = true := by
  induction j with
  | zero => simp [findStart] at h
  | succ j ih =>
    unfold findStart at h
    split at h
    · rename_i f s hf hs
      split at h
      · cases h
      · rename_i hsec
        have hsec : f.secOk = true := by simpa using hsec
        split at h
        · rename_i hb
          cases h
          refine ⟨by omega, ⟨s, hs, hb.1, hb.2⟩, ?_⟩
          intro x s' h1 h2 h3
          rw [show x = i + 1 by omega, hf] at h3
          cases h3; exact hsec
        · obtain ⟨g1, g2, g3⟩ := ih h
          refine ⟨by omega, g2, ?_⟩
          intro x s' h1 h2 h3
          by_cases hx : x = j + 1
          · rw [hx, hf] at h3; cases h3; exact hsec
          · exact g3 x s' h1 (by omega) h3
    · cases h

theorem findStart_isSome {P : Problem} {rk : Loc → Int} {stops : List Stop} {board : Nat → Int} {j i : Nat} (hj : j < stops.length)
    (hij : i < j) {s : Stop} (hs : stops[i]? = some s) (hb : s.canBoard = true) (hr : rk s.loc ≤ P.clamp (board i))
    (hsec : ∀ (x : Nat) (s : Stop), i < x → x ≤ j → stops[x]? = some s → s.secOk = true) :
    (findStart P rk stops board j).isSome = true := by
  induction j with
  | zero => omega
  | succ j ih =>
    unfold findStart
    have e1 : stops[j + 1]? = some stops[j + 1] := List.getElem?_eq_getElem hj
    have e2 : stops[j]? = some stops[j] := List.getElem?_eq_getElem (by omega)
    rw [e1, e2]
    simp only
    have := hsec (j + 1) _ (by omega) (Nat.le_refl _) e1
    rw [if_neg (by simp [this])]
    split
    · rfl
    · rename_i hc
      by_cases hij' : i = j
      · subst hij'
        rw [hs] at e2
        have e3 := Option.some.inj e2
        rw [← e3] at hc
        exact absurd ⟨hb, hr⟩ hc
      · exact ih (by omega) (by omega) (fun x s h1 h2 => hsec x s h1 (by omega))

theorem alightsAt_iff {exit : Nat → Bool} {stops : List Stop} {l : Loc} {j : Nat} :
    alightsAt exit stops l j = true ↔ j ≠ 0 ∧ ∃ s, stops[j]? = some s ∧ s.loc = l ∧ exit j = true := by
  unfold alightsAt
  cases h : stops[j]? with
  | none => simp
  | some s => simp; constructor
              · rintro ⟨⟨h1, h2⟩, h3⟩; exact ⟨h2, h1, h3⟩
              · rintro ⟨h2, h1, h3⟩; exact ⟨⟨h1, h2⟩, h3⟩

theorem rideLeg_spec {P : Problem} {rk : Loc → Int} {v : Vehicle} {stops : List Stop} {board alight : Nat → Int} {l : Loc} {j : Nat} {x : OLeg}
    {exit : Nat → Bool} (hex : ∀ s, stops[j]? = some s → exit j = true → s.canAlight = true)
    (hal : alightsAt exit stops l j = true) (h : rideLeg P rk v stops board alight l j = some x) :
    ∃ i, RideIdx stops i j x.a l ∧ rk x.a ≤ x.ta ∧
      x = ⟨x.a, l, P.clamp (board i), alight j, .ride v stops.length i j⟩ := by
  unfold rideLeg at h
  split at h
  · cases h
  · rename_i i hi
    obtain ⟨h1, ⟨s, h2, h3, h4⟩, h5⟩ := findStart_spec hi
    rw [h2] at h
    simp only at h
    cases h
    obtain ⟨-, sj, k1, k2, k3⟩ := alightsAt_iff.mp hal
    exact ⟨i, ⟨h1, ⟨s, h2, rfl, h3⟩, ⟨sj, k1, k2, hex sj k1 k3⟩, h5⟩, h4, rfl⟩

theorem rideLeg_isSome {P : Problem} {rk : Loc → Int} {v : Vehicle} {stops : List Stop} {board alight : Nat → Int} {l : Loc} {i j : Nat} {a : Loc}
    (h : RideIdx stops i j a l) (hr : rk a ≤ P.clamp (board i)) : (rideLeg P rk v stops board alight l j).isSome = true := by
  obtain ⟨h1, ⟨s, h2, rfl, h3⟩, ⟨s', h4, _, _⟩, h5⟩ := h
  have hj : j < stops.length := (List.getElem?_eq_some_iff.mp h4).1
  have := findStart_isSome (P := P) (rk := rk) (board := board) hj h1 h2 h3 hr h5
  unfold rideLeg
  cases hf : findStart P rk stops board j with
  | none => rw [hf] at this; cases this
  | some i' =>
    obtain ⟨_, ⟨s'', g, _⟩, _⟩ := findStart_spec hf
    simp only [g]; rfl

/-- A ride leg of the search problem. -/
def ORide (P : Problem) (v : Vehicle) (n i j : Nat) (x : OLeg) : Prop :=
  match v with
  | .trip r t day => ∃ rd, P.routes[r]? = some rd ∧ rd.allowed = true ∧ rd.active (t, day) ∧ n = rd.stops.length ∧
      RideIdx rd.stops i j x.a x.b ∧ x.ta = rd.board (t, day) i ∧ x.tb = rd.alight (t, day) j
  | .rt r => ∃ rd, P.rts[r]? = some rd ∧ rd.allowed = true ∧ n = rd.stops.length ∧
      RideIdx rd.stops i j x.a x.b ∧ x.ta = rd.board i ∧ x.tb = rd.alight j

theorem oride_ride {P : Problem} {v : Vehicle} {n i j : Nat} {x : OLeg} (h : ORide P v n i j x) {t : Int} (ht : t ≤ x.ta) :
    Ride P x.a t x.b x.tb := by
  cases v with
  | trip r tt day =>
    obtain ⟨rd, h1, h2, h3, -, ⟨g1, ⟨s, g2, g3, g4⟩, ⟨s', g5, g6, g7⟩, g8⟩, e1, e2⟩ := h
    exact Or.inl ⟨rd, List.mem_of_getElem? h1, h2, _, h3, i, j, s, s', g1, g2, g5, g3, g6, g4, g7, g8, by omega, e2⟩
  | rt r =>
    obtain ⟨rd, h1, h2, -, ⟨g1, ⟨s, g2, g3, g4⟩, ⟨s', g5, g6, g7⟩, g8⟩, e1, e2⟩ := h
    exact Or.inr ⟨rd, List.mem_of_getElem? h1, h2, i, j, s, s', g1, g2, g5, g3, g6, g4, g7, g8, by omega, e2⟩

/-- The trips found for a stop and time are those that alight then. -/
structure RcOk (P : Problem) (Q : RcQuery) : Prop where
  catchSound : ∀ (x : Nat) (r : Route), P.routes[x]? = some r → ∀ j T tr, tr ∈ Q.catchable x j T → r.active tr ∧ r.alight tr j = T
  catchAll : ∀ (x : Nat) (r : Route), P.routes[x]? = some r → ∀ (j : Nat) (T : Int) (tr : Run), r.active tr → r.alight tr j = T → tr ∈ Q.catchable x j T
  order : ∀ n j, j ∈ Q.order n ↔ j < n
  exitRoute : ∀ (x : Nat) (r : Route), P.routes[x]? = some r → ∀ (j : Nat) s, r.stops[j]? = some s → Q.exitRoute x j = true → s.canAlight = true
  exitRt : ∀ (x : Nat) (r : RtTransport), P.rts[x]? = some r → ∀ (j : Nat) s, r.stops[j]? = some s → Q.exitRt x j = true → s.canAlight = true
  fpsPos : ∀ l m w, (m, w) ∈ Q.fpsIn l → 0 ≤ w
  destPos : ∀ o ∈ Q.dests, 0 ≤ o.2

theorem zipIdx_findSome {α β : Type} {l : List α} {f : α × Nat → Option β} {b : β} (h : l.zipIdx.findSome? f = some b) :
    ∃ x a, l[x]? = some a ∧ f (a, x) = some b := by
  obtain ⟨⟨a, x⟩, h1, h2⟩ := List.exists_of_findSome?_eq_some h
  exact ⟨x, a, by simpa using List.mem_zipIdx_iff_getElem?.mp h1, h2⟩

theorem findSome_isSome {α β : Type} {l : List α} {f : α → Option β} {a : α} (ha : a ∈ l) (h : (f a).isSome = true) :
    (l.findSome? f).isSome = true := by
  rw [List.findSome?_isSome_iff]; exact ⟨a, ha, h⟩

theorem clamp_event {P : Problem} {x y : Int} (h1 : P.lo < y) (h2 : y ≤ P.clamp x) (h3 : x ≤ P.hi) : P.clamp x = x := by
  unfold Problem.clamp at *; omega

/-- What `get_transport` returns is a permitted ride that arrives in time and that the label of the previous
round reaches. -/
theorem rideInto_spec {P : Problem} (hs : Sane P) {Q : RcQuery} (hQ : RcOk P Q) {rk : Loc → Int} (hrk : ∀ l, P.lo < rk l) {l : Loc} {T : Int}
    (hT : T ≤ P.hi) {x : OLeg} (h : rideInto P Q rk l T = some x) :
    x.b = l ∧ x.tb ≤ T ∧ rk x.a ≤ x.ta ∧ ∃ v n i j, x.uses = .ride v n i j ∧ ORide P v n i j x := by
  unfold rideInto at h
  split at h
  · rename_i leg hleg
    cases h
    obtain ⟨r, rd, h1, h2⟩ := zipIdx_findSome hleg
    simp only at h2
    unfold rtInto at h2
    split at h2
    · cases h2
    · rename_i hall
      obtain ⟨j, hj, h3⟩ := List.exists_of_findSome?_eq_some h2
      split at h3
      · rename_i hc
        obtain ⟨i, g1, g2, g3⟩ := rideLeg_spec (hQ.exitRt r rd h1 j) hc.1 h3
        have hj' := (hQ.order _ _).mp hj
        have hmono := hs.rtMono rd (List.mem_of_getElem? h1) i j g1.lt hj'
        have hcl : P.clamp (rd.board i) = rd.board i := by
          refine clamp_event (hrk x.a) ?_ (by omega)
          rw [g3] at g2; exact g2
        have hta : x.ta = rd.board i := by rw [g3]; exact hcl
        have hxb : x.b = l := by rw [g3]
        have htb : x.tb = rd.alight j := by rw [g3]
        refine ⟨hxb, by omega, g2, .rt r, rd.stops.length, i, j, by rw [g3], ?_⟩
        exact ⟨rd, h1, by simpa using hall, rfl, by rw [hxb]; exact g1, hta, htb⟩
      · cases h3
  · obtain ⟨r, rd, h1, h2⟩ := zipIdx_findSome h
    simp only at h2
    unfold routeInto at h2
    split at h2
    · cases h2
    · rename_i hall
      obtain ⟨j, hj, h3⟩ := List.exists_of_findSome?_eq_some h2
      split at h3
      · rename_i hc
        obtain ⟨tr, htr, h4⟩ := List.exists_of_findSome?_eq_some h3
        obtain ⟨hact, halight⟩ := hQ.catchSound r rd h1 j T tr htr
        obtain ⟨i, g1, g2, g3⟩ := rideLeg_spec (hQ.exitRoute r rd h1 j) hc h4
        have hj' := (hQ.order _ _).mp hj
        have hmono := hs.tripMono rd (List.mem_of_getElem? h1) tr hact i j g1.lt hj'
        have hcl : P.clamp (rd.board tr i) = rd.board tr i := by
          refine clamp_event (hrk x.a) ?_ (by omega)
          rw [g3] at g2; exact g2
        have hta : x.ta = rd.board tr i := by rw [g3]; exact hcl
        have hxb : x.b = l := by rw [g3]
        have htb : x.tb = rd.alight tr j := by rw [g3]
        refine ⟨hxb, by omega, g2, .trip r tr.1 tr.2, rd.stops.length, i, j, by rw [g3], ?_⟩
        exact ⟨rd, h1, by simpa using hall, hact, rfl, by rw [hxb]; exact g1, hta, htb⟩
      · cases h3

/-- Wherever the search may alight, reconstruction may, too. -/
structure ExitAll (P : Problem) (Q : RcQuery) : Prop where
  route : ∀ (x : Nat) (r : Route), P.routes[x]? = some r → ∀ (j : Nat) s, r.stops[j]? = some s → s.canAlight = true → Q.exitRoute x j = true
  rt : ∀ (x : Nat) (r : RtTransport), P.rts[x]? = some r → ∀ (j : Nat) s, r.stops[j]? = some s → s.canAlight = true → Q.exitRt x j = true

/-- A ride that arrives in time and that the label of the previous round reaches is found. -/
theorem rideInto_isSome {P : Problem} {Q : RcQuery} (hQ : RcOk P Q) (hE : ExitAll P Q) {rk : Loc → Int} {l0 : Loc} {t0 : Int} {m : Loc} {a : Int}
    (h : Ride P l0 t0 m a) (hr : rk l0 ≤ t0) (hhi : rk l0 ≤ P.hi) : (rideInto P Q rk m a).isSome = true := by
  have hcl : ∀ {b : Int}, t0 ≤ b → rk l0 ≤ P.clamp b := by
    intro b hb; unfold Problem.clamp; omega
  unfold rideInto
  split
  · rfl
  · rename_i hnone
    rcases h with ⟨rd, hrd, hall, tr, hact, i, j, si, sj, g1, g2, g3, g4, g5, g6, g7, g8, g9, g10⟩ |
      ⟨rd, hrd, hall, i, j, si, sj, g1, g2, g3, g4, g5, g6, g7, g8, g9, g10⟩
    · obtain ⟨x, hx, hget⟩ := List.mem_iff_getElem.mp hrd
      have hget' : P.routes[x]? = some rd := by rw [List.getElem?_eq_getElem hx, hget]
      refine findSome_isSome (a := (rd, x)) (List.mem_zipIdx_iff_getElem?.mpr hget') ?_
      simp only
      unfold routeInto
      rw [if_neg (by simp [hall])]
      have hj : j < rd.stops.length := (List.getElem?_eq_some_iff.mp g3).1
      refine findSome_isSome (a := j) ((hQ.order _ _).mpr hj) ?_
      rw [if_pos (alightsAt_iff.mpr ⟨by omega, sj, g3, g5, hE.route x rd hget' j sj g3 g7⟩)]
      refine findSome_isSome (a := tr) (hQ.catchAll x rd hget' j a tr hact g10.symm) ?_
      exact rideLeg_isSome (a := l0) ⟨g1, ⟨si, g2, g4, g6⟩, ⟨sj, g3, g5, g7⟩, g8⟩ (hcl g9)
    · exfalso
      obtain ⟨x, hx, hget⟩ := List.mem_iff_getElem.mp hrd
      have hget' : P.rts[x]? = some rd := by rw [List.getElem?_eq_getElem hx, hget]
      have : (P.rts.zipIdx.findSome? fun (r, x) => rtInto P Q rk m a x r).isSome = true := by
        refine findSome_isSome (a := (rd, x)) (List.mem_zipIdx_iff_getElem?.mpr hget') ?_
        simp only
        unfold rtInto
        rw [if_neg (by simp [hall])]
        have hj : j < rd.stops.length := (List.getElem?_eq_some_iff.mp g3).1
        refine findSome_isSome (a := j) ((hQ.order _ _).mpr hj) ?_
        rw [if_pos ⟨alightsAt_iff.mpr ⟨by omega, sj, g3, g5, hE.rt x rd hget' j sj g3 g7⟩, by omega⟩]
        exact rideLeg_isSome (a := l0) ⟨g1, ⟨si, g2, g4, g6⟩, ⟨sj, g3, g5, g7⟩, g8⟩ (hcl g9)
      rw [hnone] at this
      cases this

/-! ## The legs -/

def OLeg.isRide (x : OLeg) : Bool := match x.uses with | .ride .. => true | _ => false

/-- A leg of the search problem. -/
def OLegOk (P : Problem) (Q : RcQuery) (dest : Loc) (x : OLeg) : Prop :=
  match x.uses with
  | .ride v n i j => ORide P v n i j x
  | .foot w => 0 ≤ w ∧ (x.tb = x.ta + w ∨ (Q.ontrip = true ∧ x.ta + w ≤ x.tb)) ∧
      ((x.a = x.b ∧ w = P.transfer x.a) ∨ (x.a, w) ∈ Q.fpsIn x.b)
  | .offset w => (P.intermodal = true ∧ x.tb = x.ta + w ∧ x.b = dest ∧ HasOffset Q.dests x.a w) ∨
      (Q.startIntermodal = true ∧ x.tb = x.ta + w ∧ x.a = Q.startLoc ∧ HasOffset Q.offs x.b w)

/-- `y` comes before `x` in search order and leads to it. -/
def OJoined (x y : OLeg) : Prop := y.b = x.a ∧ y.tb ≤ x.ta ∧ x.isRide ≠ y.isRide

/-- Adjacent elements are related. -/
def Adj {α : Type} (r : α → α → Prop) : List α → Prop
  | [] => True
  | [_] => True
  | x :: y :: l => r x y ∧ Adj r (y :: l)

theorem adj_cons {α : Type} {r : α → α → Prop} {x : α} {l : List α} : Adj r (x :: l) ↔ (∀ y, l.head? = some y → r x y) ∧ Adj r l := by
  cases l with
  | nil => simp [Adj]
  | cons y l => simp [Adj]

theorem adj_append {α : Type} {r : α → α → Prop} {l l' : List α} :
    Adj r (l ++ l') ↔ Adj r l ∧ Adj r l' ∧ ∀ x y, l.getLast? = some x → l'.head? = some y → r x y := by
  induction l with
  | nil => simp [Adj]
  | cons a l ih =>
    rw [List.cons_append, adj_cons, ih, adj_cons]
    cases l with
    | nil => simp only [List.head?_nil, List.getLast?_singleton, Adj]; grind
    | cons b l => simp; grind

theorem adj_iff {α : Type} {r : α → α → Prop} {l : List α} : Adj r l ↔ ∀ pre x y post, l = pre ++ x :: y :: post → r x y := by
  induction l with
  | nil => simp [Adj]
  | cons a l ih =>
    rw [adj_cons, ih]
    constructor
    · rintro ⟨h1, h2⟩ pre x y post he
      cases pre with
      | nil => cases he; exact h1 y rfl
      | cons b pre => cases he; exact h2 pre x y post rfl
    · intro h
      refine ⟨?_, fun pre x y post he => h (a :: pre) x y post (by rw [he]; rfl)⟩
      intro y hy
      cases l with
      | nil => cases hy
      | cons b l => cases hy; exact h [] a y l rfl

theorem adj_map {α β : Type} {r : β → β → Prop} {f : α → β} {l : List α} : Adj r (l.map f) ↔ Adj (fun x y => r (f x) (f y)) l := by
  induction l with
  | nil => simp [Adj]
  | cons a l ih =>
    rw [List.map_cons, adj_cons, adj_cons, ih, List.head?_map]
    cases l <;> simp

theorem adj_reverse {α : Type} {r : α → α → Prop} {l : List α} : Adj r l.reverse ↔ Adj (fun x y => r y x) l := by
  induction l with
  | nil => simp [Adj]
  | cons a l ih =>
    rw [List.reverse_cons, adj_append, ih, adj_cons (l := l), List.getLast?_reverse]
    simp [Adj]; exact And.comm

theorem checkFp_spec {P : Problem} (hs : Sane P) {Q : RcQuery} (hQ : RcOk P Q) {rk : Loc → Int} (hrk : ∀ l, P.lo < rk l) {l m : Loc} {curr w : Int} {u : OUses}
    (hcurr : curr ≤ P.hi) (hw : 0 ≤ w) {x y : OLeg} (h : checkFp P Q rk l curr m w u = some (x, y)) :
    x = ⟨m, l, curr - w, curr, u⟩ ∧ y.b = m ∧ y.tb ≤ curr - w ∧ rk y.a ≤ y.ta ∧ ∃ v n i j, y.uses = .ride v n i j ∧ ORide P v n i j y := by
  unfold checkFp at h
  rw [Option.map_eq_some_iff] at h
  obtain ⟨ride, h1, h2⟩ := h
  cases h2
  exact ⟨rfl, rideInto_spec hs hQ hrk (by omega) h1⟩

theorem destLeg_spec {P : Problem} {Q : RcQuery} {rk : Loc → Int} {l : Loc} {curr : Int} {o : List Loc × Int} {r : OLeg × OLeg}
    (h : destLeg P Q rk l curr o = some r) : ∃ m ∈ o.1, checkFp P Q rk l curr m o.2 (.offset o.2) = some r := by
  unfold destLeg at h
  split at h
  · cases h
  · have := foldl_inv (fun acc : Option (OLeg × OLeg) => ∀ r, acc = some r → ∃ m ∈ o.1, checkFp P Q rk l curr m o.2 (.offset o.2) = some r)
      (fun acc m => match checkFp P Q rk l curr m o.2 (.offset o.2) with | some x => some x | none => acc) o.1 none (by simp) (by
        intro acc m hm hacc r hr
        cases hc : checkFp P Q rk l curr m o.2 (.offset o.2) with
        | none => rw [hc] at hr; exact hacc r hr
        | some x => rw [hc] at hr; exact ⟨m, hm, by rw [hc]; exact hr⟩)
    exact this r h

/-- The walk and the ride of a round. -/
theorem getLegs_spec {P : Problem} (hs : Sane P) {Q : RcQuery} (hQ : RcOk P Q) {R : Nat → Loc → Int} (hR : ∀ k l, P.lo < R k l ∧ R k l ≤ P.hi)
    {last : Bool} {k : Nat} {l : Loc} {x y : OLeg} (h : getLegs P Q R last k l = some (x, y)) :
    x.b = l ∧ x.tb = R k l ∧ y.b = x.a ∧ y.tb ≤ x.ta ∧ x.ta ≤ x.tb ∧ x.isRide = false ∧ y.isRide = true ∧ R (k - 1) y.a ≤ y.ta ∧
      OLegOk P Q l y ∧ ∀ z ∈ keepFp last x, OLegOk P Q l z := by
  unfold getLegs at h
  have hrk := fun l => (hR (k - 1) l).1
  have hcurr := (hR k l).2
  have hy : ∀ {z : OLeg}, (∃ v n i j, z.uses = .ride v n i j ∧ ORide P v n i j z) → OLegOk P Q l z ∧ z.isRide = true := by
    rintro z ⟨v, n, i, j, h1, h2⟩
    unfold OLegOk OLeg.isRide; rw [h1]; exact ⟨h2, rfl⟩
  have hsub : ∀ z ∈ keepFp last x, z = x := by
    intro z hz; unfold keepFp at hz; split at hz <;> simp_all
  simp only at h
  split at h
  · rename_i hi
    obtain ⟨o, ho, h1⟩ := List.exists_of_findSome?_eq_some h
    obtain ⟨m, hm, h2⟩ := destLeg_spec h1
    have hpos := hQ.destPos o ho
    obtain ⟨rfl, g1, g2, g3, g4⟩ := checkFp_spec hs hQ hrk hcurr hpos h2
    refine ⟨rfl, rfl, g1, g2, by simp only; omega, rfl, (hy g4).2, g3, (hy g4).1, ?_⟩
    intro z hz
    rw [hsub z hz]
    exact Or.inl ⟨hi.1, by simp only; omega, rfl, o.1, ho, hm⟩
  · split at h
    · rename_i r hr
      cases h
      have hpos : 0 ≤ if last = true then 0 else P.transfer l := by have := hs.transfer l; split <;> omega
      obtain ⟨rfl, g1, g2, g3, g4⟩ := checkFp_spec hs hQ hrk hcurr hpos hr
      refine ⟨rfl, rfl, g1, g2, by simp only; omega, rfl, (hy g4).2, g3, (hy g4).1, ?_⟩
      intro z hz
      by_cases hl : last = true
      · exfalso
        unfold keepFp at hz
        rw [if_pos ⟨hl, rfl, by simp [hl]⟩] at hz
        cases hz
      · rw [hsub z hz]
        refine ⟨hpos, Or.inl (by simp only; omega), Or.inl ⟨rfl, ?_⟩⟩
        simp only; rw [if_neg hl]
    · obtain ⟨fp, hfp, h1⟩ := List.exists_of_findSome?_eq_some h
      have hpos := hQ.fpsPos l fp.1 fp.2 hfp
      obtain ⟨rfl, g1, g2, g3, g4⟩ := checkFp_spec hs hQ hrk hcurr hpos h1
      refine ⟨rfl, rfl, g1, g2, by simp only; omega, rfl, (hy g4).2, g3, (hy g4).1, ?_⟩
      intro z hz
      rw [hsub z hz]
      exact ⟨hpos, Or.inl (by simp only; omega), Or.inr hfp⟩

/-- Where an itinerary may begin in search order. -/
def OStart (Q : RcQuery) (l : Loc) : Prop := if Q.startIntermodal = true then l = Q.startLoc else Q.isStart l = true

theorem startLeg_spec {P : Problem} {Q : RcQuery} (hQ : RcOk P Q) {dest : Loc} {r0 : Loc → Int} {s : Int} {l : Loc} {ta : Int} (hta : r0 l ≤ ta) {L : List OLeg}
    (h : startLeg P Q r0 s l ta = some L) :
    (L = [] ∧ OStart Q l ∧ s ≤ ta) ∨ ∃ x, L = [x] ∧ x.b = l ∧ x.tb ≤ ta ∧ x.isRide = false ∧ OLegOk P Q dest x ∧ s ≤ x.ta ∧ OStart Q x.a := by
  unfold startLeg at h
  split at h
  · rename_i hi
    obtain ⟨o, ho, h1⟩ := List.exists_of_findSome?_eq_some h
    split at h1
    · rename_i hc
      cases h1
      refine Or.inr ⟨_, rfl, rfl, Int.le_refl _, rfl, ?_, hc.2, by unfold OStart; rw [if_pos hi]⟩
      exact Or.inr ⟨hi, by simp only; omega, rfl, o.1, ho, by simpa using hc.1⟩
    · cases h1
  · rename_i hi
    split at h
    · rename_i hc
      cases h
      exact Or.inl ⟨rfl, by unfold OStart; rw [if_neg hi]; exact hc.1, hc.2⟩
    · obtain ⟨fp, hfp, h1⟩ := List.exists_of_findSome?_eq_some h
      by_cases hc : Q.isStart fp.1 = true ∧ r0 l ≠ P.hi ∧ (if Q.ontrip = true then s + fp.2 ≤ r0 l else s + fp.2 = r0 l)
      · rw [if_pos hc] at h1
        cases h1
        refine Or.inr ⟨_, rfl, rfl, hta, rfl, ?_, Int.le_refl _, by unfold OStart; rw [if_neg hi]; exact hc.1⟩
        refine ⟨hQ.fpsPos _ _ _ hfp, ?_, Or.inr hfp⟩
        simp only
        by_cases ho : Q.ontrip = true
        · have := hc.2.2; rw [if_pos ho] at this; exact Or.inr ⟨ho, this⟩
        · have := hc.2.2; rw [if_neg ho] at this; left; omega
      · rw [if_neg hc] at h1; cases h1

/-- The legs found from a label back to the start. -/
structure BackOk (P : Problem) (Q : RcQuery) (s : Int) (k : Nat) (dest l : Loc) (tmax : Int) (L : List OLeg) : Prop where
  ok : ∀ x ∈ L, OLegOk P Q dest x
  adj : Adj OJoined L
  rides : (L.filter OLeg.isRide).length = k
  head : ∀ x, L.head? = some x → x.b = l ∧ x.tb ≤ tmax
  start : (L = [] ∧ OStart Q l ∧ s ≤ tmax) ∨ ∃ x, L.getLast? = some x ∧ s ≤ x.ta ∧ OStart Q x.a

theorem legsBack_spec {P : Problem} (hs : Sane P) {Q : RcQuery} (hQ : RcOk P Q) {R : Nat → Loc → Int} (hR : ∀ k l, P.lo < R k l ∧ R k l ≤ P.hi)
    {s : Int} {K : Nat} {dest : Loc} :
    ∀ (k : Nat) (l : Loc) (ta : Int) (L : List OLeg), k ≤ K → (k = K → l = dest) → R k l ≤ ta → legsBack P Q R s K k l ta = some L →
      BackOk P Q s k dest l ta L ∧ (k < K → ∀ x, L.head? = some x → x.isRide = false) := by
  intro k
  induction k with
  | zero =>
    intro l ta L _ _ hta h
    rcases startLeg_spec (dest := dest) hQ hta h with ⟨rfl, h1, h2⟩ | ⟨x, rfl, h1, h2, h3, h4, h5, h6⟩
    · exact ⟨⟨by simp, trivial, rfl, by simp, Or.inl ⟨rfl, h1, h2⟩⟩, by simp⟩
    · refine ⟨⟨by simpa using h4, trivial, by simp [h3], ?_, Or.inr ⟨x, rfl, h5, h6⟩⟩, ?_⟩
      · intro y hy; cases hy; exact ⟨h1, h2⟩
      · intro _ y hy; cases hy; exact h3
  | succ k ih =>
    intro l ta L hk hl hta h
    unfold legsBack at h
    split at h
    · cases h
    · rename_i fp ride hg
      rw [Option.map_eq_some_iff] at h
      obtain ⟨rest, hrest, rfl⟩ := h
      obtain ⟨g1, g2, g3, g4, g5, g6, g7, g8, g9, g10⟩ := getLegs_spec hs hQ hR hg
      obtain ⟨B, hhead⟩ := ih ride.a ride.ta rest (by omega) (by omega) g8 hrest
      have hok : ∀ z, OLegOk P Q l z → (k + 1 < K → ∀ w, z.uses ≠ .offset w) → OLegOk P Q dest z := by
        intro z hz hno
        by_cases he : k + 1 = K
        · rw [← hl he]; exact hz
        · unfold OLegOk at hz ⊢
          split at hz
          · exact hz
          · exact hz
          · rename_i w hw; exact absurd hw (hno (by omega) w)
      have hride : OLegOk P Q dest ride := by
        refine hok _ g9 ?_
        intro _ w hw
        unfold OLeg.isRide at g7; rw [hw] at g7; cases g7
      have hfp : ∀ z ∈ keepFp (decide (k + 1 = K)) fp, OLegOk P Q dest z := by
        intro z hz
        refine hok z (g10 z hz) ?_
        intro hlt w hw
        have hz' : z = fp := by unfold keepFp at hz; split at hz <;> simp_all
        subst hz'
        -- offsets are only used in the last round
        unfold getLegs at hg
        simp only at hg
        rw [if_neg (by simp; omega)] at hg
        split at hg
        · rename_i r hr
          cases hg
          unfold checkFp at hr
          rw [Option.map_eq_some_iff] at hr
          obtain ⟨_, _, e⟩ := hr
          have e := congrArg (fun p : OLeg × OLeg => p.1.uses) e
          simp only at e
          rw [hw] at e; cases e
        · obtain ⟨f, _, hr⟩ := List.exists_of_findSome?_eq_some hg
          unfold checkFp at hr
          rw [Option.map_eq_some_iff] at hr
          obtain ⟨_, _, e⟩ := hr
          have e := congrArg (fun p : OLeg × OLeg => p.1.uses) e
          simp only at e
          rw [hw] at e; cases e
      have hadj : Adj OJoined (ride :: rest) := by
        rw [adj_cons]
        refine ⟨?_, B.adj⟩
        intro y hy
        obtain ⟨e1, e2⟩ := B.head y hy
        exact ⟨e1, e2, by rw [g7, hhead (by omega) y hy]; decide⟩
      have hlast : ∃ x, (ride :: rest).getLast? = some x ∧ s ≤ x.ta ∧ OStart Q x.a := by
        rcases B.start with ⟨rfl, e1, e2⟩ | ⟨x, e1, e2, e3⟩
        · exact ⟨ride, rfl, e2, e1⟩
        · refine ⟨x, ?_, e2, e3⟩
          rw [List.getLast?_cons, e1]; rfl
      have hcount : ((ride :: rest).filter OLeg.isRide).length = k + 1 := by
        rw [List.filter_cons_of_pos g7, List.length_cons, B.rides]
      have hkeep : keepFp (decide (k + 1 = K)) fp = [] ∧ fp.a = fp.b ∧ fp.ta = fp.tb ∧ k + 1 = K ∨ keepFp (decide (k + 1 = K)) fp = [fp] := by
        unfold keepFp
        split
        · rename_i hc; left; exact ⟨rfl, hc.2.1, hc.2.2, by simpa using hc.1⟩
        · right; rfl
      rcases hkeep with ⟨e, e1, e2, e3⟩ | e
      · rw [e] at hfp ⊢
        refine ⟨⟨?_, hadj, hcount, ?_, Or.inr hlast⟩, by omega⟩
        · intro z hz
          rcases List.mem_cons.mp hz with rfl | hz
          · exact hride
          · exact B.ok z hz
        · intro y hy
          cases hy
          refine ⟨?_, by omega⟩
          rw [g3, e1, g1]
      · rw [e] at hfp ⊢
        refine ⟨⟨?_, ?_, ?_, ?_, ?_⟩, ?_⟩
        · intro z hz
          rcases List.mem_cons.mp hz with rfl | hz
          · exact hfp z (List.mem_singleton.mpr rfl)
          rcases List.mem_cons.mp hz with rfl | hz
          · exact hride
          · exact B.ok z hz
        · show Adj OJoined (fp :: ride :: rest)
          exact ⟨⟨g3, g4, by rw [g6, g7]; decide⟩, hadj⟩
        · show ((fp :: ride :: rest).filter OLeg.isRide).length = k + 1
          rw [List.filter_cons_of_neg (by simp [g6])]
          exact hcount
        · intro y hy
          cases hy
          exact ⟨g1, by omega⟩
        · right
          obtain ⟨x, e1, e2⟩ := hlast
          refine ⟨x, ?_, e2⟩
          show (fp :: ride :: rest).getLast? = some x
          rw [List.getLast?_cons, e1]; rfl
        · intro _ y hy
          cases hy; exact g6

end Nigiri.Raptor
