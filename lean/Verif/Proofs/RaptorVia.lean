import Verif.Spec.Via
import Verif.Proofs.RaptorSound
/-!
# Soundness of the search with via stops

Every label is realised by a journey that has visited the via stops it claims.
-/

namespace Nigiri.RaptorVia
open Nigiri.Raptor

/-! ## Visits in order -/

theorem inOrder_nil (ps : List Presence) : InOrder [] ps := by cases ps <;> trivial

theorem inOrder_prepend {vs : List ViaStop} {ps : List Presence} (h : InOrder vs ps) (qs : List Presence) : InOrder vs (qs ++ ps) := by
  induction qs with
  | nil => exact h
  | cons q qs ih =>
    cases vs with
    | nil => exact inOrder_nil _
    | cons v vs => exact Or.inr ih

theorem inOrder_append {vs ws : List ViaStop} {ps qs : List Presence} (h1 : InOrder vs ps) (h2 : InOrder ws qs) :
    InOrder (vs ++ ws) (ps ++ qs) := by
  induction ps generalizing vs with
  | nil =>
    cases vs with
    | nil => exact h2
    | cons v vs => exact absurd h1 (by simp [InOrder])
  | cons p ps ih =>
    cases vs with
    | nil => exact inOrder_prepend h2 _
    | cons v vs =>
      rcases h1 with ⟨hv, h1⟩ | h1
      · exact Or.inl ⟨hv, ih h1⟩
      · exact Or.inr (ih h1)

theorem inOrder_extend {vs : List ViaStop} {ps : List Presence} (h : InOrder vs ps) (qs : List Presence) : InOrder vs (ps ++ qs) := by
  have := inOrder_append h (inOrder_nil qs)
  rwa [List.append_nil] at this

theorem inOrder_till {vs : List ViaStop} {ps : List Presence} {l : Loc} {a b c : Int} (h : InOrder vs (ps ++ [⟨l, a, b⟩])) (hbc : b ≤ c) :
    InOrder vs (ps ++ [⟨l, a, c⟩]) := by
  induction ps generalizing vs with
  | nil =>
    cases vs with
    | nil => exact inOrder_nil _
    | cons v vs =>
      rcases h with ⟨⟨h1, h2⟩, h3⟩ | h
      · simp only at h1 h2
        cases vs with
        | nil => exact Or.inl ⟨⟨h1, by show a + v.stay ≤ c; omega⟩, trivial⟩
        | cons _ _ => exact absurd h3 (by simp [InOrder])
      · exact absurd h (by simp [InOrder])
  | cons p ps ih =>
    cases vs with
    | nil => exact inOrder_nil _
    | cons v vs =>
      rcases h with ⟨hv, h⟩ | h
      · exact Or.inl ⟨hv, ih h⟩
      · exact Or.inr (ih h)

/-- The first `v` via stops are visited. -/
def Seen (P : VProblem) (v : Nat) (ps : List Presence) : Prop := InOrder (P.vias.take v) ps

theorem isVia_some {P : VProblem} {v : Nat} {l : Loc} (h : P.isVia v l = true) :
    ∃ s, P.vias[v]? = some s ∧ s.isVia l = true ∧ P.stay v = s.stay := by
  unfold VProblem.isVia at h
  cases hs : P.vias[v]? with
  | none => rw [hs] at h; cases h
  | some s => rw [hs] at h; exact ⟨s, rfl, h, by unfold VProblem.stay; rw [hs]⟩

/-- One more presence that visits the next via stop. -/
theorem Seen.next {P : VProblem} {v : Nat} {l : Loc} {ps : List Presence} (h : Seen P v ps) (hv : P.isVia v l = true) {a b : Int}
    (hab : a + P.stay v ≤ b) : Seen P (v + 1) (ps ++ [⟨l, a, b⟩]) := by
  obtain ⟨s, h1, h2, h3⟩ := isVia_some hv
  unfold Seen
  rw [List.take_add_one, h1]
  refine inOrder_append h (Or.inl ⟨⟨h2, ?_⟩, trivial⟩)
  show a + s.stay ≤ b
  omega

theorem Seen.extend {P : VProblem} {v : Nat} {ps : List Presence} (h : Seen P v ps) (qs : List Presence) : Seen P v (ps ++ qs) := inOrder_extend h qs

/-- Staying at a location for the stay of the via stop that is due there, if any. -/
theorem Seen.stayed {P : VProblem} {v : Nat} {l : Loc} {ps : List Presence} (h : Seen P v ps) {a b : Int}
    (hab : a + stayV P v l ≤ b) : Seen P (nextV P v l) (ps ++ [⟨l, a, b⟩]) := by
  unfold nextV
  unfold stayV at hab
  split
  · rename_i hv; rw [if_pos hv] at hab; exact h.next hv hab
  · exact h.extend _

/-! ## Journeys in terms of a problem -/

/-- The stops of a vehicle passed between two stops. -/
def midOf (stops : List Stop) (board alight : Nat → Int) (i j : Nat) : List Presence :=
  (List.range' (i + 1) (j - i - 1)).map fun x => ⟨(stops.getD x ⟨0, false, false, false⟩).loc, alight x, board x⟩

theorem midOf_self (stops : List Stop) (board alight : Nat → Int) (i : Nat) : midOf stops board alight i (i + 1) = [] := by
  unfold midOf; simp

theorem midOf_succ {stops : List Stop} (board alight : Nat → Int) {i j : Nat} (hij : i < j) {s : Stop} (hs : stops[j]? = some s) :
    midOf stops board alight i (j + 1) = midOf stops board alight i j ++ [⟨s.loc, alight j, board j⟩] := by
  unfold midOf
  rw [show j + 1 - i - 1 = (j - i - 1) + 1 by omega, List.range'_concat, List.map_append]
  congr 1
  simp only [List.map_cons, List.map_nil]
  rw [show i + 1 + 1 * (j - i - 1) = j by omega, List.getD_eq_getElem?_getD, hs]
  rfl

/-- `RideOn` with the stops passed on the way. -/
def RideOnV (stops : List Stop) (board alight : Nat → Int) (l : Loc) (t : Int) (m : Loc) (a : Int) (mid : List Presence) : Prop :=
  ∃ (i j : Nat) (si sj : Stop), i < j ∧ stops[i]? = some si ∧ stops[j]? = some sj ∧ si.loc = l ∧ sj.loc = m ∧
    si.canBoard = true ∧ sj.canAlight = true ∧
    (∀ (x : Nat) (s : Stop), i < x → x ≤ j → stops[x]? = some s → s.secOk = true) ∧ t ≤ board i ∧ a = alight j ∧
    mid = midOf stops board alight i j

/-- `Ride` with the stops passed on the way. -/
def RideV (P : Problem) (l : Loc) (t : Int) (m : Loc) (a : Int) (mid : List Presence) : Prop :=
  (∃ r ∈ P.routes, r.allowed = true ∧ ∃ tr, r.active tr ∧ RideOnV r.stops (r.board tr) (r.alight tr) l t m a mid) ∨
  (∃ r ∈ P.rts, r.allowed = true ∧ RideOnV r.stops r.board r.alight l t m a mid)

/-- Changing with stays. -/
inductive ChangeV (P : Problem) (m : Loc) (a : Int) : Loc → Int → List Presence → Prop
  | stay {t'} : a + P.transfer m ≤ t' → ChangeV P m a m t' [⟨m, a, t'⟩]
  | dest {t'} : P.intermodal = false → P.isDest m = true → a ≤ t' → ChangeV P m a m t' [⟨m, a, t'⟩]
  | walk {a1 l' w t'} : a ≤ a1 → (l', w) ∈ P.fps m a1 → a1 + w ≤ t' → ChangeV P m a l' t' [⟨m, a, a1⟩, ⟨l', a1 + w, t'⟩]
  | lastMile {a1 w} : P.intermodal = true → a ≤ a1 → (P.endDist m = some w ∨ P.endTd m a1 = some w) →
      ChangeV P m a P.endLoc (a1 + w) [⟨m, a, a1⟩]

/-- Ready after `k` rides with the given presences. -/
inductive ReadyV (P : Problem) (bf : Loc → Int) (st : List (Loc × Int)) : Nat → Loc → Int → List Presence → Prop
  | start {l t} : (l, t) ∈ st → ReadyV P bf st 0 l t [⟨l, t - bf l, t⟩]
  | ride {k l t m a mid l' t' ps T} : ReadyV P bf st k l t T → RideV P l t m a mid → ChangeV P m a l' t' ps →
      ReadyV P bf st (k + 1) l' t' (T ++ mid ++ (⟨m, a, a⟩ :: ps))

/-- Conditions on the data. -/
structure SaneV (P : VProblem) : Prop extends Sane P.toProblem where
  dwell : ∀ r ∈ P.routes, ∀ tr, r.active tr → ∀ i, 0 < i → i + 1 < r.stops.length → r.alight tr i ≤ r.board tr i
  rtDwell : ∀ r ∈ P.rts, ∀ i, 0 < i → i + 1 < r.stops.length → r.alight i ≤ r.board i
  stay : ∀ v ∈ P.vias, 0 ≤ v.stay
  static : ∀ l, P.hasTd l = false → ∀ t, P.fps l t = P.fps l 0
  tdStay : ∀ l, P.hasTd l = true → ∀ v ∈ P.vias, v.isVia l = true → v.stay = 0

theorem SaneV.stay_nonneg {P : VProblem} (h : SaneV P) (v : Nat) : 0 ≤ P.stay v := by
  unfold VProblem.stay
  cases hs : P.vias[v]? with
  | none => simp
  | some s => exact h.stay s (List.mem_of_getElem? hs)

theorem SaneV.stayV_nonneg {P : VProblem} (h : SaneV P) (v : Nat) (l : Loc) : 0 ≤ stayV P v l := by
  unfold stayV; split
  · exact h.stay_nonneg v
  · omega

theorem SaneV.stayV_td {P : VProblem} (h : SaneV P) {l : Loc} (hl : P.hasTd l = true) (v : Nat) : stayV P v l = 0 := by
  unfold stayV; split
  · rename_i hv
    obtain ⟨s, h1, h2, h3⟩ := isVia_some hv
    rw [h3]; exact h.tdStay l hl s (List.mem_of_getElem? h1) h2
  · rfl

theorem rideV_ride {P : Problem} {l : Loc} {t : Int} {m : Loc} {a : Int} {mid : List Presence} (h : RideV P l t m a mid) : Ride P l t m a := by
  rcases h with ⟨r, hr, ha, tr, ht, i, j, si, sj, h1, h2, h3, h4, h5, h6, h7, h8, h9, h10, -⟩ |
    ⟨r, hr, ha, i, j, si, sj, h1, h2, h3, h4, h5, h6, h7, h8, h9, h10, -⟩
  · exact Or.inl ⟨r, hr, ha, tr, ht, i, j, si, sj, h1, h2, h3, h4, h5, h6, h7, h8, h9, h10⟩
  · exact Or.inr ⟨r, hr, ha, i, j, si, sj, h1, h2, h3, h4, h5, h6, h7, h8, h9, h10⟩

theorem changeV_le {P : Problem} (hs : Sane P) {m : Loc} {a : Int} {l' : Loc} {t' : Int} {ps : List Presence} (h : ChangeV P m a l' t' ps) : a ≤ t' := by
  cases h with
  | stay h => have := hs.transfer m; omega
  | dest _ _ h => exact h
  | walk h1 h2 h3 => have := hs.fps _ _ _ _ h2; omega
  | lastMile _ h1 h2 =>
    rcases h2 with h2 | h2
    · have := hs.endDist _ _ h2; omega
    · have := hs.endTd _ _ _ h2; omega

theorem readyV_gt {P : Problem} (hs : Sane P) {bf : Loc → Int} {st : List (Loc × Int)} {b : Int} (hst : ∀ x ∈ st, b < x.2)
    {k : Nat} {l : Loc} {t : Int} {T : List Presence} (h : ReadyV P bf st k l t T) : b < t := by
  induction h with
  | start h => exact hst _ h
  | ride h1 h2 h3 ih => exact Int.lt_of_lt_of_le ih (Int.le_trans (ride_le hs (rideV_ride h2)) (changeV_le hs h3))

/-- A label: ready with at most `k` rides, having visited the first `v` via stops. -/
def RdyV (P : VProblem) (bf : Loc → Int) (st : List (Loc × Int)) (k : Nat) (l : Loc) (v : Nat) (t : Int) : Prop :=
  ∃ j T, (j ≤ k ∧ (1 ≤ k → 1 ≤ j)) ∧ ReadyV P.toProblem bf st j l t T ∧ Seen P v T

/-- A tentative arrival: alighted after at most `k` rides. -/
def AltV (P : VProblem) (bf : Loc → Int) (st : List (Loc × Int)) (k : Nat) (m : Loc) (v : Nat) (a : Int) : Prop :=
  ∃ j l t T mid, j + 1 ≤ k ∧ ReadyV P.toProblem bf st j l t T ∧ RideV P.toProblem l t m a mid ∧ Seen P v (T ++ mid ++ [⟨m, a, a⟩])

theorem altV_mono {P : VProblem} {bf : Loc → Int} {st : List (Loc × Int)} {k k' : Nat} (h : k ≤ k') {m : Loc} {v : Nat} {a : Int}
    (ha : AltV P bf st k m v a) : AltV P bf st k' m v a := by
  obtain ⟨j, l, t, T, mid, h1, h2⟩ := ha
  exact ⟨j, l, t, T, mid, by omega, h2⟩

theorem altV_gt {P : VProblem} (hs : SaneV P) {bf : Loc → Int} {st : List (Loc × Int)} (hst : ∀ x ∈ st, P.lo < x.2) {k : Nat} {m : Loc} {v : Nat} {a : Int}
    (ha : AltV P bf st k m v a) : P.lo < a := by
  obtain ⟨j, l, t, T, mid, -, h2, h3, -⟩ := ha
  exact Int.lt_of_lt_of_le (readyV_gt hs.toSane hst h2) (ride_le hs.toSane (rideV_ride h3))

theorem altV_change {P : VProblem} {bf : Loc → Int} {st : List (Loc × Int)} {k : Nat} {m : Loc} {v v' : Nat} {a : Int} {l' : Loc} {t' : Int} {ps : List Presence}
    (ha : AltV P bf st k m v a) (hc : ChangeV P.toProblem m a l' t' ps)
    (hv : ∀ T, Seen P v T → Seen P v' (T ++ ps)) : RdyV P bf st k l' v' t' := by
  obtain ⟨j, l, t, T, mid, h1, h2, h3, h4⟩ := ha
  refine ⟨j + 1, _, ⟨h1, by omega⟩, .ride h2 h3 hc, ?_⟩
  have := hv _ h4
  rwa [List.append_assoc, List.singleton_append] at this

/-! ## Scanning a route -/

def ScanOk (P : VProblem) (bf : Loc → Int) (st : List (Loc × Int)) (k : Nat) (sc : Scan) : Prop :=
  ∀ l v, sc.tmp l v ≤ P.hi ∧ (sc.tmp l v < P.hi → AltV P bf st k l v (sc.tmp l v))

theorem scanOk_upd {P : VProblem} {bf : Loc → Int} {st : List (Loc × Int)} {k : Nat} {sc : Scan} (h : ScanOk P bf st k sc)
    (l : Loc) (v : Nat) (t : Int) (ht : t ≤ P.hi) (ha : t < P.hi → AltV P bf st k l v t) (mark : Loc → Bool) :
    ScanOk P bf st k ⟨upd2 sc.tmp l v (min t (sc.tmp l v)), mark⟩ := by
  intro l' v'
  simp only [upd2]
  split
  · rename_i hl
    obtain ⟨rfl, rfl⟩ := hl
    have := h l' v'
    constructor
    · omega
    · intro hlt
      by_cases hc : t ≤ sc.tmp l' v'
      · rw [Int.min_eq_left hc]; exact ha (by omega)
      · rw [Int.min_eq_right (by omega)]; exact this.2 (by omega)
  · exact h l' v'

/-- A rider with `c` via stops on trip `tr`, boarded before stop `i`; `ps` is what has been seen at stop `i`. -/
def Rider (P : VProblem) (bf : Loc → Int) (st : List (Loc × Int)) (k : Nat) (r : Route) (i c : Nat) (tr : Run) (ps : List Presence) : Prop :=
  r.active tr ∧ ∃ (i0 : Nat) (s0 : Stop) (p : Int) (j : Nat) (T : List Presence), i0 < i ∧ r.stops[i0]? = some s0 ∧ s0.canBoard = true ∧
    (∀ (x : Nat) (s : Stop), i0 < x → x < i → r.stops[x]? = some s → s.secOk = true) ∧ p ≤ r.board tr i0 ∧ j ≤ k ∧
    ReadyV P.toProblem bf st j s0.loc p T ∧ Seen P c (T ++ midOf r.stops (r.board tr) (r.alight tr) i0 i ++ ps)

def RidersOk (P : VProblem) (bf : Loc → Int) (st : List (Loc × Int)) (k : Nat) (r : Route) (i : Nat) (et : Riders) : Prop :=
  ∀ e o tr, et e o = some tr → Rider P bf st k r i (e + o) tr []

theorem Rider.extend {P : VProblem} {bf : Loc → Int} {st : List (Loc × Int)} {k : Nat} {r : Route} {i c : Nat} {tr : Run} {ps : List Presence}
    (h : Rider P bf st k r i c tr ps) (qs : List Presence) : Rider P bf st k r i c tr (ps ++ qs) := by
  obtain ⟨h1, i0, s0, p, j, T, g1, g2, g3, g4, g5, g6, g7, g8⟩ := h
  exact ⟨h1, i0, s0, p, j, T, g1, g2, g3, g4, g5, g6, g7, by rw [← List.append_assoc]; exact g8.extend _⟩

theorem Rider.next {P : VProblem} {bf : Loc → Int} {st : List (Loc × Int)} {k : Nat} {r : Route} {i c : Nat} {tr : Run}
    (h : Rider P bf st k r i c tr []) {l : Loc} {a b : Int} (hv : P.isVia c l = true) (hab : a + P.stay c ≤ b) :
    Rider P bf st k r i (c + 1) tr [⟨l, a, b⟩] := by
  obtain ⟨h1, i0, s0, p, j, T, g1, g2, g3, g4, g5, g6, g7, g8⟩ := h
  refine ⟨h1, i0, s0, p, j, T, g1, g2, g3, g4, g5, g6, g7, ?_⟩
  rw [List.append_nil] at g8
  exact g8.next hv hab

/-- The index pairs of the crossing loop: a slot is never the source after it has been the target. -/
theorem crossPairs_order (n : Nat) : (crossPairs n).Pairwise fun a b => ¬ (a.1 = b.1 ∧ a.2 = b.2 - 1) := by
  unfold crossPairs
  rw [List.pairwise_flatMap]
  constructor
  · intro e _
    rw [List.pairwise_map, List.pairwise_reverse]
    apply List.Pairwise.imp _ List.pairwise_lt_range
    intro a b hab
    simp only
    omega
  · apply List.Pairwise.imp _ List.pairwise_lt_range
    intro a b hab x hx y hy
    simp only [List.mem_map] at hx hy
    obtain ⟨_, _, rfl⟩ := hx
    obtain ⟨_, _, rfl⟩ := hy
    simp only
    omega

theorem crossPairs_pos {n : Nat} {p : Nat × Nat} (h : p ∈ crossPairs n) : 1 ≤ p.2 := by
  unfold crossPairs at h
  simp only [List.mem_flatMap, List.mem_map] at h
  obtain ⟨_, _, _, _, rfl⟩ := h
  simp

/-- Riders after passing stop `i`: what has been seen includes the presence at the stop. -/
theorem cross_ok {P : VProblem} {bf : Loc → Int} {st : List (Loc × Int)} {k : Nat} {r : Route} {i : Nat} {s : Stop} {et : Riders}
    (h : RidersOk P bf st k r i et) :
    ∀ e o tr, cross P r i s et e o = some tr → Rider P bf st k r i (e + o) tr [⟨s.loc, r.alight tr i, r.alight tr i⟩] := by
  unfold cross
  have key : ∀ (todo pre : List (Nat × Nat)) (et : Riders),
      (pre ++ todo).Pairwise (fun a b => ¬ (a.1 = b.1 ∧ a.2 = b.2 - 1)) → (∀ p ∈ pre ++ todo, 1 ≤ p.2) →
      (∀ e o tr, et e o = some tr → Rider P bf st k r i (e + o) tr [⟨s.loc, r.alight tr i, r.alight tr i⟩]) →
      (∀ e o tr, (e, o) ∉ pre → et e o = some tr → Rider P bf st k r i (e + o) tr []) →
      ∀ e o tr, todo.foldl (crossOne P r i s) et e o = some tr → Rider P bf st k r i (e + o) tr [⟨s.loc, r.alight tr i, r.alight tr i⟩] := by
    intro todo
    induction todo with
    | nil => intro pre et _ _ h1 _; exact h1
    | cons q todo ih =>
      intro pre et hp hpos h1 h2
      simp only [List.foldl_cons]
      refine ih (pre ++ [q]) (crossOne P r i s et q) (by simpa using hp) (by simpa using hpos) ?_ ?_
      · intro e o tr hc
        unfold crossOne at hc
        cases hf : et q.1 (q.2 - 1) with
        | none => rw [hf] at hc; exact h1 e o tr hc
        | some fr =>
          rw [hf] at hc
          simp only at hc
          by_cases hv : (P.isVia (q.1 + q.2 - 1) s.loc && decide (P.stay (q.1 + q.2 - 1) = 0)) = true
          · rw [if_pos hv] at hc
            simp only [Bool.and_eq_true, decide_eq_true_eq] at hv
            simp only [upd2] at hc
            by_cases hc1 : e = q.1 ∧ o = q.2 - 1
            · rw [if_pos hc1] at hc; cases hc
            · rw [if_neg hc1] at hc
              by_cases hc2 : e = q.1 ∧ o = q.2
              · rw [if_pos hc2] at hc
                obtain ⟨rfl, rfl⟩ := hc2
                have hq1 : 1 ≤ q.2 := hpos q (by simp)
                have hpre : (q.1, q.2 - 1) ∉ pre := by
                  intro hm
                  rw [List.pairwise_append] at hp
                  exact hp.2.2 _ hm q (by simp) ⟨rfl, rfl⟩
                have hfr := h2 _ _ _ hpre hf
                have hnew : Rider P bf st k r i (q.1 + q.2) fr [⟨s.loc, r.alight fr i, r.alight fr i⟩] := by
                  have := hfr.next (l := s.loc) (a := r.alight fr i) (b := r.alight fr i)
                    (by rw [← Nat.add_sub_assoc hq1]; exact hv.1) (by rw [← Nat.add_sub_assoc hq1, hv.2]; omega)
                  rwa [← Nat.add_sub_assoc hq1, Nat.sub_add_cancel (by omega)] at this
                cases ht : et q.1 q.2 with
                | none => rw [ht] at hc; simp only [Option.some.injEq] at hc; rw [← hc]; exact hnew
                | some t0 =>
                  rw [ht] at hc
                  simp only [Option.some.injEq] at hc
                  split at hc
                  · rw [← hc]; exact hnew
                  · rw [← hc]; exact h1 _ _ _ ht
              · rw [if_neg hc2] at hc; exact h1 e o tr hc
          · rw [if_neg hv] at hc; exact h1 e o tr hc
      · intro e o tr hn hc
        have hn1 : (e, o) ∉ pre := fun hm => hn (by simp [hm])
        have hn2 : ¬ (e = q.1 ∧ o = q.2) := fun hm => hn (by obtain ⟨rfl, rfl⟩ := hm; simp)
        unfold crossOne at hc
        cases hf : et q.1 (q.2 - 1) with
        | none => rw [hf] at hc; exact h2 e o tr hn1 hc
        | some fr =>
          rw [hf] at hc
          simp only at hc
          split at hc
          · simp only [upd2] at hc
            by_cases hc1 : e = q.1 ∧ o = q.2 - 1
            · rw [if_pos hc1] at hc; cases hc
            · rw [if_neg hc1, if_neg hn2] at hc; exact h2 e o tr hn1 hc
          · exact h2 e o tr hn1 hc
  refine key (crossPairs P.n) [] et ?_ ?_ ?_ ?_
  · simpa using crossPairs_order P.n
  · intro p hp; exact crossPairs_pos (by simpa using hp)
  · intro e o tr he
    have := (h e o tr he).extend [⟨s.loc, r.alight tr i, r.alight tr i⟩]
    simpa using this
  · intro e o tr _ he; exact h e o tr he

theorem filter_ok {P : VProblem} {bf : Loc → Int} {st : List (Loc × Int)} {k : Nat} {r : Route} {i : Nat} {s : Stop} {et : Riders}
    (h : RidersOk P bf st k r i et) : RidersOk P bf st k r i (filterEt i s (fun _ _ => none) et) := by
  unfold filterEt
  split
  · intro e o tr h; cases h
  · exact h

theorem arrive_ok {P : VProblem} (hs : SaneV P) {bf : Loc → Int} {st : List (Loc × Int)} (hst : ∀ x ∈ st, P.lo < x.2) {k : Nat} {r : Route} (hr : r ∈ P.routes) (hal : r.allowed = true)
    (rk best : Loc → Nat → Int) (tad : Int) {i : Nat} {s : Stop} (hsi : r.stops[i]? = some s) {et : Riders}
    (hsec : ∀ e o tr, et e o = some tr → i ≠ 0 → s.secOk = true)
    (h : ∀ e o tr, et e o = some tr → Rider P bf st k r i (e + o) tr [⟨s.loc, r.alight tr i, r.alight tr i⟩])
    {sc : Scan} (hsc : ScanOk P bf st (k + 1) sc) : ScanOk P bf st (k + 1) (arrive P r rk best tad i s et sc).1 := by
  have hilen : i < r.stops.length := by rw [List.getElem?_eq_some_iff] at hsi; exact hsi.1
  unfold arrive
  refine foldl_inv (fun a : Scan × (Nat → Int) => ScanOk P bf st (k + 1) a.1) _ _ _ hsc ?_
  intro a p hp ha
  have hle : p.2 ≤ p.1 := by
    unfold arrivePairs at hp
    simp only [List.mem_flatMap, List.mem_map, List.mem_range] at hp
    obtain ⟨cs, _, e, he, rfl⟩ := hp
    simp only; omega
  unfold arriveOne
  cases he : et p.2 (p.1 - p.2) with
  | none => exact ha
  | some tr =>
    simp only
    by_cases hca : s.canAlight = true
    · rw [if_pos hca]
      split
      · apply scanOk_upd ha
        · exact clamp_le_hi hs.lohi _
        · intro hlt
          obtain ⟨h1, i0, s0, p0, j, T, g1, g2, g3, g4, g5, g6, g7, g8⟩ := h _ _ _ he
          rw [Nat.add_sub_of_le hle] at g8
          have hp0 := readyV_gt hs.toSane hst g7
          have hge : P.lo ≤ r.alight tr i :=
            Int.le_trans (Int.le_of_lt hp0) (Int.le_trans g5 (hs.tripMono r hr tr h1 i0 i g1 hilen))
          rw [clamp_of_lt hge hlt]
          refine ⟨j, s0.loc, p0, T, _, by omega, g7, Or.inl ⟨r, hr, hal, tr, h1, i0, i, s0, s, g1, g2, hsi, rfl, rfl, g3, hca, ?_, g5, rfl, rfl⟩, g8⟩
          intro x s' hx1 hx2 hx3
          by_cases hxi : x = i
          · subst hxi
            rw [hsi] at hx3
            simp only [Option.some.injEq] at hx3; subst hx3
            exact hsec _ _ _ he (by omega)
          · exact g4 x s' hx1 (by omega) hx3
      · exact ha
    · rw [if_neg hca]; exact ha

theorem filterEt_sec {i : Nat} {s : Stop} {et : Riders} {e o : Nat} {tr : Run} (h : filterEt i s (fun _ _ => none) et e o = some tr) (hi : i ≠ 0) : s.secOk = true := by
  unfold filterEt at h
  split at h
  · cases h
  · rename_i hf
    simp only [ne_eq, Bool.and_eq_true, Bool.not_eq_true', not_and, Bool.not_eq_false, decide_eq_true_eq] at hf
    exact hf hi

theorem cross_some {P : VProblem} {r : Route} {i : Nat} {s : Stop} (Q : Prop) {et : Riders} (h : ∀ e o tr, et e o = some tr → Q) :
    ∀ e o tr, cross P r i s et e o = some tr → Q := by
  unfold cross
  refine foldl_inv (fun et : Riders => ∀ e o tr, et e o = some tr → Q) _ _ _ h ?_
  intro et q _ h e o tr hc
  unfold crossOne at hc
  cases hf : et q.1 (q.2 - 1) with
  | none => rw [hf] at hc; exact h _ _ _ hc
  | some fr => exact h _ _ _ hf

/-- Riders after a stop at which the vehicle goes on. -/
theorem riders_next {P : VProblem} (hs : SaneV P) {bf : Loc → Int} {st : List (Loc × Int)} {k : Nat} {r : Route} (hr : r ∈ P.routes) {i : Nat} {s : Stop}
    (hsi : r.stops[i]? = some s) (hlast : i + 1 < r.stops.length) {et : Riders} (hsec : ∀ e o tr, et e o = some tr → i ≠ 0 → s.secOk = true)
    (h : ∀ e o tr, et e o = some tr → Rider P bf st k r i (e + o) tr [⟨s.loc, r.alight tr i, r.alight tr i⟩]) :
    RidersOk P bf st k r (i + 1) et := by
  intro e o tr he
  obtain ⟨h1, i0, s0, p0, j, T, g1, g2, g3, g4, g5, g6, g7, g8⟩ := h e o tr he
  refine ⟨h1, i0, s0, p0, j, T, by omega, g2, g3, ?_, g5, g6, g7, ?_⟩
  · intro x s' hx1 hx2 hx3
    by_cases hxi : x = i
    · subst hxi
      rw [hsi] at hx3
      simp only [Option.some.injEq] at hx3; subst hx3
      exact hsec _ _ _ he (by omega)
    · exact g4 x s' hx1 (by omega) hx3
  · rw [List.append_nil, midOf_succ _ _ g1 hsi, ← List.append_assoc]
    exact inOrder_till g8 (hs.dwell r hr tr h1 i (by omega) hlast)

theorem boardAt_cases {P : VProblem} {r : Route} {rk best : Loc → Nat → Int} {tad : Int} {i : Nat} {s : Stop} {x : Int} {sc : Scan} {cb : Nat → Int}
    {et : Riders} : ∀ e o tr, boardAt P r rk best tad i s x sc cb et e o = some tr → et e o = some tr ∨
      (o = 0 ∧ e ≤ P.n ∧ rk s.loc e ≠ P.hi ∧ r.et i (rk s.loc e) (tad - x) = some tr) := by
  unfold boardAt
  refine foldl_inv (fun et' : Riders => ∀ e o tr, et' e o = some tr → et e o = some tr ∨
      (o = 0 ∧ e ≤ P.n ∧ rk s.loc e ≠ P.hi ∧ r.et i (rk s.loc e) (tad - x) = some tr)) _ _ _ (fun e o tr h => Or.inl h) ?_
  intro et' v hv h e o tr hc
  simp only [upd2] at hc
  by_cases hc1 : e = v ∧ o = 0
  · rw [if_pos hc1] at hc
    obtain ⟨rfl, rfl⟩ := hc1
    unfold boardV at hc
    simp only at hc
    by_cases hp : rk s.loc e ≠ P.hi ∧ rk s.loc e ≤ etTime P r i (et' e 0)
    · rw [if_pos hp] at hc
      have hh := h e 0 tr
      generalize r.et i (rk s.loc e) (tad - x) = nw at hc hh ⊢
      cases nw with
      | none => exact hh hc
      | some new =>
        simp only at hc
        split at hc
        · right; exact ⟨rfl, by have := List.mem_range.mp hv; omega, hp.1, by rw [← hc]⟩
        · exact hh hc
    · rw [if_neg hp] at hc; exact h _ _ _ hc
  · rw [if_neg hc1] at hc; exact h _ _ _ hc

theorem scanRoute_ok {P : VProblem} (hs : SaneV P) {bf : Loc → Int} {st : List (Loc × Int)} (hst : ∀ x ∈ st, P.lo < x.2) (k : Nat)
    (r : Route) (hr : r ∈ P.routes) (hal : r.allowed = true) (rk best : Loc → Nat → Int) (tad : Int) (prev : Loc → Bool)
    (hrk : ∀ l v, rk l v ≤ P.hi ∧ (rk l v < P.hi → RdyV P bf st k l v (rk l v)))
    (rest : List Stop) (i : Nat) (hsuf : ∀ x, r.stops[i + x]? = rest[x]?) (et : Riders)
    (het : RidersOk P bf st k r i et) (sc : Scan) (hsc : ScanOk P bf st (k + 1) sc) :
    ScanOk P bf st (k + 1) (scanRoute P r rk best tad prev rest i et sc) := by
  induction rest generalizing i et sc with
  | nil => exact hsc
  | cons s rest ih =>
    have hsi : r.stops[i]? = some s := by have := hsuf 0; simpa using this
    have hsuf' : ∀ x, r.stops[i + 1 + x]? = rest[x]? := by
      intro x
      have := hsuf (x + 1)
      rw [show i + (x + 1) = i + 1 + x by omega] at this
      simpa using this
    have hcr := cross_ok (s := s) (filter_ok (s := s) het)
    have hsec : ∀ e o tr, cross P r i s (filterEt i s (fun _ _ => none) et) e o = some tr → i ≠ 0 → s.secOk = true :=
      cross_some _ (fun e o tr h hi => filterEt_sec h hi)
    have harr := arrive_ok hs hst hr hal rk best tad hsi hsec hcr hsc
    have hnext : rest ≠ [] → RidersOk P bf st k r (i + 1) (cross P r i s (filterEt i s (fun _ _ => none) et)) := by
      intro hne
      refine riders_next hs hr hsi ?_ hsec hcr
      have h0 := hsuf' 0
      cases rest with
      | nil => exact absurd rfl hne
      | cons s' rest' =>
        rw [List.getElem?_cons_zero] at h0
        have := (List.getElem?_eq_some_iff.mp h0).1
        omega
    unfold scanRoute
    simp only
    split
    · cases rest with
      | nil => simp only [scanRoute]; exact harr
      | cons s' rest' => exact ih (i + 1) hsuf' _ (hnext (by simp)) _ harr
    · rename_i hcond
      cases hlb : P.lb s.loc with
      | none => exact harr
      | some x =>
        simp only
        have hne : rest ≠ [] := by
          intro h; rw [h] at hcond; simp at hcond
        refine ih (i + 1) hsuf' _ ?_ _ harr
        intro e o tr hb
        rcases boardAt_cases e o tr hb with h | ⟨rfl, he, hp, hn⟩
        · exact hnext hne e o tr h
        · obtain ⟨g1, g2⟩ := hs.etSound r hr _ _ _ _ hn
          have hcb : s.canBoard = true := by
            simp at hcond; exact hcond.1.2
          have hk := hrk s.loc e
          obtain ⟨j, T, hj, hrdy, hseen⟩ := hk.2 (by omega)
          refine ⟨g1, i, s, rk s.loc e, j, T, by omega, hsi, hcb, by intro x' s' a b; omega, g2, hj.1, hrdy, ?_⟩
          rw [midOf_self]
          simpa using hseen

/-! ## Scanning a real-time transport -/

/-- A rider of a real-time transport; the second case is a rider that can only arrive at the saturated time. -/
def RtRider (P : VProblem) (bf : Loc → Int) (st : List (Loc × Int)) (k : Nat) (r : RtTransport) (i c : Nat) (ps : List Presence) : Prop :=
  (∃ (i0 : Nat) (s0 : Stop) (p : Int) (j : Nat) (T : List Presence), i0 < i ∧ r.stops[i0]? = some s0 ∧ s0.canBoard = true ∧
    (∀ (x : Nat) (s : Stop), i0 < x → x < i → r.stops[x]? = some s → s.secOk = true) ∧ p ≤ r.board i0 ∧ j ≤ k ∧
    ReadyV P.toProblem bf st j s0.loc p T ∧ Seen P c (T ++ midOf r.stops r.board r.alight i0 i ++ ps)) ∨
  (∃ i0, i0 < i ∧ P.hi ≤ r.board i0)

theorem RtRider.next {P : VProblem} {bf : Loc → Int} {st : List (Loc × Int)} {k : Nat} {r : RtTransport} {i c : Nat}
    (h : RtRider P bf st k r i c []) {l : Loc} {a b : Int} (hv : P.isVia c l = true) (hab : a + P.stay c ≤ b) :
    RtRider P bf st k r i (c + 1) [⟨l, a, b⟩] := by
  rcases h with ⟨i0, s0, p, j, T, g1, g2, g3, g4, g5, g6, g7, g8⟩ | h
  · left
    refine ⟨i0, s0, p, j, T, g1, g2, g3, g4, g5, g6, g7, ?_⟩
    rw [List.append_nil] at g8
    exact g8.next hv hab
  · exact Or.inr h

theorem RtRider.extend {P : VProblem} {bf : Loc → Int} {st : List (Loc × Int)} {k : Nat} {r : RtTransport} {i c : Nat} {ps : List Presence}
    (h : RtRider P bf st k r i c ps) (qs : List Presence) : RtRider P bf st k r i c (ps ++ qs) := by
  rcases h with ⟨i0, s0, p, j, T, g1, g2, g3, g4, g5, g6, g7, g8⟩ | h
  · left; exact ⟨i0, s0, p, j, T, g1, g2, g3, g4, g5, g6, g7, by rw [← List.append_assoc]; exact g8.extend _⟩
  · exact Or.inr h

theorem crossRt_ok {P : VProblem} {bf : Loc → Int} {st : List (Loc × Int)} {k : Nat} {r : RtTransport} {i : Nat} {l : Loc} {et : Nat → Bool}
    (h : ∀ v, et v = true → RtRider P bf st k r i v []) (a : Int) :
    ∀ v, crossRt P l et v = true → RtRider P bf st k r i v [⟨l, a, a⟩] := by
  unfold crossRt
  have key : ∀ (n : Nat) (et : Nat → Bool), (∀ v, v ≤ n → et v = true → RtRider P bf st k r i v []) →
      (∀ v, et v = true → RtRider P bf st k r i v [⟨l, a, a⟩]) →
      ∀ v, ((List.range n).reverse.map (· + 1)).foldl (crossRtOne P l) et v = true → RtRider P bf st k r i v [⟨l, a, a⟩] := by
    intro n
    induction n with
    | zero => intro et _ h2; exact h2
    | succ n ih =>
      intro et h1 h2
      rw [List.range_succ, List.reverse_append, List.map_append]
      simp only [List.reverse_cons, List.reverse_nil, List.nil_append, List.map_cons, List.map_nil, List.singleton_append, List.foldl_cons]
      apply ih
      · intro v hv hc
        unfold crossRtOne at hc
        simp only [Nat.add_sub_cancel] at hc
        split at hc
        · simp only [upd] at hc
          by_cases e1 : v = n
          · rw [if_pos e1] at hc; cases hc
          · rw [if_neg e1, if_neg (by omega)] at hc; exact h1 v (by omega) hc
        · exact h1 v (by omega) hc
      · intro v hc
        unfold crossRtOne at hc
        simp only [Nat.add_sub_cancel] at hc
        split at hc
        · rename_i hx
          simp only [Bool.and_eq_true, decide_eq_true_eq] at hx
          simp only [upd] at hc
          by_cases e1 : v = n
          · rw [if_pos e1] at hc; cases hc
          · rw [if_neg e1] at hc
            by_cases e2 : v = n + 1
            · subst e2
              exact (h1 n (by omega) hx.1.1).next hx.1.2 (by omega)
            · rw [if_neg e2] at hc; exact h2 v hc
        · exact h2 v hc
  refine key P.n et (fun v _ hv => h v hv) ?_
  intro v hv
  have := (h v hv).extend [⟨l, a, a⟩]
  simpa using this

theorem crossRt_some {P : VProblem} {l : Loc} (Q : Prop) {et : Nat → Bool} (h : ∀ v, et v = true → Q) : ∀ v, crossRt P l et v = true → Q := by
  unfold crossRt
  refine foldl_inv (fun et : Nat → Bool => ∀ v, et v = true → Q) _ _ _ h ?_
  intro et w _ h v hc
  unfold crossRtOne at hc
  split at hc
  · rename_i hx; simp only [Bool.and_eq_true] at hx; exact h _ hx.1.1
  · exact h _ hc

theorem scanRt_ok {P : VProblem} (hs : SaneV P) {bf : Loc → Int} {st : List (Loc × Int)} (hst : ∀ x ∈ st, P.lo < x.2) (k : Nat)
    (r : RtTransport) (hr : r ∈ P.rts) (hal : r.allowed = true) (rk : Loc → Nat → Int) (tad : Int) (prev : Loc → Bool)
    (hrk : ∀ l v, rk l v ≤ P.hi ∧ (rk l v < P.hi → RdyV P bf st k l v (rk l v)))
    (rest : List Stop) (i : Nat) (hsuf : ∀ x, r.stops[i + x]? = rest[x]?) (et : Nat → Bool)
    (het : ∀ v, et v = true → RtRider P bf st k r i v []) (sc : Scan) (hsc : ScanOk P bf st (k + 1) sc) :
    ScanOk P bf st (k + 1) (scanRt P r rk tad prev rest i et sc) := by
  induction rest generalizing i et sc with
  | nil => exact hsc
  | cons s rest ih =>
    have hsi : r.stops[i]? = some s := by have := hsuf 0; simpa using this
    have hilen : i < r.stops.length := by rw [List.getElem?_eq_some_iff] at hsi; exact hsi.1
    have hsuf' : ∀ x, r.stops[i + 1 + x]? = rest[x]? := by
      intro x
      have := hsuf (x + 1)
      rw [show i + (x + 1) = i + 1 + x by omega] at this
      simpa using this
    have hetf : ∀ v, filterEt i s (fun _ => false) et v = true → RtRider P bf st k r i v [] ∧ (i ≠ 0 → s.secOk = true) := by
      intro v hv
      unfold filterEt at hv
      split at hv
      · cases hv
      · rename_i hf
        simp only [ne_eq, Bool.and_eq_true, Bool.not_eq_true', not_and, Bool.not_eq_false, decide_eq_true_eq] at hf
        exact ⟨het v hv, hf⟩
    have hcr : i ≠ 0 → ∀ v, crossRt P s.loc (filterEt i s (fun _ => false) et) v = true →
        RtRider P bf st k r i v [⟨s.loc, r.alight i, r.alight i⟩] ∧ s.secOk = true := by
      intro hi v hv
      exact ⟨crossRt_ok (fun v hv => (hetf v hv).1) _ v hv, crossRt_some _ (fun v hv => (hetf v hv).2 hi) v hv⟩
    -- riders after the stop
    have hnext : rest ≠ [] → ∀ v, (if i ≠ 0 then crossRt P s.loc (filterEt i s (fun _ => false) et) else filterEt i s (fun _ => false) et) v = true →
        RtRider P bf st k r (i + 1) v [] := by
      intro hne v hv
      by_cases hi : i = 0
      · rw [if_neg (by simpa using hi)] at hv
        rcases (hetf v hv).1 with ⟨i0, s0, p, j, T, g1, _⟩ | ⟨i0, g1, _⟩ <;> omega
      · rw [if_pos hi] at hv
        obtain ⟨h1, h2⟩ := hcr hi v hv
        rcases h1 with ⟨i0, s0, p, j, T, g1, g2, g3, g4, g5, g6, g7, g8⟩ | ⟨i0, g1, g2⟩
        · left
          refine ⟨i0, s0, p, j, T, by omega, g2, g3, ?_, g5, g6, g7, ?_⟩
          · intro x s' hx1 hx2 hx3
            by_cases hxi : x = i
            · subst hxi
              rw [hsi] at hx3
              simp only [Option.some.injEq] at hx3; subst hx3
              exact h2
            · exact g4 x s' hx1 (by omega) hx3
          · rw [List.append_nil, midOf_succ _ _ g1 hsi, ← List.append_assoc]
            refine inOrder_till g8 (hs.rtDwell r hr i (by omega) ?_)
            have h0 := hsuf' 0
            cases rest with
            | nil => exact absurd rfl hne
            | cons s' rest' =>
              rw [List.getElem?_cons_zero] at h0
              have := (List.getElem?_eq_some_iff.mp h0).1
              omega
        · right; exact ⟨i0, by omega, g2⟩
    have harr : ScanOk P bf st (k + 1) (if i ≠ 0 then (List.range (P.n + 1)).reverse.foldl (arriveRtOne P tad s (P.clamp (r.alight i))
        (if i ≠ 0 then crossRt P s.loc (filterEt i s (fun _ => false) et) else filterEt i s (fun _ => false) et)) sc else sc) := by
      by_cases hi : i = 0
      · rw [if_neg (by simpa using hi)]; exact hsc
      · rw [if_pos hi, if_pos hi]
        refine foldl_inv (ScanOk P bf st (k + 1)) _ _ _ hsc ?_
        intro sc' v _ hsc'
        unfold arriveRtOne
        split
        · rename_i hc
          simp only [Bool.and_eq_true] at hc
          apply scanOk_upd hsc'
          · exact clamp_le_hi hs.lohi _
          · intro hlt
            obtain ⟨h1, h2⟩ := hcr hi v hc.1.1
            rcases h1 with ⟨i0, s0, p, j, T, g1, g2, g3, g4, g5, g6, g7, g8⟩ | ⟨i0, g1, g2⟩
            · have hp := readyV_gt hs.toSane hst g7
              have hge : P.lo ≤ r.alight i := Int.le_trans (Int.le_of_lt hp) (Int.le_trans g5 (hs.rtMono r hr i0 i g1 hilen))
              rw [clamp_of_lt hge hlt]
              refine ⟨j, s0.loc, p, T, _, by omega, g7, Or.inr ⟨r, hr, hal, i0, i, s0, s, g1, g2, hsi, rfl, rfl, g3, hc.1.2, ?_, g5, rfl, rfl⟩, g8⟩
              intro x s' hx1 hx2 hx3
              by_cases hxi : x = i
              · subst hxi
                rw [hsi] at hx3
                simp only [Option.some.injEq] at hx3; subst hx3
                exact h2
              · exact g4 x s' hx1 (by omega) hx3
            · exfalso
              have := hs.rtMono r hr i0 i g1 hilen
              unfold Problem.clamp at hlt; omega
        · exact hsc'
    unfold scanRt
    simp only
    cases hlb : P.lb s.loc with
    | none => exact harr
    | some x =>
      simp only
      split
      · cases rest with
        | nil => simp only [scanRt]; exact harr
        | cons s' rest' => exact ih (i + 1) hsuf' _ (hnext (by simp)) _ harr
      · rename_i hcond
        have hne : rest ≠ [] := by intro h; rw [h] at hcond; simp at hcond
        refine ih (i + 1) hsuf' _ ?_ _ harr
        intro v h
        rw [Bool.or_eq_true] at h
        rcases h with h | h
        · exact hnext hne v h
        · simp only [Bool.and_eq_true, decide_eq_true_eq] at h
          obtain ⟨hvn, h⟩ := h
          have hk := hrk s.loc v
          have hcb : s.canBoard = true := by simp at hcond; exact hcond.1.2
          by_cases hp : rk s.loc v < P.hi
          · left
            obtain ⟨j, T, hj, hrdy, hseen⟩ := hk.2 hp
            refine ⟨i, s, rk s.loc v, j, T, by omega, hsi, hcb, by intro x' s' a b; omega, ?_, hj.1, hrdy, ?_⟩
            · have := readyV_gt hs.toSane hst hrdy
              unfold Problem.clamp at h; have := hs.lohi; omega
            · rw [midOf_self]; simpa using hseen
          · right
            exact ⟨i, by omega, le_clamp_hi hs.lohi (Int.le_trans (Int.not_lt.mp hp) h)⟩

/-! ## The label updates -/

structure SoundSt (P : VProblem) (bf : Loc → Int) (st : List (Loc × Int)) (k : Nat) (S : State) : Prop where
  round : ∀ k' l v, S.round k' l v ≤ P.hi ∧ (S.round k' l v < P.hi → RdyV P bf st k' l v (S.round k' l v))
  tmp : ∀ l v, S.tmp l v ≤ P.hi ∧ (S.tmp l v < P.hi → AltV P bf st k l v (S.tmp l v))

theorem sound_upd3 {P : VProblem} {bf : Loc → Int} {st : List (Loc × Int)} {k : Nat} {S : State} (h : SoundSt P bf st k S) (l : Loc) (v : Nat) (x : Int)
    (hx : x ≤ P.hi ∧ (x < P.hi → RdyV P bf st k l v x)) :
    ∀ k' l' v', upd3 S.round k l v x k' l' v' ≤ P.hi ∧ (upd3 S.round k l v x k' l' v' < P.hi → RdyV P bf st k' l' v' (upd3 S.round k l v x k' l' v')) := by
  intro k' l' v'
  unfold upd3
  split
  · rename_i hc; obtain ⟨rfl, rfl, rfl⟩ := hc; exact hx
  · exact h.round k' l' v'

theorem applyUpd_ok {P : VProblem} {bf : Loc → Int} {st : List (Loc × Int)} {k : Nat} {S : State} (h : SoundSt P bf st k S) (l : Loc) (v : Nat) (t : Int) (dest : Bool)
    (ht : t ≤ P.hi) (hr : t < P.hi → RdyV P bf st k l v t) : SoundSt P bf st k (applyUpd P k S l v t dest) := by
  unfold applyUpd
  split
  · simp only
    split
    · exact ⟨sound_upd3 h l v t ⟨ht, hr⟩, h.tmp⟩
    · refine ⟨sound_upd3 h l v _ ?_, h.tmp⟩
      have := h.round k l v
      constructor
      · omega
      · intro hlt
        by_cases hc : t ≤ S.round k l v
        · rw [Int.min_eq_left hc]; exact hr (by omega)
        · rw [Int.min_eq_right (by omega)]; exact this.2 (by omega)
  · exact h

theorem applyUpd_tmp (P : VProblem) (k : Nat) (S : State) (l : Loc) (v : Nat) (t : Int) (dest : Bool) : (applyUpd P k S l v t dest).tmp = S.tmp := by
  unfold applyUpd; split
  · simp only; split <;> rfl
  · rfl

theorem applyEnd_ok {P : VProblem} {bf : Loc → Int} {st : List (Loc × Int)} {k : Nat} {S : State} (h : SoundSt P bf st k S) (t : Int)
    (ht : t ≤ P.hi ∧ (t < P.hi → RdyV P bf st k P.endLoc P.n t)) : SoundSt P bf st k (applyEnd P k S t) := by
  unfold applyEnd
  split
  · exact ⟨sound_upd3 h _ _ t ht, h.tmp⟩
  · exact h

theorem applyEndTd_ok {P : VProblem} {bf : Loc → Int} {st : List (Loc × Int)} {k : Nat} {S : State} (h : SoundSt P bf st k S) (t : Int)
    (ht : t ≤ P.hi ∧ (t < P.hi → RdyV P bf st k P.endLoc P.n t)) : SoundSt P bf st k (applyEndTd P k S t) := by
  unfold applyEndTd
  split
  · exact ⟨sound_upd3 h _ _ t ht, h.tmp⟩
  · exact h

theorem applyEnd_tmp (P : VProblem) (k : Nat) (S : State) (t : Int) : (applyEnd P k S t).tmp = S.tmp := by
  unfold applyEnd; split <;> rfl

/-- A candidate derived from a tentative arrival is sound. -/
theorem cand_ok {P : VProblem} (hs : SaneV P) {bf : Loc → Int} {st : List (Loc × Int)} (hst : ∀ x ∈ st, P.lo < x.2) {k : Nat} {S : State}
    (h : SoundSt P bf st k S) (i : Loc) (v : Nat) (hi : S.tmp i v ≠ P.hi) (l' : Loc) (v' : Nat) (c : Int) (ps : List Presence)
    (hc : ChangeV P.toProblem i (S.tmp i v) l' c ps) (hv : ∀ T, Seen P v T → Seen P v' (T ++ ps)) :
    P.clamp c ≤ P.hi ∧ (P.clamp c < P.hi → RdyV P bf st k l' v' (P.clamp c)) := by
  refine ⟨clamp_le_hi hs.lohi _, ?_⟩
  intro hlt
  have ht := h.tmp i v
  have ha := ht.2 (by omega)
  have := altV_gt hs hst ha
  have hle := changeV_le hs.toSane hc
  rw [clamp_of_lt (by omega) hlt]
  exact altV_change ha hc hv

theorem transferV_ok {P : VProblem} (hs : SaneV P) {bf : Loc → Int} {st : List (Loc × Int)} (hst : ∀ x ∈ st, P.lo < x.2) {k : Nat} {S : State}
    (h : SoundSt P bf st k S) (i : Loc) (v : Nat) : SoundSt P bf st k (transferV P k i S v) := by
  unfold transferV
  split
  · exact h
  · rename_i hi
    simp only
    have h1 := hs.stayV_nonneg v i
    have h2 := hs.transfer i
    have := cand_ok hs hst h i v hi i (nextV P v i) (S.tmp i v + transferTime P i (nextV P v i) + stayV P v i) [⟨i, S.tmp i v, S.tmp i v + transferTime P i (nextV P v i) + stayV P v i⟩]
      (by
        generalize hb : S.tmp i v + transferTime P i (nextV P v i) + stayV P v i = b
        unfold transferTime at hb
        by_cases hc : (!P.intermodal && (decide (nextV P v i = P.n) && P.isDest i)) = true
        · rw [if_pos hc] at hb
          simp only [Bool.and_eq_true, Bool.not_eq_true', decide_eq_true_eq] at hc
          exact ChangeV.dest (P := P.toProblem) (m := i) (a := S.tmp i v) (t' := b) hc.1 hc.2.2 (by omega)
        · rw [if_neg hc] at hb
          exact ChangeV.stay (P := P.toProblem) (m := i) (a := S.tmp i v) (t' := b) (by omega))
      (fun T hT => hT.stayed (by
        have : 0 ≤ transferTime P i (nextV P v i) := by unfold transferTime; split <;> omega
        omega))
    exact applyUpd_ok h _ _ _ _ this.1 this.2

theorem transferAt_ok {P : VProblem} (hs : SaneV P) {bf : Loc → Int} {st : List (Loc × Int)} (hst : ∀ x ∈ st, P.lo < x.2) {k : Nat} {S : State}
    (h : SoundSt P bf st k S) (i : Loc) : SoundSt P bf st k (transferAt P k S i) := by
  unfold transferAt
  exact foldl_inv (SoundSt P bf st k) _ _ _ h (fun S v _ h => transferV_ok hs hst h i v)

theorem footpathV_ok {P : VProblem} (hs : SaneV P) {bf : Loc → Int} {st : List (Loc × Int)} (hst : ∀ x ∈ st, P.lo < x.2) {k : Nat} {S : State}
    (h : SoundSt P bf st k S) (i : Loc) (td : Bool) (v : Nat) (fp : Loc × Int) (hfp : fp ∈ P.fps i (S.tmp i v + stayV P v i)) :
    SoundSt P bf st k (footpathV P k i td S v fp) := by
  unfold footpathV
  split
  · exact h
  · rename_i hi
    simp only
    have h1 := hs.stayV_nonneg v i
    have h2 := hs.stayV_nonneg (nextV P v i) fp.1
    have := cand_ok hs hst h i v hi fp.1 (nextV P (nextV P v i) fp.1)
      (S.tmp i v + (fp.2 + (stayV P v i + stayV P (nextV P v i) fp.1))) _
      (.walk (a1 := S.tmp i v + stayV P v i) (l' := fp.1) (w := fp.2) (by omega) hfp (by omega))
      (fun T hT => by
        have e1 : Seen P (nextV P v i) (T ++ [⟨i, S.tmp i v, S.tmp i v + stayV P v i⟩]) := hT.stayed (Int.le_refl _)
        have e2 := e1.stayed (l := fp.1) (a := S.tmp i v + stayV P v i + fp.2)
          (b := S.tmp i v + (fp.2 + (stayV P v i + stayV P (nextV P v i) fp.1))) (by omega)
        rw [List.append_assoc] at e2
        exact e2)
    exact applyUpd_ok h _ _ _ _ this.1 this.2

theorem footpathV_tmp (P : VProblem) (k : Nat) (i : Loc) (td : Bool) (S : State) (v : Nat) (fp : Loc × Int) : (footpathV P k i td S v fp).tmp = S.tmp := by
  unfold footpathV; split
  · rfl
  · exact applyUpd_tmp _ _ _ _ _ _ _

theorem footpathsAt_ok {P : VProblem} (hs : SaneV P) {bf : Loc → Int} {st : List (Loc × Int)} (hst : ∀ x ∈ st, P.lo < x.2) {k : Nat} {S : State}
    (h : SoundSt P bf st k S) (i : Loc) : SoundSt P bf st k (footpathsAt P k S i) := by
  unfold footpathsAt
  split
  · exact h
  · rename_i htd
    refine foldl_inv (SoundSt P bf st k) _ _ _ h ?_
    intro S' fp hfp h'
    refine foldl_inv (SoundSt P bf st k) _ _ _ h' ?_
    intro S'' v _ h''
    exact footpathV_ok hs hst h'' i false v fp (by rw [hs.static i (by simpa using htd)]; exact hfp)

theorem tdFootpathsAt_ok {P : VProblem} (hs : SaneV P) {bf : Loc → Int} {st : List (Loc × Int)} (hst : ∀ x ∈ st, P.lo < x.2) {k : Nat} {S : State}
    (h : SoundSt P bf st k S) (i : Loc) : SoundSt P bf st k (tdFootpathsAt P k S i) := by
  unfold tdFootpathsAt
  split
  · rename_i htd
    refine foldl_inv (SoundSt P bf st k) _ _ _ h ?_
    intro S' v _ h'
    split
    · exact h'
    · have := foldl_inv (fun S'' : State => SoundSt P bf st k S'' ∧ S''.tmp = S'.tmp) (fun S fp => footpathV P k i true S v fp)
        (P.fps i (S'.tmp i v)) S' ⟨h', rfl⟩ (by
          intro S'' fp hfp h''
          refine ⟨footpathV_ok hs hst h''.1 i true v fp ?_, by rw [footpathV_tmp]; exact h''.2⟩
          rw [hs.stayV_td htd, h''.2]
          simpa using hfp)
      exact this.1
  · exact h

theorem endAt_ok {P : VProblem} (hs : SaneV P) {bf : Loc → Int} {st : List (Loc × Int)} (hst : ∀ x ∈ st, P.lo < x.2) {k : Nat} {S : State}
    (him : P.intermodal = true) (h : SoundSt P bf st k S) (i : Loc) : SoundSt P bf st k (endAt P k S i) := by
  have h1 : SoundSt P bf st k (endStatic P k S i) := by
    unfold endStatic
    cases hd : P.endDist i with
    | none => exact h
    | some d =>
      simp only
      have h2 : SoundSt P bf st k (endVia P k S i d) := by
        unfold endVia
        split
        · rename_i hc
          obtain ⟨c1, c2, c3⟩ := hc
          have hst' := hs.stay_nonneg (P.n - 1)
          refine applyEnd_ok h _ ?_
          refine cand_ok hs hst h i (P.n - 1) c2 P.endLoc P.n _ _
            (.lastMile (a1 := S.tmp i (P.n - 1) + P.stay (P.n - 1)) him (by omega) (Or.inl hd)) (fun T hT => ?_)
          have := hT.next c3 (a := S.tmp i (P.n - 1)) (b := S.tmp i (P.n - 1) + P.stay (P.n - 1)) (Int.le_refl _)
          rwa [Nat.sub_add_cancel (by omega)] at this
        · exact h
      split
      · exact h2
      · rename_i hi
        refine applyEnd_ok h2 _ ?_
        exact cand_ok hs hst h i P.n hi P.endLoc P.n _ _ (.lastMile (a1 := S.tmp i P.n) him (Int.le_refl _) (Or.inl hd)) (fun T hT => hT.extend _)
  unfold endAt
  simp only
  split
  · exact h1
  · rename_i hi
    cases hd : P.endTd i (S.tmp i P.n) with
    | none => exact h1
    | some d =>
      simp only
      refine applyEndTd_ok h1 _ ?_
      exact cand_ok hs hst h i P.n hi P.endLoc P.n _ _ (.lastMile (a1 := S.tmp i P.n) him (Int.le_refl _) (Or.inr hd)) (fun T hT => hT.extend _)

theorem scanAll_ok {P : VProblem} (hs : SaneV P) {bf : Loc → Int} {st : List (Loc × Int)} (hst : ∀ x ∈ st, P.lo < x.2) {k : Nat} {S : State}
    (h : SoundSt P bf st k S) (best : Loc → Nat → Int) (tad : Nat → Int) : ScanOk P bf st (k + 1) (scanAll P (k + 1) S best tad) := by
  unfold scanAll
  simp only [Nat.add_sub_cancel]
  apply foldl_inv
  · apply foldl_inv
    · intro l v
      exact ⟨(h.tmp l v).1, fun hl => altV_mono (by omega) ((h.tmp l v).2 hl)⟩
    · intro sc r hr hsc
      rw [List.mem_filter, Bool.and_eq_true] at hr
      exact scanRoute_ok hs hst k r hr.1 hr.2.2 _ _ _ _ (h.round k) _ 0 (by simp) _ (by intro e o tr h; cases h) sc hsc
  · intro sc r hr hsc
    rw [List.mem_filter, Bool.and_eq_true] at hr
    exact scanRt_ok hs hst k r hr.1 hr.2.2 _ _ _ (h.round k) _ 0 (by simp) _ (by intro v h; cases h) sc hsc

theorem roundStep_ok {P : VProblem} (hs : SaneV P) {bf : Loc → Int} {st : List (Loc × Int)} (hst : ∀ x ∈ st, P.lo < x.2) {k : Nat} {S : State}
    (h : SoundSt P bf st k S) : SoundSt P bf st (k + 1) (roundStep P (k + 1) S) := by
  unfold roundStep
  simp only
  split
  · exact ⟨h.round, fun l v => ⟨(h.tmp l v).1, fun hl => altV_mono (by omega) ((h.tmp l v).2 hl)⟩⟩
  · have hsc := scanAll_ok hs hst h (fun i v => min (S.round (k + 1) i v) (S.best i v))
      (tadOfBest P (k + 1) (fun i v => min (S.round (k + 1) i v) (S.best i v)) S.tad)
    have h1 : ∀ S0 : State, S0.round = S.round → S0.tmp = (scanAll P (k + 1) S (fun i v => min (S.round (k + 1) i v) (S.best i v))
      (tadOfBest P (k + 1) (fun i v => min (S.round (k + 1) i v) (S.best i v)) S.tad)).tmp →
        ∀ ls : List Loc, SoundSt P bf st (k + 1) (ls.foldl (transferAt P (k + 1)) S0) :=
      fun S0 e1 e2 ls => have h0 : SoundSt P bf st (k + 1) S0 := ⟨by rw [e1]; exact h.round, by rw [e2]; exact hsc⟩
         foldl_inv _ _ _ _ h0 (fun S' i _ h' => transferAt_ok hs hst h' i)
    apply foldl_inv
    · apply foldl_inv
      · split
        · apply foldl_inv
          · exact (by apply h1 <;> rfl)
          · intro S' i _ h'
            exact endAt_ok hs hst (by assumption) h' i
        · exact (by apply h1 <;> rfl)
      · intro S' i _ h'; exact footpathsAt_ok hs hst h' i
    · intro S' i _ h'; exact tdFootpathsAt_ok hs hst h' i

theorem rounds_ok {P : VProblem} (hs : SaneV P) {bf : Loc → Int} {st : List (Loc × Int)} (hst : ∀ x ∈ st, P.lo < x.2) {S : State}
    (h : SoundSt P bf st 0 S) (n : Nat) : SoundSt P bf st n (rounds P S n) := by
  induction n with
  | zero => exact h
  | succ n ih =>
    unfold rounds
    simp only
    split
    · exact ⟨ih.round, fun l v => ⟨(ih.tmp l v).1, fun hl => altV_mono (by omega) ((ih.tmp l v).2 hl)⟩⟩
    · exact roundStep_ok hs hst ih

theorem runOne_ok {P : VProblem} (hs : SaneV P) {bf : Loc → Int} {st : List (Loc × Int)} (hst : ∀ x ∈ st, P.lo < x.2)
    (hbf : ∀ x ∈ st, stayV P 0 x.1 ≤ bf x.1) {S : State} (n : Nat)
    (h : ∀ k' l v, S.round k' l v ≤ P.hi ∧ (S.round k' l v < P.hi → RdyV P bf st k' l v (S.round k' l v)))
    (q : Start) (hq : ∀ x ∈ q.starts, x ∈ st) (hqhi : ∀ x ∈ q.starts, x.2 ≤ P.hi) :
    SoundSt P bf st n (runOne P n S q) := by
  unfold runOne
  apply rounds_ok hs hst
  have h0 : SoundSt P bf st 0 (nextStart P S) := ⟨h, by intro l v; simp [nextStart]⟩
  have h1 : SoundSt P bf st 0 (q.starts.foldl (addStart P) (nextStart P S)) := by
    apply foldl_inv
    · exact h0
    · intro S' x hx h'
      refine ⟨?_, h'.tmp⟩
      have hr := h'.round 0 x.1 (nextV P 0 x.1)
      apply sound_upd3 h' x.1
      have := hqhi x hx
      constructor
      · omega
      · intro hlt
        by_cases hc : x.2 ≤ S'.round 0 x.1 (nextV P 0 x.1)
        · rw [Int.min_eq_left hc]
          refine ⟨0, _, ⟨Nat.le_refl _, by omega⟩, .start (hq x hx), ?_⟩
          have h0 : Seen P 0 [] := by unfold Seen; rw [List.take_zero]; trivial
          exact h0.stayed (by have := hbf x (hq x hx); omega)
        · rw [Int.min_eq_right (by omega)]; exact hr.2 (by omega)
  exact ⟨h1.round, h1.tmp⟩

theorem runAll_ok {P : VProblem} (hs : SaneV P) {bf : Loc → Int} (n : Nat) (qs : List Start)
    (hlo : ∀ x ∈ allStarts qs, P.lo < x.2 ∧ x.2 ≤ P.hi) (hbf : ∀ x ∈ allStarts qs, stayV P 0 x.1 ≤ bf x.1) (k : Nat) (l : Loc) (v : Nat) :
    (runAll P n qs).round k l v ≤ P.hi ∧
      ((runAll P n qs).round k l v < P.hi → RdyV P bf (allStarts qs) k l v ((runAll P n qs).round k l v)) := by
  unfold runAll
  refine foldl_inv (fun S : State => ∀ k l v, S.round k l v ≤ P.hi ∧ (S.round k l v < P.hi → RdyV P bf (allStarts qs) k l v (S.round k l v)))
    _ _ _ (by intro k' l v; simp [init]) ?_ k l v
  intro S q hq hS
  have hqs : ∀ x ∈ q.starts, x ∈ allStarts qs := by
    intro x hx
    unfold allStarts; rw [List.mem_flatMap]
    exact ⟨q, hq, hx⟩
  exact (runOne_ok hs (fun x hx => (hlo x hx).1) hbf n hS q hqs (fun x hx => (hlo x (hqs x hx)).2)).round

end Nigiri.RaptorVia
