import Verif.Proofs.NetVia
import Verif.Props.RaptorDemo
/-!
# Property C45: via stops

The specification (`Visit`, `InOrder`, `ViaReach`) is in `Verif.Spec.Via`.  `searchVia d N vias hasTd n qs` is the
state of the search after all start times of the range query.
-/

namespace Nigiri.RaptorVia
open Nigiri.Raptor

/-- The state after a range query with via stops. -/
def searchVia (d : Dir) (N : Net) (vias : List ViaStop) (hasTd : Loc → Bool) (n : Nat) (qs : List Start) : State :=
  runAll (mkVProblem d N vias hasTd) n qs

/-- The reported arrivals: (destination, number of rides, time). -/
def reportedVia (d : Dir) (N : Net) (vias : List ViaStop) (hasTd : Loc → Bool) (n : Nat) (qs : List Start) : List (Loc × Nat × Int) :=
  results (mkVProblem d N vias hasTd) n (searchVia d N vias hasTd n qs)

/-- At start locations that count as the first via stop the stay has been spent before the start event. -/
def StartStay (vias : List ViaStop) (before : Loc → Int) (starts : List (Loc × Int)) : Prop :=
  ∀ x ∈ starts, 0 ≤ before x.1 ∧ ∀ via, vias.head? = some via → via.isVia x.1 = true → via.stay ≤ before x.1

theorem startStay_stayV {d : Dir} {N : Net} {vias : List ViaStop} {hasTd : Loc → Bool} {bf : Loc → Int} {st : List (Loc × Int)}
    (h : StartStay vias bf st) : ∀ x ∈ st, stayV (mkVProblem d N vias hasTd) 0 x.1 ≤ bf x.1 := by
  intro x hx
  obtain ⟨h1, h2⟩ := h x hx
  unfold stayV
  split
  · rename_i hv
    obtain ⟨s, e1, e2, e3⟩ := isVia_some hv
    rw [e3]
    refine h2 s ?_ e2
    rw [List.head?_eq_getElem?]; exact e1
  · exact h1

/-- C45: a label that counts `v` via stops is the time of a journey with at most as many rides as its round that has visited the
first `v` via stops in order, staying at each at least the requested time. -/
theorem C45_labels (d : Dir) (N : Net) (hN : NetOk N) (vias : List ViaStop) (hasTd : Loc → Bool) (hv : ViaOk N vias hasTd) (n : Nat)
    (qs : List Start) (hlo : ∀ x ∈ allStarts qs, d.lo < x.2 ∧ x.2 ≤ d.hi) (before : Loc → Int) (hb : StartStay vias before (allStarts qs))
    (k : Nat) (l : Loc) (v : Nat) (h : (searchVia d N vias hasTd n qs).round k l v < d.hi) :
    ∃ j T, j ≤ k ∧ (1 ≤ k → 1 ≤ j) ∧ ViaReach d N before (allStarts qs) j l ((searchVia d N vias hasTd n qs).round k l v) T ∧
      InOrder (vias.take v) T := by
  obtain ⟨j, T, hj, hr, hs⟩ := (runAll_ok (saneV_of_ok d hN hv) n qs hlo (startStay_stayV hb) k l v).2 h
  exact ⟨j, T, hj.1, hj.2, viaReach_of hN hr, hs⟩

/-- C45: every reported journey visits all via stops in the given order, staying at each at least the requested time. -/
theorem C45_reported (d : Dir) (N : Net) (hN : NetOk N) (vias : List ViaStop) (hasTd : Loc → Bool) (hv : ViaOk N vias hasTd) (n : Nat)
    (qs : List Start) (hlo : ∀ x ∈ allStarts qs, d.lo < x.2 ∧ x.2 ≤ d.hi) (before : Loc → Int) (hb : StartStay vias before (allStarts qs))
    (l : Loc) (k : Nat) (A : Int) (h : (l, k, A) ∈ reportedVia d N vias hasTd n qs) :
    N.isDest l = true ∧ ∃ j T, 1 ≤ j ∧ j ≤ k ∧ ViaReach d N before (allStarts qs) j l A T ∧ InOrder vias T := by
  unfold reportedVia results at h
  rw [List.mem_flatMap] at h
  obtain ⟨l', hl', h⟩ := h
  rw [List.mem_map] at h
  obtain ⟨k', hk', he⟩ := h
  simp only [Prod.mk.injEq] at he
  obtain ⟨rfl, rfl, rfl⟩ := he
  rw [List.mem_filter] at hk'
  have hk1 : 1 ≤ k' := by have := hk'.1; rw [List.mem_range'_1] at this; exact this.1
  have hd : N.isDest l' = true := by
    unfold marked at hl'
    exact (List.mem_filter.mp hl').2
  have hle := (runAll_ok (saneV_of_ok d hN hv) n qs hlo (startStay_stayV hb) k' l' (mkVProblem d N vias hasTd).n).1
  have hne : (searchVia d N vias hasTd n qs).round k' l' (mkVProblem d N vias hasTd).n ≠ d.hi := by
    have := hk'.2
    simp only [ne_eq, decide_eq_true_eq] at this
    exact this
  have hlt : (searchVia d N vias hasTd n qs).round k' l' (mkVProblem d N vias hasTd).n < d.hi := by
    have : (searchVia d N vias hasTd n qs).round k' l' (mkVProblem d N vias hasTd).n ≤ d.hi := hle
    omega
  obtain ⟨j, T, h1, h2, h3, h4⟩ := C45_labels d N hN vias hasTd hv n qs hlo before hb k' l' _ hlt
  refine ⟨hd, j, T, h2 hk1, h1, h3, ?_⟩
  have hn : (mkVProblem d N vias hasTd).n = vias.length := rfl
  rwa [hn, List.take_length] at h4

/-! A concrete case: the network of `Verif.Props.RaptorDemo` with the via stops 1 (no stay, passed on line A) and 2 (stay of 19
minutes). -/

namespace Demo
def vias : List ViaStop := [⟨fun l => l == 1, 0⟩, ⟨fun l => l == 2, 19⟩]
def noTd : Loc → Bool := fun _ => false

theorem via_ok : ViaOk Raptor.Demo.net vias noTd where
  stay := by decide
  static := by intro l _ t; rfl
  tdStay := by intro l h; cases h

theorem start_stay : StartStay vias (fun _ => 0) (allStarts Raptor.Demo.qs) := by
  intro x hx
  simp only [allStarts, Raptor.Demo.qs, List.flatMap_cons, List.flatMap_nil, List.append_nil, List.cons_append, List.nil_append,
    List.mem_cons, List.not_mem_nil, or_false] at hx
  rcases hx with rfl | rfl <;> refine ⟨by decide, fun via hv h => ?_⟩ <;> cases hv <;> cases h

example : reportedVia .fwd Raptor.Demo.net vias noTd 8 Raptor.Demo.qs = [(3, 1, 679)] := by decide +kernel

/-- The real-time transport leaves 20 minutes after the arrival at 620; with the transfer time of 2 minutes it can be reached after a
stay of 18 minutes. -/
example : reportedVia .fwd Raptor.Demo.net [⟨fun l => l == 1, 0⟩, ⟨fun l => l == 2, 18⟩] noTd 8 Raptor.Demo.qs =
    [(3, 1, 678), (3, 2, 650)] := by decide +kernel

/-- In the other order there is no journey. -/
example : reportedVia .fwd Raptor.Demo.net vias.reverse noTd 8 Raptor.Demo.qs = [] := by decide +kernel

example : ∃ j T, 1 ≤ j ∧ j ≤ 1 ∧ ViaReach .fwd Raptor.Demo.net (fun _ => 0) (allStarts Raptor.Demo.qs) j 3 679 T ∧ InOrder vias T :=
  (C45_reported .fwd Raptor.Demo.net Raptor.Demo.net_ok vias noTd via_ok 8 Raptor.Demo.qs (by decide) _ start_stay 3 1 679 (by decide +kernel)).2
end Demo

/-! ## Why the conditions are needed -/

theorem inOrder_mem {via : ViaStop} {T : List Presence} (h : InOrder [via] T) : ∃ p ∈ T, Visit via p := by
  induction T with
  | nil => exact absurd h (by simp [InOrder])
  | cons p ps ih =>
    rcases h with ⟨h, _⟩ | h
    · exact ⟨p, by simp, h⟩
    · obtain ⟨q, h1, h2⟩ := ih h; exact ⟨q, by simp [h1], h2⟩

namespace Bad
/-- One vehicle from 0 to 1. -/
def line : RouteData := ⟨[Raptor.Demo.st 0, Raptor.Demo.st 1], 1, fun _ s => 600 + 10 * s, fun _ s => 600 + 10 * s, fun _ d => d == 5, 3, []⟩

/-- From 1 one can walk to 2 in 5 minutes, but only until 620. -/
def net (dest : Loc) (td : Bool) : Net where
  nLoc := 3
  routes := [line]
  rts := []
  base := 5
  wheelchair := false
  claszMask := 255
  required := []
  transfer := fun _ => 2
  fps := fun l t => if td = true ∧ l = 1 ∧ t ≤ 620 then [(2, 5)] else []
  intermodal := false
  endDist := fun _ => none
  endTd := fun _ _ => none
  endLoc := 9
  isDest := fun l => l == dest
  lb := fun _ => some 0

def qs : List Start := [⟨600, [(0, 600)], 2000⟩]

theorem net_ok (dest : Loc) (hd : dest < 3) (td : Bool) : NetOk (net dest td) where
  times := by
    intro r hr t ht
    simp only [net, List.mem_cons, List.not_mem_nil, or_false] at hr
    subst hr
    refine ⟨?_, ?_⟩ <;> simp only [line, List.length_cons, List.length_nil] <;> intros <;> omega
  rtTimes := by intro r hr; cases hr
  flags := by
    intro r hr
    simp only [net, List.mem_cons, List.not_mem_nil, or_false] at hr
    subst hr
    exact ⟨rfl, by decide⟩
  rtFlags := by intro r hr; cases hr
  transfer := by intro l; simp only [net]; omega
  fps := by
    intro l t l' w h
    simp only [net] at h
    split at h <;> simp at h
    omega
  endDist := by intro l w h; cases h
  endTd := by intro l t w h; cases h
  locs := by
    intro r hr
    simp only [net, List.mem_cons, List.not_mem_nil, or_false] at hr
    subst hr
    intro s hs
    simp only [line, List.mem_cons, List.not_mem_nil, or_false] at hs
    rcases hs with rfl | rfl <;> simp [net, Raptor.Demo.st]
  rtLocs := by intro r hr; cases hr
  destLocs := by
    intro l h
    have hl : l = dest := by simpa [net] using h
    subst hl; exact hd
  endDest := by intro h; cases h
  endStop := by intro h; cases h
  endFps := by intro h; cases h

theorem ride (dest : Loc) (td : Bool) {l : Loc} {t : Int} {m : Loc} {a : Int} {mid : List Presence} (h : RideVia .fwd (net dest td) l t m a mid) :
    l = 0 ∧ m = 1 ∧ a = 610 ∧ mid = [] := by
  obtain ⟨dep, h1, h2 | ⟨r, hr, h2⟩⟩ := h
  · obtain ⟨r, hr, tr, day, hn, hday, hm, i, j, si, sj, hij, hi, hj, e1, e2, h3, h4, h5, h6, h7, h8⟩ := h2
    simp only [net, List.mem_cons, List.not_mem_nil, or_false] at hr
    subst hr
    have hjl : j < 2 := (List.getElem?_eq_some_iff.mp hj).1
    have h0 : i = 0 := by omega
    have h1 : j = 1 := by omega
    subst h0; subst h1
    have hday' : day = 5 := by simpa [line] using hday
    subst hday'
    simp only [line, List.getElem?_cons_zero, Option.some.injEq, List.getElem?_cons_succ] at hi hj
    subst hi; subst hj
    exact ⟨e1.symm, e2.symm, by rw [h7]; rfl, by rw [h8]; rfl⟩
  · cases hr

/-- What can be reached: the start, location 1, or location 2 on foot from 1 leaving by 620. -/
theorem reach (dest : Loc) (td : Bool) {k : Nat} {l : Loc} {t : Int} {T : List Presence}
    (h : ViaReach .fwd (net dest td) (fun _ => 0) (allStarts qs) k l t T) :
    (l = 0 ∧ T = [⟨0, 600, 600⟩]) ∨ (l = 1 ∧ T = [⟨0, 600, 600⟩, ⟨1, 610, 610⟩, ⟨1, 610, t⟩]) ∨
      (l = 2 ∧ ∃ a1, a1 ≤ 620 ∧ T = [⟨0, 600, 600⟩, ⟨1, 610, 610⟩, ⟨1, 610, a1⟩, ⟨2, a1 + 5, t⟩]) := by
  induction h with
  | start h =>
    have := by simpa [allStarts, qs] using h
    obtain ⟨rfl, rfl⟩ := this
    exact Or.inl ⟨rfl, rfl⟩
  | change _ hr _ ih =>
    obtain ⟨rfl, rfl, rfl, rfl⟩ := ride _ _ hr
    rcases ih with ⟨_, rfl⟩ | ⟨h, _⟩ | ⟨h, _⟩
    · exact Or.inr (Or.inl ⟨rfl, rfl⟩)
    · cases h
    · cases h
  | dest _ hr _ _ _ ih =>
    obtain ⟨rfl, rfl, rfl, rfl⟩ := ride _ _ hr
    rcases ih with ⟨_, rfl⟩ | ⟨h, _⟩ | ⟨h, _⟩
    · exact Or.inr (Or.inl ⟨rfl, rfl⟩)
    · cases h
    · cases h
  | walk _ hr _ hfp _ ih =>
    obtain ⟨rfl, rfl, rfl, rfl⟩ := ride _ _ hr
    simp only [net] at hfp
    split at hfp
    · rename_i hc
      simp only [List.mem_cons, Prod.mk.injEq, List.not_mem_nil, or_false] at hfp
      obtain ⟨rfl, rfl⟩ := hfp
      rcases ih with ⟨_, rfl⟩ | ⟨h, _⟩ | ⟨h, _⟩
      · exact Or.inr (Or.inr ⟨rfl, _, hc.2.2, rfl⟩)
      · cases h
      · cases h
    · cases hfp
  | lastMile _ _ h _ _ _ => cases h

/-- The first via stop is 0 and requires half an hour. -/
def startVia : List ViaStop := [⟨fun l => l == 0, 30⟩]
/-- The via stop is 1 and requires half an hour. -/
def tdVia : List ViaStop := [⟨fun l => l == 1, 30⟩]

example : ViaOk (net 1 false) startVia (fun _ => false) where
  stay := by decide
  static := by intro l _ t; simp [net]
  tdStay := by intro l h; cases h
end Bad

/-- C45: the condition on the start is needed.  The start event counts as a visit of the first via stop even if the stay was not
added to the start time (the stay is added only at the exact location of the via stop and only to fixed start offsets,
start_times.cc:258-261, whereas the search counts equivalent locations, raptor.h:195-198): a journey without the stay is reported. -/
theorem C45_start_counterexample :
    (1, 1, 610) ∈ reportedVia .fwd (Bad.net 1 false) Bad.startVia (fun _ => false) 8 Bad.qs ∧
    ¬ ∃ j T A, A ≤ 610 ∧ ViaReach .fwd (Bad.net 1 false) (fun _ => 0) (allStarts Bad.qs) j 1 A T ∧ InOrder Bad.startVia T := by
  refine ⟨by decide +kernel, ?_⟩
  rintro ⟨j, T, A, _, h, hv⟩
  obtain ⟨p, hp, h1, h2⟩ := inOrder_mem hv
  have h1 : p.loc = 0 := by simpa using h1
  simp only at h2
  rcases Bad.reach 1 false h with ⟨hl, _⟩ | ⟨_, rfl⟩ | ⟨hl, _⟩
  · cases hl
  · simp only [List.mem_cons, List.not_mem_nil, or_false] at hp
    rcases hp with rfl | rfl | rfl <;> simp at h1 h2
  · cases hl

/-- C45: the condition on time dependent footpaths is needed.  A time dependent footpath from a via stop is evaluated at the arrival,
before the stay (raptor.h:893-905): a journey over a footpath that is closed after the stay is reported. -/
theorem C45_td_counterexample :
    (2, 1, 645) ∈ reportedVia .fwd (Bad.net 2 true) Bad.tdVia (fun l => l == 1) 8 Bad.qs ∧
    ¬ ∃ j T A, ViaReach .fwd (Bad.net 2 true) (fun _ => 0) (allStarts Bad.qs) j 2 A T ∧ InOrder Bad.tdVia T := by
  refine ⟨by decide +kernel, ?_⟩
  rintro ⟨j, T, A, h, hv⟩
  obtain ⟨p, hp, h1, h2⟩ := inOrder_mem hv
  have h1 : p.loc = 1 := by simpa using h1
  simp only at h2
  rcases Bad.reach 2 true h with ⟨hl, _⟩ | ⟨hl, _⟩ | ⟨_, a1, ha, rfl⟩
  · cases hl
  · cases hl
  · simp only [List.mem_cons, List.not_mem_nil, or_false] at hp
    rcases hp with rfl | rfl | rfl | rfl <;> simp at h1 h2 <;> omega

end Nigiri.RaptorVia
