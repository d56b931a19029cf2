import Verif.Spec.Network
/-!
# A small timetable used to show that the hypotheses of the theorems about the search can be met

Locations 0..3, destination 3, bicycles required.  Line A runs twice a day 0 - 1 - 2, line B 1 - 3, line C is
a fast line 0 - 3 of a class that is not allowed, line D 0 - 3 carries no bicycles, a real-time transport runs
2 - 3, and one can walk from 2 to 3 in 40 minutes.
-/

namespace Nigiri.Raptor.Demo

def st (l : Nat) : StopData := ⟨l, true, true, true, false⟩
def days : Nat → Int → Bool := fun _ d => d == 5 || d == 6

def lineA : RouteData := ⟨[st 0, st 1, st 2], 2, fun t s => 600 + 60 * t + 10 * s, fun t s => 602 + 60 * t + 10 * s, days, 3, [[true], []]⟩
def lineB : RouteData := ⟨[st 1, st 3], 2, fun t s => 620 + 60 * t + 80 * s, fun t s => 620 + 60 * t + 80 * s, days, 3, [[true], [true]]⟩
def lineC : RouteData := ⟨[st 0, st 3], 1, fun _ s => 603 + 5 * s, fun _ s => 603 + 5 * s, days, 9, [[true], [true]]⟩
def lineD : RouteData := ⟨[st 0, st 3], 1, fun _ s => 603 + 5 * s, fun _ s => 603 + 5 * s, days, 3, [[false], [true]]⟩
def rt : RtData := ⟨[st 2, st 3], fun s => 640 + 10 * s, fun s => 640 + 10 * s, 3, [[true], []]⟩

def net : Net where
  nLoc := 4
  routes := [lineA, lineB, lineC, lineD]
  rts := [rt]
  base := 5
  wheelchair := false
  claszMask := 255
  required := [true, false]
  transfer := fun _ => 2
  fps := fun l _ => if l = 2 then [(3, 40)] else []
  intermodal := false
  endDist := fun _ => none
  endTd := fun _ _ => none
  endLoc := 9
  isDest := fun l => l == 3
  lb := fun _ => some 0

/-- Two departures from 0: at 10:50 and at 10:00. -/
def qs : List Start := [⟨650, [(0, 650)], 650 + 1440⟩, ⟨600, [(0, 600)], 600 + 1440⟩]

theorem all_routes {p : RouteData → Prop} (h1 : p lineA) (h2 : p lineB) (h3 : p lineC) (h4 : p lineD) : ∀ r ∈ net.routes, p r := by
  intro r hr
  simp only [net, List.mem_cons, List.not_mem_nil, or_false] at hr
  rcases hr with rfl | rfl | rfl | rfl <;> assumption

theorem net_ok : NetOk net where
  times := by
    apply all_routes <;> intro t ht <;> refine ⟨?_, ?_⟩ <;>
      simp only [lineA, lineB, lineC, lineD, List.length_cons, List.length_nil] at * <;> intros <;> omega
  rtTimes := by
    intro r hr
    simp only [net, List.mem_cons, List.not_mem_nil, or_false] at hr
    subst hr
    refine ⟨?_, ?_⟩ <;> simp only [rt, List.length_cons, List.length_nil] <;> intros <;> omega
  flags := by apply all_routes <;> refine ⟨rfl, by decide⟩
  rtFlags := by
    intro r hr
    simp only [net, List.mem_cons, List.not_mem_nil, or_false] at hr
    subst hr
    exact ⟨rfl, by decide⟩
  transfer := by intro l; simp only [net]; omega
  fps := by
    intro l t l' w h
    simp only [net] at h
    split at h <;> simp at h
    omega
  endDist := by intro l w h; cases h
  endTd := by intro l t w h; cases h
  locs := by apply all_routes <;> decide
  rtLocs := by decide
  destLocs := by
    intro l h
    have hl : l = 3 := by simpa [net] using h
    subst hl; decide
  endDest := by intro h; cases h
  endStop := by intro h; cases h
  endFps := by intro h; cases h

theorem net_fifo : NetFifo net where
  aligned := by
    apply all_routes <;> constructor <;> intro t t' h1 h2 s h3 <;> intros <;>
      simp only [lineA, lineB, lineC, lineD, List.length_cons, List.length_nil] at * <;>  omega
  fps := fun l a a' l' w _ h _ hm => ⟨w, hm, by omega⟩
  endTd := by intro l a a' w _ _ _ h; cases h

theorem range_query : RangeQuery .fwd net qs where
  desc := by unfold qs; simp
  each := by
    intro q hq
    simp only [qs, List.mem_cons, List.not_mem_nil, or_false] at hq
    rcases hq with rfl | rfl <;> simp only [Dir.lo, Dir.hi, List.mem_singleton, forall_eq] <;> decide

end Nigiri.Raptor.Demo
