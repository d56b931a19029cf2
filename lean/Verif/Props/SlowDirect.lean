import Verif.Props.Direct
/-!
# Property C66: direct connections added to the results

`slowDirect d iv tooSlow out` are the journeys that `enrich_with_slow_direct` adds for the interval `iv`, where `out` is the
sequence of direct connections from the begin of the interval (forward) or back from its end (backward); `tooSlow` is the
comparison with `fastest_slow_direct_factor_`.
-/

namespace Nigiri.Direct
open Nigiri.Raptor Nigiri.Lb Nigiri.StartTimes

/-- The side of the journey that has to be in the interval: departure (forward), arrival (backward). -/
def InInterval (d : Dir) (iv : Interval) (dep arr : Int) : Prop := match d with
  | .fwd => iv.from' ≤ dep ∧ dep < iv.to'
  | .bwd => iv.from' ≤ arr ∧ arr < iv.to'

theorem check_interval {d : Dir} {iv : Interval} {legs : List Leg} : iv.contains (tCheck d legs) = true ↔ InInterval d iv (depOf legs) (arrOf legs) := by
  cases d <;> unfold tCheck InInterval Interval.contains <;> rw [Bool.and_eq_true] <;>
    exact and_congr decide_eq_true_iff decide_eq_true_iff

theorem slowLoop_mem {d : Dir} {iv : Interval} : ∀ {out : List (List Leg)} {j : Jny}, j ∈ slowLoop d iv out →
    ∃ legs ∈ out, j = mkJny d legs ∧ iv.contains (tCheck d legs) = true
  | [], j, h => by cases h
  | legs :: rest, j, h => by
    unfold slowLoop at h
    split at h
    · next hc =>
      rcases List.mem_cons.mp h with rfl | h
      · exact ⟨legs, by simp, rfl, hc⟩
      · obtain ⟨l, h1, h2⟩ := slowLoop_mem h
        exact ⟨l, by simp [h1], h2⟩
    · split at h
      · cases h
      · obtain ⟨l, h1, h2⟩ := slowLoop_mem h
        exact ⟨l, by simp [h1], h2⟩

theorem slowLoop_complete {d : Dir} {iv : Interval} : ∀ {out : List (List Leg)}, (out.Pairwise fun x y => key d x ≤ key d y) →
    (∀ x ∈ out, ∀ y ∈ out, iv.contains (tCheck d x) = true → stopsAt d iv (tCheck d y) = true → key d x < key d y) →
    ∀ x ∈ out, iv.contains (tCheck d x) = true → mkJny d x ∈ slowLoop d iv out
  | [], _, _, x, hx, _ => by cases hx
  | y :: rest, hs, hb, x, hx, hc => by
    have hr := slowLoop_complete (d := d) (iv := iv) (List.Pairwise.of_cons hs) (fun a ha b hbm => hb a (by simp [ha]) b (by simp [hbm]))
    unfold slowLoop
    rcases List.mem_cons.mp hx with rfl | hxr
    · rw [if_pos hc]; simp
    · split
      · exact List.mem_cons_of_mem _ (hr x hxr hc)
      · split
        · next hst =>
          have h1 := hb x hx y (by simp) hc hst
          have h2 := List.rel_of_pairwise_cons hs hxr
          omega
        · exact hr x hxr hc

theorem shortest_le (js : List Jny) (b : Int) : (∀ j ∈ js, js.foldl (fun m j => min m j.travelTime) b ≤ j.travelTime) ∧
    js.foldl (fun m j => min m j.travelTime) b ≤ b := by
  induction js generalizing b with
  | nil => exact ⟨by simp, Int.le_refl _⟩
  | cons x xs ih =>
    rw [List.foldl_cons]
    obtain ⟨h1, h2⟩ := ih (min b x.travelTime)
    refine ⟨?_, by omega⟩
    intro j hj
    rcases List.mem_cons.mp hj with rfl | hj
    · omega
    · exact h1 j hj

theorem shortest_attained (js : List Jny) (b : Int) : js.foldl (fun m j => min m j.travelTime) b = b ∨
    ∃ j ∈ js, js.foldl (fun m j => min m j.travelTime) b = j.travelTime := by
  induction js generalizing b with
  | nil => exact Or.inl rfl
  | cons x xs ih =>
    rw [List.foldl_cons]
    rcases ih (min b x.travelTime) with h | ⟨j, hj, h⟩
    · rw [h]
      by_cases hc : b ≤ x.travelTime
      · exact Or.inl (by omega)
      · exact Or.inr ⟨x, by simp, by omega⟩
    · exact Or.inr ⟨j, by simp [hj], h⟩

/-- C66: every added journey is a direct connection without transfers whose departure (forward) / arrival (backward) is in
the interval; begin and end of the journey are its departure and arrival in the direction of the search. -/
theorem C66_sound (d : Dir) (q : Query) (hq : q.Ok) (iv : Interval) (tooSlow : Option (Int → Int → Bool)) (out : List (List Leg))
    (h : Direct d q (threshold d iv) out) (x : Jny) (hx : x ∈ slowDirect d iv tooSlow out) :
    ∃ v i j dep arr, DirectTrip q v i j x.legs dep arr ∧ InInterval d iv dep arr ∧ x.transfers = 0 ∧ (match d with
      | .fwd => x.start = dep ∧ x.dest = arr
      | .bwd => x.start = arr ∧ x.dest = dep) := by
  have hm : x ∈ slowLoop d iv out := by
    unfold slowDirect slowFilter at hx
    split at hx
    · exact hx
    · exact (List.mem_filter.mp hx).1
  obtain ⟨legs, h1, rfl, h3⟩ := slowLoop_mem hm
  obtain ⟨v, i, j, h4, -⟩ := C63_sound d q hq _ out h legs h1
  refine ⟨v, i, j, depOf legs, arrOf legs, ?_, check_interval.mp h3, ?_, ?_⟩
  · cases d <;> exact h4
  · cases d <;> rfl
  · cases d <;> exact ⟨rfl, rfl⟩

/-- C66: with a factor, no added journey is too slow compared to the fastest one in the interval that was found (among
those considered, i.e. whatever was not removed by this comparison). -/
theorem C66_factor (d : Dir) (iv : Interval) (f : Int → Int → Bool) (out : List (List Leg)) (x : Jny) (hx : x ∈ slowDirect d iv (some f) out)
    (hmax : x.travelTime ≤ 32767) :
    ∃ y ∈ slowDirect d iv none out, (∀ z ∈ slowDirect d iv none out, y.travelTime ≤ z.travelTime) ∧ f x.travelTime y.travelTime = false := by
  unfold slowDirect slowFilter at *
  dsimp only at *
  rw [List.mem_filter] at hx
  obtain ⟨h1, h2⟩ := hx
  have hle := shortest_le (slowLoop d iv out) 32767
  rcases shortest_attained (slowLoop d iv out) 32767 with hb | ⟨y, hy, he⟩
  · refine ⟨x, h1, ?_, ?_⟩
    · intro z hz
      have h3 := hle.1 z hz
      rw [hb] at h3
      omega
    · have h3 := hle.1 x h1
      rw [hb] at h3
      have : x.travelTime = 32767 := by omega
      rw [hb] at h2
      rw [this] at h2 ⊢
      simpa using h2
  · refine ⟨y, hy, ?_, ?_⟩
    · intro z hz
      have := hle.1 z hz
      omega
    · rw [he] at h2
      simpa using h2

/-- C66: without a factor, every direct connection that the search for direct connections yields in the interval is
added, if none of them arrives (forward) later than or together with one that departs after the interval; without
time-dependent walks and overtaking. -/
theorem C66_complete_partial (d : Dir) (q : Query) (hs : q.Static) (ha : ∀ r ∈ q.N.routes, Aligned r) (iv : Interval) (out : List (List Leg))
    (h : Direct d q (threshold d iv) out)
    (hb : ∀ x ∈ out, ∀ y ∈ out, InInterval d iv (depOf x) (arrOf x) → match d with
      | .fwd => iv.to' ≤ depOf y → arrOf x < arrOf y
      | .bwd => arrOf y < iv.from' → depOf y < depOf x)
    (legs : List Leg) (hl : legs ∈ out) (hin : InInterval d iv (depOf legs) (arrOf legs)) :
    ∃ x ∈ slowDirect d iv none out, x.legs = legs := by
  refine ⟨mkJny d legs, ?_, by cases d <;> rfl⟩
  unfold slowDirect slowFilter
  refine slowLoop_complete (drain_sorted h (gens_sorted (fifo_static hs d) ha)) ?_ legs hl (check_interval.mpr hin)
  intro x hx y hy h1 h2
  have := hb x hx y hy (check_interval.mp h1)
  cases d with
  | fwd =>
    have h2 : iv.to' ≤ depOf y := of_decide_eq_true h2
    exact this h2
  | bwd =>
    have h2 : arrOf y < iv.from' := of_decide_eq_true h2
    have := this h2
    show - depOf x < - depOf y
    omega

/-- The journeys added are never marked as reconstructed. -/
theorem slow_unmarked {d : Dir} {iv : Interval} {f : Option (Int → Int → Bool)} {out : List (List Leg)} {x : Jny} (h : x ∈ slowDirect d iv f out) :
    x.reconstructed = false := by
  have hm : x ∈ slowLoop d iv out := by
    unfold slowDirect slowFilter at h
    split at h
    · exact h
    · exact (List.mem_filter.mp h).1
  obtain ⟨legs, -, rfl, -⟩ := slowLoop_mem hm
  cases d <;> rfl

/-- C66 does not hold of the normal search: all added journeys are removed again before the results are returned, the
setting has no effect. -/
theorem C66_no_effect (d : Dir) (iv : Interval) (f : Option (Int → Int → Bool)) (out : List (List Leg)) (done : List Jny) (x : Jny) :
    x ∈ searchEnd true d iv f out done ↔ x ∈ searchEnd false d iv f out done := by
  unfold searchEnd enrich
  simp only [Bool.false_eq_true, if_false, if_true, List.mem_filter, List.mem_eraseDups, List.mem_append]
  constructor
  · rintro ⟨h1 | h1, h2⟩
    · exact ⟨h1, h2⟩
    · rw [slow_unmarked h1] at h2; cases h2
  · rintro ⟨h1, h2⟩; exact ⟨Or.inl h1, h2⟩

/-- C66: what `pong` returns: the results and the added journeys. -/
theorem C66_added (d : Dir) (iv : Interval) (f : Option (Int → Int → Bool)) (out : List (List Leg)) (results : List Jny) (x : Jny) :
    x ∈ enrich true d iv f out results ↔ x ∈ results ∨ x ∈ slowDirect d iv f out := by
  unfold enrich
  simp only [if_true, List.mem_eraseDups, List.mem_append]

/-! ## Examples -/

namespace Demo
open Nigiri.Raptor.Demo

def iv : Interval := ⟨600, 700⟩

theorem q_slow_direct : Direct .fwd q (threshold .fwd iv) [jn 0 0, jn 1 0, jn 0 1, jn 1 1] := by
  unfold Direct
  rw [show gens .fwd q (threshold .fwd iv) = [[jn 0 0, jn 1 0, jn 0 1, jn 1 1]] by decide +kernel]
  exact drain_single _ _

/-- Both journeys of the day are added. -/
theorem q_slow : slowDirect .fwd iv none [jn 0 0, jn 1 0, jn 0 1, jn 1 1] = [⟨jn 0 0, 602, 660, 0, false⟩, ⟨jn 1 0, 662, 720, 0, false⟩] := by decide

example : ∃ x ∈ slowDirect .fwd iv none [jn 0 0, jn 1 0, jn 0 1, jn 1 1], x.legs = jn 1 0 :=
  C66_complete_partial .fwd q q_static net_fifo.aligned iv _ q_slow_direct (by
    intro x hx y hy
    simp only [List.mem_cons, List.not_mem_nil, or_false] at hx hy
    rcases hx with rfl | rfl | rfl | rfl <;> rcases hy with rfl | rfl | rfl | rfl <;> unfold InInterval <;> decide) (jn 1 0) (by simp) (by unfold InInterval; decide)

/-- The results of `pong` contain the same journey twice if it was found by the search as well: they differ in the mark
only. -/
theorem C66_duplicate : enrich true .fwd ⟨600, 650⟩ none [jn 0 0] [⟨jn 0 0, 602, 660, 0, true⟩] =
    [⟨jn 0 0, 602, 660, 0, true⟩, ⟨jn 0 0, 602, 660, 0, false⟩] := by decide

/-- A slow line from 10:00 to 15:00 and a fast one from 11:40 to 12:00. -/
def slowLine : RouteData := ⟨[st 0, st 3], 1, fun _ s => 600 + 300 * s, fun _ s => 600 + 300 * s, fun _ d => d == 5, 3, [[true], []]⟩
def fastLine : RouteData := ⟨[st 0, st 3], 1, fun _ s => 700 + 20 * s, fun _ s => 700 + 20 * s, fun _ d => d == 5, 3, [[true], []]⟩

def sq : Query := { q with N := { net with routes := [slowLine, fastLine], rts := [] }, fps := fun _ _ => [], dayHi := 5 }

def slowJ : List Leg := [⟨0, 0, 600, 600, .foot 0⟩, ⟨0, 3, 600, 900, .ride (.trip 0 0 5) 0 1⟩, ⟨3, 3, 900, 900, .foot 0⟩]
def fastJ : List Leg := [⟨0, 0, 700, 700, .foot 0⟩, ⟨0, 3, 700, 720, .ride (.trip 1 0 5) 0 1⟩, ⟨3, 3, 720, 720, .foot 0⟩]

/-- C66 does not hold in general: the slow connection at 10:00 is not added for the interval from 10:00 to 11:00, because
the connection that departs after the interval arrives earlier and ends the enumeration. -/
theorem C66_lost : Direct .fwd sq (threshold .fwd ⟨600, 660⟩) [fastJ, slowJ] ∧ InInterval .fwd ⟨600, 660⟩ (depOf slowJ) (arrOf slowJ) ∧
    slowDirect .fwd ⟨600, 660⟩ none [fastJ, slowJ] = [] := by
  refine ⟨?_, by unfold InInterval; decide, by decide⟩
  unfold Direct
  rw [show gens .fwd sq (threshold .fwd ⟨600, 660⟩) = [[slowJ], [fastJ]] by decide +kernel]
  refine .step (i := 1) (h := fastJ) (tl := []) rfl ?_ (.step (i := 0) (h := slowJ) (tl := []) rfl ?_ (.done ?_))
  · decide
  · decide
  · decide

end Demo
end Nigiri.Direct
