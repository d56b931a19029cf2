import Verif.Proofs.NetTame
import Verif.Proofs.RaptorOpt
/-!
# Journeys of the timetable and continuations of the search problem
-/

namespace Nigiri.Raptor

/-- Destinations as a set. -/
def DestOf (N : Net) : Loc → Prop := fun l => N.isDest l = true

theorem rideDir_stops {d : Dir} {N : Net} (hN : NetOk N) (hi : N.intermodal = true) {l : Loc} {t : Int} {m : Loc} {a : Int}
    (h : RideDir d N l t m a) : l ≠ N.endLoc ∧ m ≠ N.endLoc := by
  have hv : ∀ {stops : List StopData} {clasz : Nat} {sf : List (List Bool)} {dep arr : Nat → Int} {x : Loc} {td : Int} {y : Loc} {ta : Int},
      (∀ s ∈ stops, s.loc ≠ N.endLoc) → VehicleRide N stops clasz sf dep arr x td y ta → x ≠ N.endLoc ∧ y ≠ N.endLoc := by
    rintro stops clasz sf dep arr x td y ta hs ⟨-, i, j, si, sj, -, h1, h2, rfl, rfl, -⟩
    exact ⟨hs si (List.mem_of_getElem? h1), hs sj (List.mem_of_getElem? h2)⟩
  have hn : ∀ {x : Loc} {td : Int} {y : Loc} {ta : Int}, NetRide N x td y ta → x ≠ N.endLoc ∧ y ≠ N.endLoc := by
    rintro x td y ta (⟨r, hr, t, D, -, -, h⟩ | ⟨r, hr, h⟩)
    · exact hv ((hN.endStop hi).1 r hr) h
    · exact hv ((hN.endStop hi).2 r hr) h
  cases d with
  | fwd => obtain ⟨_, _, h⟩ := h; exact hn h
  | bwd => obtain ⟨_, _, h⟩ := h; exact (hn h).symm

theorem journey_start {d : Dir} {N : Net} {n : Nat} {l : Loc} {t A : Int} (h : Journey d N n l t A) : ∃ m a, RideDir d N l t m a := by
  cases h with
  | last h _ => exact ⟨_, _, h⟩
  | more h _ _ => exact ⟨_, _, h⟩

/-- `Change` of the search problem in terms of the timetable. -/
theorem change_cases {d : Dir} {N : Net} {m : Loc} {a : Int} {l' : Loc} {t' : Int} (h : Change (mkProblem d N) m a l' t') :
    (l' = m ∧ N.intermodal = false ∧ N.isDest m = true ∧ t' = a) ∨ Walk N m a l' t' ∨
    (N.intermodal = true ∧ l' = N.endLoc ∧ ∃ w, (N.endDist m = some w ∨ N.endTd m a = some w) ∧ t' = a + w) := by
  rcases h with ⟨h1, h2⟩ | ⟨w, h1, h2⟩ | ⟨h1, h2, w, h3, h4⟩
  · by_cases hc : N.intermodal = false ∧ N.isDest m = true
    · left
      have : t' = a + (if N.intermodal = false ∧ N.isDest m = true then 0 else N.transfer m) := h2
      rw [if_pos hc] at this
      exact ⟨h1, hc.1, hc.2, by omega⟩
    · right; left
      have : t' = a + (if N.intermodal = false ∧ N.isDest m = true then 0 else N.transfer m) := h2
      rw [if_neg hc] at this
      exact Or.inl ⟨h1, this⟩
  · right; left; exact Or.inr ⟨w, h1, h2⟩
  · right; right; exact ⟨h1, h2, w, h3, h4⟩

/-- A walk is a change, unless the transfer time is waived. -/
theorem walk_change {d : Dir} {N : Net} {m : Loc} {a : Int} {l' : Loc} {t' : Int} (h : Walk N m a l' t') :
    Change (mkProblem d N) m a l' t' ∨ (l' = m ∧ N.intermodal = false ∧ N.isDest m = true ∧ t' = a + N.transfer m ∧
      Change (mkProblem d N) m a m a) := by
  rcases h with ⟨h1, h2⟩ | ⟨w, h1, h2⟩
  · by_cases hc : N.intermodal = false ∧ N.isDest m = true
    · right
      refine ⟨h1, hc.1, hc.2, h2, Or.inl ⟨rfl, ?_⟩⟩
      show a = a + (if N.intermodal = false ∧ N.isDest m = true then 0 else N.transfer m)
      rw [if_pos hc]; omega
    · left
      refine Or.inl ⟨h1, ?_⟩
      show t' = a + (if N.intermodal = false ∧ N.isDest m = true then 0 else N.transfer m)
      rw [if_neg hc]; exact h2
  · left; exact Or.inr (Or.inl ⟨w, h1, h2⟩)

theorem arrive_change {d : Dir} {N : Net} (hN : NetOk N) {m : Loc} {a A : Int} (h : Arrive N m a A) :
    ∃ l', DestOf N l' ∧ Change (mkProblem d N) m a l' A := by
  unfold Arrive at h
  split at h
  · rename_i hi
    obtain ⟨w, h1, h2⟩ := h
    exact ⟨N.endLoc, (hN.endDest hi _).mpr rfl, Or.inr (Or.inr ⟨hi, rfl, w, h1, h2⟩)⟩
  · rename_i hi
    have hi' : N.intermodal = false := by simpa using hi
    rcases h with ⟨h1, h2⟩ | ⟨l', w, h1, h2, h3⟩
    · refine ⟨m, h1, Or.inl ⟨rfl, ?_⟩⟩
      show A = a + (if N.intermodal = false ∧ N.isDest m = true then 0 else N.transfer m)
      rw [if_pos ⟨hi', h1⟩]; omega
    · exact ⟨l', h1, Or.inr (Or.inl ⟨w, h2, h3⟩)⟩

/-- After a change a destination is reached, or one rides on. -/
theorem change_cont {d : Dir} {N : Net} (hN : NetOk N) {m : Loc} {a : Int} {l' : Loc} {t' A : Int}
    (hm : N.intermodal = true → m ≠ N.endLoc) (hat : a ≤ t') (htA : t' ≤ A)
    (hc : Change (mkProblem d N) m a l' t') {n : Nat}
    (h : (n = 0 ∧ DestOf N l' ∧ A = t') ∨ ∃ n' A', 1 ≤ n' ∧ n' ≤ n ∧ A' ≤ A ∧ Journey d N n' l' t' A') :
    ∃ A', A' ≤ A ∧ (Arrive N m a A' ∨ ∃ n' l' t', 1 ≤ n' ∧ n' ≤ n ∧ Walk N m a l' t' ∧ Journey d N n' l' t' A') := by
  rcases change_cases hc with ⟨rfl, h1, h2, rfl⟩ | hw | ⟨h1, rfl, w, h2, rfl⟩
  · refine ⟨t', htA, Or.inl ?_⟩
    unfold Arrive
    rw [if_neg (by simp [h1])]
    exact Or.inl ⟨h2, rfl⟩
  · rcases h with ⟨-, h2, h3⟩ | ⟨n', A', h1, h2, h3, h4⟩
    · by_cases hi : N.intermodal = true
      · exfalso
        have he := (hN.endDest hi _).mp h2
        rcases hw with ⟨g1, g2⟩ | ⟨w, g1, g2⟩
        · exact hm hi (by rw [← g1]; exact he)
        · rw [he] at g1; exact hN.endFps hi _ _ _ g1
      · have hi' : N.intermodal = false := by simpa using hi
        rcases hw with ⟨g1, g2⟩ | ⟨w, g1, g2⟩
        · subst g1
          refine ⟨a, by omega, Or.inl ?_⟩
          unfold Arrive; rw [if_neg hi]
          exact Or.inl ⟨h2, rfl⟩
        · refine ⟨A, Int.le_refl _, Or.inl ?_⟩
          unfold Arrive; rw [if_neg hi]
          exact Or.inr ⟨l', w, h2, g1, by omega⟩
    · exact ⟨A', h3, Or.inr ⟨n', l', t', h1, h2, hw, h4⟩⟩
  · rcases h with ⟨-, _, h3⟩ | ⟨n', A', _, _, _, h4⟩
    · refine ⟨A, Int.le_refl _, Or.inl ?_⟩
      unfold Arrive; rw [if_pos h1]
      exact ⟨w, h2, h3⟩
    · exfalso
      obtain ⟨m', a', hr⟩ := journey_start h4
      exact (rideDir_stops hN h1 hr).1 rfl

/-- Continuations of the search problem are journeys (that possibly arrive earlier). -/
theorem cont_journey {d : Dir} {N : Net} (hN : NetOk N) {n : Nat} {l : Loc} {t A : Int} (h : Cont (mkProblem d N) (DestOf N) n l t A) :
    (n = 0 ∧ DestOf N l ∧ A = t) ∨ ∃ n' A', 1 ≤ n' ∧ n' ≤ n ∧ A' ≤ A ∧ Journey d N n' l t A' := by
  have hs := sane_of_ok d hN
  induction h with
  | here hd => exact Or.inl ⟨rfl, hd, rfl⟩
  | @ride n l t m a l' t' A hr hc hcont ih =>
    right
    have hr' := (ride_iff hN d _ _ _ _).mp hr
    obtain ⟨A', h1, h2⟩ := change_cont hN (fun hi => (rideDir_stops hN hi hr').2) (change_le hs hc) (cont_le hs hcont) hc ih
    rcases h2 with h2 | ⟨n', l'', t'', g1, g2, g3, g4⟩
    · exact ⟨1, A', by omega, by omega, h1, .last hr' h2⟩
    · exact ⟨n' + 1, A', by omega, by omega, h1, .more hr' g3 g4⟩

/-- Journeys are continuations of the search problem (that possibly arrive earlier). -/
theorem journey_cont {d : Dir} {N : Net} (hN : NetOk N) {n : Nat} {l : Loc} {t A : Int} (h : Journey d N n l t A) :
    ∃ n' A', 1 ≤ n' ∧ n' ≤ n ∧ A' ≤ A ∧ Cont (mkProblem d N) (DestOf N) n' l t A' := by
  have hs := sane_of_ok d hN
  induction h with
  | @last l t m a A hr ha =>
    obtain ⟨l', h1, h2⟩ := arrive_change (d := d) hN ha
    exact ⟨1, A, by omega, by omega, Int.le_refl _, .ride ((ride_iff hN d _ _ _ _).mpr hr) h2 (.here h1)⟩
  | @more n l t m a l' t' A hr hw _ ih =>
    obtain ⟨n', A', h1, h2, h3, h4⟩ := ih
    have hr' := (ride_iff hN d _ _ _ _).mpr hr
    rcases walk_change (d := d) hw with hc | ⟨rfl, g1, g2, g3, g4⟩
    · exact ⟨n' + 1, A', by omega, by omega, h3, .ride hr' hc h4⟩
    · refine ⟨1, a, by omega, by omega, ?_, .ride hr' g4 (.here g2)⟩
      have := cont_le hs h4
      have := hN.transfer l'
      omega

theorem onward_cont {d : Dir} {N : Net} (hN : NetOk N) {m : Loc} {a A : Int} (h : Onward d N m a A) :
    ∃ n l' t' A', A' ≤ A ∧ Change (mkProblem d N) m a l' t' ∧ Cont (mkProblem d N) (DestOf N) n l' t' A' := by
  have hs := sane_of_ok d hN
  rcases h with h | ⟨n, l', t', hw, hj⟩
  · obtain ⟨l', h1, h2⟩ := arrive_change (d := d) hN h
    exact ⟨0, l', A, A, Int.le_refl _, h2, .here h1⟩
  · obtain ⟨n', A', h1, h2, h3, h4⟩ := journey_cont hN hj
    rcases walk_change (d := d) hw with hc | ⟨rfl, g1, g2, g3, g4⟩
    · exact ⟨n', l', t', A', h3, hc, h4⟩
    · refine ⟨0, l', a, a, ?_, g4, .here g2⟩
      have := cont_le hs h4
      have := hN.transfer l'
      omega

/-- What has been reached can be continued. -/
theorem ready_cont {P : Problem} {D : Loc → Prop} {st : List (Loc × Int)} {k : Nat} {l : Loc} {t : Int} (h : Ready P st k l t) :
    ∀ {n : Nat} {A : Int}, Cont P D n l t A → ∃ x ∈ st, Cont P D (k + n) x.1 x.2 A := by
  induction h with
  | start hx => intro n A hc; exact ⟨_, hx, by rw [Nat.zero_add]; exact hc⟩
  | @ride k _ _ _ _ _ _ _ hr hch ih =>
    intro n A hc
    obtain ⟨x, hx, h⟩ := ih (.ride hr hch hc)
    exact ⟨x, hx, by rw [show k + 1 + n = k + (n + 1) by omega]; exact h⟩

theorem ready_reach {d : Dir} {N : Net} (hN : NetOk N) {st : List (Loc × Int)} {k : Nat} {l : Loc} {t : Int}
    (h : Ready (mkProblem d N) st k l t) : Reach d N st k l t := by
  induction h with
  | start hx => exact .start hx
  | ride _ hr hch ih =>
    have hr' := (ride_iff hN d _ _ _ _).mp hr
    rcases change_cases hch with ⟨rfl, h1, h2, rfl⟩ | hw | ⟨h1, rfl, w, h2, rfl⟩
    · exact .dest ih hr' h1 h2
    · exact .walk ih hr' hw
    · exact .lastMile ih hr' h1 h2

theorem searchStops_pair {d : Dir} {w : Bool} {required : List Bool} {flags : List FlagData} {stops : List StopData} {i j : Nat} {si sj : Stop}
    (hij : i < j) (hi : (searchStops d w required flags stops)[i]? = some si) (hj : (searchStops d w required flags stops)[j]? = some sj) :
    ∃ (i' j' : Nat) (si' sj' : StopData), d.before i' j' ∧ stops[i']? = some si' ∧ stops[j']? = some sj' ∧
      si.loc = si'.loc ∧ sj.loc = sj'.loc := by
  obtain ⟨hil, si', h1, rfl⟩ := (searchStops_get _ _ _ _ _ _ _).mp hi
  obtain ⟨hjl, sj', h2, rfl⟩ := (searchStops_get _ _ _ _ _ _ _).mp hj
  refine ⟨_, _, si', sj', ?_, h1, h2, rfl, rfl⟩
  cases d <;> simp only [stopIdx, Dir.before] <;> omega

theorem admissible_of_lbOk {d : Dir} {N : Net} (hN : NetOk N) {T0 W : Int} (h : LbOk d N T0 W) :
    Admissible (mkProblem d N) (DestOf N) T0 W := by
  have hs := sane_of_ok d hN
  have hon : ∀ n m a l' t' A, (N.intermodal = true → m ≠ N.endLoc) → Change (mkProblem d N) m a l' t' →
      Cont (mkProblem d N) (DestOf N) n l' t' A → ∃ A', A' ≤ A ∧ Onward d N m a A' := by
    intro n m a l' t' A hne hch hc
    obtain ⟨A', g1, g2⟩ := change_cont hN hne (change_le hs hch) (cont_le hs hc) hch (cont_journey hN hc)
    exact ⟨A', g1, g2.imp id (fun ⟨n', l', t', _, _, a, b⟩ => ⟨n', l', t', a, b⟩)⟩
  refine ⟨h.nonneg, ?_, ?_, ?_, ?_⟩
  · intro n l t A hne ht hc hA
    rcases cont_journey hN hc with ⟨rfl, h1, rfl⟩ | ⟨n', A', h1, h2, h3, h4⟩
    · have hi : N.intermodal = false := by
        cases hi : N.intermodal with
        | false => rfl
        | true => exact absurd ((hN.endDest hi _).mp h1) (hne hi)
      exact ⟨0, h.dest hi l h1, by omega⟩
    · obtain ⟨x, g1, g2⟩ := h.journey n' l t A' ht h4 (by omega)
      exact ⟨x, g1, by omega⟩
  · intro n m a l' t' A hne ha hch hc hA
    obtain ⟨A', g1, g2⟩ := hon n m a l' t' A hne hch hc
    obtain ⟨x, e1, e2⟩ := h.onward m a A' ha g2 (by omega)
    exact ⟨x, e1, by omega⟩
  · intro r hr i j si sj hij hi hj n a l' t' A ha hch hc hA
    obtain ⟨r0, hr0, rfl⟩ := mkProblem_mem_routes hr
    obtain ⟨i', j', si', sj', g1, g2, g3, g4, g5⟩ := searchStops_pair hij hi hj
    rw [g4]; rw [g5] at hch
    obtain ⟨A', e1, e2⟩ := hon n sj'.loc a l' t' A (fun hi => (hN.endStop hi).1 r0 hr0 sj' (List.mem_of_getElem? g3)) hch hc
    exact h.route r0 hr0 i' j' si' sj' g1 g2 g3 a A' ha e2 (by omega)
  · intro r hr i j si sj hij hi hj n a l' t' A ha hch hc hA
    obtain ⟨r0, hr0, rfl⟩ := mkProblem_mem_rts hr
    obtain ⟨i', j', si', sj', g1, g2, g3, g4, g5⟩ := searchStops_pair hij hi hj
    rw [g4]; rw [g5] at hch
    obtain ⟨A', e1, e2⟩ := hon n sj'.loc a l' t' A (fun hi => (hN.endStop hi).2 r0 hr0 sj' (List.mem_of_getElem? g3)) hch hc
    exact h.rt r0 hr0 i' j' si' sj' g1 g2 g3 a A' ha e2 (by omega)

theorem mem_results (P : Problem) (n : Nat) (S : State) (l : Loc) (k : Nat) (A : Int) :
    (l, k, A) ∈ results P n S ↔ l < P.nLoc ∧ P.isDest l = true ∧ 1 ≤ k ∧ k ≤ n ∧ A = S.round k l ∧ S.round k l ≠ P.hi := by
  unfold results marked
  rw [List.mem_flatMap]
  constructor
  · rintro ⟨l', h1, h2⟩
    rw [List.mem_map] at h2
    obtain ⟨k', h3, h4⟩ := h2
    rw [List.mem_filter] at h1 h3
    simp at h1 h3 h4
    obtain ⟨rfl, rfl, rfl⟩ := h4
    exact ⟨h1.1, h1.2, by omega, by omega, rfl, h3.2⟩
  · rintro ⟨h1, h2, h3, h4, rfl, h6⟩
    refine ⟨l, by rw [List.mem_filter]; simp [h1, h2], ?_⟩
    rw [List.mem_map]
    refine ⟨k, ?_, rfl⟩
    rw [List.mem_filter]
    simp; omega

end Nigiri.Raptor
