import Verif.Model.TdNet
import Verif.Props.TdFootpath
import Verif.Props.Raptor
/-!
# Property C135: searching with time-dependent walks
-/

namespace Nigiri.TdNet

open Nigiri.Raptor
open Nigiri.TdFootpath (Usable Sorted fwd bwd forEachDuration)

/-- Specification: whoever sets out later (after `t0`) does not arrive earlier. -/
def WaitingNeverPays (t0 : Int) (c : List TdEntry) : Prop :=
  ∀ e dep e' dep', t0 < dep → Usable c e dep → Usable c e' dep' → dep ≤ dep' → dep + e.duration ≤ dep' + e'.duration

/-- Specification: who wants to walk can do so, if at all within five days, within 511 minutes (including
the time until the path opens). -/
def Prompt (d : Dir) (f : Walks) (c : List TdEntry) : Prop := match d with
  | .fwd => ∀ t, f.zero - 32768 < t → ∀ e dep, t ≤ dep → dep ≤ t + 7200 → Usable c e dep →
      ∃ e' dep', t ≤ dep' ∧ Usable c e' dep' ∧ dep' + e'.duration ≤ t + 511
  | .bwd => ∀ t, t < f.zero + 32768 → ∀ e dep, dep + e.duration ≤ t → t ≤ dep + e.duration + 7200 → Usable c e dep →
      ∃ e' dep', dep' + e'.duration ≤ t ∧ Usable c e' dep' ∧ t - 511 ≤ dep'

/-- A proper schedule; for the forward search waiting must not pay. -/
structure GoodSchedule (d : Dir) (f : Walks) (c : List TdEntry) : Prop where
  sorted : Sorted c
  nonneg : ∀ e ∈ c, 0 ≤ e.duration
  wait : d = .fwd → WaitingNeverPays (f.zero - 32768) c

/-- All schedules are proper; those of footpaths are prompt. -/
structure Good (d : Dir) (f : Walks) : Prop where
  walk : ∀ l, f.hasTd l = true → ∀ g ∈ ranges (f.td l), GoodSchedule d f g.2 ∧ Prompt d f g.2
  last : ∀ l c, f.tdEnd l = some c → GoodSchedule d f c

theorem usable_nonneg {c : List TdEntry} (h : ∀ e ∈ c, 0 ≤ e.duration) {e : TdEntry} {dep : Int} (hu : Usable c e dep) : 0 ≤ e.duration := by
  obtain ⟨pre, post, h1, _⟩ := hu
  exact h e (by rw [h1]; simp)

theorem fwd_some {c : List TdEntry} (hs : Sorted c) {t w : Int} (h : tdDuration .fwd t c = some w) :
    ∃ e dep, t ≤ dep ∧ dep ≤ t + 7200 ∧ Usable c e dep ∧ w = dep + e.duration - t ∧ ∀ e' dep', t ≤ dep' → Usable c e' dep' → dep ≤ dep' := by
  have := TdFootpath.C09_forward c hs t
  unfold tdDuration at h
  simp only at h
  cases hf : fwd t c with
  | none => rw [hf] at h; cases h
  | some x =>
    obtain ⟨w', e⟩ := x
    rw [hf] at h this
    simp only [Option.map_some, Option.some.injEq] at h
    subst h
    obtain ⟨dep, h1, h2, h3, h4, h5⟩ := this
    exact ⟨e, dep, h1, h2, h3, h4, h5⟩

theorem bwd_some {c : List TdEntry} (hs : Sorted c) {t w : Int} (h : tdDuration .bwd t c = some w) :
    ∃ e dep, Usable c e dep ∧ dep + e.duration ≤ t ∧ t ≤ dep + e.duration + 7200 ∧ w = t - dep ∧
      ∀ e' dep', Usable c e' dep' → dep' + e'.duration ≤ t → dep' ≤ dep := by
  have := TdFootpath.C09_backward c hs t
  unfold tdDuration at h
  simp only at h
  cases hf : bwd t c with
  | none => rw [hf] at h; cases h
  | some x =>
    obtain ⟨w', e⟩ := x
    rw [hf] at h this
    simp only [Option.map_some, Option.some.injEq] at h
    subst h
    obtain ⟨dep, h1, h2, h3, h4, h5⟩ := this
    exact ⟨e, dep, h1, h2, by omega, h4, h5⟩

theorem fwd_exists {c : List TdEntry} (hs : Sorted c) {t : Int} {e : TdEntry} {dep : Int} (h1 : t ≤ dep) (h2 : dep ≤ t + 7200)
    (hu : Usable c e dep) : ∃ w, tdDuration .fwd t c = some w := by
  have := TdFootpath.C09_forward c hs t
  unfold tdDuration
  simp only
  cases hf : fwd t c with
  | none =>
    rw [hf] at this
    have := this e dep h1 hu
    omega
  | some x => exact ⟨x.1, rfl⟩

theorem bwd_exists {c : List TdEntry} (hs : Sorted c) (hd : ∀ e ∈ c, 0 ≤ e.duration) {t : Int} {e : TdEntry} {dep : Int}
    (h1 : dep + e.duration ≤ t) (h2 : t ≤ dep + 7200) (hu : Usable c e dep) : ∃ w, tdDuration .bwd t c = some w := by
  have := TdFootpath.C09_backward c hs t
  unfold tdDuration
  simp only
  cases hf : bwd t c with
  | none =>
    rw [hf] at this
    obtain ⟨e2, dep2, g1, g2, g3⟩ := this e dep hu h1
    have := usable_nonneg hd g1
    omega
  | some x => exact ⟨x.1, rfl⟩

/-- Setting out earlier does not end later. -/
theorem duration_fifo {d : Dir} {f : Walks} {c : List TdEntry} (hc : GoodSchedule d f c) {a a' w : Int} (hlo : -32768 < a') (hle : a' ≤ a)
    (hw : a + w ≤ a' + 7200) (h : tdDuration d (toUnix d f a) c = some w) :
    ∃ w', tdDuration d (toUnix d f a') c = some w' ∧ a' + w' ≤ a + w := by
  cases d with
  | fwd =>
    simp only [toUnix, Dir.sgn] at h ⊢
    obtain ⟨e, dep, h1, h2, h3, h4, h5⟩ := fwd_some hc.sorted h
    have hn := usable_nonneg hc.nonneg h3
    obtain ⟨w', hw'⟩ := fwd_exists hc.sorted (t := f.zero + 1 * a') (by omega) (by omega) h3
    refine ⟨w', hw', ?_⟩
    obtain ⟨e', dep', g1, g2, g3, g4, g5⟩ := fwd_some hc.sorted hw'
    have := g5 e dep (by omega) h3
    have := hc.wait rfl e' dep' e dep (by omega) g3 h3 this
    omega
  | bwd =>
    simp only [toUnix, Dir.sgn] at h ⊢
    obtain ⟨e, dep, h1, h2, h3, h4, h5⟩ := bwd_some hc.sorted h
    obtain ⟨w', hw'⟩ := bwd_exists hc.sorted hc.nonneg (t := f.zero + -1 * a') (e := e) (dep := dep) (by omega) (by omega) h1
    refine ⟨w', hw', ?_⟩
    obtain ⟨e', dep', g1, g2, g3, g4, g5⟩ := bwd_some hc.sorted hw'
    have := g5 e dep h1 (by omega)
    omega

theorem duration_prompt {d : Dir} {f : Walks} {c : List TdEntry} (hc : GoodSchedule d f c) (hp : Prompt d f c) {a w : Int} (hlo : -32768 < a)
    (h : tdDuration d (toUnix d f a) c = some w) : w ≤ 511 := by
  cases d with
  | fwd =>
    simp only [toUnix, Dir.sgn] at h
    obtain ⟨e, dep, h1, h2, h3, h4, h5⟩ := fwd_some hc.sorted h
    obtain ⟨e', dep', g1, g2, g3⟩ := hp (f.zero + 1 * a) (by omega) e dep h1 h2 h3
    have := h5 e' dep' g1 g2
    have := hc.wait rfl e dep e' dep' (by omega) h3 g2 this
    omega
  | bwd =>
    simp only [toUnix, Dir.sgn] at h
    obtain ⟨e, dep, h1, h2, h3, h4, h5⟩ := bwd_some hc.sorted h
    obtain ⟨e', dep', g1, g2, g3⟩ := hp (f.zero + -1 * a) (by omega) e dep h2 h3 h1
    have := h5 e' dep' g2 g1
    omega

theorem forEach_eq (d : Dir) (t : Int) (c : List TdEntry) :
    forEachDuration (isFwd d) t c = (tdDuration d t c).map fun w => if w > 511 then 511 else w := by
  cases d <;> rfl

theorem mem_fps {d : Dir} {f : Walks} {l : Loc} {a : Int} (ht : f.hasTd l = true) {x : Loc × Int} :
    x ∈ fps d f l a ↔ ∃ g ∈ ranges (f.td l), g.1 = x.1 ∧ ∃ w, tdDuration d (toUnix d f a) g.2 = some w ∧ x.2 = if w > 511 then 511 else w := by
  unfold fps
  rw [if_pos ht, List.mem_filterMap]
  constructor
  · rintro ⟨g, hg, h⟩
    refine ⟨g, hg, ?_⟩
    rw [forEach_eq, Option.map_map, Option.map_eq_some_iff] at h
    obtain ⟨w, hw, h⟩ := h
    simp only [Function.comp] at h
    subst h
    exact ⟨rfl, w, hw, rfl⟩
  · rintro ⟨g, hg, h1, w, hw, h2⟩
    refine ⟨g, hg, ?_⟩
    rw [forEach_eq, Option.map_map, hw]
    cases x
    simp only at h1 h2
    subst h1; subst h2
    rfl

/-- C135: setting out earlier for a walk never ends later (whatever kind of walk it is), for walks over at
most five days. -/
theorem C135_fifo (d : Dir) (f : Walks) (hg : Good d f) :
    (∀ l a a' l' w, -32768 < a' → a' ≤ a → a + w ≤ a' + 7200 → (l', w) ∈ fps d f l a → ∃ w', (l', w') ∈ fps d f l a' ∧ a' + w' ≤ a + w) ∧
    (∀ l a a' w, -32768 < a' → a' ≤ a → a + w ≤ a' + 7200 → endTd d f l a = some w → ∃ w', endTd d f l a' = some w' ∧ a' + w' ≤ a + w) := by
  constructor
  · intro l a a' l' w hlo hle hw h
    by_cases ht : f.hasTd l = true
    · obtain ⟨g, hgm, h1, v, hv, h2⟩ := (mem_fps ht).mp h
      obtain ⟨hs, hp⟩ := hg.walk l ht g hgm
      have hv5 := duration_prompt hs hp (by omega) hv
      rw [if_neg (by omega)] at h2
      simp only at h2
      subst h2
      obtain ⟨w', hw', hle'⟩ := duration_fifo hs hlo hle hw hv
      refine ⟨if w' > 511 then 511 else w', (mem_fps ht).mpr ⟨g, hgm, h1, w', hw', rfl⟩, ?_⟩
      split <;> omega
    · unfold fps at h ⊢
      rw [if_neg ht] at h ⊢
      exact ⟨w, h, by omega⟩
  · intro l a a' w hlo hle hw h
    unfold endTd at h ⊢
    cases hc : f.tdEnd l with
    | none => rw [hc] at h; cases h
    | some c =>
      rw [hc] at h
      exact duration_fifo (hg.last l c hc) hlo hle hw h

/-- C135: an ordinary schedule, e.g. of a lift: the path always takes the same time when it is open. -/
theorem C135_constant (t0 D : Int) (c : List TdEntry) (h : ∀ e ∈ c, e.duration ≠ 511 → e.duration = D) : WaitingNeverPays t0 c := by
  have hu : ∀ e dep, Usable c e dep → e.duration = D := by
    rintro e dep ⟨pre, post, h1, h2, _⟩
    exact h e (by rw [h1]; simp) h2
  intro e dep e' dep' _ h1 h2 h3
  rw [hu e dep h1, hu e' dep' h2]
  omega

/-- C135: with such schedules the search (with any number of time-dependent walks and last miles) offers
exactly what is possible. -/
theorem C135_search (d : Dir) (N : Net) (f : Walks) (hN : NetOk N) (ha : ∀ r ∈ N.routes, Aligned r) (hfps : N.fps = fps d f)
    (hend : N.endTd = endTd d f) (hg : Good d f) (n : Nat) (qs : List Start) (hq : RangeQuery d N qs)
    (hlb : ∀ q ∈ qs, LbOk d N q.time q.horizon) (j : Nat) (hj : j ≤ n) (A : Int) (hA : ∀ q ∈ qs, A ≤ q.horizon) :
    Offered d N n qs j A ↔ Possible d N qs j A := by
  obtain ⟨h1, h2⟩ := C135_fifo d f hg
  exact C20_exact d N hN ⟨ha, by rw [hfps]; exact h1, by rw [hend]; exact h2⟩ n qs hq hlb j hj A hA

/-! ### A lift -/

/-- A path that is open from `v0`, closed from `v1` and open again from `v2`. -/
def lift (v0 v1 v2 D : Int) : List TdEntry := [⟨v0, D⟩, ⟨v1, 511⟩, ⟨v2, D⟩]

theorem lift_usable (v0 v1 v2 D : Int) (h01 : v0 < v1) (h12 : v1 < v2) (hD : D ≠ 511) (e : TdEntry) (dep : Int) :
    Usable (lift v0 v1 v2 D) e dep ↔ (e = ⟨v0, D⟩ ∧ v0 ≤ dep ∧ dep < v1) ∨ (e = ⟨v2, D⟩ ∧ v2 ≤ dep) := by
  unfold Usable lift
  constructor
  · rintro ⟨pre, post, h1, h2, h3, h4⟩
    rcases pre with _ | ⟨p, _ | ⟨q, _ | ⟨r, pre⟩⟩⟩
    · simp only [List.nil_append, List.cons.injEq] at h1
      obtain ⟨rfl, rfl⟩ := h1
      have := h4 ⟨v1, 511⟩ (by simp)
      exact Or.inl ⟨rfl, h3, this⟩
    · simp only [List.cons_append, List.nil_append, List.cons.injEq] at h1
      obtain ⟨_, rfl, _⟩ := h1
      exact absurd rfl h2
    · simp only [List.cons_append, List.nil_append, List.cons.injEq] at h1
      obtain ⟨_, _, rfl, _⟩ := h1
      exact Or.inr ⟨rfl, h3⟩
    · simp at h1
  · rintro (⟨rfl, h1, h2⟩ | ⟨rfl, h1⟩)
    · refine ⟨[], [⟨v1, 511⟩, ⟨v2, D⟩], rfl, hD, h1, ?_⟩
      intro n hn
      simp only [List.mem_cons, List.not_mem_nil, or_false] at hn
      rcases hn with rfl | rfl <;> simp only <;> omega
    · exact ⟨[⟨v0, D⟩, ⟨v1, 511⟩], [], rfl, hD, h1, by simp⟩

/-- The schedule of a lift that is closed for a while is as required, in both directions. -/
theorem lift_good (d : Dir) (f : Walks) (v0 v1 v2 D : Int) (h0 : v0 ≤ f.zero - 40000) (h01 : v0 < v1) (h12 : v1 < v2) (hD0 : 0 ≤ D) (hD : D < 511)
    (hclosed : v2 - v1 + D ≤ 510) : GoodSchedule d f (lift v0 v1 v2 D) ∧ Prompt d f (lift v0 v1 v2 D) := by
  constructor
  · refine ⟨?_, ?_, fun _ => C135_constant _ D _ ?_⟩
    · unfold lift Sorted
      simp only [List.pairwise_cons, List.mem_cons, List.not_mem_nil, or_false]
      refine ⟨?_, ?_, ?_, .nil⟩
      · rintro a (rfl | rfl) <;> simp only <;> omega
      · rintro a rfl; exact h12
      · intro a h; exact absurd h (by simp)
    · unfold lift
      intro e he
      simp only [List.mem_cons, List.not_mem_nil, or_false] at he
      rcases he with rfl | rfl | rfl <;> simp only <;> omega
    · unfold lift
      intro e he hne
      simp only [List.mem_cons, List.not_mem_nil, or_false] at he
      rcases he with rfl | rfl | rfl
      · rfl
      · exact absurd rfl hne
      · rfl
  · cases d with
    | fwd =>
      intro t ht e dep h1 h2 hu
      rcases (lift_usable v0 v1 v2 D h01 h12 (by omega) e dep).mp hu with ⟨rfl, h3, h4⟩ | ⟨rfl, h3⟩
      · exact ⟨⟨v0, D⟩, t, by omega, (lift_usable v0 v1 v2 D h01 h12 (by omega) _ _).mpr (Or.inl ⟨rfl, by omega, by omega⟩), by simp only; omega⟩
      · by_cases h4 : t < v1
        · exact ⟨⟨v0, D⟩, t, by omega, (lift_usable v0 v1 v2 D h01 h12 (by omega) _ _).mpr (Or.inl ⟨rfl, by omega, by omega⟩), by simp only; omega⟩
        · exact ⟨⟨v2, D⟩, max t v2, by omega, (lift_usable v0 v1 v2 D h01 h12 (by omega) _ _).mpr (Or.inr ⟨rfl, by omega⟩), by simp only; omega⟩
    | bwd =>
      intro t ht e dep h1 h2 hu
      by_cases h4 : v2 ≤ t - D
      · exact ⟨⟨v2, D⟩, t - D, by simp only; omega, (lift_usable v0 v1 v2 D h01 h12 (by omega) _ _).mpr (Or.inr ⟨rfl, by omega⟩), by omega⟩
      · rcases (lift_usable v0 v1 v2 D h01 h12 (by omega) e dep).mp hu with ⟨rfl, h3, h5⟩ | ⟨rfl, h3⟩
        · simp only at h1
          exact ⟨⟨v0, D⟩, min (t - D) (v1 - 1), by simp only; omega,
            (lift_usable v0 v1 v2 D h01 h12 (by omega) _ _).mpr (Or.inl ⟨rfl, by omega, by omega⟩), by omega⟩
        · simp only at h1
          omega

/-- A location with a lift, closed from minute 600 to 700. -/
def liftWalks : Walks where
  static := fun _ => []
  hasTd := fun l => l == 1
  td := fun l => if l = 1 then (lift (-50000) 600 700 5).map fun e => (2, e) else []
  tdEnd := fun l => if l = 3 then some (lift (-50000) 600 700 5) else none
  zero := 0

example (d : Dir) : Good d liftWalks := by
  have h := lift_good d liftWalks (-50000) 600 700 5 (by decide) (by decide) (by decide) (by decide) (by decide) (by decide)
  constructor
  · intro l hl g hg
    have : l = 1 := by simpa [liftWalks] using hl
    subst this
    have hr : ranges (liftWalks.td 1) = [(2, lift (-50000) 600 700 5)] := by decide
    rw [hr, List.mem_singleton] at hg
    subst hg
    exact h
  · intro l c hc
    unfold liftWalks at hc
    simp only at hc
    split at hc
    · cases hc; exact h.1
    · cases hc

example : fps .fwd liftWalks 1 650 = [(2, 55)] ∧ fps .fwd liftWalks 1 500 = [(2, 5)] ∧ fps .bwd liftWalks 1 (-650) = [(2, 51)] := by decide

/-! ### A detour -/

namespace Detour
open Nigiri.Raptor.Demo (st)

/-- Minute 600 is the opening of the lift; before, a detour of 15 minutes is used instead of 5. -/
def walks : Walks where
  static := fun _ => []
  hasTd := fun l => l == 1
  td := fun l => if l = 1 then [(2, ⟨-50000, 15⟩), (2, ⟨600, 5⟩)] else []
  tdEnd := fun _ => none
  zero := 0

/-- From 0 to 1, arriving at 595 (fast) and 600 (slow), and from 2 to 3 at 607. -/
def fast : RouteData := ⟨[st 0, st 1], 1, fun _ s => 500 + 95 * s, fun _ s => 500 + 95 * s, fun _ _ => true, 3, []⟩
def slow : RouteData := ⟨[st 0, st 1], 1, fun _ s => 500 + 100 * s, fun _ s => 500 + 100 * s, fun _ _ => true, 3, []⟩
def onward : RouteData := ⟨[st 2, st 3], 1, fun _ s => 607 + 13 * s, fun _ s => 607 + 13 * s, fun _ _ => true, 3, []⟩

def net (d : Dir) : Net where
  nLoc := 4
  routes := [fast, slow, onward]
  rts := []
  base := 5
  wheelchair := false
  claszMask := 255
  required := []
  transfer := fun _ => 2
  fps := fps d walks
  intermodal := false
  endDist := fun _ => none
  endTd := endTd d walks
  endLoc := 9
  isDest := fun l => l == 3
  lb := fun _ => some 0

end Detour

/-- C135 fails in the forward direction if a shorter path opens later: the passenger who takes the slow train at 500
walks from 600 to 605, takes the train at 607 and arrives at 620; but the search only knows the earliest
arrival at the stop, 595, from which the walk ends at 610.  It reports the train of the next day (2060). -/
theorem C135_detour_counterexample :
    Journey .fwd (Detour.net .fwd) 2 0 500 620 ∧
    reported .fwd (Detour.net .fwd) 8 [⟨500, [(0, 500)], 500 + 2880⟩] = [(3, 2, 2060)] := by
  constructor
  · refine .more (m := 1) (a := 600) (l' := 2) (t' := 605) ⟨500, by decide, Or.inl ⟨Detour.slow, by simp [Detour.net], 0, 5, by decide, rfl, by decide, 0, 1,
      Raptor.Demo.st 0, Raptor.Demo.st 1, by decide, rfl, rfl, rfl, rfl, by unfold MayBoard; decide, by unfold MayAlight; decide, ?_, by decide, by decide⟩⟩ ?_ ?_
    · intro s _ _ f sec h1
      simp [Detour.net] at h1
    · exact Or.inr ⟨5, by decide, by decide⟩
    · refine .last (m := 3) (a := 620) ⟨607, by decide, Or.inl ⟨Detour.onward, by simp [Detour.net], 0, 5, by decide, rfl, by decide, 0, 1,
        Raptor.Demo.st 2, Raptor.Demo.st 3, by decide, rfl, rfl, rfl, rfl, by unfold MayBoard; decide, by unfold MayAlight; decide, ?_, by decide, by decide⟩⟩ ?_
      · intro s _ _ f sec h1
        simp [Detour.net] at h1
      · unfold Arrive; rw [if_neg (by decide)]; exact Or.inl ⟨by decide, rfl⟩
  · decide +kernel

end Nigiri.TdNet
