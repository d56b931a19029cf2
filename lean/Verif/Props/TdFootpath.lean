import Verif.Model.TdFootpath
/-!
# Property C09: time-dependent footpaths
-/

namespace Nigiri.TdFootpath

/-- Specification: `Usable c e dep` - with the schedule `c` one may start walking at minute `dep`
using entry `e`: the entry is not "closed" (duration 511), it is already valid at `dep`, and no
later entry has replaced it by then. -/
def Usable (c : List TdEntry) (e : TdEntry) (dep : Int) : Prop :=
  ∃ pre post, c = pre ++ e :: post ∧ e.duration ≠ 511 ∧ e.validFrom ≤ dep ∧
    ∀ n ∈ post, dep < n.validFrom

/-- Schedules are sorted by begin of validity, without two entries for the same minute. -/
def Sorted (c : List TdEntry) : Prop := c.Pairwise (fun a b => a.validFrom < b.validFrom)

private theorem usable_cons {a : TdEntry} {c : List TdEntry} {e : TdEntry} {dep : Int} :
    Usable (a :: c) e dep ↔
      (e = a ∧ a.duration ≠ 511 ∧ a.validFrom ≤ dep ∧ ∀ n ∈ c, dep < n.validFrom) ∨ Usable c e dep := by
  constructor
  · rintro ⟨pre, post, h1, h2, h3, h4⟩
    cases pre with
    | nil => simp at h1; obtain ⟨rfl, rfl⟩ := h1; exact Or.inl ⟨rfl, h2, h3, h4⟩
    | cons p pre => simp at h1; obtain ⟨rfl, rfl⟩ := h1; exact Or.inr ⟨pre, post, rfl, h2, h3, h4⟩
  · rintro (⟨rfl, h1, h2, h3⟩ | ⟨pre, post, rfl, h2, h3, h4⟩)
    · exact ⟨[], c, rfl, h1, h2, h3⟩
    · exact ⟨a :: pre, post, rfl, h2, h3, h4⟩

/-- C09, forward: if a duration is returned, it is that of a walk that starts at some minute
`dep ≥ t` (waiting included), usable at that minute, waiting at most five days, and no walk at all
can be started earlier in `[t, dep)`.  If nothing is returned, no walk can be started within five
days. -/
theorem C09_forward (c : List TdEntry) (hs : Sorted c) (t : Int) :
    match fwd t c with
    | some (d, e) => ∃ dep, t ≤ dep ∧ dep ≤ t + 7200 ∧ Usable c e dep ∧ d = dep + e.duration - t ∧
        ∀ e' dep', t ≤ dep' → Usable c e' dep' → dep ≤ dep'
    | none => ∀ e' dep', t ≤ dep' → Usable c e' dep' → t + 7200 < dep' := by
  induction c with
  | nil =>
    simp only [fwd]
    rintro e' dep' - ⟨pre, post, h, -⟩
    simp at h
  | cons i rest ih =>
    have hs' := List.pairwise_cons.mp hs
    have ih := ih hs'.2
    simp only [fwd]
    by_cases hskip : i.duration = kMaxDuration ∨
        (i.validFrom < t ∧ nextBegun t rest = true)
    · rw [if_pos hskip]
      have hno : ∀ dep', t ≤ dep' → ¬ (i.duration ≠ 511 ∧ i.validFrom ≤ dep' ∧ ∀ n ∈ rest, dep' < n.validFrom) := by
        rintro dep' hd ⟨h1, h2, h3⟩
        rcases hskip with h | ⟨h4, h5⟩
        · exact h1 h
        · cases rest with
          | nil => simp [nextBegun] at h5
          | cons n r =>
            simp [nextBegun] at h5
            have := h3 n (by simp)
            omega
      split at ih
      · rename_i d e _
        obtain ⟨dep, g1, g2, g3, g4, g5⟩ := ih
        refine ⟨dep, g1, g2, usable_cons.mpr (Or.inr g3), g4, ?_⟩
        intro e' dep' hd hu
        rcases usable_cons.mp hu with ⟨-, hu⟩ | hu
        · exact absurd hu (hno dep' hd)
        · exact g5 e' dep' hd hu
      · intro e' dep' hd hu
        rcases usable_cons.mp hu with ⟨-, hu⟩ | hu
        · exact absurd hu (hno dep' hd)
        · exact ih e' dep' hd hu
    · rw [if_neg hskip]
      have hle : ∀ e' dep', Usable (i :: rest) e' dep' → i.validFrom ≤ dep' := by
        rintro e' dep' ⟨pre, post, h1, h2, h3, h4⟩
        cases pre with
        | nil => simp at h1; obtain ⟨rfl, rfl⟩ := h1; exact h3
        | cons p pre =>
          simp at h1; obtain ⟨rfl, rfl⟩ := h1
          have := hs'.1 e' (by simp)
          omega
      by_cases hb : i.validFrom - t > kMaxTravelTime
      · rw [if_pos hb]
        intro e' dep' _ hu
        have := hle e' dep' hu
        simp only [kMaxTravelTime] at hb
        omega
      · rw [if_neg hb]
        have hk : i.duration ≠ 511 := fun h => hskip (Or.inl h)
        simp only [kMaxTravelTime] at hb
        refine ⟨max i.validFrom t, by omega, by omega, ?_, rfl, ?_⟩
        · apply usable_cons.mpr
          refine Or.inl ⟨rfl, hk, by omega, ?_⟩
          intro n hn
          have h1 := hs'.1 n hn
          cases rest with
          | nil => simp at hn
          | cons m r =>
            have h2 : m.validFrom ≤ n.validFrom := by
              simp at hn
              rcases hn with rfl | hn
              · omega
              · have := (List.pairwise_cons.mp hs'.2).1 n hn; omega
            have : ¬ (i.validFrom < t ∧ m.validFrom ≤ t) := by
              intro h; exact hskip (Or.inr ⟨h.1, by simpa [nextBegun] using h.2⟩)
            omega
        · intro e' dep' hd hu
          have := hle e' dep' hu
          omega

/-- `post` are the already visited (later) entries, in chronological order. -/
private theorem bwdRev_spec (t : Int) (c : List TdEntry) (hs : Sorted c) :
    ∀ (rev post : List TdEntry) (next : Option TdEntry), c = rev.reverse ++ post → next = post.head? →
      (∀ e dep, Usable c e dep → dep + e.duration ≤ t → e ∈ post → False) →
      match bwdRev t next rev with
      | some (d, e) => ∃ dep, Usable c e dep ∧ dep + e.duration ≤ t ∧ t - (dep + e.duration) ≤ 7200 ∧
          d = t - dep ∧ ∀ e' dep', Usable c e' dep' → dep' + e'.duration ≤ t → dep' ≤ dep
      | none => (∀ e' dep', Usable c e' dep' → dep' + e'.duration ≤ t →
          ∃ e dep, Usable c e dep ∧ dep' ≤ dep ∧ 7200 < t - (dep + e.duration)) := by
  intro rev
  induction rev with
  | nil =>
    intro post next hc hn hpost
    simp only [bwdRev]
    intro e' dep' hu hle
    exfalso
    apply hpost e' dep' hu hle
    obtain ⟨pre, po, h1, -⟩ := hu
    simp at hc; rw [← hc, h1]; simp
  | cons i rev ih =>
    intro post next hc hn hpost
    simp only [bwdRev]
    have hc' : c = rev.reverse ++ (i :: post) := by simp [hc]
    by_cases hskip : i.duration = kMaxDuration ∨ i.validFrom + i.duration > t
    · rw [if_pos hskip]
      apply ih (i :: post) (some i) hc' rfl
      intro e dep hu hle hmem
      simp at hmem
      rcases hmem with rfl | hmem
      · obtain ⟨pre, po, h1, h2, h3, -⟩ := hu
        rcases hskip with h | h
        · exact h2 h
        · omega
      · exact hpost e dep hu hle hmem
    · rw [if_neg hskip]
      have hk : i.duration ≠ 511 := fun h => hskip (Or.inl h)
      have hv : i.validFrom + i.duration ≤ t := by
        have : ¬ i.validFrom + i.duration > t := fun h => hskip (Or.inr h)
        omega
      have hsp : ∀ n ∈ post, i.validFrom < n.validFrom := by
        unfold Sorted at hs
        rw [hc', List.pairwise_append] at hs
        exact (List.pairwise_cons.mp hs.2.1).1
      -- every usable feasible departure is at most the one chosen
      have hmax : ∀ e' dep', Usable c e' dep' → dep' + e'.duration ≤ t →
          dep' ≤ t - i.duration ∧ (∀ n ∈ post, dep' < n.validFrom) ∨ dep' < i.validFrom := by
        intro e' dep' hu hle
        have hne : e' ∉ post := fun hm => hpost e' dep' hu hle hm
        obtain ⟨pre, po, h1, h2, h3, h4⟩ := hu
        have hmem : e' ∈ rev.reverse ++ (i :: post) := by rw [← hc', h1]; simp
        rw [List.mem_append, List.mem_cons] at hmem
        rcases hmem with hmem | rfl | hmem
        · right
          -- e' before i: i is in po
          have : i ∈ po := by
            rw [hc'] at h1
            rw [List.append_eq_append_iff] at h1
            rcases h1 with ⟨as, ha1, ha2⟩ | ⟨bs, hb1, hb2⟩
            · cases as with
              | nil =>
                simp at ha2
                exfalso
                obtain ⟨h5, h6⟩ := ha2
                unfold Sorted at hs
                rw [hc', List.pairwise_append] at hs
                have := hs.2.2 e' hmem i (by simp)
                rw [h5] at this; omega
              | cons x as =>
                exfalso
                simp at ha2
                apply hne
                rw [ha2.2]; simp
            · cases bs with
              | nil =>
                simp at hb2
                exfalso
                unfold Sorted at hs
                rw [hc', List.pairwise_append] at hs
                have := hs.2.2 e' hmem i (by simp)
                rw [hb2.1] at this; omega
              | cons x bs =>
                simp at hb2
                rw [hb2.2]; simp
          exact h4 i this
        · left
          refine ⟨by omega, ?_⟩
          intro n hn'
          apply h4
          -- post ⊆ po since e' = i occurs once
          rw [hc'] at h1
          rw [List.append_eq_append_iff] at h1
          rcases h1 with ⟨as, ha1, ha2⟩ | ⟨bs, hb1, hb2⟩
          · cases as with
            | nil => simp at ha2; rw [← ha2]; exact hn'
            | cons x as =>
              simp at ha2
              exfalso
              have : e' ∈ post := by rw [ha2.2]; simp
              exact hne this
          · cases bs with
            | nil => simp at hb2; rw [hb2]; exact hn'
            | cons x bs => simp at hb2; rw [hb2.2]; simp [hn']
        · exact absurd hmem hne
      have hus : ∀ dep, i.validFrom ≤ dep → (∀ n ∈ post, dep < n.validFrom) → Usable c i dep := by
        intro dep h1 h2
        exact ⟨rev.reverse, post, hc', hk, h1, h2⟩
      subst hn
      cases hp : post with
      | nil =>
        subst hp
        have hl : latestArr t [].head? i = t := rfl
        rw [hl, if_neg (show ¬ t - t > kMaxTravelTime by simp only [kMaxTravelTime]; omega)]
        refine ⟨t - i.duration, hus _ (by omega) (by simp), by omega, by omega, by omega, ?_⟩
        intro e' dep' hu hle
        rcases hmax e' dep' hu hle with h | h <;> omega
      | cons n r =>
        have hnf : ∀ m ∈ post, n.validFrom ≤ m.validFrom := by
          unfold Sorted at hs
          rw [hc', hp, List.pairwise_append] at hs
          have h3 := List.pairwise_cons.mp (List.pairwise_cons.mp hs.2.1).2
          intro m hm
          rw [hp] at hm
          simp at hm
          rcases hm with rfl | hm
          · omega
          · have := h3.1 m hm; omega
        have hin : i.validFrom < n.validFrom := hsp n (by rw [hp]; simp)
        have hl : latestArr t (n :: r).head? i = min t (n.validFrom - 1 + i.duration) := rfl
        rw [hl]
        by_cases hb : t - min t (n.validFrom - 1 + i.duration) > 7200
        · rw [if_pos hb]
          intro e' dep' hu hle
          refine ⟨i, n.validFrom - 1, hus _ (by omega) ?_, ?_, by omega⟩
          · intro m hm
            have := hnf m hm
            omega
          · rcases hmax e' dep' hu hle with ⟨-, h⟩ | h
            · have := h n (by rw [hp]; simp)
              omega
            · omega
        · rw [if_neg hb]
          refine ⟨min (t - i.duration) (n.validFrom - 1), hus _ (by omega) ?_, by omega, by omega, by omega, ?_⟩
          · intro m hm
            have := hnf m hm
            omega
          · intro e' dep' hu hle
            rcases hmax e' dep' hu hle with ⟨h1, h2⟩ | h
            · have := h2 n (by rw [hp]; simp)
              omega
            · omega

/-- C09, backward: if a duration is returned, it is that of a usable walk arriving at or before `t`
(the wait before `t` included, at most five days), and no usable walk arriving by `t` can be started
later.  If nothing is returned, then for every usable walk that arrives by `t` there is one starting
no earlier that arrives more than five days before `t`. -/
theorem C09_backward (c : List TdEntry) (hs : Sorted c) (t : Int) :
    match bwd t c with
    | some (d, e) => ∃ dep, Usable c e dep ∧ dep + e.duration ≤ t ∧ t - (dep + e.duration) ≤ 7200 ∧
        d = t - dep ∧ ∀ e' dep', Usable c e' dep' → dep' + e'.duration ≤ t → dep' ≤ dep
    | none => (∀ e' dep', Usable c e' dep' → dep' + e'.duration ≤ t →
        ∃ e dep, Usable c e dep ∧ dep' ≤ dep ∧ 7200 < t - (dep + e.duration)) :=
  bwdRev_spec t c hs c.reverse [] none (by simp) rfl (by simp)

/-- C09: with durations in the storable range the results fit the 16-bit duration type. -/
theorem C09_result_range (c : List TdEntry) (hs : Sorted c) (t : Int)
    (hd : ∀ e ∈ c, 0 ≤ e.duration ∧ e.duration ≤ 511) (d : Int) (e : TdEntry) :
    (fwd t c = some (d, e) → 0 ≤ d ∧ d ≤ 7711) ∧ (bwd t c = some (d, e) → 0 ≤ d ∧ d ≤ 7711) := by
  constructor
  · intro h
    have := C09_forward c hs t
    rw [h] at this
    obtain ⟨dep, h1, h2, ⟨pre, post, h3, -⟩, h4, -⟩ := this
    have := hd e (by rw [h3]; simp)
    omega
  · intro h
    have := C09_backward c hs t
    rw [h] at this
    obtain ⟨dep, ⟨pre, post, h3, -⟩, h1, h2, h4, -⟩ := this
    have := hd e (by rw [h3]; simp)
    omega

/-- C09 for the search's callback interface: the handed-out duration is the true one whenever that
is at most 511 minutes. -/
theorem C09_for_each_partial (forward : Bool) (t : Int) (c : List TdEntry) (d : Int) (e : TdEntry)
    (h : (if forward then fwd t c else bwd t c) = some (d, e)) (hd : d ≤ 511) :
    forEachDuration forward t c = some d := by
  unfold forEachDuration
  rw [h]
  simp only [Option.map_some, kMaxDuration]
  rw [if_neg (by omega)]

/-- C09 fails for the callback interface beyond 511 minutes (waiting included): a path that opens in
600 minutes and takes 5 is handed out as taking 511 minutes, i.e. as arriving before it opens. -/
theorem C09_for_each_counterexample :
    let c : List TdEntry := [⟨0, 511⟩, ⟨1600, 5⟩]
    Sorted c ∧ fwd 1000 c = some (605, ⟨1600, 5⟩) ∧ forEachDuration true 1000 c = some 511 ∧
      ∀ e dep, 1000 ≤ dep → Usable c e dep → 1000 + 511 < dep := by
  refine ⟨by simp [Sorted], by decide, by decide, ?_⟩
  intro e dep hd hu
  have := C09_forward [⟨0, 511⟩, ⟨1600, 5⟩] (by simp [Sorted]) 1000
  rw [show fwd 1000 [⟨0, 511⟩, ⟨1600, 5⟩] = some (605, ⟨1600, 5⟩) by decide] at this
  obtain ⟨dep0, h1, h2, -, h4, h5⟩ := this
  have := h5 e dep hd hu
  simp only at h4
  omega

example : Sorted [⟨0, 511⟩, ⟨100, 10⟩, ⟨200, 511⟩, ⟨300, 20⟩] ∧
    fwd 50 [⟨0, 511⟩, ⟨100, 10⟩, ⟨200, 511⟩, ⟨300, 20⟩] = some (60, ⟨100, 10⟩) ∧
    bwd 290 [⟨0, 511⟩, ⟨100, 10⟩, ⟨200, 511⟩, ⟨300, 20⟩] = some (91, ⟨100, 10⟩) := by
  refine ⟨by simp [Sorted], by decide, by decide⟩

end Nigiri.TdFootpath
