import Verif.Model.Query
/-!
# Property C28: query reversal and normalisation
-/

namespace Nigiri.Query
variable {R : Type}

/-- C28: reversing twice restores the query. -/
theorem C28_flip_involutive (q : Query R) : q.flipDir.flipDir = q := by
  simp [flipDir]

/-- C28: reversal exchanges exactly the origin and destination parts, reverses the order of the via
stops and leaves everything else. -/
theorem C28_flip_swaps (q : Query R) :
    q.flipDir.start = q.destination ∧ q.flipDir.destination = q.start ∧
    q.flipDir.tdStart = q.tdDest ∧ q.flipDir.tdDest = q.tdStart ∧
    q.flipDir.startMatchMode = q.destMatchMode ∧ q.flipDir.destMatchMode = q.startMatchMode ∧
    (∀ i < q.viaStops.length, q.flipDir.viaStops[i]? = q.viaStops[q.viaStops.length - 1 - i]?) ∧
    q.flipDir.viaStops.length = q.viaStops.length ∧
    q.flipDir.maxTravelTime = q.maxTravelTime ∧ q.flipDir.useStartFootpaths = q.useStartFootpaths ∧
    q.flipDir.rest = q.rest := by
  refine ⟨rfl, rfl, rfl, rfl, rfl, rfl, ?_, by simp [flipDir], rfl, rfl, rfl⟩
  intro i hi
  simp [flipDir, List.getElem?_reverse hi]

private theorem mergeFirst_none {m : Nat → Nat → Bool} {l : List ViaStop} (h : mergeFirst m l = none) :
    ∀ (i : Nat) (a b : ViaStop), l[i]? = some a → l[i + 1]? = some b → m a.location b.location = false := by
  induction l with
  | nil => intro i a b ha; simp at ha
  | cons x l ih =>
    cases l with
    | nil => intro i a b _ hb; simp at hb
    | cons y l =>
      simp only [mergeFirst] at h
      split at h
      · simp at h
      · rename_i hm
        intro i a b ha hb
        cases i with
        | zero => simp at ha hb; subst ha; subst hb; simpa using hm
        | succ i => exact ih (by simpa using h) i a b (by simpa using ha) (by simpa using hb)

private theorem mergeFirst_some {m : Nat → Nat → Bool} {l l' : List ViaStop} (h : mergeFirst m l = some l') :
    (l'.map (·.stay)).sum = (l.map (·.stay)).sum ∧
    (l'.map (·.location)).Sublist (l.map (·.location)) ∧
    l'.head?.map (·.location) = l.head?.map (·.location) := by
  induction l generalizing l' with
  | nil => simp [mergeFirst] at h
  | cons x l ih =>
    cases l with
    | nil => simp [mergeFirst] at h
    | cons y l =>
      simp only [mergeFirst] at h
      split at h
      · cases h
        refine ⟨?_, ?_, by simp⟩
        · simp; omega
        · simp
      · rw [Option.map_eq_some_iff] at h
        obtain ⟨r, hr, rfl⟩ := h
        obtain ⟨h1, h2, -⟩ := ih hr
        refine ⟨?_, ?_, by simp⟩
        · simp only [List.map_cons, List.sum_cons] at h1 ⊢; omega
        · simp only [List.map_cons] at h2 ⊢
          exact h2.cons_cons _

/-- C28: normalising the via stops ends; afterwards no two neighbouring via stops are equivalent,
the requested total stay is unchanged, the remaining via stops are in the original order and start
with the original first one; a list without equivalent neighbours is unchanged. -/
theorem C28_sanitize_vias (m : Nat → Nat → Bool) (l : List ViaStop) :
    let r := sanitizeVias m l
    (∀ (i : Nat) (a b : ViaStop), r[i]? = some a → r[i + 1]? = some b → m a.location b.location = false) ∧
    (r.map (·.stay)).sum = (l.map (·.stay)).sum ∧
    (r.map (·.location)).Sublist (l.map (·.location)) ∧
    r.head?.map (·.location) = l.head?.map (·.location) ∧
    ((∀ (i : Nat) (a b : ViaStop), l[i]? = some a → l[i + 1]? = some b → m a.location b.location = false) →
      r = l) := by
  fun_induction sanitizeVias m l with
  | case1 l h => exact ⟨mergeFirst_none h, rfl, List.Sublist.refl _, rfl, fun _ => rfl⟩
  | case2 l l' h ih =>
    obtain ⟨h1, h2, h3, h4, -⟩ := ih
    obtain ⟨g1, g2, g3⟩ := mergeFirst_some h
    refine ⟨h1, h2.trans g1, h3.trans g2, h4.trans g3, ?_⟩
    intro hno
    exfalso
    clear h1 h2 h3 h4 g1 g2 g3
    induction l generalizing l' with
    | nil => simp [mergeFirst] at h
    | cons x l ih =>
      cases l with
      | nil => simp [mergeFirst] at h
      | cons y l =>
        simp only [mergeFirst] at h
        rw [if_neg (by simpa using hno 0 x y rfl rfl)] at h
        rw [Option.map_eq_some_iff] at h
        obtain ⟨r, hr, rfl⟩ := h
        exact ih r hr (fun i a b ha hb => hno (i + 1) a b (by simpa using ha) (by simpa using hb))

private theorem sort_perm (l : List Offset) : (sortOffsets l).Perm l := List.mergeSort_perm _ _

private theorem sort_sorted (l : List Offset) :
    (sortOffsets l).Pairwise (fun a b => a.duration ≤ b.duration) := by
  have := List.pairwise_mergeSort (le := fun (a b : Offset) => decide (a.duration ≤ b.duration))
    (by intro a b c h1 h2; simp at *; omega) (by intro a b; simp; omega) l
  unfold sortOffsets
  exact this.imp (by intro a b h; simpa using h)

/-- C28: a normalised query has a travel time limit within `[0, 5 days]`, which is the requested one
whenever that is in range; its offsets are the given ones, sorted by duration; intermodal starts
with start footpaths are rejected and nothing else is. -/
theorem C28_sanitize (m : Nat → Nat → Bool) (q : Query R) :
    (q.sanitize m = none ↔ q.startMatchMode = .intermodal ∧ q.useStartFootpaths = true) ∧
    ∀ r, q.sanitize m = some r →
      (0 ≤ r.maxTravelTime ∧ r.maxTravelTime ≤ 7200) ∧
      (0 ≤ q.maxTravelTime → q.maxTravelTime ≤ 7200 → r.maxTravelTime = q.maxTravelTime) ∧
      r.start.Perm q.start ∧ r.start.Pairwise (fun a b => a.duration ≤ b.duration) ∧
      r.destination.Perm q.destination ∧ r.destination.Pairwise (fun a b => a.duration ≤ b.duration) ∧
      r.viaStops = sanitizeVias m q.viaStops ∧ r.tdStart = q.tdStart ∧ r.tdDest = q.tdDest ∧
      r.rest = q.rest := by
  have hq : (sanitizeQuery q).start = q.start ∧ (sanitizeQuery q).destination = q.destination ∧
      (sanitizeQuery q).viaStops = q.viaStops ∧ (sanitizeQuery q).tdStart = q.tdStart ∧
      (sanitizeQuery q).tdDest = q.tdDest ∧ (sanitizeQuery q).rest = q.rest := by
    unfold sanitizeQuery; split <;> simp
  have hm : 0 ≤ (sanitizeQuery q).maxTravelTime ∧ (sanitizeQuery q).maxTravelTime ≤ 7200 ∧
      (0 ≤ q.maxTravelTime → q.maxTravelTime ≤ 7200 → (sanitizeQuery q).maxTravelTime = q.maxTravelTime) := by
    unfold sanitizeQuery kMaxTravelTime
    split
    · simp only; omega
    · omega
  constructor
  · unfold sanitize
    split
    · rename_i h
      simp only [reduceCtorEq, false_iff]
      rintro ⟨h1, h2⟩
      rcases h with h | h
      · exact h h1
      · rw [h2] at h; exact absurd h (by decide)
    · rename_i h
      simp only [true_iff]
      simpa [Classical.not_not] using h
  · intro r hr
    unfold sanitize at hr
    split at hr
    · cases hr
      obtain ⟨h1, h2, h3, h4, h5, h6⟩ := hq
      simp only [h1, h2, h3, h4, h5, h6]
      exact ⟨⟨hm.1, hm.2.1⟩, hm.2.2, sort_perm _, sort_sorted _, sort_perm _, sort_sorted _, trivial, trivial, trivial, trivial⟩
    · simp at hr

example : sanitizeVias (fun a b => a / 10 == b / 10) [⟨11, 5⟩, ⟨12, 3⟩, ⟨13, 1⟩, ⟨21, 0⟩, ⟨11, 2⟩]
    = [⟨11, 9⟩, ⟨21, 0⟩, ⟨11, 2⟩] := by decide +kernel

end Nigiri.Query
