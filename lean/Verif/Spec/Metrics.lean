import Verif.Model.Metrics
/-!
# Metrics of the feeds: specification
-/

namespace Nigiri.Metrics

/-- Trip `t` runs on day `d`: one of its transports does. -/
def RunsOn (x : Input) (t d : Nat) : Prop := d < 512 ∧ ∃ tr ∈ x.ranges t, x.days tr d = true

/-- Something of feed `src` runs on day `d`: a trip, or a flex trip. -/
def FeedDay (x : Input) (src d : Nat) : Prop :=
  (∃ e ∈ x.ids, e.1 = src ∧ RunsOn x e.2 d) ∨
  (∃ e ∈ x.flex, src ∈ x.tripIds e.1 ∧ d < 512 ∧ e.2 d = true)

/-- `n` is the number of days with `P`. -/
def NumDays (P : Nat → Prop) (n : Nat) : Prop :=
  ∀ p : Nat → Bool, (∀ d, d < 512 → (p d = true ↔ P d)) → n = ((List.range 512).filter p).length

end Nigiri.Metrics
