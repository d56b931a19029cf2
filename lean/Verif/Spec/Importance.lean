import Verif.Model.Importance
/-!
# Importance of locations: specification
-/

namespace Nigiri.Importance

/-- The value of a departure of a class: the first 13 of the 16 classes have one. -/
def weight : Nat → Nat
  | 0 | 1 | 2 | 3 | 4 => 20   -- air, high speed, long distance, coach, night
  | 5 => 16                   -- ride sharing
  | 6 => 15                   -- regional
  | 7 | 8 | 11 => 10          -- suburban, subway, ship
  | 9 => 3                    -- tram
  | 10 => 2                   -- bus
  | 12 => 1                   -- on demand
  | _ => 0                    -- funicular, aerial lift, other

/-- What happens at location `l` itself: each vehicle of each of its routes counts the weight of its
class on each of its traffic days. -/
def own (x : Input) (l : Nat) : Nat :=
  ((x.routes l).map fun r => ((x.transports r).map fun t => weight (x.clasz r) * x.days t).sum).sum

/-- `l` counts for `g`: its parent, or itself if it has none. -/
def CountsFor (x : Input) (l g : Nat) : Prop := x.parent l = some g ∨ (x.parent l = none ∧ g = l)

/-- The importance of `g`: the sum over all locations that count for it. -/
def Importance (x : Input) (g v : Nat) : Prop :=
  ∀ p : Nat → Bool, (∀ l, p l = true ↔ CountsFor x l g) → v = (((List.range x.nLoc).filter p).map (own x)).sum

end Nigiri.Importance
