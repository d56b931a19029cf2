/-!
# Half-open intervals

Model of `include/nigiri/common/interval.h` over the integers.
-/

namespace Nigiri

/-- `interval<T>`, `interval.h:21, 134` (`from_`, `to_`; default-constructed = `{0, 0}`). -/
structure Interval where
  from' : Int := 0
  to' : Int := 0
deriving DecidableEq, Repr

namespace Interval
/-- `operator>>`, `interval.h:55-58`. -/
def shr (a : Interval) (x : Int) : Interval := ⟨a.from' + x, a.to' + x⟩
/-- `operator<<`, `interval.h:60-63`. -/
def shl (a : Interval) (x : Int) : Interval := ⟨a.from' - x, a.to' - x⟩
/-- `clamp(x)`, `interval.h:71`: `std::clamp(x, from_, to_)`; `none` = undefined behaviour
(`std::clamp` requires `!(hi < lo)`). -/
def clamp (a : Interval) (x : Int) : Option Int :=
  if a.to' < a.from' then none
  else some (if x < a.from' then a.from' else if a.to' < x then a.to' else x)
/-- `contains(T)`, `interval.h:73`. -/
def contains (a : Interval) (t : Int) : Bool := t ≥ a.from' && t < a.to'
/-- `contains(interval)`, `interval.h:75-77`. -/
def containsI (a o : Interval) : Bool := a.from' ≤ o.from' && a.to' ≥ o.to'
/-- `overlaps(interval)`, `interval.h:79-81`. -/
def overlaps (a o : Interval) : Bool := a.from' < o.to' && a.to' > o.from'
/-- `intersect(interval)`, `interval.h:83-89`. -/
def intersect (a o : Interval) : Interval :=
  if a.overlaps o then ⟨max a.from' o.from', min a.to' o.to'⟩ else {}
/-- `size()`, `interval.h:109-111`. -/
def size (a : Interval) : Int := a.to' - a.from'
/-- The points visited by `for (auto x : interval)` (`begin()`/`end()`, `interval.h:91-92`, with
`operator++`, `interval.h:30-33`).  For an inverted interval the C++ loop never meets its end; the
model yields the empty list. -/
def points (a : Interval) : List Int := (List.range (a.to' - a.from').toNat).map (fun i : Nat => a.from' + (i : Int))
end Interval

end Nigiri
