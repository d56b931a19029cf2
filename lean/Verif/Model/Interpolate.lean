/-!
# Interpolation of missing stop times

Model of `interpolate`, `src/loader/gtfs/trip.cc:134-200`.

The event times are the flattened list `arr0, dep0, arr1, dep1, ...` (the code's `bounds` vector has
exactly this layout, lines 149-154); `none` is `kInterpolate`.  The floating point expression
`std::round((max - min) * (double(num) / denom))` is the parameter `interp`, see
`Interpolate.IsInterp` for the only facts used about it.
-/

namespace Nigiri.Interpolate

/-- What is used about `interp D num den = round(D * (double(num) / den))`: for `0 ≤ num ≤ den`,
`0 < den`, `0 ≤ D` it lies in `[0, D]`, starts at `0` and is monotone in `num`.  (True of the IEEE
double computation, because correctly rounded division, multiplication and `std::round` are
monotone; true of exact rounding, see `roundExact_isInterp`.) -/
structure IsInterp (interp : Int → Int → Int → Int) : Prop where
  range : ∀ D num den, 0 < den → 0 ≤ num → num ≤ den → 0 ≤ D →
    0 ≤ interp D num den ∧ interp D num den ≤ D
  mono : ∀ D num num' den, 0 < den → 0 ≤ num → num ≤ num' → num' ≤ den → 0 ≤ D →
    interp D num den ≤ interp D num' den
  zero : ∀ D den, 0 < den → interp D 0 den = 0

/-- Exact rounding to the nearest integer (ties up). -/
def roundExact (D num den : Int) : Int := (2 * D * num + den) / (2 * den)

/-- The backward pass over `bounds`, `trip.cc:156-166`: for each entry from position `j` on its
`(max_, max_idx_)`, and the final values of `max`, `max_idx`. -/
def bwdPass : List (Option Int) → Nat → List (Int × Int) × (Int × Int)
  | [], _ => ([], (0, 0))
  | none :: r, j =>
    let x := bwdPass r (j + 1)
    (x.2 :: x.1, x.2)
  | some t :: r, j =>
    let x := bwdPass r (j + 1)
    ((t, -1) :: x.1, (t, ((j / 2 : Nat) : Int)))

/-- The forward pass over `bounds`, `trip.cc:171-182`: `(min_, min_idx_)` of each entry. -/
def fwdPass : List (Option Int) → Nat → Int × Int → List (Int × Int)
  | [], _, _ => []
  | none :: r, j, st => st :: fwdPass r (j + 1) st
  | some t :: r, j, _ => (t, -1) :: fwdPass r (j + 1) (t, ((j / 2 : Nat) : Int))

/-- `bound::interpolate(idx)`, `trip.cc:137-143`. -/
def boundInterpolate (interp : Int → Int → Int → Int) (mn mx : Int × Int) (idx : Int) : Int :=
  let denom := mx.2 - mn.2
  mn.1 + (if denom > 0 then interp (mx.1 - mn.1) (idx - mn.2) denom else 0)

/-- Result of `interpolate`, `trip.h` (`interpolate_result`), with the new times if ok. -/
inductive Result
  | ok (times : List Int)
  | errorFirstMissing
  | errorLastMissing
deriving DecidableEq, Repr

/-- The final loop, `trip.cc:187-197`, from position `j` on. -/
def finish (interp : Int → Int → Int → Int) : List (Option Int) → List (Int × Int) → List (Int × Int) → Nat → List Int
  | none :: es, mn :: mns, mx :: mxs, j =>
    boundInterpolate interp mn mx ((j / 2 : Nat) : Int) :: finish interp es mns mxs (j + 1)
  | some t :: es, _ :: mns, _ :: mxs, j => t :: finish interp es mns mxs (j + 1)
  | _, _, _, _ => []

/-- `interpolate`, `trip.cc:134-200`, on the flattened list of `2 * n` times. -/
def interpolate (interp : Int → Int → Int → Int) (es : List (Option Int)) : Result :=
  let n := es.length / 2
  let mxs := (bwdPass es 0).1
  let last : Int := (n : Int) - 1
  if es.length ≤ 1 ∨ (mxs.getD (es.length - 2) (0, 0)).2 = 0 then .errorLastMissing
  else
    let mns := fwdPass es 0 (0, last)
    if (mns.getD 1 (0, 0)).2 = last then .errorFirstMissing
    else .ok (finish interp es mns mxs 0)

end Nigiri.Interpolate
