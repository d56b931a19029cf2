/-!
# Memoising map lookup

Model of `cached_lookup` in `include/nigiri/common/cached_lookup.h`.

Simplifications: the map is the list of its entries in insertion order with distinct keys, an
iterator is a position in that list (iterator invalidation by rehashing is covered because the only
insertion, line 23, overwrites the stored iterator; modifying the map behind the back of the lookup
is outside the model).
-/

namespace Nigiri

/-- `map_` and `prev_it_`, `cached_lookup.h:36-37`. -/
structure CachedLookup (K V : Type) where
  map : List (K × V)
  prev : Option Nat := none

namespace CachedLookup
variable {K V : Type} [DecidableEq K]

/-- `map_.find(key)`. -/
def mapFind (m : List (K × V)) (k : K) : Option Nat := m.findIdx? (fun e => e.1 == k)

/-- The iterator after the `if` of `operator()`, `cached_lookup.h:19-27`. -/
def locate (c : CachedLookup K V) (k : K) (create : V) : List (K × V) × Option Nat :=
  let slow := match mapFind c.map k with
    | none => (c.map ++ [(k, create)], some c.map.length)
    | some i => (c.map, some i)
  match c.prev with
  | none => slow
  | some p => match c.map[p]? with
    | none => slow  -- dangling iterator: does not occur, see `C33_cached_lookup`
    | some e => if e.1 ≠ k then slow else (c.map, some p)

/-- `operator()(key, create_fn)`, `cached_lookup.h:17-29`, followed by the caller writing through
the returned reference (`update`); the output is the referenced value before the write. -/
def call (c : CachedLookup K V) (k : K) (create : V) (update : V → V) : Option (CachedLookup K V × V) :=
  let r := c.locate k create
  match r.2 with
  | none => none
  | some p => match r.1[p]? with
    | none => none
    | some e => some (⟨r.1.set p (e.1, update e.2), some p⟩, e.2)

/-- A call: key, value for a missing key, what the caller does to the referenced value. -/
structure Op (K V : Type) where
  key : K
  create : V
  update : V → V

/-- A sequence of calls: outputs and the final state. -/
def run (c : CachedLookup K V) : List (Op K V) → Option (CachedLookup K V × List V)
  | [] => some (c, [])
  | o :: os => match c.call o.key o.create o.update with
    | none => none
    | some (c', v) => match run c' os with
      | none => none
      | some (c'', vs) => some (c'', v :: vs)

end CachedLookup
end Nigiri
