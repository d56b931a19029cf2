/-!
# String interning

Model of `string_store` in `include/nigiri/string_store.h`.

Simplifications: strings are values of an arbitrary type with decidable equality; the hash set
`cache_` (cista `hash_set` with transparent hash and equality) is the list of the indices it holds,
and its `find(s)` is "some held index whose string equals `s`"; index overflow of the 32-bit index
type is not modelled (`invalid()` is `2^32-1`).
-/

namespace Nigiri

/-- `strings_` and `cache_`, `string_store.h:113-114`. -/
structure StringStore (α : Type) where
  strings : List α := []
  cache : List Nat := []

namespace StringStore
variable {α : Type} [DecidableEq α]

/-- `find`, `string_store.h:93-97`: lookup in the hash set with the transparent comparison
`string_view` against index (`string_store.h:26-28`). -/
def find (st : StringStore α) (s : α) : Option Nat :=
  st.cache.find? (fun i => st.strings[i]? == some s)

/-- `store`, `string_store.h:80-91`. -/
def store (st : StringStore α) (s : α) : StringStore α × Nat :=
  match st.find s with
  | some i => (st, i)
  | none =>
    let next := st.strings.length
    (⟨st.strings ++ [s], next :: st.cache⟩, next)

/-- `get`, `string_store.h:70-74`; `none` = out of bounds. -/
def get (st : StringStore α) (i : Nat) : Option α := st.strings[i]?

/-- A history of `store` calls: final state and the returned indices in call order. -/
def storeAll (st : StringStore α) : List α → StringStore α × List Nat
  | [] => (st, [])
  | s :: ss =>
    let r := st.store s
    let rest := storeAll r.1 ss
    (rest.1, r.2 :: rest.2)

end StringStore
end Nigiri
