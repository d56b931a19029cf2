/-!
# Pareto set

Model of `include/nigiri/routing/pareto_set.h`.  The vector `els_` is a `List`; the in-place
compaction of `add` is kept: the loop writes `els_[i - n_removed] = els_[i]` while scanning and may
return early.
-/

namespace Nigiri

namespace ParetoSet
variable {α : Type} (dom : α → α → Bool)

/-- Outcome of the scan of `add`: `dominated els i` = early return (`pareto_set.h:24-26`) with the
(possibly partially compacted) vector, `done els n` = loop finished with `n` removed elements. -/
inductive Scan (α : Type) where
  | dominated (els : List α) (i : Nat)
  | done (els : List α) (nRemoved : Nat)

/-- The loop of `add`, `pareto_set.h:23-32`, from index `i` on. -/
def scan (el : α) (els : List α) (i nRemoved : Nat) : Scan α :=
  if h : i < els.length then
    let x := els[i]
    if dom x el then .dominated els i
    else if dom el x then scan el els (i + 1) (nRemoved + 1)
    else scan el (els.set (i - nRemoved) x) (i + 1) nRemoved
  else .done els nRemoved
termination_by els.length - i
decreasing_by all_goals (try simp only [List.length_set]); omega

/-- `add(el)`, `pareto_set.h:21-37`: the returned flag and the new content.  `resize(size - n + 1)`
keeps the first `size - n` elements and appends one slot, which is then overwritten by `el`. -/
def add (el : α) (els : List α) : Bool × List α :=
  match scan dom el els 0 0 with
  | .dominated els' _ => (false, els')
  | .done els' n => (true, els'.take (els'.length - n) ++ [el])

/-- `is_dominated(el)`, `pareto_set.h:17-19`. -/
def isDominated (el : α) (els : List α) : Bool := els.any (fun x => dom x el)

/-- `add_not_optimal(j)`, `pareto_set.h:39`. -/
def addNotOptimal (el : α) (els : List α) : List α := els ++ [el]

/-- The mutating interface used by the routing code: `add`, `utl::erase_if` (via `erase`,
`pareto_set.h:49-52`) and `clear` (`pareto_set.h:53`). -/
inductive Op (α : Type) where
  | add (el : α)
  | eraseIf (p : α → Bool)
  | clear

/-- One operation. -/
def step (els : List α) : Op α → List α
  | .add el => (add dom el els).2
  | .eraseIf p => els.filter (fun x => !p x)
  | .clear => []

end ParetoSet
end Nigiri
