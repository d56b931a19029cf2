/-!
# Bucket queue

Model of `include/nigiri/common/dial.h`.  A bucket (`std::vector<T>`) is a `List` whose last element
is `back()`.  Out-of-range accesses and the failed asserts are `none`.
-/

namespace Nigiri

/-- `dial<T, GetBucketFn>`, `dial.h:73-77`. -/
structure Dial (α : Type) where
  current : Nat
  size : Nat
  buckets : List (List α)

namespace Dial
variable {α : Type} (bucketOf : α → Nat)

/-- `dial(max_bucket)`, `dial.h:17-22`: `max_bucket + 1` empty buckets. -/
def make (maxBucket : Nat) : Dial α := ⟨0, 0, List.replicate (maxBucket + 1) []⟩

/-- `dial{}` followed by `n_buckets(n)`, `dial.h:15, 60` (value-initialisation zeroes the members). -/
def ofBuckets (n : Nat) : Dial α := ⟨0, 0, List.replicate n []⟩

/-- `n_buckets()`, `dial.h:62`. -/
def nBuckets (d : Dial α) : Nat := d.buckets.length

/-- `push(el)`, `dial.h:24-32`; `none` = the bucket does not exist (assert / out of bounds). -/
def push (el : α) (d : Dial α) : Option (Dial α) :=
  let dist := bucketOf el
  if dist < d.buckets.length then
    some { buckets := d.buckets.set dist (d.buckets.getD dist [] ++ [el])
           current := min d.current dist
           size := d.size + 1 }
  else none

/-- The loop of `get_next_bucket()`, `dial.h:65-72`: advance while the bucket exists and is empty;
`n` bounds the number of remaining buckets. -/
def nextBucketLoop (buckets : List (List α)) : Nat → Nat → Nat
  | 0, b => b
  | n + 1, b => if (buckets.getD b []).isEmpty then nextBucketLoop buckets n (b + 1) else b

/-- `get_next_bucket()`, `dial.h:65-72`. -/
def getNextBucket (d : Dial α) : Nat :=
  nextBucketLoop d.buckets (d.buckets.length - d.current) d.current

/-- `empty()`, `dial.h:50`. -/
def empty (d : Dial α) : Bool := d.size == 0

/-- `top()`, `dial.h:34-39` (it also moves the cursor); `none` = failed assert. -/
def top (d : Dial α) : Option (α × Dial α) :=
  if d.empty then none
  else
    let c := d.getNextBucket
    match (d.buckets.getD c []).getLast? with
    | none => none
    | some x => some (x, { d with current := c })

/-- `pop()`, `dial.h:41-46`; `none` = failed assert / `pop_back` on an empty vector. -/
def pop (d : Dial α) : Option (Dial α) :=
  if d.empty then none
  else
    let c := d.getNextBucket
    if c < d.buckets.length ∧ ¬ (d.buckets.getD c []).isEmpty then
      some { current := c, buckets := d.buckets.set c (d.buckets.getD c []).dropLast, size := d.size - 1 }
    else none

/-- `clear()`, `dial.h:52-58`. -/
def clear (d : Dial α) : Dial α := ⟨0, 0, d.buckets.map (fun _ => [])⟩

/-- `top(); pop();` - the way every user of the queue takes an element. -/
def take (d : Dial α) : Option (α × Dial α) :=
  match d.top with
  | none => none
  | some (x, d') => match d'.pop with
    | none => none
    | some d'' => some (x, d'')

/-- Operations of a client. -/
inductive Op (α : Type) where
  | push (el : α)
  | take
  | clear

/-- Observable events: what was pushed, what a `top()`/`pop()` returned. -/
inductive Ev (α : Type) where
  | pushed (el : α)
  | taken (el : α)
  | cleared

/-- One client operation. -/
def step (d : Dial α) : Op α → Option (Ev α × Dial α)
  | .push el => (d.push bucketOf el).map (fun d' => (.pushed el, d'))
  | .take => d.take.map (fun r => (.taken r.1, r.2))
  | .clear => some (.cleared, d.clear)

/-- A sequence of operations; `none` as soon as one is undefined. -/
def run (d : Dial α) : List (Op α) → Option (List (Ev α) × Dial α)
  | [] => some ([], d)
  | op :: ops => match d.step bucketOf op with
    | none => none
    | some (e, d') => match run d' ops with
      | none => none
      | some (es, d'') => some (e :: es, d'')

end Dial
end Nigiri
