/-!
# Importance of locations

Model of `assign_importance` (`src/loader/init_finish.cc:63-103`).  Simplified: the sums,
which the code forms as `float` and stores as `uint32_t`, are exact (in the code: up to 2^24).
-/

namespace Nigiri.Importance

/-- What the function reads: for each location the routes that stop there (`location_routes_`) and its
parent; for each route the class of its first section and its transports; for each transport the number of
traffic days (`bitfield::count`). -/
structure Input where
  nLoc : Nat
  parent : Nat → Option Nat
  routes : Nat → List Nat
  clasz : Nat → Nat
  transports : Nat → List Nat
  days : Nat → Nat

/-- `prio`, init_finish.cc:82-95: 13 entries are written down, the other three of the array are 0. -/
def prio (c : Nat) : Nat := [20, 20, 20, 20, 20, 16, 15, 10, 10, 3, 2, 10, 1, 0, 0, 0].getD c 0

/-- `transport_counts[clasz] += count`, init_finish.cc:77-78. -/
def bump (counts : Nat → Nat) (c n : Nat) : Nat → Nat := fun x => if x = c then counts x + n else counts x

/-- `transport_counts`, init_finish.cc:70-80. -/
def counts (x : Input) (l : Nat) : Nat → Nat :=
  (x.routes l).foldl (fun cs r => (x.transports r).foldl (fun cs t => bump cs (x.clasz r) (x.days t)) cs) fun _ => 0

/-- `x += prio[clasz] * t_count` over the 16 classes, init_finish.cc:98-100. -/
def addClasses (cs : Nat → Nat) (v : Nat) : Nat := (List.range 16).foldl (fun v c => v + prio c * cs c) v

/-- One round of the loop over the locations, init_finish.cc:67-102: `location_importance_` and
`max_importance_`. -/
def step (x : Input) (st : (Nat → Nat) × Nat) (l : Nat) : (Nat → Nat) × Nat :=
  let g := (x.parent l).getD l
  let v := addClasses (counts x l) (st.1 g)
  (fun i => if i = g then v else st.1 i, max st.2 v)

/-- `assign_importance`. -/
def assign (x : Input) : (Nat → Nat) × Nat := (List.range x.nLoc).foldl (step x) (fun _ => 0, 0)

end Nigiri.Importance
