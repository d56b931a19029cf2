import Verif.Model.Packing
/-!
# GTFS stops, transfers and generated footpaths: `src/loader/gtfs/stop.cc`, `src/loader/gtfs/stop_group.cc`,
`src/loader/link_nearby_stations.cc`

Stop ids (strings) are numbers (equal iff the strings are), `stop*` and `location_idx_t` are the id of the stop; texts
other than the name are left out.  The geometry (`geo::…`, floating point) is given by functions: squared distance
and walking time between two stops (not symmetric: the first one gives the length of a degree of longitude).
Hash maps are iterated in an arbitrary order, which is a parameter.
-/
namespace Nigiri.GtfsStops
open Nigiri

/-- A row of `stops.txt`, `stop.cc:224-236`: id, name and parent (`none` if empty), `location_type`. -/
structure Row where
  id : Nat
  name : Option Nat := none
  parent : Option Nat := none
  typ : Nat := 0
deriving Repr, DecidableEq

/-- `struct stop`, `stop.cc:26-109`: name, parent, set of children, footpaths and transfer time of `transfers.txt`. -/
structure Rec where
  name : Option Nat := none
  parent : Option Nat := none
  children : List Nat := []
  footpaths : List (Nat × Int) := []
  transferTime : Option Int := none
deriving Repr, DecidableEq

/-- `stop_map_t` and `equal_names`, `stop.cc:112,239-240`: the ids in the map, the stops (default for ids which are not
in the map) and the pairs (name, stop) in order of insertion. -/
structure Stops where
  keys : List Nat := []
  info : Nat → Rec := fun _ => {}
  names : List (Nat × Nat) := []

/-- `utl::get_or_create`, `stop.cc:252-254,271-274`. -/
def getOrCreate (s : Stops) (id : Nat) : Stops := if id ∈ s.keys then s else { s with keys := s.keys ++ [id] }

/-- Change a stop. -/
def put (s : Stops) (id : Nat) (f : Rec → Rec) : Stops :=
  { s with info := fun x => if x = id then f (s.info x) else s.info x }

/-- Link a stop to its parent, `stop.cc:270-278`. -/
def link (s : Stops) (id p : Nat) : Stops :=
  let s := getOrCreate s p
  let s := put s p (fun r => { r with children := if id ∈ r.children then r.children else r.children ++ [id] })
  put s id (fun r => { r with parent := some p })

/-- The stop of a row with its name, `stop.cc:252-258`. -/
def setName (s : Stops) (row : Row) : Stops := put (getOrCreate s row.id) row.id (fun r => { r with name := row.name })

/-- The parent of a row, `stop.cc:270-278`. -/
def linkRow (s : Stops) (row : Row) : Stops :=
  match row.parent with
  | some p => link s row.id p
  | none => s

/-- `equal_names`, `stop.cc:280-282`. -/
def noteName (s : Stops) (row : Row) : Stops :=
  match row.name with
  | some n => { s with names := s.names ++ [(n, row.id)] }
  | none => s

/-- A row of `stops.txt`, `stop.cc:245-283`. -/
def readRow (s : Stops) (row : Row) : Stops :=
  if row.typ = 2 ∨ row.typ = 3 then s else noteName (linkRow (setName s row) row) row

/-- `stops.txt`. -/
def readStops (rows : List Row) : Stops := rows.foldl readRow {}

/-- `same_name_`, `stop.cc:287-296`. -/
def sameName (s : Stops) (x : Nat) : List Nat :=
  match (s.info x).name with
  | none => []
  | some n => s.names.filterMap fun e => if e.1 = n ∧ e.2 ≠ x then some e.2 else none

/-! ## `transfers.txt` -/

/-- A row of `transfers.txt`, `stop.cc:128-135`; trip ids are `none` if empty. -/
structure Transfer where
  frm : Nat
  to : Nat
  typ : Int := 0
  time : Int := 0
  fromTrip : Option Nat := none
  toTrip : Option Nat := none
deriving Repr, DecidableEq

/-- `static_cast<transfer_type>(int)`, `stop.cc:151`: the underlying type is `uint8_t`. -/
def Transfer.kind (t : Transfer) : Int := t.typ % 256

/-- `duration_t{*t.min_transfer_time_ / 60}`, `stop.cc:183,200-201`. -/
def Transfer.minutes (t : Transfer) : Int := toInt16 (t.time.tdiv 60)

/-- Transfer within a stop, `stop.cc:184-192`. -/
def addTransferTime (d : Int) (r : Rec) : Rec :=
  { r with transferTime := match r.transferTime with | some x => some (min d x) | none => some d }

/-- Transfer between stops, `stop.cc:194-202`. -/
def addFootpath (to : Nat) (d : Int) (r : Rec) : Rec :=
  if r.footpaths.any (fun f => f.1 == to) then r else { r with footpaths := r.footpaths ++ [(to, d)] }

/-- A row of `transfers.txt`, `stop.cc:150-203`; the second component is `seated_transfers`. -/
def readTransfer (s : Stops × (Nat → List Nat)) (t : Transfer) : Stops × (Nat → List Nat) :=
  if t.kind = 3 then s
  else if t.kind = 4 then
    match t.fromTrip, t.toTrip with
    | some a, some b => (s.1, fun x => if x = a then s.2 x ++ [b] else s.2 x)
    | _, _ => s
  else if t.frm ∈ s.1.keys then
    if t.to ∈ s.1.keys then
      if t.frm = t.to then (put s.1 t.frm (addTransferTime t.minutes), s.2)
      else (put s.1 t.frm (addFootpath t.to t.minutes), s.2)
    else s
  else s

/-- `read_transfers`, `stop.cc:124-205`. -/
def readTransfers (s : Stops) (ts : List Transfer) : Stops × (Nat → List Nat) :=
  ts.foldl readTransfer (s, fun _ => [])

/-! ## Footpaths -/

/-- Duration of a `footpath`, `footpath.h:31-35`: at most 511, and 9 bits. -/
def fpDur (d : Int) : Int := if 511 < d then 511 else d % 512

/-- `preprocessing_footpaths_out_`, `preprocessing_footpaths_in_` and `equivalences_`. -/
structure Fps where
  out : Nat → List (Nat × Int) := fun _ => []
  in_ : Nat → List (Nat × Int) := fun _ => []
  eqs : Nat → List Nat := fun _ => []

/-- Append to a bucket. -/
def push {α : Type} (m : Nat → List α) (i : Nat) (x : α) : Nat → List α := fun j => if j = i then m j ++ [x] else m j

/-- `add_if_not_exists`, `stop.cc:343-349`. -/
def addNew (m : Nat → List (Nat × Int)) (i t : Nat) (d : Int) : Nat → List (Nat × Int) :=
  if (m i).any (fun f => f.1 == t) then m else push m i (t, fpDur d)

/-- A footpath of `transfers.txt`, `stop.cc:359-365`. -/
def explicitFp (s : Nat) (f : Fps) (x : Nat × Int) : Fps :=
  { f with out := push f.out s (x.1, fpDur x.2), in_ := push f.in_ x.1 (s, fpDur x.2) }

/-- Its reverse, `stop.cc:370-377`. -/
def reverseFp (s : Nat) (f : Fps) (x : Nat × Int) : Fps :=
  { f with out := addNew f.out x.1 s x.2, in_ := addNew f.in_ s x.1 x.2 }

/-- A generated footpath, `stop.cc:384-407`; `walk` is the walking time of `stop.cc:385-388`. -/
def nearFp (walk : Nat → Nat → Int) (s : Nat) (f : Fps) (m : Nat) : Fps :=
  if 511 < walk s m then f
  else
    { out := addNew (addNew f.out s m (walk s m)) m s (walk s m),
      in_ := addNew (addNew f.in_ m s (walk s m)) s m (walk s m),
      eqs := push f.eqs s m }

/-- The footpaths, `stop.cc:351-409`: all stops in the order `order`, with the metas of each. -/
def footpaths (fps : Nat → List (Nat × Int)) (metas : Nat → List Nat) (walk : Nat → Nat → Int) (order : List Nat) : Fps :=
  let f := order.foldl (fun f s => (fps s).foldl (explicitFp s) f) {}
  let f := order.foldl (fun f s => (fps s).foldl (reverseFp s) f) f
  order.foldl (fun f s => (metas s).foldl (nearFp walk s) f) f

/-! ## `get_metas` -/

/-- Neighbours of a stop in the hierarchy, `stop.cc:61-69`. -/
def nb (info : Nat → Rec) (x : Nat) : List Nat := (info x).parent.toList ++ (info x).children

/-- The work list loop, `stop.cc:56-70`: any element of `todo` may be the next one.  `Loop info todo done r`: it ends
with the set `r`. -/
inductive Loop (info : Nat → Rec) : List Nat → List Nat → List Nat → Prop
  | stop (done : List Nat) : Loop info [] done done
  | step {todo done r : List Nat} (n : Nat) (hn : n ∈ todo)
      (h : Loop info (todo.filter (· ≠ n) ++ (nb info n).filter (· ∉ n :: done)) (n :: done) r) : Loop info todo done r

/-- One round of the loop, for any choice of the next element. -/
inductive Round (info : Nat → Rec) : List Nat × List Nat → List Nat × List Nat → Prop
  | mk {todo done : List Nat} (n : Nat) (hn : n ∈ todo) :
      Round info (todo, done) (todo.filter (· ≠ n) ++ (nb info n).filter (· ∉ n :: done), n :: done)

/-- Which stops of the hierarchy are kept, `stop.cc:72-84`; `sq` is the squared distance in metres. -/
def keep (info : Nat → Rec) (sq : Nat → Nat → Nat) (x m : Nat) : Bool :=
  !((decide (500 ^ 2 < sq m x) && !decide ((info x).parent = some m) && !decide (m ∈ (info x).children)) ||
    decide (2000 ^ 2 < sq m x))

/-- The end of `get_metas`, `stop.cc:72-90`: the kept stops and their children.  (The code inserts into the set while
iterating over it; modelled is an iteration over the elements which were there before.) -/
def finish (info : Nat → Rec) (sq : Nat → Nat → Nat) (x : Nat) (done : List Nat) : List Nat :=
  done.filter (keep info sq x) ++ (done.filter (keep info sq x)).flatMap fun d => (info d).children

/-- `get_metas`, `stop.cc:42-93`: `m` is a possible result; `close` are the stops of `close_`. -/
def Metas (s : Stops) (close : Nat → List Nat) (sq : Nat → Nat → Nat) (x : Nat) (m : List Nat) : Prop :=
  ∃ done, Loop s.info (x :: sameName s x ++ close x) [] done ∧ m = finish s.info sq x done

/-! ## Stop groups, nearby stations -/

/-- A row of `stop_group_elements.txt`, `stop_group.cc:29-62`: group, stop; `origin`: is the location at (0,0)? -/
def groupRow (known origin : Nat → Bool) (children : Nat → List Nat) (eqs : Nat → List Nat) (row : Nat × Nat) : Nat → List Nat :=
  if known row.1 && known row.2 && origin row.1 then
    (children row.2).foldl (fun e c => (children c).foldl (fun e g => push e row.1 g) (push e row.1 c))
      (push eqs row.1 row.2)
  else eqs

/-- `add_stop_groups`, `stop_group.cc:15-63`. -/
def stopGroups (known origin : Nat → Bool) (children : Nat → List Nat) (rows : List (Nat × Nat)) (eqs : Nat → List Nat) :
    Nat → List Nat :=
  rows.foldl (groupRow known origin children) eqs

/-- What `link_nearby_stations` sees: number of locations, `nowhere` (within 2 degrees of (0,0)), source (`none` for dummy
stations), locations in a radius of 300 m, transfer times, rounded walking time, closer than 100 m. -/
structure Places where
  n : Nat
  nowhere : Nat → Bool
  src : Nat → Option Nat
  near : Nat → List Nat
  transferTime : Nat → Int
  walk : Nat → Nat → Int
  veryNear : Nat → Nat → Bool

/-- Link a location to a near one, `link_nearby_stations.cc:50-81`. -/
def linkTo (p : Places) (a : Nat) (f : Fps) (b : Nat) : Fps :=
  if a = b ∨ p.src b = none ∨ p.src a = p.src b then f
  else
    let d := max (max (p.transferTime a) (p.transferTime b)) (p.walk a b)
    { out := push f.out a (b, fpDur d), in_ := push f.in_ b (a, fpDur d),
      eqs := if p.veryNear a b then push f.eqs a b else f.eqs }

/-- `link_nearby_stations.cc:37-82`: one location. -/
def linkFrom (p : Places) (f : Fps) (a : Nat) : Fps :=
  if p.nowhere a ∨ p.src a = none then f else (p.near a).foldl (linkTo p a) f

/-- `link_nearby_stations`, `link_nearby_stations.cc:30-83`. -/
def linkNearby (p : Places) (f : Fps) : Fps := (List.range p.n).foldl (linkFrom p) f

end Nigiri.GtfsStops
