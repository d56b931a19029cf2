import Verif.Model.Blocks
/-!
# Stay-seated transfers

Model of `src/loader/gtfs/seated.cc` (`build_seated_trips`) and `include/nigiri/loader/gtfs/seated.h`
(`expand_seated_trips`): trips connected by rows of transfers.txt with transfer type 4 are written as
joined transports.

The iteration order of hash maps is arbitrary: `ch` chooses the element `q.begin()` of the queue in every
step, `ord` the order of the component.  Times are integers (minutes; the program uses 16 bits).
Log output is not modelled.
-/

namespace Nigiri.Seated

/-- A stop of a trip: location, boarding and alighting allowed. -/
structure Stop where
  loc : Nat
  inAllowed : Bool := true
  outAllowed : Bool := true
deriving DecidableEq

/-- One element of `expanded_.data_` (`utc_trip` of one trip, one UTC offset and one frequency iteration)
with its entry of `remaining_rule_trip_`, `seated.h:19-25`. -/
structure Variant where
  rule : Nat
  trip : Nat
  times : List Int
  stops : List Stop
  days : Bitfield

/-- `expanded_seated`, `seated.h:19-25`. -/
structure Input where
  sIn : Nat → List Nat
  sOut : Nat → List Nat
  vs : List Variant

def Variant.default : Variant := ⟨0, 0, [], [], fun _ => false⟩

/-- `remaining[i]` (its days are kept separately). -/
def Input.var (inp : Input) (i : Nat) : Variant := inp.vs.getD i Variant.default

/-- The transports given to the consumer. -/
structure Transport where
  trips : List Nat
  times : List Int
  stops : List Stop
  days : Bitfield

/-- `shift`, `seated.cc:25-28`: `<<` and `>>` of a bitset of `kMaxDays` bits. -/
def shift (b : Bitfield) (offset : Int) : Bitfield :=
  if 0 < offset then fun d => decide (offset.toNat ≤ d) && decide (d < kMaxDays) && b (d - offset.toNat)
  else fun d => decide (d + (-offset).toNat < kMaxDays) && b (d + (-offset).toNat)

/-- `bitfield::any()`. -/
def any (b : Bitfield) : Bool := (List.range kMaxDays).any b

/-- `get_remaining`, `seated.cc:31-35`: the elements of one trip. -/
def Input.remaining (inp : Input) (r : Nat) : List Nat :=
  (List.range inp.vs.length).filter fun i => decide ((inp.var i).rule = r)

/-- `first_dep`, `seated.cc:45-48`. -/
def Variant.firstDep (v : Variant) : Int := v.times.headD 0

/-- `last_arr`, `seated.cc:49-52`. -/
def Variant.lastArr (v : Variant) : Int := v.times.getLastD 0

/-- `get_day_change_offset`, `seated.cc:53-60`. -/
def dayChange (a b : Variant) : Int :=
  (a.lastArr.tdiv 1440 - a.firstDep.tdiv 1440) + (if b.firstDep < a.lastArr.tmod 1440 then 1 else 0)

/-- `is_valid_dwell_time`, `seated.cc:61-70`. -/
def validDwell (a b : Variant) : Bool :=
  let diff := b.firstDep - a.lastArr.tmod 1440
  let dwell := if diff < 0 then diff + 1440 else diff
  decide (dwell < 120)

/-! ### Part 1: the component -/

/-- State of part 1, `seated.cc:82-93`. -/
structure P1 where
  q : List (Nat × Int)
  comp : List (Nat × Int)
  days : Bitfield

def hasKey (m : List (Nat × Int)) (k : Nat) : Bool := m.any fun x => decide (x.1 = k)

/-- `hash_map::emplace`: keeps an existing entry. -/
def emplace (m : List (Nat × Int)) (x : Nat × Int) : List (Nat × Int) := if hasKey m x.1 then m else m ++ [x]

/-- What is emplaced for the neighbours of `curr`, `seated.cc:126-157`, in this order: outgoing, incoming.
`comp` is the component including `curr`. -/
def neighbours (inp : Input) (comp : List (Nat × Int)) (curr : Nat) (offset : Int) : List (Nat × Int) :=
  (((inp.sOut (inp.var curr).rule).flatMap inp.remaining).filterMap fun out =>
    if hasKey comp out || !validDwell (inp.var curr) (inp.var out) then none
    else some (out, offset + dayChange (inp.var curr) (inp.var out))) ++
  (((inp.sIn (inp.var curr).rule).flatMap inp.remaining).filterMap fun inn =>
    if hasKey comp inn || !validDwell (inp.var inn) (inp.var curr) then none
    else some (inn, offset - dayChange (inp.var inn) (inp.var curr)))

/-- One iteration, `seated.cc:93-158`; `k` chooses the element at `q.begin()`. -/
def p1Step (inp : Input) (rem : Nat → Bitfield) (k : Nat) (st : P1) : P1 :=
  match st.q[k % st.q.length]? with
  | none => st
  | some (curr, offset) =>
    let q := st.q.eraseIdx (k % st.q.length)
    let next : Bitfield := fun d => shift (rem curr) (-offset) d && st.days d
    if any next then
      let comp := emplace st.comp (curr, offset)
      { q := (neighbours inp comp curr offset).foldl emplace q, comp := comp, days := next }
    else { st with q := q }

/-- The loop, `seated.cc:93-158`. -/
def p1Loop (inp : Input) (rem : Nat → Bitfield) (ch : Nat → Nat) : Nat → P1 → P1
  | 0, st => st
  | n + 1, st => if st.q.isEmpty then st else p1Loop inp rem ch n (p1Step inp rem (ch n) st)

/-- Enough iterations: see `component_done`. -/
def p1Fuel (n : Nat) : Nat := (n + 1) * n + 1

/-- Part 1, `seated.cc:82-159`. -/
def component (inp : Input) (rem : Nat → Bitfield) (ch : Nat → Nat) (root : Nat) : P1 :=
  p1Loop inp rem ch (p1Fuel inp.vs.length) { q := [(root, 0)], comp := [], days := rem root }

/-! ### Part 2 and 3: the transports of the component -/

/-- `get_representative`, `seated.cc:168-176`: the first element of trip `r` in the order of the map. -/
def rep (inp : Input) (comp : List (Nat × Int)) (r : Nat) : Option (Nat × Int) :=
  comp.find? fun x => decide ((inp.var x.1).rule = r)

/-- An element of the queue of part 2 and 3, `seated.cc:180-184`. -/
structure Entry where
  t : Transport
  last : Nat
  off : Int

/-- `is_entry`, `seated.cc:187-190`. -/
def isEntry (inp : Input) (comp : List (Nat × Int)) (i : Nat) : Bool :=
  (inp.sIn (inp.var i).rule).all fun r => (rep inp comp r).isNone

/-- Part 2, `seated.cc:180-204`: the entries of the component in push order. -/
def starts (inp : Input) (comp : List (Nat × Int)) (days : Bitfield) : List Entry :=
  comp.filterMap fun x =>
    if isEntry inp comp x.1 then
      let v := inp.var x.1
      some ⟨⟨[v.trip], v.times, v.stops, shift days x.2⟩, v.rule, -x.2⟩
    else none

/-- Appending a trip, `seated.cc:218-232,254-256`. -/
def Entry.extend (inp : Input) (e : Entry) (x : Nat × Int) : Entry :=
  let v := inp.var x.1
  ⟨⟨e.t.trips ++ [v.trip], e.t.times ++ v.times.map (· + (e.off + x.2) * 1440), e.t.stops ++ v.stops.drop 1, e.t.days⟩,
    v.rule, e.off⟩

/-- The successors of an entry, `seated.cc:215-259`, in push order. -/
def Entry.next (inp : Input) (comp : List (Nat × Int)) (e : Entry) : List Entry :=
  (inp.sOut e.last).filterMap fun r => (rep inp comp r).map (e.extend inp)

/-- Part 3, `seated.cc:209-271`; the head of the list is the back of the queue; `none`: not finished with
the given number of iterations. -/
def dfs (inp : Input) (comp : List (Nat × Int)) : Nat → List Entry → Option (List Transport)
  | _, [] => some []
  | 0, _ :: _ => none
  | n + 1, e :: rest =>
    if (e.next inp comp).isEmpty then (dfs inp comp n rest).map (e.t :: ·)
    else dfs inp comp n ((e.next inp comp).reverse ++ rest)

/-! ### Part 4 and the main loop -/

/-- State of the main loop: traffic days left, `remaining_has_bits`. -/
structure St where
  rem : Nat → Bitfield
  bits : Nat → Bool

/-- Part 4, `seated.cc:276-283`. -/
def clear (days : Bitfield) (st : St) (x : Nat × Int) : St :=
  let days' : Bitfield := fun d => st.rem x.1 d && !shift days x.2 d
  { rem := fun i => if i = x.1 then days' else st.rem i
    bits := if any days' then st.bits else fun i => if i = x.1 then false else st.bits i }

/-- `next_set_bit`. -/
def nextSet (n : Nat) (bits : Nat → Bool) (i : Nat) : Option Nat := (List.range' i (n - i)).find? bits

/-- Choices of the hash maps in one iteration of the main loop. -/
structure Choice where
  ch : Nat → Nat
  ord : List (Nat × Int) → List (Nat × Int)

/-- The main loop, `seated.cc:78-288`; `i` is the value of `next_remaining`. -/
def mainLoop (inp : Input) (c : Nat → Choice) : Nat → Option Nat → St → Option (List Transport)
  | _, none, _ => some []
  | 0, some _, _ => none
  | n + 1, some i, st =>
    let p := component inp st.rem (c n).ch i
    let comp := (c n).ord p.comp
    match dfs inp comp n (starts inp comp p.days).reverse with
    | none => none
    | some out =>
      let st' := comp.foldl (clear p.days) st
      (mainLoop inp c n (nextSet inp.vs.length st'.bits i) st').map (out ++ ·)

/-- `build_seated_trips`, `seated.cc:14-289`. -/
def build (inp : Input) (c : Nat → Choice) (fuel : Nat) : Option (List Transport) :=
  mainLoop inp c fuel (nextSet inp.vs.length (fun _ => true) 0) { rem := fun i => (inp.var i).days, bits := fun _ => true }

/-! ### Reading the rules -/

/-- `push_unique`. -/
def pushUnique (l : List Nat) (x : Nat) : List Nat := if x ∈ l then l else l ++ [x]

/-- The rows `(from, to)` of transfers.txt with known trips, in any order, `load_timetable.cc:215-242`: the
lists `seated_in_` and `seated_out_` of the trips. -/
def resolve : List (Nat × Nat) → (Nat → List Nat) × (Nat → List Nat)
  | [] => (fun _ => [], fun _ => [])
  | (a, b) :: l =>
    let r := resolve l
    (fun t => if t = b then pushUnique (r.1 t) a else r.1 t, fun t => if t = a then pushUnique (r.2 t) b else r.2 t)

/-- The joined stop sequence of a block, `get_stop_seq`, `local_to_utc.h:254-272` (for comparison: used if
`stop_seq_` is empty, which is not the case for stay-seated transfers): boarding at the shared stop is
decided by the trip that departs. -/
def blockStops : List Stop → List (List Stop) → List Stop
  | acc, [] => acc
  | acc, s :: ss =>
    match acc.getLast?, s.head? with
    | some p, some f => blockStops (acc.dropLast ++ [{ p with inAllowed := f.inAllowed }] ++ s.drop 1) ss
    | _, _ => blockStops (acc ++ s.drop 1) ss

end Nigiri.Seated
