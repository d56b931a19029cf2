import Verif.Model.RaptorConcrete
import Verif.Model.ParetoSet
/-!
# The ping-pong search

Model of `pong`, `src/routing/raptor/pong.cc:62-470`, without via stops and without time-dependent footpaths and
offsets.  Times are oriented along the direction of the first search (see `Verif.Model.Raptor`): the second
search runs in the opposite direction, its times are negated.

Not modelled: `enrich_with_slow_direct`, the order of the returned journeys, the exchange of the special stations
at the ends of a journey, `get_earliest_alternative` (pong.cc:397-470), statistics, the GPU variant.
-/

namespace Nigiri.Raptor

/-- `fill_bounds`, raptor.h:117-170: the best label of the rounds up to `k`. -/
def rowMin (R : State) : Nat → Loc → Int
  | 0, l => R.round 0 l
  | k + 1, l => min (R.round (k + 1) l) (rowMin R k l)

/-- The search data with other bounds. -/
def Problem.setBound (P : Problem) (b : Option (Nat → Loc → Int)) : Problem := { P with bound := b }

/-- `set_bounds(last_round)` after `fill_bounds` of the first search, raptor.h:172 and `within_bounds`,
raptor.h:458-489: the label plus one transfer, in the times of the second search. -/
def pingBound (P' : Problem) (R : State) (last : Nat) : Nat → Loc → Int := fun k l => -(rowMin R (last - k) l) + P'.transfer l

/-- The start events for a start time `s`, `start_times.cc:241-318`: one for each station near the start of the
query, at the time one gets there. -/
def startsAt (acc : List (Loc × Int)) (s : Int) : List (Loc × Int) := acc.map fun x => (x.1, s + x.2)

namespace Pong

/-- `is_reconstructed_` and `error_` of a journey. -/
inductive Status
  | pending
  | ok
  | failed
deriving DecidableEq, Repr

/-- What the search sees of a `journey`, `journey.h`: `start_time_`, `dest_time_`, `transfers_`. -/
structure PJ where
  start : Int
  dest : Int
  transfers : Nat
  status : Status
deriving DecidableEq, Repr

/-- `journey::dominates`, journey.h:80-88, on real times. -/
def dom (d : Dir) (a b : PJ) : Bool :=
  if d.sgn * a.start ≤ d.sgn * a.dest then
    decide (a.transfers ≤ b.transfers) && decide (d.sgn * b.start ≤ d.sgn * a.start) && decide (d.sgn * a.dest ≤ d.sgn * b.dest)
  else
    decide (a.transfers ≤ b.transfers) && decide (d.sgn * a.start ≤ d.sgn * b.start) && decide (d.sgn * b.dest ≤ d.sgn * a.dest)

/-- `journey::travel_time`, journey.h:92-94. -/
def PJ.travel (j : PJ) : Int := (j.dest - j.start).natAbs

/-- The query and the data of its two searches. -/
structure Cfg where
  dir : Dir
  /-- the first search -/
  P : Problem
  /-- the second search -/
  P' : Problem
  /-- stations at the start of the query and the time to get there -/
  acc : List (Loc × Int)
  /-- stations at the end of the query and the time to get from there -/
  acc' : List (Loc × Int)
  /-- `max_transfers_` -/
  maxTransfers : Nat
  /-- `max_travel_time_` -/
  maxTravel : Int
  /-- `fastest_direct` -/
  fastest : Int
  /-- `min_connection_count_` -/
  minConn : Nat
  /-- `extend_interval_later_` (forward) or `extend_interval_earlier_` (backward) -/
  extend : Bool
  /-- the first `start_time` -/
  s0 : Int
  /-- `end_time` -/
  endT : Int
  /-- the timetable's period -/
  extFrom : Int
  extTo : Int
  /-- does `reconstruct` of a journey found from this start time succeed? -/
  recon : Int → PJ → Bool
  /-- has the timeout passed when this start time is reached? -/
  timeout : Int → Bool

/-- Number of rounds, raptor.h:211: `min(max_transfers, kMaxTransfers) + 1`. -/
def nRounds (maxTransfers : Nat) : Nat := min maxTransfers 14 + 1

/-- The latest arrival a search looks at, pong.cc:270-273. -/
def Cfg.look (C : Cfg) : Int := min (C.maxTravel + 1440) 7200

/-- `ping.reset_arrivals`, `next_start_time`, `add_start`..., `execute`, pong.cc:255-275. -/
def Cfg.ping (C : Cfg) (s : Int) : State :=
  runOne C.P (nRounds C.maxTransfers) (init C.P) ⟨s, startsAt C.acc s, s + C.look⟩

/-- Adding journeys to a Pareto set, raptor.h:388-410. -/
def addAll (d : Dir) (js : List PJ) (res : List PJ) : List PJ := js.foldl (fun r j => (ParetoSet.add (dom d) j r).2) res

/-- The journeys of the first search, raptor.h:388-410. -/
def Cfg.pingJourneys (C : Cfg) (s : Int) (R : State) : List PJ :=
  (results C.P (nRounds C.maxTransfers) R).map fun x => ⟨s, x.2.2, x.2.1 - 1, .pending⟩

/-- The journeys of the second search from the arrival `A`, raptor.h:388-410; the labels are times of the second
search. -/
def Cfg.pongJourneys (C : Cfg) (A : Int) (n : Nat) (S : State) : List PJ :=
  (results C.P' n S).map fun x => ⟨A, -x.2.2, x.2.1 - 1, .pending⟩

/-- Sorting by the number of transfers, most first, pong.cc:295-297. -/
def insertDesc (a : PJ) : List PJ → List PJ
  | [] => [a]
  | b :: l => if b.transfers < a.transfers then a :: b :: l else b :: insertDesc a l

def sortDesc : List PJ → List PJ
  | [] => []
  | a :: l => insertDesc a (sortDesc l)

/-- Reconstruction of the journey found unless that has been tried before, pong.cc:336-339. -/
def PJ.settle (rec : PJ → Bool) (j : PJ) : PJ := match j.status with
  | .pending => { j with status := if rec j then .ok else .failed }
  | _ => j

/-- `utl::find_if` and the reconstruction of the journey found, pong.cc:321-343: the results and the `dest_time_` of
the match. -/
def useMatch (rec : PJ → Bool) (tr : Nat) (A : Int) : List PJ → Option (List PJ × Int)
  | [] => none
  | j :: l =>
    if j.transfers = tr ∧ j.start = A then some (j.settle rec :: l, j.dest)
    else (useMatch rec tr A l).map fun x => (j :: x.1, x.2)

inductive Error
  /-- pong.cc:327-332 -/
  | noPong
  /-- pong.cc:354-357 -/
  | noProgress
deriving DecidableEq, Repr

/-- The second search for one result of the first, pong.cc:303-353: its state, the results and the new
`start_time_` of the journey. -/
def Cfg.pongOne (C : Cfg) (s : Int) (R : State) (S : State) (res : List PJ) (j : PJ) : Option (State × List PJ × Int) :=
  let Q := C.P'.setBound (some (pingBound C.P' R (j.transfers + 1)))
  let S' := runOne Q (nRounds j.transfers) S ⟨-j.dest, startsAt C.acc' (-j.dest), -j.start⟩
  let res' := addAll C.dir (C.pongJourneys j.dest (nRounds j.transfers) S') res
  (useMatch (C.recon s) j.transfers j.dest res').map fun x => (S', x.1, x.2)

/-- All results of the first search in turn, pong.cc:346-353. -/
def Cfg.pongAll (C : Cfg) (s : Int) (R : State) : List PJ → State → List PJ → List Int → Option (List PJ × List Int)
  | [], _, res, ds => some (res, ds)
  | j :: js, S, res, ds => match C.pongOne s R S res j with
    | none => none
    | some (S', res', d) => C.pongAll s R js S' res' (d :: ds)

/-- `min_element`, pong.cc:357-360. -/
def minOf (d : Int) (ds : List Int) : Int := ds.foldl min d

/-- One turn of the loop, pong.cc:251-372: `none` = `break`, otherwise the next start time and the results. -/
def Cfg.turn (C : Cfg) (s : Int) (res : List PJ) : Except Error (Option (Int × List PJ)) :=
  let R := C.ping s
  let found := addAll C.dir (C.pingJourneys s R) []
  let js := sortDesc (found.filter fun x => !ParetoSet.isDominated (dom C.dir) x res)
  if js.isEmpty then .ok none
  else match C.pongAll s R js (init C.P') res [] with
    | none => .error .noPong
    | some (_, []) => .error .noProgress
    | some (res', d :: ds) => .ok (some (minOf d ds + 1, res'))

/-- `is_validated`, pong.cc:231-233. -/
def validated (s : Int) (j : PJ) : Bool := decide (j.dest < s)

/-- Neither too slow nor slower than a direct connection, pong.cc:237-238, 372-373. -/
def Cfg.fast (C : Cfg) (j : PJ) : Bool := decide (j.travel < C.fastest) && decide (j.travel ≤ C.maxTravel)

/-- The loop condition, pong.cc:246-250. -/
def Cfg.go (C : Cfg) (s : Int) (res : List PJ) : Bool :=
  (decide (s < C.endT) || decide (res.countP (validated s) + res.countP (fun j => validated s j && C.fast j) < 2 * C.minConn)) &&
  decide (C.extFrom ≤ s) && decide (s < C.extTo) && !C.timeout s

theorem Cfg.go_lt {C : Cfg} {s : Int} {res : List PJ} (h : C.go s res = true) : s < C.extTo := by
  unfold Cfg.go at h
  simp only [Bool.and_eq_true, decide_eq_true_eq] at h
  exact h.1.2

/-- The loop, pong.cc:246-372: the final start time and the results, or the start time and the reason of an
exception. -/
def Cfg.loop (C : Cfg) (s : Int) (res : List PJ) : Except (Int × Error) (Int × List PJ) :=
  if _h : C.go s res = true then
    match C.turn s res with
    | .error e => .error (s, e)
    | .ok none => .ok (s, res)
    | .ok (some (next, res')) => if _hn : s < next then C.loop next res' else .error (s, .noProgress)
  else .ok (s, res)
termination_by (C.extTo - s).toNat
decreasing_by have := Cfg.go_lt _h; omega

/-- The final `erase_if`, pong.cc:374-393. -/
def Cfg.keep (C : Cfg) (s : Int) (j : PJ) : Bool :=
  decide (j.status = .ok) && validated s j && !(!C.extend && decide (C.endT ≤ j.dest)) && C.fast j

/-- `pong`: the journeys with start and destination in the order of the query (pong.cc:395-397) and the searched
interval (pong.cc:399-400). -/
structure Output where
  journeys : List PJ
  /-- first start time -/
  from' : Int
  /-- start time at which the search ended -/
  to' : Int
deriving DecidableEq, Repr

def Cfg.run (C : Cfg) : Except (Int × Error) Output :=
  match C.loop C.s0 [] with
  | .error e => .error e
  | .ok (s, res) => .ok
    { journeys := (res.filter (C.keep s)).map fun j => { j with start := j.dest, dest := j.start }
      from' := C.s0
      to' := s }

end Pong

end Nigiri.Raptor
