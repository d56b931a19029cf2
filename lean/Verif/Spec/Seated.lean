import Verif.Model.Seated
import Verif.Proofs.Reconstruct
/-!
# What joined trips have to be

A feed has trips (here: `Variant`s, one per UTC offset and frequency iteration), which run on days, and
rules "passengers may stay seated from trip `a` to trip `b`".
-/

namespace Nigiri.Seated
open Nigiri.Raptor (Adj)

/-- The stops of joined trips: the last stop of a trip is the first stop of the next one. -/
def joinStops : List (List Stop) → List Stop
  | [] => []
  | s :: ss => s ++ (ss.map (·.drop 1)).flatten

/-- Trip `i` runs on day `d` (any integer; days outside of the timetable have no service). -/
def Input.Runs (inp : Input) (i : Nat) (d : Int) : Prop :=
  ∃ v, inp.vs[i]? = some v ∧ ∃ e : Nat, (e : Int) = d ∧ v.days e = true

/-- There is a rule from trip `i` to trip `j`. -/
def Input.Rule (inp : Input) (i j : Nat) : Prop :=
  ∃ v w, inp.vs[i]? = some v ∧ inp.vs[j]? = some w ∧ w.rule ∈ inp.sOut v.rule

/-- Transport `t` is a vehicle run through the trips of `chain`: `(i, o)` is trip `i`, which starts `o` days
after the first one. It runs at the times of the trips on days on which all of them run, and passes from
one to the next by a rule. -/
structure Describes (inp : Input) (t : Transport) (chain : List (Nat × Int)) : Prop where
  first : chain.head?.map (·.2) = some 0
  trips : t.trips = chain.map fun x => (inp.var x.1).trip
  times : t.times = (chain.map fun x => (inp.var x.1).times.map (· + x.2 * 1440)).flatten
  stops : t.stops = joinStops (chain.map fun x => (inp.var x.1).stops)
  rules : Adj (fun x y => inp.Rule x.1 y.1) chain
  days : ∀ d : Nat, t.days d = true → ∀ x ∈ chain, inp.Runs x.1 (d + x.2)
  some_day : ∃ d : Nat, t.days d = true

/-- From the end of trip `i` on day 0 to the start of trip `j` on day `o`. -/
def Input.wait (inp : Input) (i j : Nat) (o : Int) : Int :=
  (inp.var j).firstDep + o * 1440 - (inp.var i).lastArr

/-- Passengers can stay seated from trip `i` to trip `j` started `o` days later: there is a rule, and `j`
starts within two hours after the end of `i`. -/
def Input.Stay (inp : Input) (i j : Nat) (o : Int) : Prop :=
  inp.Rule i j ∧ 0 ≤ inp.wait i j o ∧ inp.wait i j o < 120

/-- What the loader guarantees. -/
structure Input.Ok (inp : Input) : Prop where
  mirror : ∀ a b, b ∈ inp.sOut a ↔ a ∈ inp.sIn b
  bounded : ∀ v ∈ inp.vs, ∀ d, v.days d = true → d < kMaxDays
  nonempty : ∀ v ∈ inp.vs, ∃ d, v.days d = true
  times : ∀ v ∈ inp.vs, v.times ≠ [] ∧ v.times.Pairwise (· ≤ ·) ∧ 0 ≤ v.firstDep ∧ v.firstDep < 1440

/-- The rules make sense: there is an assignment of days (`off i`: the day trip `i` starts, relative to a
common service day) such that
* rules do not lead in a circle,
* trips that can be joined are joined on the same service day,
* trips with a rule that both run on a service day can be joined on it,
* no trip runs twice (in two variants) on a service day. -/
structure Input.Consistent (inp : Input) (off : Nat → Int) (rank : Nat → Nat) : Prop where
  acyclic : ∀ i j, inp.Rule i j → rank (inp.var i).rule < rank (inp.var j).rule
  same_day : ∀ i j o, inp.Stay i j o → off j = off i + o
  stays : ∀ i j, inp.Rule i j → ∀ d : Int, inp.Runs i (d + off i) → inp.Runs j (d + off j) → inp.Stay i j (off j - off i)
  once : ∀ i j, i < inp.vs.length → j < inp.vs.length → (inp.var i).rule = (inp.var j).rule → i ≠ j → ∀ d : Int,
    inp.Runs i (d + off i) → ¬ inp.Runs j (d + off j)

/-- The choices of the hash maps: any element first, any order. -/
def Fair (c : Nat → Choice) : Prop := ∀ n l, ((c n).ord l).Perm l

end Nigiri.Seated
