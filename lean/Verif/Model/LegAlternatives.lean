import Verif.Model.Direct
/-!
# Alternatives for a leg

Model of `src/routing/leg_alternatives.cc` and of the last step of `pong` (`src/routing/raptor/pong.cc:36-62, 436-473`),
which replaces a ride between two other rides by the earliest direct connection.
-/

namespace Nigiri.Direct
open Nigiri.Raptor Nigiri.Lb

/-- One end of `make_alternative_query`, `leg_alternatives.cc:26-44`. -/
def exactSide (l : Loc) : SideQ := ⟨.exact, [(l, 0)], [], true⟩

def isTransit (x : Leg) : Bool := match x.uses with | .ride .. => true | _ => false

/-- `prev_it`, `leg_alternatives.cc:127-130`. -/
def prevRide (legs : List Leg) (k : Nat) : Option Leg := (legs.take k).reverse.find? isTransit

/-- `next_it`, `leg_alternatives.cc:131-133`. -/
def nextRide (legs : List Leg) (k : Nat) : Option Leg := (legs.drop (k + 1)).find? isTransit

/-- `direct_query`, `leg_alternatives.cc:138-152`. -/
def altQuery (q : Query) (prev next : Option Leg) : Query :=
  { q with
    start := match prev with | some x => exactSide x.to | none => q.start
    dest := match next with | some x => exactSide x.fr | none => q.dest }

/-- Direction, anchor time and latest arrival of the search, `leg_alternatives.cc:154-174`. -/
def altPlan (legs : List Leg) (prev next : Option Leg) : Dir × Int × Option Int :=
  match prev, next with
  | none, some y => (.bwd, y.dep, none)
  | some x, some y => (.fwd, x.arr, some y.dep)
  | some x, none => (.fwd, x.arr, none)
  | none, none => (.fwd, depOf legs, none)

/-- The scheduled transport of a vehicle, `run::t_` (`frun.cc:550-559`); `scheduled` is `resolve_static`, `none` for
additional services. -/
def tOf (scheduled : Nat → Option (Nat × Nat × Int)) : Vehicle → Option (Nat × Nat × Int)
  | .trip r t d => some (r, t, d)
  | .rt r => scheduled r

/-- `operator==` of `run_enter_exit`, `journey.h:31-33`, and of `run`, `rt/run.h:38-40`: the real-time transport is not
compared. -/
def sameRun (N : Net) (scheduled : Nat → Option (Nat × Nat × Int)) (x y : Vehicle × Nat × Nat) : Bool :=
  decide (tOf scheduled x.1 = tOf scheduled y.1 ∧ (N.vStops x.1).length = (N.vStops y.1).length ∧ x.2 = y.2)

/-- `not_original`, `leg_alternatives.cc:70-75`. -/
def notOriginal (N : Net) (scheduled : Nat → Option (Nat × Nat × Int)) (orig : Vehicle × Nat × Nat) (legs : List Leg) : Bool :=
  !legs.any fun l => match l.uses with
    | .ride v i j => sameRun N scheduled (v, i, j) orig
    | _ => false

/-- `fits_arrival`, `leg_alternatives.cc:90-92`. -/
def fitsArrival (bound : Option Int) (legs : List Leg) : Bool := match bound with
  | none => true
  | some b => decide (arrOf legs ≤ b)

/-- The inner `get_leg_alternatives`, `leg_alternatives.cc:46-106`; `out` is the sequence of direct journeys. -/
def altList (d : Dir) (bound : Option Int) (opt : List Leg → List Leg) (keep : List Leg → Bool) (n : Nat) (out : List (List Leg)) : List (List Leg) :=
  match d with
  | .bwd => ((out.map opt).filter keep).take n
  | .fwd => (((out.takeWhile (fitsArrival bound)).map opt).filter keep).take n

/-- `get_leg_alternatives`, `leg_alternatives.cc:108-175`: `res` is a possible result. -/
def Alternatives (q : Query) (D : OptData) (scheduled : Nat → Option (Nat × Nat × Int)) (legs : List Leg) (k n : Nat) (res : List (List Leg)) : Prop :=
  match legs[k]? with
  | none => res = []
  | some x => match x.uses with
    | .ride v i j =>
      if n = 0 then res = []
      else
        ∃ out, Direct (altPlan legs (prevRide legs k) (nextRide legs k)).1 (altQuery q (prevRide legs k) (nextRide legs k))
            (altPlan legs (prevRide legs k) (nextRide legs k)).2.1 out ∧
          res = altList (altPlan legs (prevRide legs k) (nextRide legs k)).1 (altPlan legs (prevRide legs k) (nextRide legs k)).2.2
            (optimizeFootpaths q.N D) (notOriginal q.N scheduled (v, i, j)) n out
    | _ => res = []

/-! ## The last step of `pong` -/

/-- The query of `get_earliest_alternative`, `pong.cc:44`. -/
def pairQuery (q : Query) (a b : Loc) : Query := { q with start := exactSide a, dest := exactSide b }

/-- `get_earliest_alternative`, `pong.cc:36-62`; `first` is the first direct journey. -/
def earliestAlternative (first : Option (List Leg)) (arr dep : Int) : Option (Leg × Leg × Leg) :=
  match first with
  | some [a, b, c] => if dep < c.arr then none else some ({ a with dep := arr, arr := arr + (a.arr - a.dep) }, b, c)
  | _ => none

/-- One step of the loop, `pong.cc:448-469`; `first a b t` is the first direct journey from `a` to `b` from `t` on. -/
def improveStep (N : Net) (first : Loc → Loc → Int → Option (List Leg)) (x a b c z : Leg) : Leg × Leg × Leg :=
  match x.uses, b.uses, z.uses with
  | .ride v _ j, .ride _ _ _, .ride v' i' _ =>
    (earliestAlternative (first (locOf (N.vStops v) j) (locOf (N.vStops v') i') (N.vArr v j)) (N.vArr v j) (N.vDep v' i')).getD (a, b, c)
  | _, _, _ => (a, b, c)

/-- The loop over the legs of a journey, `pong.cc:446-471`. -/
def improve (N : Net) (first : Loc → Loc → Int → Option (List Leg)) : List Leg → List Leg
  | x :: a :: b :: c :: z :: rest =>
    x :: improve N first ((improveStep N first x a b c z).1 :: (improveStep N first x a b c z).2.1 :: (improveStep N first x a b c z).2.2 :: z :: rest)
  | L => L
termination_by L => L.length

end Nigiri.Direct
