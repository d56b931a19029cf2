import Verif.Model.Pong
import Verif.Model.StartTimes
/-!
# The two searches of a ping-pong query

Model of the part of `pong` that prepares the two searches, `src/routing/raptor/pong.cc:62-245`: destinations
(`collect_destinations`), start events (`get_starts` with a single start time), lower bounds.  The lower bounds of
the first search are a parameter; those of the second are zero (pong.cc:175-177).
-/

namespace Nigiri.Raptor.Pong
open Nigiri.Lb Nigiri.StartTimes

/-- One end of a query: `start_`/`destination_` with `start_match_mode_`/`dest_match_mode_`, query.h. -/
structure Place where
  mode : Mode
  offs : List (Loc × Nat)

/-- A query without via stops and time-dependent offsets. -/
structure Request where
  dir : Dir
  /-- the stations -/
  T : Tt
  /-- vehicles, transfer times and the filters of the query; the other fields are not used -/
  base : Net
  /-- adjusted footpaths in the direction of a search: `footpaths_out_` or `footpaths_in_` -/
  fps : Dir → Loc → List (Loc × Int)
  /-- `special_station::kEnd`: the end of an intermodal query, used by both searches -/
  endLoc : Loc
  /-- `start_` -/
  origin : Place
  /-- `destination_` -/
  target : Place
  /-- `use_start_footpaths_` -/
  useStartFps : Bool
  /-- lower bounds of the first search -/
  lb : Loc → Option Int
  maxTransfers : Nat
  maxTravel : Int
  fastest : Int
  minConn : Nat
  extend : Bool
  s0 : Int
  endT : Int
  extFrom : Int
  extTo : Int
  recon : Int → PJ → Bool
  timeout : Int → Bool

/-- The search data for a direction and a destination, pong.cc:93-135, 140-203. -/
def Request.netTo (q : Request) (d : Dir) (p : Place) (lb : Loc → Option Int) : Net :=
  { q.base with
    fps := fun l _ => q.fps d l
    intermodal := decide (p.mode = .intermodal)
    endDist := fun l => ((collectDest q.T p.mode q.endLoc p.offs).2 l).map Int.ofNat
    endTd := fun _ _ => none
    endLoc := q.endLoc
    isDest := (collectDest q.T p.mode q.endLoc p.offs).1
    lb := lb }

/-- The first search. -/
def Request.net (q : Request) : Net := q.netTo q.dir q.target q.lb

/-- The second search, pong.cc:137-203: `flip_dir`, lower bounds zero. -/
def Request.net' (q : Request) : Net := q.netTo (flip q.dir) q.origin fun _ => some 0

/-- `get_starts` for a single start time, `start_times.cc:263-307`: `shortest_start`. -/
def Request.starts (q : Request) (d : Dir) (p : Place) (useFps : Bool) : List (Loc × Int) :=
  shortestStart q.T (q.fps d) ⟨p.mode, p.offs.map fun o => (o.1, (o.2 : Int)), [], [], 0, useFps⟩

/-- The configuration of the loop; the second search starts with footpaths unless the query ends with offsets,
pong.cc:305-309. -/
def Request.cfg (q : Request) : Cfg where
  dir := q.dir
  P := mkProblem q.dir q.net
  P' := mkProblem (flip q.dir) q.net'
  acc := q.starts q.dir q.origin q.useStartFps
  acc' := q.starts (flip q.dir) q.target (decide (q.target.mode ≠ .intermodal))
  maxTransfers := q.maxTransfers
  maxTravel := q.maxTravel
  fastest := q.fastest
  minConn := q.minConn
  extend := q.extend
  s0 := q.s0
  endT := q.endT
  extFrom := q.extFrom
  extTo := q.extTo
  recon := q.recon
  timeout := q.timeout

/-- The ping-pong search. -/
def Request.run (q : Request) : Except (Int × Error) Output := q.cfg.run

end Nigiri.Raptor.Pong
