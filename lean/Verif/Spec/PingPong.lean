import Verif.Model.PongQuery
import Verif.Spec.Network
/-!
# Specification of a ping-pong query

What a traveller may do, independently of the searches.  Times are minutes from the midnight of the base day on; for
a backward query they are counted backwards (a journey then "leaves" the target and "arrives" at the origin of the
traveller, and "later" means earlier).
-/

namespace Nigiri.Raptor.Pong
open Nigiri.Lb Nigiri.StartTimes

/-- Between this end of the query and the station `l` it takes `w` minutes: with offsets, the offset of a matching
station; otherwise nothing for a matching station, and the footpath for a station near it. -/
def Place.Near (p : Place) (T : Tt) (fps : Loc → List (Loc × Int)) (l : Loc) (w : Int) : Prop :=
  if p.mode = .intermodal then ∃ o ∈ p.offs, l ∈ forEachMeta T p.mode o.1 ∧ w = o.2
  else ∃ o ∈ p.offs, ∃ x ∈ forEachMeta T p.mode o.1, (l = x ∧ w = 0) ∨ (l, w) ∈ fps x

/-- Leave the origin at `dep`, ride `k` vehicles, be at the target at `arr`. -/
def Trip (q : Request) (k : Nat) (dep arr : Int) : Prop :=
  ∃ l w, q.origin.Near q.T (q.fps q.dir) l w ∧ Journey q.dir q.net k l (dep + w) arr

/-- A trip for which no other is as good in all respects (number of rides, departure, arrival) and better in one. -/
def Best (q : Request) (k : Nat) (dep arr : Int) : Prop :=
  Trip q k dep arr ∧ ∀ k' dep' arr', Trip q k' dep' arr' → k' ≤ k → dep ≤ dep' → arr' ≤ arr → k' = k ∧ dep' = dep ∧ arr' = arr

/-- The number of rides the query allows: `max_transfers_ + 1`, at most 15. -/
def Request.rides (q : Request) : Nat := min q.maxTransfers 14 + 1

/-- How far ahead the search looks from a start time. -/
def Request.ahead (q : Request) : Int := min (q.maxTravel + 1440) 7200

/-- A sane query. -/
structure Request.Ok (q : Request) : Prop where
  net : NetOk q.net
  net' : NetOk q.net'
  aligned : ∀ r ∈ q.base.routes, Aligned r
  /-- footpaths are the same in both directions of search -/
  mirror : ∀ l m w, (m, w) ∈ q.fps q.dir l ↔ (l, w) ∈ q.fps (flip q.dir) m
  /-- offsets are for intermodal queries only -/
  origin : q.origin.mode ≠ .intermodal → ∀ o ∈ q.origin.offs, o.2 = 0
  target : q.target.mode ≠ .intermodal → ∀ o ∈ q.target.offs, o.2 = 0
  /-- footpaths at the origin are used unless the query starts with offsets -/
  footpaths : q.useStartFps = true ↔ q.origin.mode ≠ .intermodal
  /-- the origin is not at the target, nor in walking distance from it -/
  apart : ∀ l w, q.origin.Near q.T (q.fps q.dir) l w → q.net.isDest l = false ∧ l ≠ q.endLoc
  apart' : ∀ l w, q.target.Near q.T (q.fps (flip q.dir)) l w → q.net'.isDest l = false ∧ l ≠ q.endLoc
  /-- every ride takes at least a minute -/
  takes : ∀ x dep y arr, NetRide q.base x dep y arr → dep < arr
  travel : 0 ≤ q.maxTravel

/-- What is needed of a start time `t` of the search. -/
structure Request.OkAt (q : Request) (t : Int) : Prop where
  /-- times are in the range of the 16 bit times -/
  lo : q.dir.lo < t
  hi : t + q.ahead < q.dir.hi
  near : ∀ l w, q.origin.Near q.T (q.fps q.dir) l w → t + w ≤ q.dir.hi
  near' : ∀ l w, q.target.Near q.T (q.fps (flip q.dir)) l w → q.dir.lo + w ≤ t
  /-- the lower bounds are those of C22 -/
  lb : LbOk q.dir q.net t (t + q.ahead)
  /-- if a last ride arrives before the end of the time the search looks at and the walk to the target after it, the
  target can also be reached before with at most as many rides -/
  walk : ∀ l0 w0 k l r m a d x, q.origin.Near q.T (q.fps q.dir) l0 w0 → k < q.rides → Reach q.dir q.net [(l0, t + w0)] k l r →
    RideDir q.dir q.net l r m a → a ≤ t + q.ahead → q.net.isDest d = true → (d, x) ∈ q.fps q.dir m → t + q.ahead < a + x →
    ∃ k' A', k' ≤ k + 1 ∧ A' ≤ t + q.ahead ∧ Trip q k' t A'

end Nigiri.Raptor.Pong
