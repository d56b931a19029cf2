import Verif.Model.OneToAll
import Verif.Spec.Network
/-!
# Specification of one-to-all searches

What a traveller can reach, in minutes of travel after the start time (backward: before the time of arrival).
-/

namespace Nigiri.Raptor.OneToAll
open Nigiri.Lb

/-- The start time in minutes from the midnight nearest to it on; for a backward search both are negated. -/
def Query.zero (q : Query) : Int := q.dir.sgn * (q.start - 1440 * roundDays q.start)

/-- One gets to `l` with `k` rides in `travel` minutes and could board there: from the start time on, first to one of the
start stations in the given time, then riding and changing. -/
def Query.Gets (q : Query) (k : Nat) (l : Loc) (travel : Int) : Prop :=
  ∃ starts : List (Loc × Int), (∀ x ∈ starts, ∃ o ∈ q.offs, x.1 ∈ forEachMeta q.T q.mode o.1 ∧ x.2 = q.zero + o.2) ∧
    Reach q.dir q.net starts k l (q.zero + travel)

/-- A sane query. -/
structure Query.Ok (q : Query) : Prop where
  net : NetOk q.net
  fifo : NetFifo q.net
  offs : ∀ o ∈ q.offs, 0 ≤ o.2 ∧ o.2 ≤ 7200
  travel : 0 ≤ q.maxTravel ∧ q.maxTravel ≤ 7200
  /-- no walk takes more than 10000 minutes -/
  transfer : ∀ l, q.net.transfer l ≤ 10000
  fps : ∀ l t l' w, (l', w) ∈ q.net.fps l t → w ≤ 10000

end Nigiri.Raptor.OneToAll
