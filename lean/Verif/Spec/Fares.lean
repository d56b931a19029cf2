import Verif.Model.Fares
import Verif.Proofs.Reconstruct
/-!
# What the fares of a journey have to be

Independent of the loops of `get_fares`: which legs are priced together, which leg rules apply to an
effective leg, which transfer rules apply between effective legs.
-/

namespace Nigiri.Fares

open Nigiri.Raptor (Adj)

/-- Where the leg is boarded: its first stop. -/
def Leg.boards (l : Leg) : Nat := (l.stops[0]?).getD 0

/-- Where the leg is left: its last stop. -/
def Leg.alights (l : Leg) : Nat := (l.stops[l.stops.length - 1]?).getD 0

/-- The station of a stop: its parent if it has one. -/
def stationOf (tt : TT) (l : Nat) : Nat :=
  match tt.parent l with
  | some p => p
  | none => l

/-- The areas of a stop: its own, those of its station if it has none itself. -/
def areasAt (tt : TT) (l : Nat) : List Nat :=
  match tt.areas l with
  | [] => tt.areas (stationOf tt l)
  | a :: as => a :: as

/-- A join rule of the feed covers the change from leg `a` to leg `b`: it names both networks, and either
no stops or the alighting stop of `a` and the boarding stop of `b` (each itself or its station). -/
def Covers (tt : TT) (jr : JoinRule) (a b : Leg) : Prop :=
  a.network = some jr.fromNet ∧ b.network = some jr.toNet ∧
  ((jr.fromStop = none ∧ jr.toStop = none) ∨
   ∃ p q, jr.fromStop = some p ∧ jr.toStop = some q ∧
     (p = a.alights ∨ p = stationOf tt a.alights) ∧ (q = b.boards ∨ q = stationOf tt b.boards))

/-- Legs `a` and `b`, one after the other, are one effective fare leg. -/
def Joined (tt : TT) (a b : Leg) : Prop :=
  a.scheduled = true ∧ b.scheduled = true ∧ a.src = b.src ∧ ∃ jr ∈ (tt.fares a.src).joinRules, Covers tt jr a b

/-- The last leg of `g` and the first leg of `h` are not joined. -/
def Separate (tt : TT) (g h : List Leg) : Prop :=
  ∀ a b, g.getLast? = some a → h.head? = some b → ¬ Joined tt a b

/-- `groups` is the partition of `legs` into effective fare legs. -/
structure EffectiveLegs (tt : TT) (legs : List Leg) (groups : List (List Leg)) : Prop where
  all : groups.flatten = legs
  nonempty : ∀ g ∈ groups, g ≠ []
  joined : ∀ g ∈ groups, Adj (Joined tt) g
  separate : Adj (Separate tt) groups

theorem fromStop_eq (l : Leg) : l.fromStop = l.boards := by
  obtain ⟨_, _, _, _, stops, _, _⟩ := l
  cases stops <;> rfl

theorem toStop_eq (l : Leg) : l.toStop = l.alights := by
  unfold Leg.toStop Leg.alights
  rw [List.getLastD_eq_getLast?, List.getLast?_eq_getElem?]

theorem station_eq (tt : TT) (l : Nat) : station tt l = stationOf tt l := by
  unfold station stationOf
  cases tt.parent l <;> rfl

theorem getAreas_eq (tt : TT) (l : Nat) : getAreas tt l = areasAt tt l := by
  unfold getAreas areasAt
  rw [station_eq]
  cases tt.areas l <;> rfl

/-! ## Transfers -/

/-- Group `v` of a leg fits the field `x` of a transfer rule: it is named there, or the field is empty and
no rule of the feed names the group in this field. -/
def GroupFits (x v : Option Nat) (named : List (Option Nat)) : Prop :=
  x = v ∨ (x = none ∧ v ∉ named)

/-- When the time limit of rule `r` starts, for a transfer group that starts with `frm`. -/
def limitFrom (r : TransferRule) (frm : FareLeg) : Option Int :=
  match r.limitType with
  | .depDep | .depArr => frm.joined.head?.map (·.dep)
  | .arrArr | .arrDep => frm.joined.getLast?.map (·.arr)

/-- When the time limit of rule `r` ends, for a transfer into `b`. -/
def limitTo (r : TransferRule) (b : FareLeg) : Option Int :=
  match r.limitType with
  | .depDep | .arrDep => b.joined.head?.map (·.dep)
  | .arrArr | .depArr => b.joined.getLast?.map (·.arr)

/-- Transfer rule `r` of feed `f` covers the change from `a` to `b` in a transfer group that starts with
`frm`: both legs have a leg rule, the groups of the first ones fit, the time limit is kept. -/
def Transfers (f : Data) (r : TransferRule) (frm a b : FareLeg) : Prop :=
  (∃ ra rb, a.rules.head? = some ra ∧ b.rules.head? = some rb ∧
    GroupFits r.fromGroup ra.legGroup (f.transferRules.map (·.fromGroup)) ∧
    GroupFits r.toGroup rb.legGroup (f.transferRules.map (·.toGroup))) ∧
  ∀ lim, r.limit = some lim → ∀ s e, limitFrom r frm = some s → limitTo r b = some e → e - s ≤ lim

/-- `r` is the first rule of the feed that covers the change from `a` to `b`. -/
def FirstRule (f : Data) (r : TransferRule) (a b : FareLeg) : Prop :=
  ∃ pre post, f.transferRules = pre ++ r :: post ∧ Transfers f r a a b ∧ ∀ q ∈ pre, ¬ Transfers f q a a b

/-- Effective legs `s … s + n - 1` of `legs`, priced by rule `r` (or alone). -/
structure Span where
  s : Nat
  n : Nat
  rule : Option TransferRule

/-- A span without a rule is one leg that no rule connects with its successor. A span with a rule is one
that the first fitting rule makes as long as it can: all its changes are covered, no more of them than the
rule admits, and it ends because the legs, the admitted transfers or the matching changes end. -/
def SpanOk (f : Data) (legs : List FareLeg) (sp : Span) : Prop :=
  sp.s + sp.n ≤ legs.length ∧
  match sp.rule with
  | none => sp.n = 1 ∧ ∀ a b, legs[sp.s]? = some a → legs[sp.s + 1]? = some b →
      ∀ r ∈ f.transferRules, ¬ Transfers f r a a b
  | some r => 2 ≤ sp.n ∧
      (∃ a b, legs[sp.s]? = some a ∧ legs[sp.s + 1]? = some b ∧ FirstRule f r a b ∧
        (∀ i, i + 1 < sp.n → ∀ x y, legs[sp.s + i]? = some x → legs[sp.s + i + 1]? = some y → Transfers f r a x y) ∧
        (0 ≤ r.count → (sp.n : Int) - 1 ≤ r.count) ∧
        (sp.s + sp.n = legs.length ∨ (sp.n : Int) - 1 = r.count ∨
          ∀ x y, legs[sp.s + sp.n - 1]? = some x → legs[sp.s + sp.n]? = some y → ¬ Transfers f r a x y))

/-- The next span starts behind this one; behind a span with a rule it may start with its last leg. -/
def Follows (p q : Span) : Prop :=
  q.s = p.s + p.n ∨ (p.rule ≠ none ∧ q.s + 1 = p.s + p.n)

/-- `out` prices the effective legs `legs` of one source. -/
def Priced (f : Data) (legs : List FareLeg) (out : List Transfer) : Prop :=
  ∃ spans : List Span, out = spans.map (fun sp => ⟨sp.rule, (legs.drop sp.s).take sp.n⟩) ∧
    (∀ sp ∈ spans, SpanOk f legs sp) ∧ Adj Follows spans ∧
    (∀ sp, spans.head? = some sp → sp.s = 0) ∧
    (∀ sp, spans.getLast? = some sp → sp.s + sp.n = legs.length) ∧ (legs ≠ [] → spans ≠ [])

end Nigiri.Fares

namespace Nigiri.Fares

/-! ## Leg rules -/

/-- `a` is one of the areas of stop `l` (of its station if it has none itself), or "no area". -/
def AreaOf (tt : TT) (l : Nat) (a : Option Nat) : Prop :=
  (∃ x, a = some x ∧ x ∈ areasAt tt l) ∨ (a = none ∧ areasAt tt l = [])

/-- Field `x` of a rule fits the value `v` of a leg: equal, or the field is empty and `v` is not among the
values `named` by rules. -/
def FieldFits (x v : Option Nat) (named : List Nat) : Prop :=
  x = v ∨ (x = none ∧ ∀ y, v = some y → y ∉ named)

/-- The values rules name in a field — they only matter in a feed without priorities. -/
def Named (hasPriority : Bool) (f : Data) (field : Rule → Option Nat) (x : Nat) : Prop :=
  hasPriority = false ∧ ∃ r ∈ f.rules, field r = some x

/-- The leg visits area `x`. -/
def Visits (tt : TT) (k : LegKey) (x : Nat) : Prop := ∃ s ∈ k.stops, x ∈ areasAt tt s

/-- Field fits, with the named values of the feed. -/
def Fits (hasPriority : Bool) (f : Data) (field : Rule → Option Nat) (r : Rule) (v : Option Nat) : Prop :=
  field r = v ∨ (field r = none ∧ ∀ y, v = some y → ¬ Named hasPriority f field y)

/-- Rule `r` of feed `f` applies to the effective leg `k`. -/
structure Applies (tt : TT) (hasPriority : Bool) (f : Data) (k : LegKey) (r : Rule) : Prop where
  network : Fits hasPriority f (·.network) r k.network
  frm : ∃ a, AreaOf tt k.fromStop a ∧ Fits hasPriority f (·.fromArea) r a
  to : ∃ a, AreaOf tt k.toStop a ∧ Fits hasPriority f (·.toArea) r a
  fromTf : r.fromTf = none ∨ r.fromTf = k.fromTf
  toTf : r.toTf = none ∨ r.toTf = k.toTf
  contains : ∀ s, r.contains = some s → ∀ x ∈ s, Visits tt k x
  exactly : ∀ s, r.exactly = some s → ∀ x, x ∈ s ↔ Visits tt k x

/-- The tables of the loader. -/
structure Loaded (f : Data) (hasPriority : Bool) : Prop where
  nets : f.concreteNets = concreteOf hasPriority f.rules (·.network)
  frm : f.concreteFrom = concreteOf hasPriority f.rules (·.fromArea)
  to : f.concreteTo = concreteOf hasPriority f.rules (·.toArea)

/-! ## Timeframes -/

/-- Timeframe `tf` contains the local time `lt` (minutes since midnight of the first timetable day): the
local date is a service day and the time of day is in `[start, stop)`. -/
def Timeframe.Contains (tf : Timeframe) (lt : Int) : Prop :=
  ∃ (day : Nat) (m : Int), lt = day * 1440 + m ∧ 0 ≤ m ∧ m < 1440 ∧ day < kMaxDays ∧ tf.service day = true ∧
    tf.start ≤ m ∧ m < tf.stop

end Nigiri.Fares
