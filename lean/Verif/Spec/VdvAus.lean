import Verif.Model.VdvAus

/-!
# What a VDV/SIRI message means for a run

Written without the functions of the updater: only its data types, the scheduled times and stops are used.
-/

namespace Nigiri.Vdv.Spec

open Nigiri.Rt Nigiri.Vdv

/-- The events of the run which a message may change: the arrival of every stop but stop 0, the
departure of every stop but the last one of the matched stop range. -/
def HasEvent (c : Ctx) (i : Nat) (arr : Bool) : Prop :=
  c.first ≤ i ∧ i < c.last ∧ (if arr then i ≠ 0 else i + 1 ≠ c.last)

instance (c : Ctx) (i : Nat) (arr : Bool) : Decidable (HasEvent c i arr) := by
  unfold HasEvent; infer_instance

/-- Position of an event in the array of times: departure 0, arrival 1, departure 1, arrival 2, ... -/
def slot (i : Nat) (arr : Bool) : Nat := if arr then 2 * i - 1 else 2 * i

/-- Scheduled time of an event as reported by a stop of the message. -/
def aimed (v : VStop) (arr : Bool) : Option Int := if arr then v.arr else v.dep

/-- Predicted time of an event as reported by a stop of the message. -/
def expected (v : VStop) (arr : Bool) : Option Int := if arr then v.rtArr else v.rtDep

/-- A reported stop describes an event of stop `i`: the scheduled times differ by at most 15 minutes. -/
def Describes (c : Ctx) (v : VStop) (i : Nat) (arr : Bool) : Prop :=
  HasEvent c i arr ∧ ∃ t, aimed v arr = some t ∧ t - c.sched (slot i arr) ≤ 15 ∧ c.sched (slot i arr) - t ≤ 15

instance (c : Ctx) (v : VStop) (i : Nat) (arr : Bool) : Decidable (Describes c v i arr) :=
  match h : aimed v arr with
  | some t =>
    decidable_of_iff (HasEvent c i arr ∧ t - c.sched (slot i arr) ≤ 15 ∧ c.sched (slot i arr) - t ≤ 15)
      (by simp [Describes, h])
  | none => isFalse (by simp [Describes, h])

/-- A reported stop fits to stop `i` at location `loc`: an equivalent location and one of the two
events described. -/
def Fits (c : Ctx) (loc i : Nat) (v : VStop) : Prop :=
  (∃ l, v.loc = some l ∧ c.same loc l = true) ∧ (Describes c v i true ∨ Describes c v i false)

/-- `m` pairs the stops of the run with reported stops: first come, first served, in the order of
travel, without going back. -/
structure Pairing (c : Ctx) (loc : Nat → Nat) (vs : List VStop) (m : Nat → Option Nat) : Prop where
  /-- stops of the run and of the message only -/
  range : ∀ (i j : Nat), m i = some j → c.first ≤ i ∧ i < c.last ∧ j < vs.length
  /-- the order is kept, no reported stop is used twice -/
  order : ∀ (i i' j j' : Nat), i < i' → m i = some j → m i' = some j' → j < j'
  /-- paired stops fit -/
  fits : ∀ (i j : Nat) (v : VStop), m i = some j → vs[j]? = some v → Fits c (loc i) i v
  /-- no reported stop behind the ones used so far is left out if it fits and comes before the chosen one;
  if there is none then none is chosen -/
  greedy : ∀ (i j : Nat) (v : VStop), c.first ≤ i → i < c.last → vs[j]? = some v → Fits c (loc i) i v →
    (∀ (i' k : Nat), i' < i → m i' = some k → k < j) → ∃ k, m i = some k ∧ k ≤ j

/-- The reported stop paired with stop `i`, if it describes the event. -/
def describing (c : Ctx) (vs : List VStop) (m : Nat → Option Nat) (i : Nat) (arr : Bool) : Option VStop :=
  match (m i).bind (vs[·]?) with
  | some v => if Describes c v i arr then some v else none
  | none => none

/-- The prediction for an event. -/
def predicted (c : Ctx) (vs : List VStop) (m : Nat → Option Nat) (i : Nat) (arr : Bool) : Option Int :=
  (describing c vs m i arr).bind (expected · arr)

/-- The delay of an event for which there is a prediction (16 bit). -/
def delayOf (c : Ctx) (vs : List VStop) (m : Nat → Option Nat) (i : Nat) (arr : Bool) : Option Int :=
  (predicted c vs m i arr).map fun t => wrap16 (t - c.sched (slot i arr))

/-- The delay known after the first `k` stops: the one of the last prediction. -/
def lastDelay (c : Ctx) (vs : List VStop) (m : Nat → Option Nat) : Nat → Option Int
  | 0 => none
  | k + 1 =>
    match delayOf c vs m (c.first + k) false, delayOf c vs m (c.first + k) true with
    | some d, _ => some d
    | none, some d => some d
    | none, none => lastDelay c vs m k

/-- The time a message gives to an event of stop `i`: the prediction; if the message has a stop describing
the event without prediction: nothing; otherwise the scheduled time plus the last delay. -/
def target (c : Ctx) (vs : List VStop) (m : Nat → Option Nat) (i : Nat) (arr : Bool) : Option Int :=
  match describing c vs m i arr with
  | some v => expected v arr
  | none => (lastDelay c vs m (i + 1 - c.first)).map (c.sched (slot i arr) + ·)

/-- The array of times holds what the message says: targets (relative to the base day), and the previous
value where it says nothing. -/
def Assigned (c : Ctx) (vs : List VStop) (m : Nat → Option Nat) (old new : List Int) : Prop :=
  new.length = old.length ∧
  (∀ (i : Nat) (arr : Bool), HasEvent c i arr →
    new.getD (slot i arr) 0 =
      match target c vs m i arr with
      | some t => unixToDelta c.base t
      | none => old.getD (slot i arr) 0) ∧
  (∀ e, (∀ (i : Nat) (arr : Bool), HasEvent c i arr → slot i arr ≠ e) → new.getD e 0 = old.getD e 0)

/-- `x` is the least element of `l`. -/
def IsLeast (l : List Int) (x : Int) : Prop := x ∈ l ∧ ∀ y ∈ l, x ≤ y

/-- Stored times never decrease along the run. -/
def Monotone (l : List Int) : Prop := ∀ i j : Nat, i ≤ j → j < l.length → l.getD i 0 ≤ l.getD j 0

/-- The arrays belong to a transport whose stops include the stop range; the stored times are 16-bit values. -/
structure Shape (c : Ctx) (s : St) : Prop where
  /-- one departure and one arrival per section -/
  len : s.times.length = 2 * s.stops.length - 2
  /-- stop range -/
  range : c.first < c.last ∧ c.last ≤ s.stops.length
  /-- 16-bit times -/
  int16 : ∀ (e : Nat), -32768 ≤ s.times.getD e 0 ∧ s.times.getD e 0 ≤ 32767

/-- Boarding is possible according to a reported stop. -/
def MayBoard (v : VStop) : Prop := v.inForbidden = false ∧ v.passing = false ∧ v.depCanceled = false

/-- Alighting is possible according to a reported stop. -/
def MayAlight (v : VStop) : Prop := v.outForbidden = false ∧ v.passing = false ∧ v.arrCanceled = false

end Nigiri.Vdv.Spec

namespace Nigiri.Vdv.Spec

open Nigiri.Rt Nigiri.Vdv

/-- Flags (boarding, alighting, boarding with wheelchair, alighting with wheelchair) of a stop according to
the message: those of the paired reported stop (wheelchairs as scheduled), otherwise those before the message. -/
def MsgFlags (c : Ctx) (vs : List VStop) (m : Nat → Option Nat) (old : Stop) (i : Nat) (x : Stop) : Prop :=
  (∀ (j : Nat) (v : VStop), m i = some j → vs[j]? = some v →
    (x.inA = true ↔ MayBoard v) ∧ (x.outA = true ↔ MayAlight v) ∧
    (x.inW = true ↔ MayBoard v ∧ (c.schedStop i).inW = true) ∧
    (x.outW = true ↔ MayAlight v ∧ (c.schedStop i).outW = true)) ∧
  (m i = none → x.inA = old.inA ∧ x.outA = old.outA ∧ x.inW = old.inW ∧ x.outW = old.outW)

/-- A stop is served: boarding or alighting is possible. -/
def Served (x : Stop) : Prop := x.inA = true ∨ x.outA = true

end Nigiri.Vdv.Spec
