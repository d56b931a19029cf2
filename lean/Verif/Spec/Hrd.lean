import Verif.Model.Hrd
/-!
# What the HRD loader is supposed to do

Written without the functions of the model; the types (`Season`, `Tz`, …) are those of the model.
-/

namespace Nigiri.Hrd.Spec

/-- The value of a hexadecimal digit (byte of an ASCII character). -/
def DigitValue (c v : Nat) : Prop :=
  v < 16 ∧ ((c = 48 + v ∧ v ≤ 9) ∨ (10 ≤ v ∧ (c = 65 + (v - 10) ∨ c = 97 + (v - 10))))

/-- The bits of a hexadecimal string, most significant bit of every digit first. -/
inductive HexBits : List Nat → List Bool → Prop
  | nil : HexBits [] []
  | cons {c v cs bits} : DigitValue c v → HexBits cs bits →
      HexBits (c :: cs) (decide (8 ≤ v) :: decide (4 ≤ v % 8) :: decide (2 ≤ v % 4) ::
        decide (v % 2 = 1) :: bits)

/-- No two adjacent set bits. -/
def NoPair (l : List Bool) : Prop := ∀ i : Nat, ¬ (l[i]? = some true ∧ l[i + 1]? = some true)

/-- The day bits are what stands between the first and the last pair `11` of the bit string. -/
structure Framed (bits pre days post : List Bool) : Prop where
  eq : bits = pre ++ [true, true] ++ days ++ [true, true] ++ post
  first : NoPair (pre ++ [true])
  last : NoPair ([true] ++ post)

/-- UTC offset of a local time: the offset of the first season that contains it, else the standard
offset. -/
def InLocal (s : Season) (t : Int) : Prop := s.begin + s.beginMam ≤ t ∧ t < s.end' + s.endMam

instance (s : Season) (t : Int) : Decidable (InLocal s t) := by unfold InLocal; infer_instance

def offsetAt (tz : Tz) (t : Int) : Int :=
  match tz.seasons.find? (fun s => decide (InLocal s t)) with
  | none => tz.offset
  | some s => s.offset

/-- The local times that do not exist, **and the first local time after them** (the code treats it
alike): those between the start of the first season containing `t` and the same moment on the new
clock. -/
def SkippedOrFirst (tz : Tz) (t : Int) : Prop :=
  ∃ s, tz.seasons.find? (fun s => decide (InLocal s t)) = some s ∧
    t ≤ s.begin + s.beginMam + (s.offset - tz.offset)

/-- UTC time of a local time. -/
def utcOf (tz : Tz) (t : Int) : Int := t - offsetAt tz t

/-- The seasons of a time zone do not overlap and do not set the clock back. -/
structure TzOk (tz : Tz) : Prop where
  forward : ∀ s ∈ tz.seasons, tz.offset ≤ s.offset
  apart : ∀ (i j : Nat) (s r : Season), tz.seasons[i]? = some s → tz.seasons[j]? = some r → i ≠ j →
    s.end' + s.endMam ≤ r.begin + r.beginMam ∨ r.end' + r.endMam ≤ s.begin + s.beginMam

end Nigiri.Hrd.Spec

namespace Nigiri.Hrd.Spec

/-- The local times of a service are not negative, UTC offsets are at most a day. -/
structure EvsOk (evs : List (Int × Tz)) : Prop where
  nonneg : ∀ e ∈ evs, 0 ≤ e.1
  offset : ∀ e ∈ evs, e.2.offset ≤ 1440 ∧ ∀ s ∈ e.2.seasons, s.offset ≤ 1440

/-- The service whose local traffic day is `D` is represented by the UTC day with index `u` (day 0 =
five days before the first day of the timetable), the UTC times `times` and the stops `stops`. -/
structure Runs (x : ToUtc) (D : Int) (u : Nat) (times : List Int) (stops : List SeqStop) : Prop where
  /-- the day is in the interval of the HRD files and the service runs -/
  inHrd : x.hrd.from' ≤ D ∧ D < x.hrd.to'
  bit : (D - x.hrd.from').toNat < kMaxDays ∧ x.localDays (D - x.hrd.from').toNat = true
  /-- it starts before the end and ends after the begin of the selected interval (local days) -/
  selected : (∃ last, x.evs.getLast? = some last ∧ x.selection.from' * 1440 ≤ D * 1440 + last.1) ∧
    D < x.selection.to'
  stopsEq : stops = x.stopSeq (D - x.hrd.from').toNat
  len : times.length = x.evs.length
  /-- every event takes place at the UTC time of its local time -/
  utc : ∀ (i : Nat) (t : Int) (tz : Tz) (m : Int), x.evs[i]? = some (t, tz) → times[i]? = some m →
    (x.selection.from' - 5 + u) * 1440 + m = utcOf tz (D * 1440 + t)
  /-- no local time was skipped by a clock change -/
  existing : ∀ (i : Nat) (t : Int) (tz : Tz), x.evs[i]? = some (t, tz) → ¬ SkippedOrFirst tz (D * 1440 + t)
  /-- the first event is on the UTC traffic day -/
  first : ∀ m, times[0]? = some m → 0 ≤ m ∧ m < 1440
  /-- the events are in order -/
  mono : ∀ (i : Nat) (a b : Int), times[i]? = some a → times[i + 1]? = some b → a ≤ b

end Nigiri.Hrd.Spec
