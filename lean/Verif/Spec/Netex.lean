import Verif.Model.Netex
/-!
# What NeTEx calendars and times mean
-/

namespace Nigiri.Netex

/-- Day `d` is a day of the period: it is between its dates and its character is not `0`. -/
def Period.Valid (p : Period) (d : Int) : Prop :=
  p.first ≤ d ∧ d ≤ p.last ∧ p.bits[(d - p.first).toNat]? = some true

/-- The offset from UTC at UTC time `u`: the one of the last change until then. -/
def offsetAt (tz : Tz) (u : Int) : Int :=
  tz.changes.foldl (fun o c => if c.1 ≤ u then c.2 else o) tz.first

/-- At UTC time `u`, clocks show the local time `l`. -/
def IsUtc (tz : Tz) (l u : Int) : Prop := u + offsetAt tz u = l

/-- Clocks never show `l` because they are set forward over it; `u` is `l` with the offset before. -/
def Skipped (tz : Tz) (l u : Int) : Prop :=
  (∀ v, ¬ IsUtc tz l v) ∧ ∃ c ∈ tz.changes,
    c.1 + offsetAt tz (c.1 - 1) ≤ l ∧ l < c.1 + offsetAt tz c.1 ∧ u = l - offsetAt tz (c.1 - 1)

/-- `u` is a UTC time for the local time `l`. -/
def Converted (tz : Tz) (l u : Int) : Prop := IsUtc tz l u ∨ Skipped tz l u

/-- A time zone with ascending changes, none of which puts the clock before the time to which the change
before has set it. -/
def TzOk (tz : Tz) : Prop := tz.changes.Pairwise fun a b => a.1 < b.1 ∧ a.1 + a.2 ≤ b.1 + b.2

def stopAt (stops : List StopTime) (i : Nat) : StopTime := stops.getD i ⟨0, 0⟩

/-- The service journey runs on local day `iv.from' + g` of the timetable: it is one of its days, and one
of the days from that of the first departure to that of the last arrival is in the selected range. -/
def Served (j : Job) (g : Nat) : Prop :=
  j.iv.from' + g < j.iv.to' ∧ j.days g = true ∧
    ∃ x : Int, j.iv.from' + g + (stopAt j.stops 0).dep.tdiv 1440 ≤ x ∧
      x ≤ j.iv.from' + g + (stopAt j.stops (j.stops.length - 1)).arr.tdiv 1440 ∧
      j.sel.from' ≤ x ∧ x < j.sel.to'

/-- Each element of `out` is the maximum of the elements of `raw` up to it. -/
def Smoothed (raw out : List Int) : Prop :=
  out.length = raw.length ∧ ∀ (i : Nat) (o : Int), out[i]? = some o →
    (∃ k : Nat, k ≤ i ∧ raw[k]? = some o) ∧ ∀ k : Nat, k ≤ i → ∀ r : Int, raw[k]? = some r → r ≤ o

/-- The entry `k` describes the run of the service journey of local day `iv.from' + g`: `raw` are the UTC
times of the departures and arrivals in order of travel, the first departure is on UTC day
`iv.from' + g + k.dayOffset`, and the times of the entry are minutes after the beginning of that day. -/
structure Represents (j : Job) (g : Nat) (k : Key) (raw : List Int) : Prop where
  len : raw.length = 2 * (j.stops.length - 1)
  dep : ∀ i, i + 1 < j.stops.length →
    ∃ u, raw[2 * i]? = some u ∧ Converted j.tz ((j.iv.from' + g) * 1440 + (stopAt j.stops i).dep) u
  arr : ∀ i, i + 1 < j.stops.length →
    ∃ u, raw[2 * i + 1]? = some u ∧ Converted j.tz ((j.iv.from' + g) * 1440 + (stopAt j.stops (i + 1)).arr) u
  first : ∀ u, raw[0]? = some u → 0 ≤ u - (j.iv.from' + g + k.dayOffset) * 1440 ∧
    u - (j.iv.from' + g + k.dayOffset) * 1440 < 1440 ∧
    k.tzOffset = (j.iv.from' + g) * 1440 + (stopAt j.stops 0).dep - u
  times : Smoothed (raw.map (· - (j.iv.from' + g + k.dayOffset) * 1440)) k.times

end Nigiri.Netex
