import Verif.Model.HrdTracks
/-!
# HRD tracks: specification
-/

namespace Nigiri.HrdTracks

/-- The timetable before the file is read: no tracks yet; every known administration has a provider. -/
structure Start (s : St) : Prop where
  noTracks : s.known = []
  noRules : ∀ k, s.rules k = []
  noLocs : ∀ x ∈ s.locs, x = none
  providers : ∀ a i, s.adminOf a = some i → i < s.providers.length

/-- Location `t` is the generated track `n` of station `p`. -/
def IsTrack (s : St) (t p : Nat) (n : String) : Prop := s.locs[t]? = some (some (p, n))

/-- The station of the generated track `t`. -/
def stationOf (s : St) (t : Nat) : Option Nat := (s.locs[t]?.bind id).map (·.1)

/-- Line `l` is a rule for this station, train number and administration (in the end, after all
providers have been created). -/
def Line.For (l : Line) (locationOf : Nat → Option Nat) (s : St) (p num admin : Nat) : Prop :=
  locationOf l.eva = some p ∧ l.trainNum = num ∧ s.adminOf l.admin = some admin

/-- Line `l` applies at the time of day and on the day. -/
def Line.At (l : Line) (bitfields : Nat → Option Bitfield) (mam : Int) (day : Nat) : Prop :=
  (l.mam = -1 ∨ l.mam = mam) ∧ day < 512 ∧
    (l.bitfield = 0 ∨ bitfields l.bitfield = none ∨ ∃ b, bitfields l.bitfield = some b ∧ b day = true)

end Nigiri.HrdTracks
