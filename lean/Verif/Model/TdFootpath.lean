/-!
# Time-dependent footpaths / offsets

Model of `get_td_duration` and `for_each_footpath`, `include/nigiri/td_footpath.h`.
Timestamps and durations are mathematical integers; `C09_result_range` shows that the results fit
the 16-bit `duration_t`.
-/

namespace Nigiri

/-- One entry of a time-dependent schedule for one target: `valid_from_`, `duration_`
(`td_footpath.h:20-25`, `query.h:51-59`). -/
structure TdEntry where
  validFrom : Int
  duration : Int
deriving DecidableEq, Repr

namespace TdFootpath

/-- `footpath::kMaxDuration` (9 bits), `footpath.h:18-19`. -/
abbrev kMaxDuration : Int := 511

/-- `routing::kMaxTravelTime` in minutes, `limits.h`. -/
abbrev kMaxTravelTime : Int := 7200

/-- `(i + 1) != cend(c) && (i + 1)->valid_from_ <= t`, `td_footpath.h:35-36`. -/
def nextBegun (t : Int) : List TdEntry → Bool
  | [] => false
  | n :: _ => n.validFrom ≤ t

/-- The loop of `get_td_duration<kForward>`, `td_footpath.h:33-46`; the tail holds the following
entries. -/
def fwd (t : Int) : List TdEntry → Option (Int × TdEntry)
  | [] => none
  | i :: rest =>
    if i.duration = kMaxDuration ∨
        (i.validFrom < t ∧ nextBegun t rest = true) then
      fwd t rest
    else if i.validFrom - t > kMaxTravelTime then none
    else some (max i.validFrom t + i.duration - t, i)

/-- `latest_arr`, `td_footpath.h:54-58`. -/
def latestArr (t : Int) (next : Option TdEntry) (i : TdEntry) : Int :=
  match next with
  | none => t
  | some n => min t (n.validFrom - 1 + i.duration)

/-- The loop of `get_td_duration<kBackward>`, `td_footpath.h:48-67`, over the reversed entries;
`next` is the chronologically following entry (`i - 1` of the reverse iterator), `none` for
`i == crbegin(c)`. -/
def bwdRev (t : Int) : Option TdEntry → List TdEntry → Option (Int × TdEntry)
  | _, [] => none
  | next, i :: rest =>
    if i.duration = kMaxDuration ∨ i.validFrom + i.duration > t then bwdRev t (some i) rest
    else
      if t - latestArr t next i > kMaxTravelTime then none
      else some (t - (latestArr t next i - i.duration), i)

/-- `get_td_duration<kBackward>`. -/
def bwd (t : Int) (c : List TdEntry) : Option (Int × TdEntry) := bwdRev t none c.reverse

/-- `for_each_footpath<SearchDir>` for the entries of one target, `td_footpath.h:84-94`: the
duration handed to the callback is that of the constructed `footpath`, which clamps at
`kMaxDuration` (`footpath.h:29-34`). -/
def forEachDuration (forward : Bool) (t : Int) (c : List TdEntry) : Option Int :=
  ((if forward then fwd t c else bwd t c).map (·.1)).map
    (fun d => if d > kMaxDuration then kMaxDuration else d)

end TdFootpath
end Nigiri
