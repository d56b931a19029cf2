/-!
# Compact encoding of stop sequence numbers

Model of `src/loader/gtfs/stop_seq_number_encoding.cc` and
`include/nigiri/loader/gtfs/stop_seq_number_encoding.h`.  `stop_idx_t` is `std::uint16_t`; values are
natural numbers below 65536 and additions wrap.
-/

namespace Nigiri.SeqNumbers

/-- Wrapping to `stop_idx_t`. -/
def u16 (x : Nat) : Nat := x % 65536

/-- `is_based`, `stop_seq_number_encoding.cc:5-14` (the loop counter is 16 bit as well: sequences are
assumed shorter than 65536, otherwise the C++ loop does not terminate). -/
def isBased : List Nat → Nat → Nat → Bool
  | [], _, _ => true
  | a :: rest, x, inc => if a ≠ x then false else isBased rest (u16 (x + inc)) inc

/-- `encode_seq_numbers`, `stop_seq_number_encoding.cc:16-30`. -/
def encode (xs : List Nat) : List Nat :=
  if isBased xs 0 1 then []
  else if isBased xs 1 1 then [1]
  else if isBased xs 10 10 then [10]
  else xs

/-- `number_seq_type`, `stop_seq_number_encoding.h:12-18`. -/
inductive Kind | zeroBased | oneBased | tenBased | fullySpecified | invalid
deriving DecidableEq, Repr

/-- `type()`, `stop_seq_number_encoding.h:149-162`. -/
def kind : List Nat → Kind
  | [] => .zeroBased
  | [x] => if x = 1 then .oneBased else if x = 10 then .tenBased else .invalid
  | _ => .fullySpecified

/-- Iterating from a `compact` iterator to the given end (`operator++`, `operator==`,
`stop_seq_number_encoding.h:56-66, 21-27`); `none` = the `verify` in `operator++` throws. -/
def iterCompact (endCurr endInc endNum : Nat) (curr inc : Nat) : Nat → Option (List Nat)
  | 0 => if curr = endCurr ∧ inc = endInc ∧ 0 = endNum then some [] else none
  | n + 1 =>
    if curr = endCurr ∧ inc = endInc ∧ n + 1 = endNum then some []
    else (iterCompact endCurr endInc endNum (u16 (curr + inc)) inc n).map (curr :: ·)

/-- Iterating from a `fully_specified` iterator to its end (`stop_seq_number_encoding.h:29-36, 61-64`). -/
def iterFull : List Nat → List Nat
  | [] => []
  | x :: xs => x :: iterFull xs

/-- All numbers produced by iterating a `stop_seq_number_range` for a trip with `n` stops
(`begin`/`end`, `stop_seq_number_encoding.h:112-144`); `none` = exception. -/
def decode (enc : List Nat) (n : Nat) : Option (List Nat) :=
  match kind enc with
  | .zeroBased => iterCompact n 1 0 0 1 n
  | .oneBased => iterCompact (u16 (n + 1)) 1 0 1 1 n
  | .tenBased => iterCompact (u16 (10 + 10 * n)) 10 0 10 10 n
  | .fullySpecified => some (iterFull enc)
  | .invalid => none

end Nigiri.SeqNumbers
