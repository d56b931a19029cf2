import Verif.Model.SeqNumbers
/-!
# Property C12: stop sequence numbers survive the compressed encoding
-/

namespace Nigiri.SeqNumbers

/-- The arithmetic progression checked by `isBased`. -/
private def prog (x inc : Nat) : Nat → List Nat
  | 0 => []
  | n + 1 => x :: prog (u16 (x + inc)) inc n

private theorem isBased_iff (xs : List Nat) (x inc : Nat) :
    isBased xs x inc = true ↔ xs = prog x inc xs.length := by
  induction xs generalizing x with
  | nil => simp [isBased, prog]
  | cons a xs ih =>
    simp only [isBased, prog, List.length_cons]
    by_cases h : a = x
    · subst h; simp [ih]
    · simp [h]

private theorem iterCompact_prog (ec ei curr inc n : Nat) (hi : inc = ei) (hc : curr < 65536)
    (he : ec = u16 (curr + inc * n)) :
    iterCompact ec ei 0 curr inc n = some (prog curr inc n) := by
  induction n generalizing curr with
  | zero =>
    unfold iterCompact
    have : curr = ec := by rw [he]; simp [u16]; omega
    simp [this, hi, prog]
  | succ n ih =>
    unfold iterCompact
    rw [if_neg (by simp)]
    have : iterCompact ec ei 0 (u16 (curr + inc)) inc n = some (prog (u16 (curr + inc)) inc n) := by
      apply ih
      · simp only [u16]; omega
      · rw [he]
        simp only [u16]
        rw [Nat.mul_succ, Nat.add_mod ((curr + inc) % 65536), Nat.mod_mod, ← Nat.add_mod]
        congr 1; omega
    simp [this, prog]

private theorem iterFull_id (xs : List Nat) : iterFull xs = xs := by
  induction xs <;> simp [iterFull, *]

private theorem kind_full (xs : List Nat) (h : 2 ≤ xs.length) : kind xs = .fullySpecified := by
  match xs, h with
  | _ :: _ :: _, _ => rfl

/-- C12: for every trip with at least two stops (and fewer than 65536), the sequence numbers decoded
from the compact encoding are the original ones. -/
theorem C12_roundtrip (xs : List Nat) (h2 : 2 ≤ xs.length) (hlen : xs.length < 65536) :
    decode (encode xs) xs.length = some xs := by
  unfold encode
  split
  · rename_i h
    rw [isBased_iff] at h
    simp only [decode, kind]
    rw [iterCompact_prog _ _ _ _ _ rfl (by omega) (by simp [u16]; omega), ← h]
  · split
    · rename_i h
      rw [isBased_iff] at h
      simp only [decode, kind, if_true]
      rw [iterCompact_prog _ _ _ _ _ rfl (by omega) (by simp only [u16]; congr 1; omega), ← h]
    · split
      · rename_i h
        rw [isBased_iff] at h
        simp only [decode, kind, show ¬ (10 : Nat) = 1 by decide, if_false, if_true]
        rw [iterCompact_prog _ _ _ _ _ rfl (by omega) rfl, ← h]
      · simp only [decode, kind_full xs h2, iterFull_id]

/-- C12 for what the GTFS loader actually stores: it writes the unencoded numbers
(`load_timetable.cc`, `trip_stop_seq_numbers_.emplace_back(trp.seq_numbers_)`); these decode to
themselves for every trip with at least two stops. -/
theorem C12_unencoded (xs : List Nat) (n : Nat) (h2 : 2 ≤ xs.length) : decode xs n = some xs := by
  simp only [decode, kind_full xs h2, iterFull_id]

/-- C12 (single stop): the encoding of a one-stop sequence is decodable iff its number is 0, 1 or
10. -/
theorem C12_single (x : Nat) : decode (encode [x]) 1 = some [x] ↔ x = 0 ∨ x = 1 ∨ x = 10 := by
  by_cases h0 : x = 0
  · subst h0; decide
  · by_cases h1 : x = 1
    · subst h1; decide
    · by_cases h10 : x = 10
      · subst h10; decide
      · simp [encode, isBased, h0, h1, h10, decode, kind]

example : encode [1, 2, 3] = [1] ∧ decode [1] 3 = some [1, 2, 3] ∧ encode [10, 20, 30] = [10] ∧
    encode [5, 7] = [5, 7] := by decide

end Nigiri.SeqNumbers
