import Verif.Spec.Hrd

namespace Nigiri.Hrd
open Spec

/-- all bits one after the other -/
def consumeBits : HexState → List Bool → Option HexState
  | s, [] => some s
  | s, b :: bs =>
    match consumeBit s b with
    | none => none
    | some s' => consumeBits s' bs

theorem consumeBits_append (s : HexState) (a b : List Bool) :
    consumeBits s (a ++ b) = (consumeBits s a).bind fun s' => consumeBits s' b := by
  induction a generalizing s with
  | nil => rfl
  | cons x xs ih =>
    simp only [List.cons_append, consumeBits]
    cases consumeBit s x with
    | none => rfl
    | some s' => exact ih s'

theorem hexDigit_iff (c v : Nat) : hexDigit c = some v ↔ DigitValue c v := by
  unfold hexDigit DigitValue
  constructor
  · intro h
    split at h
    · cases h; omega
    · split at h
      · cases h; omega
      · split at h
        · cases h; omega
        · cases h
  · intro h
    rcases h with ⟨h16, ⟨hc, hv⟩ | ⟨hv, hc | hc⟩⟩
    · rw [if_pos (by omega)]; congr 1; omega
    · rw [if_neg (by omega), if_pos (by omega)]; congr 1; omega
    · rw [if_neg (by omega), if_neg (by omega), if_pos (by omega)]; congr 1; omega

theorem digit_bits (v : Nat) (h : v < 16) :
    v.testBit 3 = decide (8 ≤ v) ∧ v.testBit 2 = decide (4 ≤ v % 8) ∧
      v.testBit 1 = decide (2 ≤ v % 4) ∧ v.testBit 0 = decide (v % 2 = 1) := by
  revert v
  decide

theorem consumeChar_bits (s : HexState) (c v : Nat) (h : DigitValue c v) :
    consumeChar s c = consumeBits s [decide (8 ≤ v), decide (4 ≤ v % 8), decide (2 ≤ v % 4),
      decide (v % 2 = 1)] := by
  obtain ⟨e3, e2, e1, e0⟩ := digit_bits v h.1
  unfold consumeChar
  rw [(hexDigit_iff c v).2 h]
  simp only [consumeBits, e3, e2, e1, e0]
  repeat' split
  all_goals simp_all

theorem consumeAll_bits (s : HexState) (cs : List Nat) (st : HexState) :
    consumeAll s cs = some st ↔ ∃ bits, HexBits cs bits ∧ consumeBits s bits = some st := by
  induction cs generalizing s with
  | nil =>
    constructor
    · intro h; exact ⟨[], HexBits.nil, h⟩
    · rintro ⟨bits, hb, h⟩; cases hb; exact h
  | cons c cs ih =>
    simp only [consumeAll]
    constructor
    · intro h
      cases hc : consumeChar s c with
      | none => rw [hc] at h; cases h
      | some s' =>
        rw [hc] at h
        obtain ⟨bits, hb, h⟩ := (ih s').1 h
        cases hd : hexDigit c with
        | none => unfold consumeChar at hc; rw [hd] at hc; cases hc
        | some v =>
          have hv := (hexDigit_iff c v).1 hd
          refine ⟨_, HexBits.cons hv hb, ?_⟩
          rw [consumeChar_bits s c v hv] at hc
          have := consumeBits_append s [decide (8 ≤ v), decide (4 ≤ v % 8), decide (2 ≤ v % 4),
            decide (v % 2 = 1)] bits
          rw [hc] at this
          exact this.trans h
    · rintro ⟨bits, hb, h⟩
      cases hb with
      | cons hv hb =>
        rename_i v bits
        have := consumeBits_append s [decide (8 ≤ v), decide (4 ≤ v % 8), decide (2 ≤ v % 4),
            decide (v % 2 = 1)] bits
        rw [← consumeChar_bits s c v hv] at this
        simp only [List.cons_append, List.nil_append] at this
        rw [this] at h
        cases hc : consumeChar s c with
        | none => rw [hc] at h; cases h
        | some s' =>
          rw [hc] at h
          exact (ih s').2 ⟨bits, hb, h⟩

/-! after the start: the bits are copied -/

theorem started_iff (s : HexState) (hs : s.started = true) (bits : List Bool) (st : HexState) :
    consumeBits s bits = some st ↔
      (∀ k, bits[k]? = some true → s.i + k < kMaxDays) ∧
      st.started = true ∧ st.prevWasSet = s.prevWasSet ∧ st.i = s.i + bits.length ∧
      st.b = fun d => if s.i ≤ d ∧ bits[d - s.i]? = some true then true else s.b d := by
  induction bits generalizing s with
  | nil =>
    simp only [consumeBits]
    constructor
    · intro h; cases h
      exact ⟨(by intro k hk; simp at hk), hs, rfl, rfl, (by funext d; simp)⟩
    · rintro ⟨_, h1, h2, h3, h4⟩
      cases s; cases st
      simp_all
  | cons x xs ih =>
    simp only [consumeBits]
    cases x with
    | false =>
      have e : consumeBit s false = some { s with i := s.i + 1 } := by
        unfold consumeBit; rw [hs]; rfl
      rw [e]
      show consumeBits { s with i := s.i + 1 } xs = some st ↔ _
      rw [ih { s with i := s.i + 1 } hs]
      show ((∀ k, xs[k]? = some true → s.i + 1 + k < kMaxDays) ∧ st.started = true ∧
        st.prevWasSet = s.prevWasSet ∧ st.i = s.i + 1 + xs.length ∧
        st.b = fun d => if s.i + 1 ≤ d ∧ xs[d - (s.i + 1)]? = some true then true else s.b d) ↔ _
      have eb : (fun d => if s.i + 1 ≤ d ∧ xs[d - (s.i + 1)]? = some true then true else s.b d) =
          (fun d => if s.i ≤ d ∧ (false :: xs)[d - s.i]? = some true then true else s.b d) := by
        funext d
        by_cases h : s.i + 1 ≤ d
        · have : d - s.i = (d - (s.i + 1)) + 1 := by omega
          rw [this, List.getElem?_cons_succ]
          simp [h, show s.i ≤ d by omega]
        · by_cases h2 : s.i ≤ d
          · have : d - s.i = 0 := by omega
            rw [this]; simp [h]
          · rw [if_neg (by omega), if_neg (by omega)]
      rw [eb]
      constructor
      · rintro ⟨h1, h2, h3, h4, h5⟩
        refine ⟨?_, h2, h3, (by simp [h4]; omega), h5⟩
        intro k hk
        cases k with
        | zero => simp at hk
        | succ k => have := h1 k (by simpa using hk); omega
      · rintro ⟨h1, h2, h3, h4, h5⟩
        refine ⟨?_, h2, h3, (by simp at h4; omega), h5⟩
        intro k hk
        have := h1 (k + 1) (by simpa using hk); omega
    | true =>
      by_cases hlt : s.i < kMaxDays
      · have e : consumeBit s true = some
            { s with b := (fun j => if j = s.i then true else s.b j), i := s.i + 1 } := by
          unfold consumeBit Bitfield.set; rw [hs, if_pos hlt]; rfl
        rw [e]
        show consumeBits { s with b := (fun j => if j = s.i then true else s.b j), i := s.i + 1 } xs =
          some st ↔ _
        rw [ih { s with b := (fun j => if j = s.i then true else s.b j), i := s.i + 1 } hs]
        show ((∀ k, xs[k]? = some true → s.i + 1 + k < kMaxDays) ∧ st.started = true ∧
          st.prevWasSet = s.prevWasSet ∧ st.i = s.i + 1 + xs.length ∧
          st.b = fun d => if s.i + 1 ≤ d ∧ xs[d - (s.i + 1)]? = some true then true
            else if d = s.i then true else s.b d) ↔ _
        have eb : (fun d => if s.i + 1 ≤ d ∧ xs[d - (s.i + 1)]? = some true then true
              else if d = s.i then true else s.b d) =
            (fun d => if s.i ≤ d ∧ (true :: xs)[d - s.i]? = some true then true else s.b d) := by
          funext d
          by_cases h : s.i + 1 ≤ d
          · have : d - s.i = (d - (s.i + 1)) + 1 := by omega
            rw [this, List.getElem?_cons_succ]
            rw [if_neg (show ¬ d = s.i by omega)]
            simp [h, show s.i ≤ d by omega]
          · by_cases h2 : s.i ≤ d
            · have : d - s.i = 0 := by omega
              rw [this, if_pos (show d = s.i by omega)]; simp [h2]
            · rw [if_neg (by omega), if_neg (by omega), if_neg (by omega)]
        rw [eb]
        constructor
        · rintro ⟨h1, h2, h3, h4, h5⟩
          refine ⟨?_, h2, h3, (by simp [h4]; omega), h5⟩
          intro k hk
          cases k with
          | zero => simpa using hlt
          | succ k => have := h1 k (by simpa using hk); omega
        · rintro ⟨h1, h2, h3, h4, h5⟩
          refine ⟨?_, h2, h3, (by simp at h4; omega), h5⟩
          intro k hk
          have := h1 (k + 1) (by simpa using hk); omega
      · have e : consumeBit s true = none := by
          unfold consumeBit Bitfield.set; rw [hs, if_neg hlt]; rfl
        rw [e]
        constructor
        · intro h; cases h
        · rintro ⟨h1, _⟩
          have := h1 0 (by simp)
          omega

/-! before the start -/

theorem noPair_tail {a : Bool} {l : List Bool} (h : NoPair (a :: l)) : NoPair l := by
  intro i ⟨h1, h2⟩
  exact h (i + 1) ⟨(by simpa using h1), (by simpa using h2)⟩

theorem noPair_cons {a : Bool} {l : List Bool} (h : NoPair l) (h0 : ¬ (a = true ∧ l[0]? = some true)) :
    NoPair (a :: l) := by
  intro i ⟨h1, h2⟩
  cases i with
  | zero => exact h0 ⟨(by simpa using h1), (by simpa using h2)⟩
  | succ i => exact h i ⟨(by simpa using h1), (by simpa using h2)⟩

/-- the run of the whole bit string, from a state before the start -/
theorem before_iff (s : HexState) (hs : s.started = false) (bits : List Bool) (st : HexState)
    (hst : st.started = true) :
    consumeBits s bits = some st ↔
      ∃ pre rest, s.prevWasSet :: bits = pre ++ [true, true] ++ rest ∧ NoPair (pre ++ [true]) ∧
        consumeBits { s with started := true, prevWasSet := true } rest = some st := by
  induction bits generalizing s with
  | nil =>
    constructor
    · intro h
      simp only [consumeBits] at h
      cases h; rw [hs] at hst; cases hst
    · rintro ⟨pre, rest, h, _⟩
      have := congrArg List.length h
      simp at this
      omega
  | cons x xs ih =>
    have e : consumeBit s x = some { s with started := s.prevWasSet && x, prevWasSet := x } := by
      unfold consumeBit; rw [hs]; rfl
    simp only [consumeBits, e]
    by_cases hp : s.prevWasSet = true ∧ x = true
    · obtain ⟨h1, h2⟩ := hp
      subst h2
      rw [h1]
      simp only [Bool.and_self]
      constructor
      · intro h
        exact ⟨[], xs, rfl, (by intro i ⟨a, b⟩; cases i <;> simp at b), h⟩
      · rintro ⟨pre, rest, heq, hno, h⟩
        cases pre with
        | nil =>
          simp at heq
          rw [heq]; exact h
        | cons p pre =>
          exfalso
          cases pre with
          | nil =>
            simp at heq
            exact hno 0 ⟨(by simp [heq.1]), (by simp)⟩
          | cons q pre =>
            simp at heq
            exact hno 0 ⟨(by simp [heq.1]), (by simp [heq.2.1])⟩
    · have hf : (s.prevWasSet && x) = false := by
        cases h1 : s.prevWasSet <;> cases h2 : x <;> simp_all
      rw [hf]
      have e2 : ({ s with started := false, prevWasSet := x } : HexState) = { s with prevWasSet := x } := by
        cases s; simp_all
      rw [e2]
      rw [ih { s with prevWasSet := x } hs]
      show (∃ pre rest, x :: xs = pre ++ [true, true] ++ rest ∧ NoPair (pre ++ [true]) ∧
        consumeBits { s with started := true, prevWasSet := true } rest = some st) ↔ _
      constructor
      · rintro ⟨pre, rest, heq, hno, h⟩
        refine ⟨s.prevWasSet :: pre, rest, (by rw [heq]; rfl), ?_, h⟩
        refine noPair_cons hno ?_
        rintro ⟨h1, h2⟩
        refine hp ⟨h1, ?_⟩
        cases pre with
        | nil => simp at heq; exact heq.1
        | cons p pre => simp at heq h2; rw [heq.1]; exact h2
      · rintro ⟨pre, rest, heq, hno, h⟩
        cases pre with
        | nil =>
          simp at heq
          exact absurd ⟨heq.1, heq.2.1⟩ hp
        | cons p pre =>
          simp only [List.cons_append, List.cons.injEq] at heq
          exact ⟨pre, rest, heq.2, noPair_tail hno, h⟩

/-! trimming the end -/

theorem trimEnd_iff (n : Nat) (prev : Bool) (b b' : Bitfield) :
    trimEnd n prev b = some b' ↔
      ∃ j, j < n ∧ b j = true ∧ (if j + 1 = n then prev else b (j + 1)) = true ∧
        (∀ k, j < k → k < n → ¬ (b k = true ∧ (if k + 1 = n then prev else b (k + 1)) = true)) ∧
        b' = fun k => if j ≤ k ∧ k < n then false else b k := by
  induction n generalizing prev b with
  | zero =>
    constructor
    · intro h; cases h
    · rintro ⟨j, h, _⟩; omega
  | succ n ih =>
    simp only [trimEnd]
    by_cases hp : prev = true ∧ b n = true
    · obtain ⟨h1, h2⟩ := hp
      rw [h1, h2]
      simp only [Bool.and_self, if_true, Option.some.injEq]
      constructor
      · intro h
        refine ⟨n, (by omega), h2, (by simp), (by intro k _ _; omega), ?_⟩
        rw [← h]; funext k
        by_cases hk : k = n
        · rw [if_pos hk, if_pos (by omega)]
        · rw [if_neg hk, if_neg (by omega)]
      · rintro ⟨j, hj, hb, hn, hmax, heq⟩
        have hjn : j = n := by
          refine Classical.byContradiction fun hne => ?_
          exact hmax n (by omega) (by omega) ⟨h2, (by simp)⟩
        subst hjn
        rw [heq]; funext k
        by_cases hk : k = j
        · rw [if_pos hk, if_pos (by omega)]
        · rw [if_neg hk, if_neg (by omega)]
    · have hf : (prev && b n) = false := by
        cases h1 : prev <;> cases h2 : b n <;> simp_all
      rw [hf]
      simp only [Bool.false_eq_true, if_false]
      rw [ih]
      constructor
      · rintro ⟨j, hj, hb, hn, hmax, heq⟩
        rw [if_neg (by omega)] at hb
        refine ⟨j, (by omega), hb, ?_, ?_, ?_⟩
        · rw [if_neg (by omega)]
          by_cases hjn : j + 1 = n
          · rw [if_pos hjn] at hn; rw [hjn]; exact hn
          · rw [if_neg hjn, if_neg hjn] at hn; exact hn
        · intro k hk hkn ⟨h1, h2⟩
          by_cases hkn' : k = n
          · subst hkn'
            rw [if_pos rfl] at h2
            exact hp ⟨h2, h1⟩
          · refine hmax k hk (by omega) ⟨(by rw [if_neg hkn']; exact h1), ?_⟩
            rw [if_neg (by omega)] at h2
            by_cases hkn2 : k + 1 = n
            · rw [if_pos hkn2, ← hkn2]; exact h2
            · rw [if_neg hkn2, if_neg hkn2]; exact h2
        · rw [heq]; funext k
          by_cases h1 : j ≤ k ∧ k < n
          · rw [if_pos h1, if_pos (by omega)]
          · rw [if_neg h1]
            by_cases h2 : k = n
            · rw [if_pos h2, if_pos (by omega)]
            · rw [if_neg h2, if_neg (by omega)]
      · rintro ⟨j, hj, hb, hn, hmax, heq⟩
        have hjn : j ≠ n := by
          intro h; subst h
          rw [if_pos rfl] at hn
          exact hp ⟨hn, hb⟩
        rw [if_neg (by omega)] at hn
        refine ⟨j, (by omega), (by rw [if_neg hjn]; exact hb), ?_, ?_, ?_⟩
        · by_cases h : j + 1 = n
          · rw [if_pos h, ← h]; exact hn
          · rw [if_neg h, if_neg h]; exact hn
        · intro k hk hkn ⟨h1, h2⟩
          rw [if_neg (by omega)] at h1
          refine hmax k hk (by omega) ⟨h1, ?_⟩
          rw [if_neg (by omega)]
          by_cases h : k + 1 = n
          · rw [if_pos h, ← h] at h2; exact h2
          · rw [if_neg h, if_neg h] at h2; exact h2
        · rw [heq]; funext k
          by_cases h1 : j ≤ k ∧ k < n
          · rw [if_pos h1, if_pos (by omega)]
          · rw [if_neg h1]
            by_cases h2 : k = n
            · rw [if_pos h2, if_pos (by omega)]
            · rw [if_neg h2, if_neg (by omega)]

/-- the bits of a list -/
def bitsOf (l : List Bool) : Bitfield := fun d => decide (l[d]? = some true)

theorem trim_list_iff (rest : List Bool) (hfit : ∀ k, rest[k]? = some true → k < kMaxDays)
    (b' : Bitfield) :
    trimEnd kMaxDays false (bitsOf rest) = some b' ↔
      ∃ days post, rest = days ++ [true, true] ++ post ∧ NoPair ([true] ++ post) ∧ b' = bitsOf days := by
  rw [trimEnd_iff]
  have hb : ∀ k, bitsOf rest k = true ↔ rest[k]? = some true := by intro k; simp [bitsOf]
  have hnext : ∀ k, k < kMaxDays → ((if k + 1 = kMaxDays then false else bitsOf rest (k + 1)) = true ↔
      rest[k + 1]? = some true) := by
    intro k _
    by_cases h : k + 1 = kMaxDays
    · rw [if_pos h]
      constructor
      · intro h; cases h
      · intro h2; have := hfit (k + 1) h2; omega
    · rw [if_neg h]; exact hb _
  constructor
  · rintro ⟨j, hj, h1, h2, hmax, heq⟩
    rw [hb] at h1
    rw [hnext j hj] at h2
    have hl : j + 1 < rest.length := by
      have := (List.getElem?_eq_some_iff.1 h2).1; omega
    refine ⟨rest.take j, rest.drop (j + 2), ?_, ?_, ?_⟩
    · have e1 : rest.drop j = true :: true :: rest.drop (j + 2) := by
        have a := (List.getElem?_eq_some_iff.1 h1).2
        have b := (List.getElem?_eq_some_iff.1 h2).2
        rw [List.drop_eq_getElem_cons (by omega), List.drop_eq_getElem_cons (by omega), a, b]
      calc rest = rest.take j ++ rest.drop j := (List.take_append_drop j rest).symm
        _ = _ := by rw [e1]; simp
    · intro i ⟨ha, hc⟩
      have hbig : ∀ i, ([true] ++ rest.drop (j + 2))[i]? = rest[j + 1 + i]? := by
        intro i
        cases i with
        | zero => simp [h2]
        | succ i => simp; congr 1; omega
      rw [hbig] at ha hc
      have hk := hfit _ ha
      refine hmax (j + 1 + i) (by omega) hk ⟨(hb _).2 ha, (hnext _ hk).2 ?_⟩
      rw [show j + 1 + i + 1 = j + 1 + (i + 1) by omega]; exact hc
    · rw [heq]; funext k
      simp only [bitsOf]
      by_cases hk : j ≤ k
      · rw [List.getElem?_take]
        rw [if_neg (show ¬ k < j by omega)]
        by_cases hk2 : k < kMaxDays
        · rw [if_pos ⟨hk, hk2⟩]; simp
        · rw [if_neg (fun h => hk2 h.2)]
          have : rest[k]? ≠ some true := fun h => hk2 (hfit k h)
          simp [this]
      · rw [if_neg (fun h => hk h.1), List.getElem?_take, if_pos (show k < j by omega)]
  · rintro ⟨days, post, heq, hno, hb'⟩
    have g0 : rest[days.length]? = some true := by rw [heq]; simp
    have g1 : rest[days.length + 1]? = some true := by rw [heq]; simp
    have hlt := hfit _ g0
    refine ⟨days.length, hlt, (hb _).2 g0, (hnext _ hlt).2 g1, ?_, ?_⟩
    · intro k hk hkm ⟨h1, h2⟩
      rw [hb] at h1
      rw [hnext k hkm] at h2
      have hbig : ∀ i, ([true] ++ post)[i]? = rest[days.length + 1 + i]? := by
        intro i
        have e : rest = days ++ ([true] ++ ([true] ++ post)) := by rw [heq]; simp
        have e2 : (days ++ ([true] ++ ([true] ++ post)))[days.length + 1 + i]? =
            ([true] ++ ([true] ++ post))[days.length + 1 + i - days.length]? :=
          List.getElem?_append_right (by omega)
        rw [e, e2, show days.length + 1 + i - days.length = i + 1 by omega]
        rfl
      refine hno (k - (days.length + 1)) ⟨?_, ?_⟩
      · rw [hbig, show days.length + 1 + (k - (days.length + 1)) = k by omega]; exact h1
      · rw [hbig, show days.length + 1 + (k - (days.length + 1) + 1) = k + 1 by omega]; exact h2
    · rw [hb']; funext k
      simp only [bitsOf]
      by_cases hk : days.length ≤ k
      · rw [List.getElem?_eq_none hk]
        by_cases hk2 : k < kMaxDays
        · rw [if_pos ⟨hk, hk2⟩]; simp
        · rw [if_neg (fun h => hk2 h.2)]
          have : rest[k]? ≠ some true := fun h => hk2 (hfit k h)
          simp [this]
      · rw [if_neg (fun h => hk h.1), heq, List.append_assoc, List.getElem?_append_left (by omega)]

theorem hexStr_iff (s : List Nat) (b : Bitfield) :
    hexStrToBitset s = some b ↔
      ∃ bits pre days post, HexBits s bits ∧ Framed bits pre days post ∧
        (∀ k, (days ++ [true, true] ++ post)[k]? = some true → k < kMaxDays) ∧ b = bitsOf days := by
  have key : ∀ st : HexState, consumeAll {} s = some st → st.started = true →
      ∃ bits pre rest, HexBits s bits ∧ bits = pre ++ [true, true] ++ rest ∧ NoPair (pre ++ [true]) ∧
        (∀ k, rest[k]? = some true → k < kMaxDays) ∧ st.b = bitsOf rest := by
    intro st h hst
    obtain ⟨bits, hb, h⟩ := (consumeAll_bits {} s st).1 h
    obtain ⟨pre, rest, heq, hno, h⟩ := (before_iff {} rfl bits st hst).1 h
    obtain ⟨h1, _, _, _, h5⟩ := (started_iff _ rfl rest st).1 h
    cases pre with
    | nil => simp at heq
    | cons p pre =>
      simp only [List.cons_append, List.cons.injEq] at heq
      refine ⟨bits, pre, rest, hb, heq.2, noPair_tail hno, (by intro k hk; have := h1 k hk; simpa using this), ?_⟩
      rw [h5]; funext d
      simp [bitsOf, Bitfield.empty]
  constructor
  · intro h
    unfold hexStrToBitset at h
    cases hc : consumeAll {} s with
    | none => rw [hc] at h; cases h
    | some st =>
      rw [hc] at h
      have h' : (if st.started then trimEnd kMaxDays false st.b else none) = some b := h
      cases hst : st.started with
      | false => rw [hst] at h'; cases h'
      | true =>
        rw [hst, if_pos rfl] at h'
        obtain ⟨bits, pre, rest, hb, heq, hno, hfit, hsb⟩ := key st hc hst
        rw [hsb] at h'
        obtain ⟨days, post, he, hno2, hbd⟩ := (trim_list_iff rest hfit b).1 h'
        refine ⟨bits, pre, days, post, hb, ⟨?_, hno, hno2⟩, (by rw [← he]; exact hfit), hbd⟩
        rw [heq, he]; simp
  · rintro ⟨bits, pre, days, post, hb, ⟨heq, hno, hno2⟩, hfit, hbd⟩
    let rest := days ++ [true, true] ++ post
    let st : HexState := { b := bitsOf rest, started := true, prevWasSet := true, i := rest.length }
    have h1 : consumeBits { ({} : HexState) with started := true, prevWasSet := true } rest = some st := by
      rw [started_iff _ rfl]
      refine ⟨(by intro k hk; have := hfit k hk; simpa using this), rfl, rfl, (by simp [st]), ?_⟩
      show bitsOf rest = _
      funext d
      simp [bitsOf, Bitfield.empty]
    have h2 : consumeBits {} bits = some st := by
      rw [before_iff {} rfl bits st rfl]
      refine ⟨false :: pre, rest, ?_, noPair_cons hno (by rintro ⟨h, _⟩; cases h), h1⟩
      rw [heq]; simp [rest]
    have h3 := (consumeAll_bits {} s st).2 ⟨bits, hb, h2⟩
    unfold hexStrToBitset
    rw [h3]
    show (if st.started then trimEnd kMaxDays false st.b else none) = some b
    rw [if_pos rfl]
    exact (trim_list_iff rest hfit b).2 ⟨days, post, rfl, hno2, hbd⟩

end Nigiri.Hrd
