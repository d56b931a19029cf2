import Verif.Proofs.HrdBitfield
import Verif.Proofs.HrdSplit
/-!
# C93, C94: traffic days of HRD services
-/

namespace Nigiri.Hrd
open Spec

/-! ## C93: hexadecimal traffic day bitfields -/

/-- **C93** (reading).  If the bits of the hexadecimal string are `pre 11 days 11 post`, where the
first `11` is the first and the last `11` the last pair of adjacent set bits, and no set bit lies
beyond the capacity of 512 days, then the string is accepted and day `d` is a traffic day iff
`days[d]` is set. -/
theorem C93_days (s : List Nat) (bits pre days post : List Bool) (hs : HexBits s bits)
    (hf : Framed bits pre days post)
    (hfit : ∀ k : Nat, (days ++ [true, true] ++ post)[k]? = some true → k < 512) :
    ∃ b, hexStrToBitset s = some b ∧ ∀ d, b d = true ↔ days[d]? = some true :=
  ⟨bitsOf days, (hexStr_iff s _).2 ⟨bits, pre, days, post, hs, hf, hfit, rfl⟩, fun d => by simp [bitsOf]⟩

/-- **C93** (acceptance).  A string that is accepted has this form, and the result is as above: the
traffic days are determined by the string alone. -/
theorem C93_accepted (s : List Nat) (b : Bitfield) (h : hexStrToBitset s = some b) :
    ∃ bits pre days post, HexBits s bits ∧ Framed bits pre days post ∧
      ∀ d, b d = true ↔ days[d]? = some true := by
  obtain ⟨bits, pre, days, post, h1, h2, _, h4⟩ := (hexStr_iff s b).1 h
  exact ⟨bits, pre, days, post, h1, h2, fun d => by rw [h4]; simp [bitsOf]⟩

/-- **C93**.  Bitfield number 0 and every number without an entry mean "runs every day". -/
theorem C93_every_day (bitfields : Nat → Option Bitfield) (i : Nat) (h : i = 0 ∨ bitfields i = none)
    (d : Nat) (hd : d < 512) : resolveBitfield bitfields i d = true := by
  unfold resolveBitfield
  rcases h with h | h
  · rw [if_pos h]; exact decide_eq_true hd
  · rw [h]
    split
    · exact decide_eq_true hd
    · exact decide_eq_true hd

theorem C93_known (bitfields : Nat → Option Bitfield) (i : Nat) (b : Bitfield) (h : bitfields i = some b)
    (hi : i ≠ 0) : resolveBitfield bitfields i = b := by
  unfold resolveBitfield
  rw [if_neg hi, h]

/-- `0653` = `0000 0110 0101 0011`: between the pairs stands `00101 00`. -/
example : (hexStrToBitset [48, 54, 53, 51]).map (fun b => (List.range 10).filter b) = some [2, 4] := by
  decide +kernel
example : (hexStrToBitset [70]).map (fun b => (List.range 512).filter b) = some [] := by decide +kernel
example : (hexStrToBitset [48]).isNone = true := by decide +kernel
example : (hexStrToBitset [55]).isNone = true := by decide +kernel
/-- the hypotheses of `C93_days` are met by `0653` -/
example : ∃ bits, HexBits [48, 54, 53, 51] bits ∧
    Framed bits [false, false, false, false, false] [false, false, true, false, true, false, false] [] := by
  refine ⟨_, HexBits.cons (v := 0) ⟨by omega, Or.inl ⟨rfl, by omega⟩⟩
    (HexBits.cons (v := 6) ⟨by omega, Or.inl ⟨rfl, by omega⟩⟩
    (HexBits.cons (v := 5) ⟨by omega, Or.inl ⟨rfl, by omega⟩⟩
    (HexBits.cons (v := 3) ⟨by omega, Or.inl ⟨rfl, by omega⟩⟩ HexBits.nil))), ?_, ?_, ?_⟩
  · decide
  · intro i
    rcases i with _ | _ | _ | _ | _ | _ | i <;> simp
  · intro i
    rcases i with _ | i <;> simp

/-! ## C94: splitting at changes of the traffic days -/

/-- **C94** (soundness).  Every part service handed on covers at least one section and one day, lies
within the service, and every section it covers runs on every one of its days. -/
theorem C94_sound (B : List Bitfield) (p : Part) (hp : p ∈ (expandTrafficDays B).out) :
    p.from' < p.to' ∧ p.to' ≤ B.length ∧ (∃ d, d < 512 ∧ p.days d = true) ∧
      ∀ k d, p.from' ≤ k → k < p.to' → p.days d = true → ∃ b, B[k]? = some b ∧ b d = true := by
  obtain ⟨i, h⟩ := expand_inv B
  obtain ⟨h1, h2, h3, h4⟩ := h.ok p hp
  refine ⟨h1, h2, (any_iff _).1 h3, ?_⟩
  intro k d ha hb hd
  obtain ⟨b, hb1, hb2⟩ := h4 k ha hb
  exact ⟨b, hb1, hb2 d hd⟩

/-- **C94** (at most once).  Two different part services have no day in common, so no section is
served twice on a day. -/
theorem C94_disjoint (B : List Bitfield) (i j : Nat) (p q : Part)
    (hp : (expandTrafficDays B).out[i]? = some p) (hq : (expandTrafficDays B).out[j]? = some q)
    (hij : i ≠ j) (d : Nat) (hd : d < 512) : ¬ (p.days d = true ∧ q.days d = true) := by
  obtain ⟨n, h⟩ := expand_inv B
  exact h.disjoint i j p q hp hq hij d hd

/-- The parts cover exactly the days of the sections. -/
def Covers (B : List Bitfield) (D : List Part) : Prop :=
  ∀ k b, B[k]? = some b → ∀ d, b d = true ↔ ∃ p ∈ D, p.from' ≤ k ∧ k < p.to' ∧ p.days d = true

/-- `D` describes part services with disjoint days, of which the `i`-th begins at section `i`. -/
structure PartsFromEverySection (B : List Bitfield) (D : List Part) : Prop where
  from_eq : ∀ (i : Nat) (p : Part), D[i]? = some p → p.from' = i
  range : ∀ p ∈ D, p.from' < p.to' ∧ p.to' ≤ B.length ∧ ∃ d, d < 512 ∧ p.days d = true
  disjoint : ∀ (i j : Nat) (p q : Part), D[i]? = some p → D[j]? = some q → i ≠ j →
    ∀ d, ¬ (p.days d = true ∧ q.days d = true)
  cover : Covers B D

/-- **C94** (completeness, partial).  If the days of the sections come from part services with
disjoint days, of which one begins at each of the sections `0, …, m - 1` and none at a later one, then
exactly these part services are found.  The full claim — every day of every section is served by a
part service — is false, see `C94_lost_days_false`. -/
theorem C94_complete_partial (B : List Bitfield) (D : List Part) (h : PartsFromEverySection B D) :
    (expandTrafficDays B).out = D ∧ (expandTrafficDays B).threw = false := by
  refine expand_decomp ⟨h.from_eq, ?_, h.disjoint, ?_⟩
  · intro i p hp
    obtain ⟨h1, h2, h3⟩ := h.range p (List.mem_of_getElem? hp)
    exact ⟨h1, h2, (any_iff _).2 h3⟩
  · intro k b hb d
    rw [h.cover k b hb d]
    constructor
    · rintro ⟨p, hp, h1, h2, h3⟩
      obtain ⟨i, hi⟩ := List.getElem?_of_mem hp
      rw [h.from_eq i p hi] at h1
      exact ⟨i, p, hi, h1, h2, h3⟩
    · rintro ⟨i, p, hi, h1, h2, h3⟩
      exact ⟨p, List.mem_of_getElem? hi, (by rw [h.from_eq i p hi]; exact h1), h2, h3⟩

/-- **C94** (necessity).  Whenever the result is complete, the days are of that form: the condition of
`C94_complete_partial` describes exactly the services that are loaded completely (for bitfields
without bits beyond the capacity). -/
theorem C94_complete_only_if (B : List Bitfield) (hB : ∀ b ∈ B, ∀ d, b d = true → d < 512)
    (hc : Covers B (expandTrafficDays B).out) : PartsFromEverySection B (expandTrafficDays B).out := by
  obtain ⟨n, h⟩ := expand_inv B
  refine ⟨h.froms, ?_, ?_, hc⟩
  · intro p hp
    obtain ⟨h1, h2, h3, _⟩ := h.ok p hp
    exact ⟨h1, h2, (any_iff _).1 h3⟩
  · rintro i j p q hp hq hij d ⟨h1, h2⟩
    obtain ⟨r1, _, _, r4⟩ := h.ok p (List.mem_of_getElem? hp)
    obtain ⟨b, hb, hbd⟩ := r4 p.from' (Nat.le_refl _) r1
    exact h.disjoint i j p q hp hq hij d (hB b (List.mem_of_getElem? hb) d (hbd d h1)) ⟨h1, h2⟩

/-- **C94** (the common case).  A service with the same traffic days on all its sections becomes one
service over all sections with these days. -/
theorem C94_uniform (n : Nat) (b : Bitfield) (hn : 0 < n) (hb : ∃ d, d < 512 ∧ b d = true) :
    (expandTrafficDays (List.replicate n b)).out = [⟨b, 0, n⟩] ∧
      (expandTrafficDays (List.replicate n b)).threw = false := by
  refine C94_complete_partial _ _ ⟨?_, ?_, ?_, ?_⟩
  · intro i p hp
    cases i with
    | zero => simp at hp; rw [← hp]
    | succ i => simp at hp
  · intro p hp
    simp at hp; subst hp
    exact ⟨hn, by simp, hb⟩
  · intro i j p q hp hq hij
    cases i <;> cases j <;> simp_all
  · intro k b' hb' d
    rw [List.getElem?_replicate] at hb'
    split at hb'
    · cases hb'
      rename_i hk
      simp [hk]
    · cases hb'

/-- **C94** (growing).  If every section runs on all days of the section before and on at least one
further day, section `k` is served on exactly its days. -/
theorem C94_growing (B : List Bitfield) (hcap : ∀ b ∈ B, ∀ d, b d = true → d < 512)
    (h0 : ∀ b, B[0]? = some b → ∃ d, b d = true)
    (hsub : ∀ (k : Nat) (a b : Bitfield), B[k]? = some a → B[k + 1]? = some b →
      (∀ d, a d = true → b d = true) ∧ ∃ d, b d = true ∧ a d = false) :
    Covers B (expandTrafficDays B).out ∧ (expandTrafficDays B).threw = false := by
  let before : Nat → Bitfield := fun i => match i with
    | 0 => fun _ => false
    | i + 1 => (B[i]?).getD (fun _ => false)
  let D : List Part := (List.range B.length).map fun i => ⟨fun d => (B[i]?.getD (fun _ => false)) d && !(before i d), i, B.length⟩
  have hDi : ∀ (i : Nat) (p : Part), D[i]? = some p → i < B.length ∧
      p = ⟨fun d => (B[i]?.getD (fun _ => false)) d && !(before i d), i, B.length⟩ := by
    intro i p hp
    simp only [D, List.getElem?_map, Option.map_eq_some_iff] at hp
    obtain ⟨j, hj, hp⟩ := hp
    have hlt := (List.getElem?_eq_some_iff.1 hj).1
    simp at hlt
    rw [List.getElem?_eq_getElem (by simpa using hlt)] at hj
    simp at hj
    subst hj
    exact ⟨hlt, hp.symm⟩
  have hmono : ∀ (j k : Nat) (a b : Bitfield), B[j]? = some a → B[j + k]? = some b → ∀ d, a d = true → b d = true := by
    intro j k
    induction k with
    | zero => intro a b ha hb d hd; rw [Nat.add_zero, ha] at hb; cases hb; exact hd
    | succ k ih =>
      intro a b ha hb d hd
      have hlt : j + k < B.length := by
        have := (List.getElem?_eq_some_iff.1 hb).1; omega
      exact (hsub (j + k) _ b (List.getElem?_eq_getElem hlt) hb).1 d (ih a _ ha (List.getElem?_eq_getElem hlt) d hd)
  have hbefore : ∀ i d, i < B.length → before i d = true → (B[i]?.getD (fun _ => false)) d = true := by
    intro i d hi hd
    cases i with
    | zero => cases hd
    | succ i =>
      have hlt : i < B.length := by omega
      have e1 : before (i + 1) d = (B[i]?.getD (fun _ => false)) d := rfl
      rw [e1, List.getElem?_eq_getElem hlt] at hd
      rw [List.getElem?_eq_getElem hi]
      exact (hsub i _ _ (List.getElem?_eq_getElem hlt) (List.getElem?_eq_getElem hi)).1 d hd
  have hex : ∀ k d (hk : k < B.length), B[k] d = true → ∃ i, i ≤ k ∧ (B[i]?.getD (fun _ => false)) d = true ∧ before i d = false := by
    intro k d
    induction k with
    | zero => intro hk hd; exact ⟨0, Nat.le_refl _, by rw [List.getElem?_eq_getElem hk]; exact hd, rfl⟩
    | succ k ih =>
      intro hk hd
      cases hb : before (k + 1) d with
      | false => exact ⟨k + 1, Nat.le_refl _, by rw [List.getElem?_eq_getElem hk]; exact hd, hb⟩
      | true =>
        have hlt : k < B.length := by omega
        have e1 : before (k + 1) d = (B[k]?.getD (fun _ => false)) d := rfl
        rw [e1, List.getElem?_eq_getElem hlt] at hb
        obtain ⟨i, h1, h2⟩ := ih hlt hb
        exact ⟨i, by omega, h2⟩
  have hparts : PartsFromEverySection B D := by
    refine ⟨?_, ?_, ?_, ?_⟩
    · intro i p hp; rw [(hDi i p hp).2]
    · intro p hp
      obtain ⟨i, hi⟩ := List.getElem?_of_mem hp
      obtain ⟨hlt, rfl⟩ := hDi i p hi
      refine ⟨hlt, Nat.le_refl _, ?_⟩
      have hi' := List.getElem?_eq_getElem hlt
      cases i with
      | zero =>
        obtain ⟨d, hd⟩ := h0 _ hi'
        refine ⟨d, hcap _ (List.getElem_mem hlt) d hd, ?_⟩
        show ((B[0]?.getD (fun _ => false)) d && !false) = true
        rw [hi']; simpa using hd
      | succ i =>
        obtain ⟨d, hd, hd2⟩ := (hsub i _ _ (List.getElem?_eq_getElem (show i < B.length by omega)) hi').2
        refine ⟨d, hcap _ (List.getElem_mem hlt) d hd, ?_⟩
        show ((B[i + 1]?.getD (fun _ => false)) d && !((B[i]?.getD (fun _ => false)) d)) = true
        rw [hi', List.getElem?_eq_getElem (show i < B.length by omega)]
        simp [hd, hd2]
    · intro i j p q hp hq hij d
      obtain ⟨hi, rfl⟩ := hDi i p hp
      obtain ⟨hj, rfl⟩ := hDi j q hq
      have key : ∀ i j, i < j → j < B.length → (B[i]?.getD (fun _ => false)) d = true →
          before j d = false → False := by
        intro i j hlt hjl h1 h2
        obtain ⟨k, rfl⟩ : ∃ k, j = k + 1 := ⟨j - 1, by omega⟩
        have e1 : before (k + 1) d = (B[k]?.getD (fun _ => false)) d := rfl
        have hk : k < B.length := by omega
        rw [e1, List.getElem?_eq_getElem hk] at h2
        rw [List.getElem?_eq_getElem (show i < B.length by omega)] at h1
        have := hmono i (k - i) _ _ (List.getElem?_eq_getElem (show i < B.length by omega))
          (by rw [show i + (k - i) = k by omega]; exact List.getElem?_eq_getElem hk) d h1
        rw [show (some B[k]).getD (fun _ => false) = B[k] from rfl] at h2
        rw [this] at h2; cases h2
      rintro ⟨h1, h2⟩
      simp only [Bool.and_eq_true, Bool.not_eq_true'] at h1 h2
      rcases Nat.lt_or_gt_of_ne hij with h | h
      · exact key i j h hj h1.1 h2.2
      · exact key j i h hi h2.1 h1.2
    · intro k b hb d
      have hk := (List.getElem?_eq_some_iff.1 hb).1
      have hbk := (List.getElem?_eq_some_iff.1 hb).2
      constructor
      · intro hd
        obtain ⟨i, h1, h2, h3⟩ := hex k d hk (by rw [hbk]; exact hd)
        refine ⟨⟨fun d => (B[i]?.getD (fun _ => false)) d && !(before i d), i, B.length⟩, ?_, h1, hk, ?_⟩
        · exact List.mem_map.2 ⟨i, List.mem_range.2 (by omega), rfl⟩
        · show ((B[i]?.getD (fun _ => false)) d && !(before i d)) = true
          rw [h2, h3]; rfl
      · rintro ⟨p, hp, h1, h2, h3⟩
        obtain ⟨i, hi⟩ := List.getElem?_of_mem hp
        obtain ⟨hil, rfl⟩ := hDi i p hi
        simp only [Bool.and_eq_true] at h1 h2 h3
        have hi' := List.getElem?_eq_getElem hil
        rw [hi'] at h3
        exact hmono i (k - i) _ b hi' (by rw [show i + (k - i) = k by omega]; exact hb) d h3.1
  obtain ⟨h1, h2⟩ := C94_complete_partial B D hparts
  rw [h1]
  exact ⟨hparts.cover, h2⟩

/-- days of a bitfield given as a list -/
def daysB (l : List Nat) : Bitfield := fun d => decide (d ∈ l)

/-- what is found: days (below 8), first and last section -/
def shown (st : ExpandState) : List (List Nat × Nat × Nat) × Bool :=
  (st.out.map fun p => ((List.range 8).filter p.days, p.from', p.to'), st.threw)

/-- two parts that begin at sections 0 and 1 are both found -/
example : shown (expandTrafficDays [daysB [1], daysB [1, 2], daysB [1, 2]]) =
    ([([1], 0, 3), ([2], 1, 3)], false) := by decide +kernel
example : shown (expandTrafficDays [daysB [1], daysB [2]]) = ([([1], 0, 1), ([2], 1, 2)], false) := by
  decide +kernel

/-- **C94** (why only partial).  (1) The second part of a service that runs on day 1 on the first two
sections and on day 2 on the third one is not loaded: the loop stops at the first section without
remaining days.  (2) With days {1, 2} on the first and {1} on the second section the first section is
not served on day 2. (3) A section that is skipped on some day between (days {1}, {2}, {1}) makes
loading fail after the first parts were handed on. -/
theorem C94_lost_days_false :
    shown (expandTrafficDays [daysB [1], daysB [1], daysB [2]]) = ([([1], 0, 2)], false) ∧
    shown (expandTrafficDays [daysB [1, 2], daysB [1]]) = ([([1], 0, 2)], false) ∧
    shown (expandTrafficDays [daysB [1], daysB [2], daysB [1]]) =
      ([([1], 0, 1), ([2], 1, 2)], true) := by
  refine ⟨?_, ?_, ?_⟩ <;> decide +kernel

end Nigiri.Hrd
