import Verif.Proofs.TbPreprocess
/-!
# Trip-based preprocessing: what line-based pruning keeps
-/

namespace Nigiri.TB
open Raptor (Loc StopData)

theorem andNot_testBit {a b : Bits} {d : Nat} (hd : d < nBits) (ha : a.testBit d = true) (hb : b.testBit d = false) :
    (andNot a b).testBit d = true := by
  unfold andNot allBits
  rw [Nat.testBit_and, Nat.testBit_xor, Nat.testBit_two_pow_sub_one, ha, hb]
  simpa using hd

theorem andNot_testBit_false {a b : Bits} {d : Nat} (hd : d < nBits) (h : (andNot a b).testBit d = false) (ha : a.testBit d = true) :
    b.testBit d = true := by
  cases hb : b.testBit d with
  | true => rfl
  | false => rw [andNot_testBit hd ha hb] at h; simp at h

theorem ne_zero_of_testBit {a : Bits} {d : Nat} (h : a.testBit d = true) : a ≠ 0 := by
  intro e; rw [e] at h; simp at h

theorem shiftDays_testBit' {b : Bits} {total : Int} {d d' : Nat} (hd : d < nBits) (e : (d' : Int) = (d : Int) - total)
    (h : b.testBit d' = true) : (shiftDays b total).testBit d = true := by
  unfold shiftDays
  by_cases ht : total < 0
  · rw [if_pos ht]
    simp only [shr, Nat.testBit_shiftRight]
    rw [show (-total).toNat + d = d' by omega]
    exact h
  · rw [if_neg ht]
    simp only [shl, Nat.testBit_mod_two_pow, Nat.testBit_shiftLeft, Bool.and_eq_true, decide_eq_true_eq]
    rw [show d - total.toNat = d' by omega]
    exact ⟨hd, by omega, h⟩

/-! ## `reached_line_based` -/

/-- Not later in the order of the keys. -/
def KeyLe (s : Int) (t : Nat) (s' : Int) (t' : Nat) : Prop := s < s' ∨ (s = s' ∧ t ≤ t')

theorem keyLe_of_not_lt {s : Int} {t : Nat} {s' : Int} {t' : Nat} (h : keyLt s t s' t' = false) : KeyLe s' t' s t := by
  simp only [keyLt, Bool.or_eq_false_iff, Bool.and_eq_false_iff, decide_eq_false_iff_not] at h
  unfold KeyLe
  omega

theorem rlbUpdate_entries (shift : Int) (start : Nat) : ∀ (es : List Rlb) (bf : Bits), ∀ e' ∈ (rlbUpdate shift start es bf).1,
    ∃ e ∈ es, e.shift = e'.shift ∧ e.start = e'.start ∧ Sub e'.bf e.bf
  | [], bf, e', h => by simp [rlbUpdate] at h
  | e :: es, bf, e', h => by
    unfold rlbUpdate at h
    by_cases h0 : bf = 0
    · rw [if_pos h0] at h
      exact ⟨e', h, rfl, rfl, Sub.refl _⟩
    · rw [if_neg h0] at h
      have lift : ∀ bf', e' ∈ (rlbUpdate shift start es bf').1 →
          ∃ e'' ∈ e :: es, e''.shift = e'.shift ∧ e''.start = e'.start ∧ Sub e'.bf e''.bf := by
        intro bf' h
        obtain ⟨x, hx, h'⟩ := rlbUpdate_entries shift start es bf' e' h
        exact ⟨x, List.mem_cons_of_mem _ hx, h'⟩
      by_cases h1 : e.bf = 0
      · rw [if_pos h1] at h
        simp only [List.mem_cons] at h
        rcases h with rfl | h
        · exact ⟨e', by simp, rfl, rfl, Sub.refl _⟩
        · exact lift _ h
      · rw [if_neg h1] at h
        by_cases h2 : keyLt shift start e.shift e.start = true
        · rw [if_pos h2] at h
          simp only [List.mem_cons] at h
          rcases h with rfl | h
          · exact ⟨e, by simp, rfl, rfl, Sub.andNot⟩
          · exact lift _ h
        · rw [if_neg h2] at h
          simp only [List.mem_cons] at h
          rcases h with rfl | h
          · exact ⟨e', by simp, rfl, rfl, Sub.refl _⟩
          · exact lift _ h

/-- A day that is removed is one of an entry that is not later. -/
theorem rlbUpdate_removed (shift : Int) (start : Nat) : ∀ (es : List Rlb) (bf : Bits) (d : Nat), d < nBits → bf.testBit d = true →
    (rlbUpdate shift start es bf).2.testBit d = false → ∃ e ∈ es, e.bf.testBit d = true ∧ KeyLe e.shift e.start shift start
  | [], bf, d, _, h, h' => by simp [rlbUpdate, h] at h'
  | e :: es, bf, d, hd, h, h' => by
    unfold rlbUpdate at h'
    rw [if_neg (ne_zero_of_testBit h)] at h'
    by_cases h1 : e.bf = 0
    · rw [if_pos h1] at h'
      obtain ⟨x, hx, hh⟩ := rlbUpdate_removed shift start es bf d hd h h'
      exact ⟨x, List.mem_cons_of_mem _ hx, hh⟩
    · rw [if_neg h1] at h'
      by_cases h2 : keyLt shift start e.shift e.start = true
      · rw [if_pos h2] at h'
        obtain ⟨x, hx, hh⟩ := rlbUpdate_removed shift start es bf d hd h h'
        exact ⟨x, List.mem_cons_of_mem _ hx, hh⟩
      · rw [if_neg h2] at h'
        cases hb : e.bf.testBit d with
        | true => exact ⟨e, by simp, hb, keyLe_of_not_lt (by simpa using h2)⟩
        | false =>
          obtain ⟨x, hx, hh⟩ := rlbUpdate_removed shift start es _ d hd (andNot_testBit hd h hb) h'
          exact ⟨x, List.mem_cons_of_mem _ hx, hh⟩

/-- Start of a transport in its route. -/
def Xfer.start (ru : Route) (x : Xfer) : Nat := ru.dep x.tr 0 % 1440

/-- Every entry for a day stands for a transfer on that day (one from before, described by `P`, or one of `out`) to a
stop not behind the entry. -/
def RInv (ru : Route) (P : Nat → Int → Nat → Nat → Prop) (R : Reached) (out : List Xfer) : Prop :=
  ∀ j, ∀ e ∈ R j, ∀ d, e.bf.testBit d = true → (e.shift = 127 ∧ e.start = 65535) ∨ P d e.shift e.start j ∨
    ∃ x ∈ out, x.bf.testBit d = true ∧ x.stopTo ≤ j ∧ x.dayOff = e.shift ∧ x.start ru = e.start

theorem RInv.update {ru : Route} {P : Nat → Int → Nat → Nat → Prop} {R : Reached} {out : List Xfer} (h : RInv ru P R out)
    (j : Nat) (es : List Rlb) (hes : ∀ e ∈ es, ∃ e0 ∈ R j, e0.shift = e.shift ∧ e0.start = e.start ∧ Sub e.bf e0.bf) :
    RInv ru P (Raptor.upd R j es) out := by
  intro j' e he d hd
  unfold Raptor.upd at he
  by_cases hj : j' = j
  · rw [if_pos hj] at he
    obtain ⟨e0, h0, h1, h2, h3⟩ := hes e he
    have := h j e0 h0 d (h3 d hd)
    rw [h1, h2, ← hj] at this
    exact this
  · rw [if_neg hj] at he
    exact h j' e he d hd

theorem RInv.add {ru : Route} {P : Nat → Int → Nat → Nat → Prop} {R : Reached} {out : List Xfer} (h : RInv ru P R out)
    (j : Nat) (es : List Rlb) (n : Rlb)
    (hes : ∀ e ∈ es, ∃ e0 ∈ R j, e0.shift = e.shift ∧ e0.start = e.start ∧ Sub e.bf e0.bf)
    (hn : ∀ d, n.bf.testBit d = true → ∃ x ∈ out, x.bf.testBit d = true ∧ x.stopTo ≤ j ∧ x.dayOff = n.shift ∧ x.start ru = n.start) :
    RInv ru P (Raptor.upd R j (es ++ [n])) out := by
  intro j' e he d hd
  unfold Raptor.upd at he
  by_cases hj : j' = j
  · rw [if_pos hj, List.mem_append, List.mem_singleton] at he
    rcases he with he | rfl
    · obtain ⟨e0, h0, h1, h2, h3⟩ := hes e he
      have := h j e0 h0 d (h3 d hd)
      rw [h1, h2, ← hj] at this
      exact this
    · rw [hj]
      exact Or.inr (Or.inr (hn d hd))
  · rw [if_neg hj] at he
    exact h j' e he d hd

theorem markLater_inv {ru : Route} {P : Nat → Int → Nat → Nat → Prop} {out : List Xfer} {x : Xfer} (hx : x ∈ out) :
    ∀ (js : List Nat) (R : Reached), (∀ j ∈ js, x.stopTo ≤ j) → RInv ru P R out →
      RInv ru P (markLater x.dayOff (x.start ru) x.bf js R) out
  | [], R, _, h => h
  | j :: js, R, hj, h => by
    unfold markLater
    simp only
    refine markLater_inv hx js _ (fun j' h' => hj j' (List.mem_cons_of_mem _ h')) ?_
    have he := rlbUpdate_entries x.dayOff (x.start ru) (R j) x.bf
    split
    · refine h.add j _ _ he ?_
      intro d hd
      exact ⟨x, hx, rlbUpdate_sub _ _ _ _ d hd, hj j (by simp), rfl, rfl⟩
    · exact h.update j _ he

/-- The transfers handed over are a prefix of those after the step. -/
theorem found_prefix (ru : Route) (rTo stopTo u : Nat) (common : Bits) (dayOff : Int) (S : LoopSt) :
    ∀ x ∈ S.out, x ∈ (found ru rTo stopTo u common dayOff S).out := by
  intro x hx
  unfold found
  simp only
  split
  · exact hx
  · exact List.mem_append_left _ hx

theorem found_inv {ru : Route} {P : Nat → Int → Nat → Nat → Prop} {rTo stopTo u : Nat} {common : Bits} {dayOff : Int} {S : LoopSt}
    (h : RInv ru P S.reached S.out) :
    RInv ru P (found ru rTo stopTo u common dayOff S).reached (found ru rTo stopTo u common dayOff S).out := by
  unfold found
  simp only
  have he := rlbUpdate_entries dayOff (ru.dep u 0 % 1440) (S.reached stopTo) common
  split
  · exact h.update stopTo _ he
  · have hmem : (⟨(rlbUpdate dayOff (ru.dep u 0 % 1440) (S.reached stopTo) common).2, rTo, u, stopTo, dayOff⟩ : Xfer) ∈
      S.out ++ [⟨(rlbUpdate dayOff (ru.dep u 0 % 1440) (S.reached stopTo) common).2, rTo, u, stopTo, dayOff⟩] := by simp
    refine markLater_inv hmem _ _ ?_ ?_
    · intro j hj
      simp only [List.mem_filter, decide_eq_true_eq] at hj
      exact Nat.le_of_lt hj.2
    · have h' : RInv ru P S.reached
          (S.out ++ [⟨(rlbUpdate dayOff (ru.dep u 0 % 1440) (S.reached stopTo) common).2, rTo, u, stopTo, dayOff⟩]) := by
        intro j e he d hd
        rcases h j e he d hd with h1 | h1 | ⟨x, hx, h1⟩
        · exact Or.inl h1
        · exact Or.inr (Or.inl h1)
        · exact Or.inr (Or.inr ⟨x, List.mem_append_left _ hx, h1⟩)
      have h2 := h'.add stopTo _ ⟨dayOff, ru.dep u 0 % 1440, (rlbUpdate dayOff (ru.dep u 0 % 1440) (S.reached stopTo) common).2⟩ he
        (fun d hd => ⟨_, hmem, hd, Nat.le_refl _, rfl, rfl⟩)
      intro j e he d hd
      refine h2 j e ?_ d hd
      unfold Raptor.upd at he ⊢
      by_cases hj : j = stopTo
      · rw [if_pos hj] at he ⊢; exact he
      · rw [if_neg hj, if_neg hj] at he; rw [if_neg hj]; exact he

/-- For the day `d` there is a transfer with a key not later than `(sh, st)` to a stop not behind `j`. -/
def HasBefore (ru : Route) (P : Nat → Int → Nat → Nat → Prop) (out : List Xfer) (d : Nat) (sh : Int) (st j : Nat) : Prop :=
  ∃ sh' st', KeyLe sh' st' sh st ∧ (P d sh' st' j ∨
    ∃ x ∈ out, x.bf.testBit d = true ∧ x.stopTo ≤ j ∧ x.dayOff = sh' ∧ x.start ru = st')

theorem found_covers {ru : Route} {P : Nat → Int → Nat → Nat → Prop} {rTo stopTo u : Nat} {common : Bits} {dayOff : Int} {S : LoopSt}
    (h : RInv ru P S.reached S.out) (hday : dayOff < 127) {d : Nat} (hd : d < nBits) (hc : common.testBit d = true) :
    HasBefore ru P (found ru rTo stopTo u common dayOff S).out d dayOff (ru.dep u 0 % 1440) stopTo := by
  cases hr : (rlbUpdate dayOff (ru.dep u 0 % 1440) (S.reached stopTo) common).2.testBit d with
  | false =>
    obtain ⟨e, he, hb, hk⟩ := rlbUpdate_removed _ _ _ _ d hd hc hr
    refine ⟨e.shift, e.start, hk, ?_⟩
    rcases h stopTo e he d hb with ⟨h1, h2⟩ | h1 | ⟨x, hx, h1⟩
    · exfalso
      unfold KeyLe at hk
      omega
    · exact Or.inl h1
    · exact Or.inr ⟨x, found_prefix _ _ _ _ _ _ _ x hx, h1⟩
  | true =>
    refine ⟨dayOff, ru.dep u 0 % 1440, Or.inr ⟨rfl, Nat.le_refl _⟩, Or.inr ?_⟩
    refine ⟨⟨(rlbUpdate dayOff (ru.dep u 0 % 1440) (S.reached stopTo) common).2, rTo, u, stopTo, dayOff⟩, ?_, hr, Nat.le_refl _, rfl, rfl⟩
    unfold found
    simp only
    rw [if_neg (ne_zero_of_testBit hr)]
    simp

theorem HasBefore.mono {ru : Route} {P : Nat → Int → Nat → Nat → Prop} {out out' : List Xfer} (ho : ∀ x ∈ out, x ∈ out') {d : Nat}
    {sh sh' : Int} {st st' j : Nat} (hk : KeyLe sh st sh' st') (h : HasBefore ru P out d sh st j) : HasBefore ru P out' d sh' st' j := by
  obtain ⟨a, b, h1, h2⟩ := h
  refine ⟨a, b, ?_, ?_⟩
  · unfold KeyLe at *; omega
  · rcases h2 with h2 | ⟨x, hx, h2⟩
    · exact Or.inl h2
    · exact Or.inr ⟨x, ho x hx, h2⟩

/-- Service days and order of the trips of a route at a stop are as at the first stop. -/
structure StopAligned (ru : Route) (s : Nat) : Prop where
  mono : ∀ u u', u ≤ u' → u' < ru.nTr → ru.dep u s % 1440 ≤ ru.dep u' s % 1440
  first : ∀ u u', u ≤ u' → u' < ru.nTr → ru.dep u 0 % 1440 ≤ ru.dep u' 0 % 1440
  day : ∀ u u', u < ru.nTr → u' < ru.nTr → ru.dep u s / 1440 = ru.dep u' s / 1440

theorem depLoop_prefix (ru : Route) (rTo stopTo arr : Nat) (idx day : Nat) (rem : Bits) (S : LoopSt) :
    ∀ x ∈ S.out, x ∈ (depLoop ru rTo stopTo arr idx day rem S).out := by
  fun_induction depLoop ru rTo stopTo arr idx day rem S with
  | case1 => exact fun x hx => hx
  | case2 => exact fun x hx => hx
  | case3 => exact fun x hx => hx
  | case4 idx day rem S h0 h1 ev h2 total common rem' S' hlast ih =>
    intro x hx
    refine ih x ?_
    show x ∈ (if common = 0 then S else found ru rTo stopTo idx common (-total) S).out
    split
    · exact hx
    · exact found_prefix _ _ _ _ _ _ _ x hx
  | case5 idx day rem S h0 h1 ev h2 total common rem' S' hlast ih =>
    intro x hx
    refine ih x ?_
    show x ∈ (if common = 0 then S else found ru rTo stopTo idx common (-total) S).out
    split
    · exact hx
    · exact found_prefix _ _ _ _ _ _ _ x hx

theorem depLoop_inv {ru : Route} {P : Nat → Int → Nat → Nat → Prop} {rTo stopTo arr : Nat} (idx day : Nat) (rem : Bits) (S : LoopSt)
    (h : RInv ru P S.reached S.out) :
    RInv ru P (depLoop ru rTo stopTo arr idx day rem S).reached (depLoop ru rTo stopTo arr idx day rem S).out := by
  fun_induction depLoop ru rTo stopTo arr idx day rem S with
  | case1 => exact h
  | case2 => exact h
  | case3 => exact h
  | case4 idx day rem S h0 h1 ev h2 total common rem' S' hlast ih =>
    refine ih ?_
    show RInv ru P (if common = 0 then S else found ru rTo stopTo idx common (-total) S).reached
      (if common = 0 then S else found ru rTo stopTo idx common (-total) S).out
    split
    · exact h
    · exact found_inv h
  | case5 idx day rem S h0 h1 ev h2 total common rem' S' hlast ih =>
    refine ih ?_
    show RInv ru P (if common = 0 then S else found ru rTo stopTo idx common (-total) S).reached
      (if common = 0 then S else found ru rTo stopTo idx common (-total) S).out
    split
    · exact h
    · exact found_inv h

/-- The number of days between the service days of the two trips. -/
def offOf (ru : Route) (stopTo arr u day : Nat) : Int :=
  -(((ru.dep u stopTo / 1440 : Nat) : Int) - ((arr / 1440 : Nat) : Int) - (day : Int))

theorem offOf_key {ru : Route} {stopTo : Nat} (ha : StopAligned ru stopTo) (arr : Nat) {idx day u dayU : Nat}
    (hu : u < ru.nTr) (hi : idx < ru.nTr) (hpos : day < dayU ∨ (day = dayU ∧ idx ≤ u)) :
    KeyLe (offOf ru stopTo arr idx day) (ru.dep idx 0 % 1440) (offOf ru stopTo arr u dayU) (ru.dep u 0 % 1440) := by
  have h1 := ha.day idx u hi hu
  unfold KeyLe offOf
  rw [h1]
  rcases hpos with h | ⟨h, h'⟩
  · left; omega
  · right; exact ⟨by omega, ha.first _ _ h' hu⟩

theorem pos_next_day {day dayU idx u n : Nat} (hu : u < n) (hlast : idx + 1 = n) (hp : day < dayU ∨ (day = dayU ∧ idx ≤ u))
    (hne : ¬ (day = dayU ∧ idx = u)) : day + 1 < dayU ∨ (day + 1 = dayU ∧ 0 ≤ u) := by omega

theorem pos_next {day dayU idx u : Nat} (hp : day < dayU ∨ (day = dayU ∧ idx ≤ u))
    (hne : ¬ (day = dayU ∧ idx = u)) : day < dayU ∨ (day = dayU ∧ idx + 1 ≤ u) := by omega

theorem later_day {day dayU a b c : Nat} (h : day < dayU) (hw : dayU * 1440 + b ≤ c) (ha : a < 1440) : day * 1440 + a ≤ c := by
  have h1 : day * 1440 + 1440 ≤ dayU * 1440 := by
    have := Nat.mul_le_mul_right 1440 (Nat.succ_le_of_lt h)
    rwa [Nat.succ_mul] at this
  exact Nat.le_trans (Nat.add_le_add_left (Nat.le_of_lt ha) _) (Nat.le_trans h1 (Nat.le_trans (Nat.le_add_right _ _) hw))

/-- The loop finds, for a day of the alighting trip, a transfer not later than any departure within reach. -/
theorem depLoop_covers {ru : Route} {P : Nat → Int → Nat → Nat → Prop} {rTo stopTo arr : Nat} (ha : StopAligned ru stopTo)
    (harr : arr / 1440 < 100) {d u dayU : Nat} (hd : d < nBits) (hu : u < ru.nTr) (hdayU : dayU ≤ 20)
    (hw : dayU * 1440 + ru.dep u stopTo % 1440 ≤ arr % 1440 + 1440)
    (hrun : ∃ d' : Nat, (d' : Int) = (d : Int) + offOf ru stopTo arr u dayU ∧ (ru.bits u).testBit d' = true)
    (idx day : Nat) (rem : Bits) (S : LoopSt) (h : RInv ru P S.reached S.out)
    (hidx : idx < ru.nTr) (hpos : day < dayU ∨ (day = dayU ∧ idx ≤ u)) (hrem : rem.testBit d = true) :
    HasBefore ru P (depLoop ru rTo stopTo arr idx day rem S).out d (offOf ru stopTo arr u dayU) (ru.dep u 0 % 1440) stopTo := by
  have hmono : ∀ idx day, idx < ru.nTr → (day < dayU ∨ (day = dayU ∧ idx ≤ u)) →
      day * 1440 + ru.dep idx stopTo % 1440 ≤ arr % 1440 + 1440 := by
    intro idx day hi hp
    rcases hp with hp | ⟨rfl, hp⟩
    · exact later_day hp hw (Nat.mod_lt (ru.dep idx stopTo) (show 0 < 1440 by decide))
    · have := ha.mono idx u hp hu
      omega
  have hoff : ∀ idx day, day ≤ 20 → offOf ru stopTo arr idx day < 127 := by
    intro idx day hday
    unfold offOf
    omega
  fun_induction depLoop ru rTo stopTo arr idx day rem S with
  | case1 => simp at hrem
  | case2 idx day rem S h0 h1 => exact absurd hidx (by omega)
  | case3 idx day rem S h0 h1 ev h2 => exact absurd (hmono idx day hidx hpos) (Nat.not_le_of_gt h2)
  | case4 idx day rem S h0 h1 ev h2 total common rem' S' hlast ih =>
    have hS' : S' = if common = 0 then S else found ru rTo stopTo idx common (-total) S := rfl
    have hinv : RInv ru P S'.reached S'.out := by
      rw [hS']; split
      · exact h
      · exact found_inv h
    cases hc : common.testBit d with
    | true =>
      have hS'' : S' = found ru rTo stopTo idx common (-total) S := by rw [hS', if_neg (ne_zero_of_testBit hc)]
      have h3 : HasBefore ru P S'.out d (-total) (ru.dep idx 0 % 1440) stopTo := by
        rw [hS'']
        exact found_covers h (hoff idx day (by omega)) hd hc
      exact h3.mono (depLoop_prefix _ _ _ _ _ _ _ _) (offOf_key ha arr hu hidx hpos)
    | false =>
      have hrem' : rem'.testBit d = true := by
        show (if common = 0 then rem else andNot rem common).testBit d = true
        split
        · exact hrem
        · exact andNot_testBit hd hrem hc
      have hne : ¬ (day = dayU ∧ idx = u) := by
        rintro ⟨rfl, rfl⟩
        obtain ⟨d', e, hb⟩ := hrun
        have : common.testBit d = true := by
          show (rem &&& shiftDays (ru.bits idx) total).testBit d = true
          rw [Nat.testBit_and, hrem]
          exact shiftDays_testBit' hd (by show (d' : Int) = d - total; unfold offOf at e; omega) hb
        rw [this] at hc
        simp at hc
      exact ih hinv (by omega) (pos_next_day hu hlast hpos hne) hrem'
  | case5 idx day rem S h0 h1 ev h2 total common rem' S' hlast ih =>
    have hS' : S' = if common = 0 then S else found ru rTo stopTo idx common (-total) S := rfl
    have hinv : RInv ru P S'.reached S'.out := by
      rw [hS']; split
      · exact h
      · exact found_inv h
    cases hc : common.testBit d with
    | true =>
      have hS'' : S' = found ru rTo stopTo idx common (-total) S := by rw [hS', if_neg (ne_zero_of_testBit hc)]
      have h3 : HasBefore ru P S'.out d (-total) (ru.dep idx 0 % 1440) stopTo := by
        rw [hS'']
        exact found_covers h (hoff idx day (by omega)) hd hc
      exact h3.mono (depLoop_prefix _ _ _ _ _ _ _ _) (offOf_key ha arr hu hidx hpos)
    | false =>
      have hrem' : rem'.testBit d = true := by
        show (if common = 0 then rem else andNot rem common).testBit d = true
        split
        · exact hrem
        · exact andNot_testBit hd hrem hc
      have hne : ¬ (day = dayU ∧ idx = u) := by
        rintro ⟨rfl, rfl⟩
        obtain ⟨d', e, hb⟩ := hrun
        have : common.testBit d = true := by
          show (rem &&& shiftDays (ru.bits idx) total).testBit d = true
          rw [Nat.testBit_and, hrem]
          exact shiftDays_testBit' hd (by show (d' : Int) = d - total; unfold offOf at e; omega) hb
        rw [this] at hc
        simp at hc
      exact ih hinv (by omega) (pos_next hpos hne) hrem'

theorem depLoop_route {ru : Route} {rTo stopTo arr : Nat} (idx day : Nat) (rem : Bits) (S : LoopSt)
    (h : ∀ x ∈ S.out, x.route = rTo) : ∀ x ∈ (depLoop ru rTo stopTo arr idx day rem S).out, x.route = rTo := by
  have hf : ∀ idx common total, ∀ x ∈ (found ru rTo stopTo idx common total S).out, x.route = rTo := by
    intro idx common total x hx
    rcases found_out _ _ _ _ _ _ _ _ hx with h' | ⟨bf, rfl, _⟩
    · exact h x h'
    · rfl
  fun_induction depLoop ru rTo stopTo arr idx day rem S with
  | case1 => exact h
  | case2 => exact h
  | case3 => exact h
  | case4 idx day rem S h0 h1 ev h2 total common rem' S' hlast ih =>
    have h' : ∀ x ∈ S'.out, x.route = rTo := by
      show ∀ x ∈ (if common = 0 then S else found ru rTo stopTo idx common (-total) S).out, x.route = rTo
      split
      · exact h
      · exact hf _ _ _
    refine ih h' ?_
    intro idx common total x hx
    rcases found_out _ _ _ _ _ _ _ _ hx with h'' | ⟨bf, rfl, _⟩
    · exact h' x h''
    · rfl
  | case5 idx day rem S h0 h1 ev h2 total common rem' S' hlast ih =>
    have h' : ∀ x ∈ S'.out, x.route = rTo := by
      show ∀ x ∈ (if common = 0 then S else found ru rTo stopTo idx common (-total) S).out, x.route = rTo
      split
      · exact h
      · exact hf _ _ _
    refine ih h' ?_
    intro idx common total x hx
    rcases found_out _ _ _ _ _ _ _ _ hx with h'' | ⟨bf, rfl, _⟩
    · exact h' x h''
    · rfl

theorem firstDep_before {ru : Route} {stopTo fpArr u dayU : Nat} (hu : u < ru.nTr) (hr : fpArr ≤ dayU * 1440 + ru.dep u stopTo % 1440) :
    (firstDep ru stopTo fpArr).1 < ru.nTr ∧
    ((firstDep ru stopTo fpArr).2 < dayU ∨ ((firstDep ru stopTo fpArr).2 = dayU ∧ (firstDep ru stopTo fpArr).1 ≤ u)) := by
  have hm := Nat.mod_lt (ru.dep u stopTo) (show 0 < 1440 by decide)
  unfold firstDep
  cases h : (List.range ru.nTr).find? (fun u => decide (fpArr % 1440 ≤ ru.dep u stopTo % 1440)) with
  | none =>
    rw [List.find?_eq_none] at h
    have := h u (List.mem_range.2 hu)
    simp only [decide_eq_true_eq] at this
    simp only
    omega
  | some u0 =>
    simp only
    have hlt : u0 < ru.nTr := List.mem_range.1 (List.mem_of_find?_eq_some h)
    refine ⟨hlt, ?_⟩
    have hle : dayU = fpArr / 1440 → u0 ≤ u := by
      intro e
      have hp : fpArr % 1440 ≤ ru.dep u stopTo % 1440 := by omega
      rw [List.find?_range_eq_some] at h
      apply Nat.le_of_not_lt
      intro hlt'
      have := h.2.2 u hlt'
      simp [hp] at this
    omega

/-! ## The loop over the neighbours -/

/-- A transfer of a trip at stop `i` or behind to route `r`, on day `d`, with the given key, to a stop not behind `j`. -/
def Wit (tt : TT) (segs : Nat → List Xfer) (r i : Nat) (d : Nat) (sh : Int) (st j : Nat) : Prop :=
  ∃ seg x, x ∈ segs seg ∧ i ≤ seg + 1 ∧ x.route = r ∧ x.bf.testBit d = true ∧ x.stopTo ≤ j ∧ x.dayOff = sh ∧
    x.start (tt.route r) = st

theorem Wit.mono {tt : TT} {segs segs' : Nat → List Xfer} (hs : ∀ seg, ∀ x ∈ segs seg, x ∈ segs' seg) {r i i' d : Nat} {sh : Int} {st j : Nat}
    (hi : i' ≤ i) (h : Wit tt segs r i d sh st j) : Wit tt segs' r i' d sh st j := by
  obtain ⟨seg, x, h1, h2, h3⟩ := h
  exact ⟨seg, x, hs seg x h1, by omega, h3⟩

/-- The entries of the line-based labels stand for transfers found at `i` or behind. -/
def LInv (tt : TT) (S : LineSt) (i : Nat) : Prop := RInv (tt.route S.prev) (Wit tt S.segs S.prev i) S.reached []

theorem rlbReset_inv (ru : Route) (P : Nat → Int → Nat → Nat → Prop) (n : Nat) : RInv ru P (rlbReset n) [] := by
  intro j e he d hd
  unfold rlbReset at he
  split at he
  · rw [List.mem_singleton] at he
    subst he
    exact Or.inl ⟨rfl, rfl⟩
  · simp at he

/-- Order of the neighbours, as far as it matters. -/
def NbOrd (a b : Nb) : Prop := a.routeTo = b.routeTo → b.stopFrom ≤ a.stopFrom

/-- A departure that can be reached from trip `t` on day `d` after the walk of the neighbour. -/
structure InReach (tt : TT) (rt : Route) (t : Nat) (nb : Nb) (d u dayU : Nat) : Prop where
  pos : 0 < nb.stopFrom
  aligned : StopAligned (tt.route nb.routeTo) nb.stopTo
  arr : rt.arr t nb.stopFrom / 1440 < 100
  len : nb.len ≤ 60000
  day : d < nBits
  runs : (rt.bits t).testBit d = true
  trip : u < (tt.route nb.routeTo).nTr
  few : dayU ≤ 20
  wait : dayU * 1440 + (tt.route nb.routeTo).dep u nb.stopTo % 1440 ≤ rt.arr t nb.stopFrom % 1440 + 1440
  walk : rt.arr t nb.stopFrom % 1440 + nb.len ≤ dayU * 1440 + (tt.route nb.routeTo).dep u nb.stopTo % 1440
  runs' : ∃ d' : Nat, (d' : Int) = (d : Int) + offOf (tt.route nb.routeTo) nb.stopTo (rt.arr t nb.stopFrom) u dayU ∧
    ((tt.route nb.routeTo).bits u).testBit d' = true

theorem lineStep_segs (tt : TT) (rt : Route) (t : Nat) (S : LineSt) (nb : Nb) :
    ∀ seg, ∀ x ∈ S.segs seg, x ∈ (lineStep tt rt t S nb).segs seg := by
  intro seg x hx
  unfold lineStep
  simp only [Raptor.upd]
  by_cases h : seg = nb.stopFrom - 1
  · rw [if_pos h, ← h]; exact List.mem_append_left _ hx
  · rw [if_neg h]; exact hx

theorem lineStep_inv {tt : TT} {rt : Route} {t : Nat} {S : LineSt} {i : Nat} (h : LInv tt S i) {nb : Nb} (hpos : 0 < nb.stopFrom)
    (ho : S.prev = nb.routeTo → nb.stopFrom ≤ i) :
    LInv tt (lineStep tt rt t S nb) nb.stopFrom ∧
    ∀ d u dayU, InReach tt rt t nb d u dayU → ∃ sh st, KeyLe sh st
      (offOf (tt.route nb.routeTo) nb.stopTo (rt.arr t nb.stopFrom) u dayU) ((tt.route nb.routeTo).dep u 0 % 1440) ∧
      Wit tt (lineStep tt rt t S nb).segs nb.routeTo nb.stopFrom d sh st nb.stopTo := by
  have hsegs := lineStep_segs tt rt t S nb
  have h0 : RInv (tt.route nb.routeTo) (Wit tt S.segs nb.routeTo nb.stopFrom)
      (if S.prev ≠ nb.routeTo then rlbReset (tt.route nb.routeTo).stops.length else S.reached) [] := by
    by_cases hp : S.prev = nb.routeTo
    · rw [if_neg (by simpa using hp)]
      intro j e he d hd
      have := h j e he d hd
      rw [hp] at this
      rcases this with h1 | h1 | ⟨x, hx, _⟩
      · exact Or.inl h1
      · exact Or.inr (Or.inl (h1.mono (fun _ _ hx => hx) (ho hp)))
      · simp at hx
    · rw [if_pos hp]
      exact rlbReset_inv _ _ _
  have hroute : ∀ x ∈ (handleNb tt rt t nb ⟨if S.prev ≠ nb.routeTo then rlbReset (tt.route nb.routeTo).stops.length else S.reached, []⟩).out,
      x.route = nb.routeTo := by
    unfold handleNb
    exact depLoop_route _ _ _ _ (by simp)
  have hout : ∀ x ∈ (handleNb tt rt t nb ⟨if S.prev ≠ nb.routeTo then rlbReset (tt.route nb.routeTo).stops.length else S.reached, []⟩).out,
      x ∈ (lineStep tt rt t S nb).segs (nb.stopFrom - 1) := by
    intro x hx
    unfold lineStep
    simp only [Raptor.upd, if_true]
    exact List.mem_append_right _ hx
  constructor
  · have h1 := depLoop_inv (rTo := nb.routeTo) (stopTo := nb.stopTo) (arr := rt.arr t nb.stopFrom)
      (firstDep (tt.route nb.routeTo) nb.stopTo ((rt.arr t nb.stopFrom % 1440 + nb.len) % 65536)).1
      (firstDep (tt.route nb.routeTo) nb.stopTo ((rt.arr t nb.stopFrom % 1440 + nb.len) % 65536)).2 (rt.bits t) ⟨_, []⟩ h0
    intro j e he d hd
    rcases h1 j e he d hd with h2 | h2 | ⟨x, hx, h2, h3, h4, h5⟩
    · exact Or.inl h2
    · exact Or.inr (Or.inl (h2.mono hsegs (Nat.le_refl _)))
    · refine Or.inr (Or.inl ⟨nb.stopFrom - 1, x, hout x hx, by omega, hroute x hx, h2, h3, h4, h5⟩)
  · intro d u dayU hr
    have hl := hr.len
    have e : (rt.arr t nb.stopFrom % 1440 + nb.len) % 65536 = rt.arr t nb.stopFrom % 1440 + nb.len := by omega
    have hb := firstDep_before (ru := tt.route nb.routeTo) (stopTo := nb.stopTo)
      (fpArr := (rt.arr t nb.stopFrom % 1440 + nb.len) % 65536) hr.trip (by rw [e]; exact hr.walk)
    obtain ⟨sh, st, hk, h1⟩ := depLoop_covers (rTo := nb.routeTo) hr.aligned hr.arr hr.day hr.trip hr.few hr.wait hr.runs' _ _ _
      ⟨_, []⟩ h0 hb.1 hb.2 hr.runs
    refine ⟨sh, st, hk, ?_⟩
    rcases h1 with h1 | ⟨x, hx, h2, h3, h4, h5⟩
    · exact h1.mono hsegs (Nat.le_refl _)
    · exact ⟨nb.stopFrom - 1, x, hout x hx, by omega, hroute x hx, h2, h3, h4, h5⟩

theorem lineFold {tt : TT} {rt : Route} {t : Nat} : ∀ (nbs : List Nb) (S : LineSt) (i : Nat), LInv tt S i →
    (∀ nb ∈ nbs, 0 < nb.stopFrom) → (∀ nb ∈ nbs, S.prev = nb.routeTo → nb.stopFrom ≤ i) → nbs.Pairwise NbOrd →
    (∀ seg, ∀ x ∈ S.segs seg, x ∈ (nbs.foldl (lineStep tt rt t) S).segs seg) ∧
    ∀ nb ∈ nbs, ∀ d u dayU, InReach tt rt t nb d u dayU → ∃ sh st, KeyLe sh st
      (offOf (tt.route nb.routeTo) nb.stopTo (rt.arr t nb.stopFrom) u dayU) ((tt.route nb.routeTo).dep u 0 % 1440) ∧
      Wit tt (nbs.foldl (lineStep tt rt t) S).segs nb.routeTo nb.stopFrom d sh st nb.stopTo
  | [], S, i, _, _, _, _ => ⟨fun _ _ h => h, fun nb h => by simp at h⟩
  | nb :: nbs, S, i, h, hpos, ho, hp => by
    rw [List.pairwise_cons] at hp
    obtain ⟨h1, h2⟩ := lineStep_inv (rt := rt) (t := t) h (hpos nb (by simp)) (ho nb (by simp))
    obtain ⟨h3, h4⟩ := lineFold nbs (lineStep tt rt t S nb) nb.stopFrom h1 (fun nb' h' => hpos nb' (List.mem_cons_of_mem _ h'))
      (fun nb' h' e => hp.1 nb' h' e) hp.2
    rw [List.foldl_cons]
    refine ⟨fun seg x hx => h3 seg x (lineStep_segs tt rt t S nb seg x hx), ?_⟩
    intro nb' hnb' d u dayU hr
    rcases List.mem_cons.1 hnb' with rfl | hnb'
    · obtain ⟨sh, st, hk, hw⟩ := h2 d u dayU hr
      exact ⟨sh, st, hk, hw.mono h3 (Nat.le_refl _)⟩
    · exact h4 nb' hnb' d u dayU hr

/-! ## Order of the neighbours -/

def NbLe (a b : Nb) : Prop := a.routeTo < b.routeTo ∨ (a.routeTo = b.routeTo ∧ (b.stopFrom < a.stopFrom ∨
  (a.stopFrom = b.stopFrom ∧ a.stopTo ≤ b.stopTo)))

theorem nbLe_of_lt {a b : Nb} (h : nbLt a b = true) : NbLe a b := by
  simp only [nbLt, Bool.or_eq_true, Bool.and_eq_true, decide_eq_true_eq] at h
  unfold NbLe
  omega

theorem nbLe_of_not_lt {a b : Nb} (h : ¬ nbLt a b = true) : NbLe b a := by
  simp only [nbLt, Bool.or_eq_true, Bool.and_eq_true, decide_eq_true_eq] at h
  unfold NbLe
  omega

theorem nbLe_trans {a b c : Nb} (h : NbLe a b) (h' : NbLe b c) : NbLe a c := by
  unfold NbLe at *
  omega

theorem insertNb_sorted (x : Nb) : ∀ l : List Nb, l.Pairwise NbLe → (insertNb x l).Pairwise NbLe
  | [], _ => by simp [insertNb]
  | y :: ys, h => by
    rw [List.pairwise_cons] at h
    unfold insertNb
    split
    · rename_i hy
      rw [List.pairwise_cons]
      refine ⟨?_, insertNb_sorted x ys h.2⟩
      intro z hz
      rw [mem_insertNb] at hz
      rcases hz with rfl | hz
      · exact nbLe_of_lt hy
      · exact h.1 z hz
    · rename_i hy
      rw [List.pairwise_cons]
      refine ⟨?_, List.pairwise_cons.2 h⟩
      intro z hz
      rcases List.mem_cons.1 hz with rfl | hz
      · exact nbLe_of_not_lt hy
      · exact nbLe_trans (nbLe_of_not_lt hy) (h.1 z hz)

theorem sortNb_sorted (l : List Nb) : (sortNb l).Pairwise NbLe := by
  unfold sortNb
  induction l with
  | nil => simp
  | cons x xs ih => exact insertNb_sorted x _ ih

/-- The line-based step leaves, for every departure in reach, a transfer at the same stop or behind to a trip of the
route that does not start later, boarded at the same stop or before. -/
theorem lineBased_covers {tt : TT} {prf r t : Nat} {nb : Nb} (hnb : nb ∈ neighborhood tt prf r) {d u dayU : Nat}
    (hr : InReach tt (tt.route r) t nb d u dayU) :
    ∃ sh st, KeyLe sh st (offOf (tt.route nb.routeTo) nb.stopTo ((tt.route r).arr t nb.stopFrom) u dayU)
        ((tt.route nb.routeTo).dep u 0 % 1440) ∧
      Wit tt (lineBased tt (tt.route r) t (neighborhood tt prf r)) nb.routeTo nb.stopFrom d sh st nb.stopTo := by
  have hsorted : (neighborhood tt prf r).Pairwise NbOrd := by
    refine (sortNb_sorted _).imp ?_
    intro a b h e
    unfold NbLe at h
    omega
  have hg := neighborhood_good tt prf r
  cases hn : neighborhood tt prf r with
  | nil => rw [hn] at hnb; simp at hnb
  | cons nb0 nbs =>
    rw [hn] at hnb hsorted hg
    unfold lineBased
    simp only
    have hi : ∀ nb ∈ nb0 :: nbs, nb0.routeTo = nb.routeTo → nb.stopFrom ≤ nb0.stopFrom := by
      intro nb h e
      rcases List.mem_cons.1 h with rfl | h
      · exact Nat.le_refl _
      · exact (List.pairwise_cons.1 hsorted).1 nb h e
    exact (lineFold (nb0 :: nbs) ⟨nb0.routeTo, rlbReset (tt.route nb0.routeTo).stops.length, fun _ => []⟩ nb0.stopFrom
      (rlbReset_inv _ _ _) (fun nb h => (hg nb h).pos) hi hsorted).2 nb hnb d u dayU hr

/-- Every change that is no u-turn is among the neighbours. -/
theorem neighborhood_complete {tt : TT} {prf r i r' j w : Nat} (hi : 0 < i) (hl : i < (tt.route r).stops.length)
    (hout : ((tt.route r).stop i).outAllowed = true) (hj : j + 1 < (tt.route r').stops.length)
    (hin : ((tt.route r').stop j).inAllowed = true) (hloc : r' ∈ tt.locRoutes ((tt.route r').stop j).loc)
    (hw : (((tt.route r').stop j).loc = ((tt.route r).stop i).loc ∧ w = tt.transfer ((tt.route r).stop i).loc) ∨
      (((tt.route r').stop j).loc, w) ∈ tt.fpsOut prf ((tt.route r).stop i).loc)
    (hu : isUturn tt ((tt.route r).stop (i - 1)) ((tt.route r').stop (j + 1)) (decide (j + 1 = (tt.route r').stops.length - 1)) w = false) :
    (⟨i, r', j, w⟩ : Nb) ∈ neighborhood tt prf r := by
  unfold neighborhood
  rw [mem_sortNb]
  simp only [List.mem_flatMap, List.mem_reverse, List.mem_range]
  refine ⟨i - 1, by omega, ?_⟩
  rw [show i - 1 + 1 = i by omega]
  have key : (⟨i, r', j, w⟩ : Nb) ∈ addNonUturn tt r i (((tt.route r').stop j).loc, w) := by
    unfold addNonUturn nbOfRoute
    simp only [List.mem_flatMap, List.mem_filterMap, List.mem_range]
    refine ⟨r', hloc, j, by omega, ?_⟩
    rw [if_neg (by simp [hin]), if_neg (by simp [hu])]
  unfold nbAt
  simp only
  rw [if_neg (by simp [hout]), List.mem_append, List.mem_flatMap]
  rcases hw with ⟨h1, h2⟩ | h
  · left
    rw [h1, h2] at key
    rw [h2]
    exact key
  · exact Or.inr ⟨_, h, key⟩

end Nigiri.TB
