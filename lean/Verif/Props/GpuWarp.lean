import Verif.Model.GpuWarp
import Verif.Props.GpuPacking
import Verif.Proofs.GpuSound
/-!
# Property C88: the lanes of a warp find the best boarding for every stop of a route
-/

namespace Nigiri.Gpu
open Nigiri.Raptor (Problem Route Stop Run Dir Net filterEt)

/-! ## Segmented products -/

/-- Combining two adjacent segments: minimum since the last kill, and is there a kill. -/
def seg (a b : Nat × Bool) : Nat × Bool := (if b.2 then b.1 else min b.1 a.1, b.2 || a.2)

theorem seg_assoc (a b c : Nat × Bool) : seg (seg a b) c = seg a (seg b c) := by
  obtain ⟨a1, a2⟩ := a; obtain ⟨b1, b2⟩ := b; obtain ⟨c1, c2⟩ := c
  unfold seg
  cases b2 <;> cases c2 <;> simp [Nat.min_assoc]

/-- The product of the (at most) `w` elements up to `i`. -/
def win (x : Nat → Nat × Bool) (i : Nat) : Nat → Nat × Bool
  | 0 => x i
  | 1 => x i
  | w + 2 => if w + 1 ≤ i then seg (x (i - (w + 1))) (win x i (w + 1)) else win x i (w + 1)

theorem win_add (x : Nat → Nat × Bool) (i w : Nat) (hw : 1 ≤ w) : ∀ v, 1 ≤ v →
    win x i (w + v) = if w ≤ i then seg (win x (i - w) v) (win x i w) else win x i w := by
  intro v
  induction v with
  | zero => intro h; omega
  | succ v ih =>
    intro _
    obtain ⟨w', rfl⟩ : ∃ w', w = w' + 1 := ⟨w - 1, by omega⟩
    cases v with
    | zero => rfl
    | succ v =>
      have ih := ih (by omega)
      have e : win x i (w' + 1 + (v + 1 + 1)) = if w' + 1 + (v + 1) ≤ i then seg (x (i - (w' + 1 + (v + 1)))) (win x i (w' + 1 + (v + 1))) else win x i (w' + 1 + (v + 1)) := by
        rw [show w' + 1 + (v + 1 + 1) = (w' + v + 1) + 2 by omega, show w' + 1 + (v + 1) = w' + v + 1 + 1 by omega]
        rfl
      rw [e, ih, show win x (i - (w' + 1)) (v + 1 + 1) = if v + 1 ≤ i - (w' + 1) then seg (x (i - (w' + 1) - (v + 1))) (win x (i - (w' + 1)) (v + 1)) else win x (i - (w' + 1)) (v + 1) from rfl]
      by_cases h1 : w' + 1 ≤ i
      · rw [if_pos h1, if_pos h1]
        by_cases h2 : w' + 1 + (v + 1) ≤ i
        · rw [if_pos h2, if_pos (by omega : v + 1 ≤ i - (w' + 1)), seg_assoc, show i - (w' + 1 + (v + 1)) = i - (w' + 1) - (v + 1) by omega]
        · rw [if_neg h2, if_neg (by omega)]
      · rw [if_neg h1, if_neg h1, if_neg (by omega)]

/-- The product of all elements up to `i`. -/
def full (x : Nat → Nat × Bool) : Nat → Nat × Bool
  | 0 => x 0
  | i + 1 => seg (full x i) (x (i + 1))

theorem win_full (x : Nat → Nat × Bool) (i : Nat) : win x i (i + 1) = full x i := by
  induction i with
  | zero => rfl
  | succ i ih =>
    rw [show i + 1 + 1 = 1 + (i + 1) by omega, win_add x (i + 1) 1 (by omega) (i + 1) (by omega), if_pos (by omega)]
    simp only [Nat.add_sub_cancel, ih, full]
    rfl

theorem win_all (x : Nat → Nat × Bool) (i w : Nat) (h : i < w) : win x i w = full x i := by
  rw [← win_full]
  obtain ⟨v, rfl⟩ : ∃ v, w = i + 1 + v := ⟨w - (i + 1), by omega⟩
  cases v with
  | zero => rfl
  | succ v => rw [win_add x i (i + 1) (by omega) (v + 1) (by omega), if_neg (by omega)]

def Regs.pair (s : Regs) (lane : Nat) : Nat × Bool := (s.incl lane, s.killed lane)

theorem scanStep_pair (s : Regs) (x : Nat → Nat × Bool) (off : Nat) (hoff : 1 ≤ off) (h : ∀ lane, s.pair lane = win x lane off) (lane : Nat) :
    (scanStep true off s).pair lane = win x lane (off + off) := by
  rw [win_add x lane off hoff off hoff]
  simp only [Regs.pair, scanStep, if_true] at *
  by_cases hl : off ≤ lane
  · rw [if_pos hl, if_pos hl, if_pos hl, ← h, ← h]
    simp only [seg, shflUp, if_pos hl]
    cases s.killed lane <;> simp
  · rw [if_neg hl, if_neg hl, if_neg hl, ← h]

theorem prefixMin_pair (s : Regs) (lane : Nat) (h : lane < 32) : (prefixMin true s).pair lane = full s.pair lane := by
  unfold prefixMin offsets
  simp only [List.foldl_cons, List.foldl_nil]
  rw [← win_all s.pair lane 32 h]
  have h1 := scanStep_pair s s.pair 1 (by omega) (fun _ => rfl)
  have h2 := scanStep_pair _ s.pair 2 (by omega) h1
  have h3 := scanStep_pair _ s.pair 4 (by omega) h2
  have h4 := scanStep_pair _ s.pair 8 (by omega) h3
  exact scanStep_pair _ s.pair 16 (by omega) h4 lane

/-- Without section filters the other variant computes the same. -/
theorem prefixMin_plain (f : Nat → Nat) (g : Nat → Bool) : (prefixMin false ⟨f, g⟩).incl = (prefixMin true ⟨f, fun _ => false⟩).incl := by
  have step : ∀ off f g, (scanStep false off ⟨f, g⟩).incl = (scanStep true off ⟨f, fun _ => false⟩).incl ∧
      (scanStep true off ⟨f, fun _ => false⟩).killed = fun _ => false := by
    intro off f g
    refine ⟨?_, ?_⟩
    · funext lane; simp [scanStep]
    · funext lane; simp [scanStep, shflUp]
  unfold prefixMin
  generalize offsets = os
  induction os generalizing f g with
  | nil => rfl
  | cons off os ih =>
    simp only [List.foldl_cons]
    obtain ⟨h1, h2⟩ := step off f g
    have e1 : scanStep false off ⟨f, g⟩ = ⟨(scanStep false off ⟨f, g⟩).incl, (scanStep false off ⟨f, g⟩).killed⟩ := rfl
    have e2 : scanStep true off ⟨f, fun _ => false⟩ = ⟨(scanStep true off ⟨f, fun _ => false⟩).incl, (scanStep true off ⟨f, fun _ => false⟩).killed⟩ := rfl
    rw [e1, e2, h2, ← h1]
    exact ih _ _

/-! ## The scan -/

/-- What is carried to stop `i`: the least key since the last kill, as a sequential scan computes it. -/
def carry (key : Nat → Nat) (kill : Nat → Bool) : Nat → Nat
  | 0 => kEtKeyInvalid
  | i + 1 => if kill i then key i else min (key i) (carry key kill i)

theorem carry_le {key : Nat → Nat} {kill : Nat → Bool} (hk : ∀ i, key i ≤ kEtKeyInvalid) (i : Nat) : carry key kill i ≤ kEtKeyInvalid := by
  cases i with
  | zero => exact Nat.le_refl _
  | succ i => unfold carry; split <;> have := hk i <;> omega

theorem carry_full (key : Nat → Nat) (kill : Nat → Bool) (c l : Nat) :
    carry key kill (c + l + 1) =
      (let p := full (fun j => (key (c + j), kill (c + j))) l
       if p.2 then p.1 else min p.1 (carry key kill c)) := by
  induction l with
  | zero => simp only [full, Nat.add_zero]; rfl
  | succ l ih =>
    have e : carry key kill (c + (l + 1) + 1) = if kill (c + (l + 1)) then key (c + (l + 1)) else min (key (c + (l + 1))) (carry key kill (c + l + 1)) := rfl
    rw [e, ih]
    simp only [full, seg]
    cases kill (c + (l + 1)) <;> simp only [Bool.false_or, Bool.true_or, if_true, if_false, Bool.false_eq_true]
    split
    · rfl
    · rw [Nat.min_assoc]

theorem myKey_le {n : Nat} {et : Nat → Nat} (hn : n ≤ 2 ^ 32) (het : ∀ i, et i < 2 ^ 32) (i : Nat) : myKey n et i ≤ kEtKeyInvalid := by
  unfold myKey kEtKeyInvalid
  split
  · rename_i h
    have := het i
    rw [← Nat.shiftLeft_add_eq_or_of_lt (by omega), Nat.shiftLeft_eq]
    omega
  · omega

/-- The registers of a chunk. -/
theorem chunk_facts (sections : Bool) {n : Nat} {et : Nat → Nat} {kill : Nat → Bool} (hn : n ≤ 2 ^ 32) (het : ∀ i, et i < 2 ^ 32) (chunk : Nat) :
    let S := carry (myKey n et) (myKill sections n kill)
    let s := chunkRegs sections n et kill chunk
    (∀ lane, lane < kWarpSize → laneEt sections (fun lane => myKill sections n kill (chunk + lane)) s (S chunk) lane =
      if myKill sections n kill (chunk + lane) then kEtKeyInvalid else S (chunk + lane)) ∧
    nextCarried sections s (S chunk) = S (chunk + kWarpSize) := by
  intro S s
  have hS := fun i => carry_le (kill := myKill sections n kill) (myKey_le hn het) i
  cases sections with
  | true =>
    have hp : ∀ lane, lane < 32 → s.pair lane = full (fun j => (myKey n et (chunk + j), myKill true n kill (chunk + j))) lane :=
      fun lane h => prefixMin_pair _ lane h
    refine ⟨?_, ?_⟩
    · intro lane hl
      unfold kWarpSize at hl
      simp only [laneEt, if_true]
      by_cases hk : myKill true n kill (chunk + lane) = true
      · rw [if_pos hk, if_pos hk]
      · rw [if_neg hk, if_neg hk]
        cases lane with
        | zero =>
          simp only [if_true, Bool.false_eq_true, if_false, Nat.add_zero]
          exact Nat.min_eq_right (hS _)
        | succ l =>
          simp only [Nat.add_one_ne_zero, if_false, shflUp, show 1 ≤ l + 1 from by omega, if_true, Nat.add_sub_cancel]
          have e := hp l (by omega)
          have e1 : s.incl l = _ := congrArg Prod.fst e
          have e2 : s.killed l = _ := congrArg Prod.snd e
          rw [e1, e2, show chunk + (l + 1) = chunk + l + 1 by omega]
          exact (carry_full _ _ chunk l).symm
    · have e := hp 31 (by omega)
      have e1 : s.incl 31 = _ := congrArg Prod.fst e
      have e2 : s.killed 31 = _ := congrArg Prod.snd e
      simp only [nextCarried, if_true, shfl, kWarpSize]
      show (if s.killed 31 then s.incl 31 else min (s.incl 31) (S chunk)) = _
      rw [e1, e2]
      exact (carry_full _ _ chunk 31).symm
  | false =>
    have hkf : ∀ i, myKill false n kill i = false := fun i => by simp [myKill]
    have hp : ∀ lane, lane < 32 → s.incl lane = (full (fun j => (myKey n et (chunk + j), false)) lane).1 := by
      intro lane h
      have h1 : s.incl = (prefixMin true ⟨fun lane => myKey n et (chunk + lane), fun _ => false⟩).incl := prefixMin_plain _ _
      rw [h1]
      exact congrArg Prod.fst (prefixMin_pair ⟨fun lane => myKey n et (chunk + lane), fun _ => false⟩ lane h)
    have hf2 : ∀ l, (full (fun j => (myKey n et (chunk + j), false)) l).2 = false := by
      intro l; induction l with
      | zero => rfl
      | succ l ih => simp only [full, seg, ih]; rfl
    have hc : ∀ l, S (chunk + l + 1) = min (full (fun j => (myKey n et (chunk + j), false)) l).1 (S chunk) := by
      intro l
      have := carry_full (myKey n et) (myKill false n kill) chunk l
      simp only [hkf, hf2] at this
      exact this
    refine ⟨?_, ?_⟩
    · intro lane hl
      unfold kWarpSize at hl
      rw [hkf]
      simp only [laneEt, Bool.false_eq_true, if_false]
      cases lane with
      | zero => simp only [if_true, Nat.add_zero]; exact Nat.min_eq_right (hS _)
      | succ l =>
        simp only [Nat.add_one_ne_zero, if_false, shflUp, show 1 ≤ l + 1 from by omega, if_true, Nat.add_sub_cancel]
        rw [hp l (by omega), show chunk + (l + 1) = chunk + l + 1 by omega, hc l]
    · simp only [nextCarried, Bool.false_eq_true, if_false, shfl, kWarpSize]
      show min (s.incl 31) (S chunk) = S (chunk + 31 + 1)
      rw [hp 31 (by omega), hc 31]

/-- The key with which lane `i % 32` of chunk `i / 32` updates stop `i`. -/
def stopKey (sections : Bool) (n : Nat) (et : Nat → Nat) (kill : Nat → Bool) (i : Nat) : Nat :=
  if myKill sections n kill i then kEtKeyInvalid else carry (myKey n et) (myKill sections n kill) i

theorem warpLoop_eq (P : Problem) (d : Dir) (N : Net) (k ri : Nat) (r : Route) (tad : Int) (sections : Bool) {et : Nat → Nat} {kill : Nat → Bool}
    (hn : r.stops.length ≤ 2 ^ 32) (het : ∀ i, et i < 2 ^ 32) (m : Nat) : ∀ a,
    warpLoop P d N k ri r tad sections et kill (List.range' a m) (carry (myKey r.stops.length et) (myKill sections r.stops.length kill) (a * kWarpSize)) =
      (List.range' (a * kWarpSize) (m * kWarpSize)).flatMap fun i => laneArrival P d N k ri r tad i (stopKey sections r.stops.length et kill i) := by
  induction m with
  | zero => intro a; simp [warpLoop]
  | succ m ih =>
    intro a
    rw [List.range'_succ]
    unfold warpLoop
    simp only
    obtain ⟨h1, h2⟩ := chunk_facts sections (kill := kill) hn het (a * kWarpSize)
    rw [h2, show a * kWarpSize + kWarpSize = (a + 1) * kWarpSize by rw [Nat.add_mul]; omega, ih (a + 1),
      show (m + 1) * kWarpSize = kWarpSize + m * kWarpSize by rw [Nat.add_mul]; omega, ← List.range'_append, List.flatMap_append]
    congr 1
    · rw [List.range'_eq_map_range, List.flatMap_map]
      unfold List.flatMap
      congr 1
      apply List.map_congr_left
      intro lane hl
      rw [h1 lane (List.mem_range.mp hl)]
      rfl
    · rw [show (a + 1) * kWarpSize = a * kWarpSize + 1 * kWarpSize by rw [Nat.add_mul]]

theorem warpArrivals_eq (P : Problem) (d : Dir) (N : Net) (k ri : Nat) (r : Route) (tad : Int) (sections : Bool) {et : Nat → Nat} {kill : Nat → Bool}
    (hn : r.stops.length ≤ 2 ^ 32) (het : ∀ i, et i < 2 ^ 32) :
    warpArrivals P d N k ri r tad sections et kill =
      (List.range' 0 r.stops.length).flatMap fun i => laneArrival P d N k ri r tad i (stopKey sections r.stops.length et kill i) := by
  unfold warpArrivals
  rw [List.range_eq_range']
  have := warpLoop_eq P d N k ri r tad sections (kill := kill) hn het ((r.stops.length + (kWarpSize - 1)) / kWarpSize) 0
  rw [Nat.zero_mul] at this
  show warpLoop P d N k ri r tad sections et kill _ (carry (myKey r.stops.length et) (myKill sections r.stops.length kill) 0) = _
  rw [this]
  obtain ⟨e, he⟩ : ∃ e, (r.stops.length + (kWarpSize - 1)) / kWarpSize * kWarpSize = r.stops.length + e := by
    refine ⟨(r.stops.length + (kWarpSize - 1)) / kWarpSize * kWarpSize - r.stops.length, ?_⟩
    unfold kWarpSize
    omega
  rw [he, ← List.range'_append, List.flatMap_append]
  have hnil : (List.range' (0 + 1 * r.stops.length) e).flatMap (fun i => laneArrival P d N k ri r tad i (stopKey sections r.stops.length et kill i)) = [] := by
    rw [List.flatMap_eq_nil_iff]
    intro i hi
    rw [List.mem_range'_1] at hi
    unfold laneArrival
    rw [List.getElem?_eq_none (by omega)]
  rw [hnil, List.append_nil]

/-! ## C88 -/

theorem carry_spec (key : Nat → Nat) (kill : Nat → Bool) (i : Nat) :
    (∀ j, j < i → (∀ m, j < m → m < i → kill m = false) → carry key kill i ≤ key j) ∧
    (carry key kill i = kEtKeyInvalid ∨ ∃ j, j < i ∧ (∀ m, j < m → m < i → kill m = false) ∧ carry key kill i = key j) := by
  induction i with
  | zero => exact ⟨fun j h => by omega, Or.inl rfl⟩
  | succ i ih =>
    obtain ⟨h1, h2⟩ := ih
    unfold carry
    by_cases hk : kill i = true
    · rw [if_pos hk]
      refine ⟨?_, Or.inr ⟨i, by omega, fun m a b => by omega, rfl⟩⟩
      intro j hj hm
      by_cases hji : j = i
      · rw [hji]; exact Nat.le_refl _
      · rw [hm i (by omega) (by omega)] at hk; cases hk
    · rw [if_neg hk]
      have hkf : kill i = false := by simpa using hk
      refine ⟨?_, ?_⟩
      · intro j hj hm
        by_cases hji : j = i
        · rw [hji]; exact Nat.min_le_left _ _
        · exact Nat.le_trans (Nat.min_le_right _ _) (h1 j (by omega) (fun m a b => hm m a (by omega)))
      · by_cases hle : key i ≤ carry key kill i
        · right; exact ⟨i, by omega, fun m a b => by omega, Nat.min_eq_left hle⟩
        · rw [Nat.min_eq_right (by omega)]
          rcases h2 with h2 | ⟨j, a, b, c⟩
          · exact Or.inl h2
          · right
            refine ⟨j, by omega, ?_, c⟩
            intro m m1 m2
            by_cases hmi : m = i
            · rw [hmi]; exact hkf
            · exact b m m1 (by omega)

/-- Run `a` can be boarded at stop `b` and used to stop `i`: the lookup at `b` found it and no section in between is
closed to the passenger. -/
def Boardable (P : Problem) (r : Route) (rk : Loc → Int) (tad : Int) (prev : Loc → Bool) (i : Nat) (a : Run) (b : Nat) : Prop :=
  b < i ∧ (∃ s, r.stops[b]? = some s ∧ lookup P r rk tad prev (decide (b + 1 = r.stops.length)) b s = some (a, b)) ∧
  ∀ m s, b < m → m ≤ i → r.stops[m]? = some s → s.secOk = true

/-- `a` boarded at `b` comes before `a'` boarded at `b'`: first day, then position in the route (both in search
direction), then boarding stop. -/
def RunLe (d : Dir) (a : Run) (b : Nat) (a' : Run) (b' : Nat) : Prop :=
  d.sgn * a.2 < d.sgn * a'.2 ∨ (a.2 = a'.2 ∧ (d.sgn * a.1 < d.sgn * a'.1 ∨ (a.1 = a'.1 ∧ b ≤ b')))

/-- The assumptions of C88: runs that are looked up fit (see C87), the route has at most `2^32` stops, and the variant without
section filter is only used if no section is closed. -/
structure WarpOk (P : Problem) (N : Net) (r : Route) (rk : Loc → Int) (tad : Int) (prev : Loc → Bool) (sections : Bool) : Prop where
  stops : r.stops.length ≤ 2 ^ 32
  fits : ∀ i s a b, r.stops[i]? = some s → lookup P r rk tad prev (decide (i + 1 = r.stops.length)) i s = some (a, b) → Packable N.base a
  plain : sections = false → ∀ i s, 0 < i → r.stops[i]? = some s → s.secOk = true

theorem lookup_snd {P : Problem} {r : Route} {rk : Loc → Int} {tad : Int} {prev : Loc → Bool} {last : Bool} {i : Nat} {s : Stop} {a : Run} {b : Nat}
    (h : lookup P r rk tad prev last i s = some (a, b)) : b = i := by
  unfold lookup at h
  split at h
  · rw [Option.map_eq_some_iff] at h
    obtain ⟨n, -, h2⟩ := h
    cases h2; rfl
  · cases h

theorem etResult_lt {P : Problem} {d : Dir} {N : Net} {r : Route} {rk : Loc → Int} {tad : Int} {prev : Loc → Bool} {sections : Bool}
    (h : WarpOk P N r rk tad prev sections) (i : Nat) : etResult P d N r rk tad prev i < 2 ^ 32 := by
  unfold etResult
  split
  · rename_i s hs
    split
    · rename_i a b hl; exact (C87_transport_partial d N.base a (h.fits i s a b hs hl)).2.2
    · decide
  · decide

/-- The key of a boarding. -/
def bkey (d : Dir) (N : Net) (a : Run) (b : Nat) : Nat := packEt d N.base a * 2 ^ 32 + b

theorem myKey_cases {P : Problem} {d : Dir} {N : Net} {r : Route} {rk : Loc → Int} {tad : Int} {prev : Loc → Bool} {sections : Bool}
    (h : WarpOk P N r rk tad prev sections) (i : Nat) :
    (myKey r.stops.length (etResult P d N r rk tad prev) i = kEtKeyInvalid ∧
      ∀ s, r.stops[i]? = some s → lookup P r rk tad prev (decide (i + 1 = r.stops.length)) i s = none) ∨
    ∃ s a, r.stops[i]? = some s ∧ lookup P r rk tad prev (decide (i + 1 = r.stops.length)) i s = some (a, i) ∧ Packable N.base a ∧
      myKey r.stops.length (etResult P d N r rk tad prev) i = bkey d N a i ∧ bkey d N a i < kEtKeyInvalid := by
  unfold myKey
  cases hs : r.stops[i]? with
  | none =>
    left
    refine ⟨?_, fun s hs' => by cases hs'⟩
    rw [if_neg]
    rintro ⟨h1, -⟩
    rw [List.getElem?_eq_none_iff] at hs
    omega
  | some s =>
    have hlt : i < r.stops.length := (List.getElem?_eq_some_iff.mp hs).1
    cases hl : lookup P r rk tad prev (decide (i + 1 = r.stops.length)) i s with
    | none =>
      left
      refine ⟨?_, fun s' hs' => by cases hs'; exact hl⟩
      rw [if_neg]
      rintro ⟨-, h2⟩
      apply h2
      unfold etResult
      rw [hs]
      simp only [hl]
    | some x =>
      obtain ⟨a, b⟩ := x
      have hb := lookup_snd hl
      subst hb
      have hf := h.fits b s a b hs hl
      have he : etResult P d N r rk tad prev b = packEt d N.base a := by
        unfold etResult
        rw [hs]
        simp only [hl]
      obtain ⟨-, g2, g3⟩ := C87_transport_partial d N.base a hf
      have hst := h.stops
      right
      refine ⟨s, a, rfl, hl, hf, ?_, ?_⟩
      · rw [he, if_pos ⟨hlt, g2⟩, ← Nat.shiftLeft_add_eq_or_of_lt (by omega), Nat.shiftLeft_eq]; rfl
      · unfold bkey kEtKeyInvalid
        unfold kEtInvalid at g2
        omega

theorem myKill_iff {P : Problem} {N : Net} {r : Route} {rk : Loc → Int} {tad : Int} {prev : Loc → Bool} {sections : Bool}
    (h : WarpOk P N r rk tad prev sections) (m : Nat) :
    myKill sections r.stops.length (secKilled r) m = false ↔ (0 < m → ∀ s, r.stops[m]? = some s → s.secOk = true) := by
  unfold myKill secKilled
  cases hs : r.stops[m]? with
  | none => simp
  | some s =>
    have hlt : m < r.stops.length := (List.getElem?_eq_some_iff.mp hs).1
    simp only [hlt, decide_true, Bool.and_true, Option.some.injEq, forall_eq']
    cases hsec : sections with
    | false => simp; intro h0; exact h.plain hsec m s h0 hs
    | true =>
      simp only [Bool.true_and]
      cases s.secOk <;> simp <;> omega

theorem bkey_le {d : Dir} {N : Net} {a a' : Run} {b b' : Nat} (ha : Packable N.base a) (ha' : Packable N.base a') (hb : b < 2 ^ 32) (hb' : b' < 2 ^ 32) :
    bkey d N a b ≤ bkey d N a' b' ↔ RunLe d a b a' b' := by
  have h1 := C87_order_partial d N.base a a' ha ha'
  have h2 := C87_order_partial d N.base a' a ha' ha
  unfold bkey RunLe
  cases d <;> simp only [Dir.sgn] at * <;> omega

/-- C88: an arrival of the warp is an arrival with the first run that can be boarded at an earlier stop and used up to this
stop - and all these arrivals are found. -/
theorem C88_best (P : Problem) (d : Dir) (N : Net) (k ri : Nat) (r : Route) (rk : Loc → Int) (tad : Int) (prev : Loc → Bool) (sections : Bool)
    (h : WarpOk P N r rk tad prev sections) (x : Loc × Word) :
    x ∈ warpArrivals P d N k ri r tad sections (etResult P d N r rk tad prev) (secKilled r) ↔
    ∃ i s a b, r.stops[i]? = some s ∧ s.canAlight = true ∧ Boardable P r rk tad prev i a b ∧
      (∀ a' b', Boardable P r rk tad prev i a' b' → RunLe d a b a' b') ∧
      x ∈ arrival P k tad s.loc ⟨P.clamp (r.alight a i), (codec d N).bcStatic ri a b i⟩ := by
  rw [warpArrivals_eq P d N k ri r tad sections h.stops (etResult_lt h), List.mem_flatMap]
  have hst := h.stops
  -- the key of stop `i`
  have hkey : ∀ i s, r.stops[i]? = some s → ∀ a b, (Boardable P r rk tad prev i a b ∧ (∀ a' b', Boardable P r rk tad prev i a' b' → RunLe d a b a' b')) →
      stopKey sections r.stops.length (etResult P d N r rk tad prev) (secKilled r) i = bkey d N a b := by
    rintro i s hs a b ⟨⟨hb1, ⟨sb, hb2, hb3⟩, hb4⟩, hmin⟩
    have hilt : i < r.stops.length := (List.getElem?_eq_some_iff.mp hs).1
    unfold stopKey
    have hk : myKill sections r.stops.length (secKilled r) i = false := (myKill_iff h i).mpr fun _ s' hs' => hb4 i s' hb1 (Nat.le_refl _) hs'
    rw [hk]
    simp only [Bool.false_eq_true, if_false]
    obtain ⟨c1, c2⟩ := carry_spec (myKey r.stops.length (etResult P d N r rk tad prev)) (myKill sections r.stops.length (secKilled r)) i
    have hba : Packable N.base a := h.fits b sb a b hb2 hb3
    have g1 : carry (myKey r.stops.length (etResult P d N r rk tad prev)) (myKill sections r.stops.length (secKilled r)) i ≤ bkey d N a b := by
      refine Nat.le_trans (c1 b hb1 fun m m1 m2 => (myKill_iff h m).mpr fun _ s' hs' => hb4 m s' m1 (by omega) hs') ?_
      rcases myKey_cases (d := d) h b with ⟨-, g⟩ | ⟨s', a', e1, e2, e3, e4, e5⟩
      · rw [g sb hb2] at hb3; cases hb3
      · rw [hb2] at e1; cases e1
        rw [hb3] at e2; cases e2
        rw [e4]; exact Nat.le_refl _
    have hinv : bkey d N a b < kEtKeyInvalid := by
      rcases myKey_cases (d := d) h b with ⟨-, g⟩ | ⟨s', a', e1, e2, e3, e4, e5⟩
      · rw [g sb hb2] at hb3; cases hb3
      · rw [hb2] at e1; cases e1
        rw [hb3] at e2; cases e2
        exact e5
    rcases c2 with c2 | ⟨j, j1, j2, j3⟩
    · omega
    · rcases myKey_cases (d := d) h j with ⟨g, -⟩ | ⟨s', a', e1, e2, e3, e4, e5⟩
      · omega
      · have hbo : Boardable P r rk tad prev i a' j := by
          refine ⟨j1, ⟨s', e1, e2⟩, ?_⟩
          intro m s'' m1 m2 hm
          by_cases hmi : m = i
          · subst hmi; exact hb4 m s'' hb1 (Nat.le_refl _) hm
          · exact (myKill_iff h m).mp (j2 m m1 (by omega)) (by omega) s'' hm
        have := (bkey_le (d := d) hba e3 (by omega) (by omega)).mpr (hmin a' j hbo)
        rw [j3, e4] at g1 ⊢
        omega
  constructor
  · rintro ⟨i, hi, hx⟩
    rw [List.mem_range'_1] at hi
    obtain ⟨s, hs⟩ : ∃ s, r.stops[i]? = some s := ⟨_, List.getElem?_eq_getElem (by omega)⟩
    unfold laneArrival at hx
    rw [hs] at hx
    simp only at hx
    split at hx
    · rename_i hc
      simp only [Bool.and_eq_true, decide_eq_true_eq] at hc
      obtain ⟨⟨hc1, hc2⟩, hc3⟩ := hc
      unfold stopKey at hc1
      have hk : myKill sections r.stops.length (secKilled r) i = false := by
        cases hk : myKill sections r.stops.length (secKilled r) i
        · rfl
        · rw [hk] at hc1; simp at hc1
      rw [hk] at hc1
      simp only [Bool.false_eq_true, if_false] at hc1
      obtain ⟨c1, c2⟩ := carry_spec (myKey r.stops.length (etResult P d N r rk tad prev)) (myKill sections r.stops.length (secKilled r)) i
      rcases c2 with c2 | ⟨j, j1, j2, j3⟩
      · exact absurd c2 (by simpa using hc1)
      · rcases myKey_cases (d := d) h j with ⟨g, -⟩ | ⟨s', a, e1, e2, e3, e4, e5⟩
        · rw [g] at j3; exact absurd j3 (by simpa using hc1)
        · have hbo : Boardable P r rk tad prev i a j := by
            refine ⟨j1, ⟨s', e1, e2⟩, ?_⟩
            intro m s'' m1 m2 hm
            by_cases hmi : m = i
            · subst hmi; exact (myKill_iff h m).mp hk (by omega) s'' hm
            · exact (myKill_iff h m).mp (j2 m m1 (by omega)) (by omega) s'' hm
          have hmin : ∀ a' b', Boardable P r rk tad prev i a' b' → RunLe d a j a' b' := by
            rintro a' b' ⟨q1, ⟨s'', q2, q3⟩, q4⟩
            have hp := h.fits b' s'' a' b' q2 q3
            rw [← bkey_le e3 hp (by omega) (by omega), ← e4, ← j3]
            refine Nat.le_trans (c1 b' q1 fun m m1 m2 => (myKill_iff h m).mpr fun _ s' hs' => q4 m s' m1 (by omega) hs') ?_
            rcases myKey_cases (d := d) h b' with ⟨-, g⟩ | ⟨s3, a3, f1, f2, f3, f4, f5⟩
            · rw [g s'' q2] at q3; cases q3
            · rw [q2] at f1; cases f1
              rw [q3] at f2; cases f2
              rw [f4]; exact Nat.le_refl _
          have hkk := hkey i s hs a j ⟨hbo, hmin⟩
          rw [hkk] at hx
          have d1 : bkey d N a j % 2 ^ 32 = j := by unfold bkey; omega
          have d2 : bkey d N a j >>> 32 = packEt d N.base a := by rw [Nat.shiftRight_eq_div_pow]; unfold bkey; omega
          rw [d1, d2, (C87_transport_partial d N.base a e3).1] at hx
          exact ⟨i, s, a, j, hs, hc3, hbo, hmin, hx⟩
    · cases hx
  · rintro ⟨i, s, a, b, hs, hal, hbo, hmin, hx⟩
    have hilt : i < r.stops.length := (List.getElem?_eq_some_iff.mp hs).1
    refine ⟨i, List.mem_range'_1.mpr ⟨by omega, by omega⟩, ?_⟩
    rw [hkey i s hs a b ⟨hbo, hmin⟩]
    obtain ⟨hb1, ⟨sb, hb2, hb3⟩, hb4⟩ := hbo
    have hba : Packable N.base a := h.fits b sb a b hb2 hb3
    have hinv : bkey d N a b < kEtKeyInvalid := by
      rcases myKey_cases (d := d) h b with ⟨-, g⟩ | ⟨s', a', e1, e2, e3, e4, e5⟩
      · rw [g sb hb2] at hb3; cases hb3
      · rw [hb2] at e1; cases e1
        rw [hb3] at e2; cases e2
        exact e5
    have d1 : bkey d N a b % 2 ^ 32 = b := by unfold bkey; omega
    have d2 : bkey d N a b >>> 32 = packEt d N.base a := by rw [Nat.shiftRight_eq_div_pow]; unfold bkey; omega
    unfold laneArrival
    rw [hs]
    simp only
    rw [d1, d2, (C87_transport_partial d N.base a hba).1, if_pos]
    · exact hx
    · simp only [Bool.and_eq_true, decide_eq_true_eq]
      exact ⟨⟨by omega, hb1⟩, hal⟩

/-- The carried boarding as a key. -/
def okey (d : Dir) (N : Net) : Option (Run × Nat) → Nat
  | none => kEtKeyInvalid
  | some (a, b) => bkey d N a b

theorem filterEt_kill {P : Problem} {N : Net} {r : Route} {rk : Loc → Int} {tad : Int} {prev : Loc → Bool} {sections : Bool}
    (h : WarpOk P N r rk tad prev sections) {idx : Nat} {s : Stop} (hs : r.stops[idx]? = some s) (c : Option (Run × Nat)) :
    filterEt idx s none c = if myKill sections r.stops.length (secKilled r) idx then none else c := by
  unfold filterEt
  have := myKill_iff h idx
  cases hm : myKill sections r.stops.length (secKilled r) idx with
  | false =>
    have hm' := this.mp hm
    simp only [Bool.false_eq_true, if_false]
    by_cases h0 : idx = 0
    · simp [h0]
    · rw [hm' (by omega) s hs]; simp
  | true =>
    simp only [if_true]
    rw [if_pos]
    have hno : ¬ (0 < idx → ∀ s, r.stops[idx]? = some s → s.secOk = true) := fun hh => by rw [this.mpr hh] at hm; cases hm
    simp only [Bool.and_eq_true, decide_eq_true_eq, Bool.not_eq_true']
    refine ⟨?_, ?_⟩
    · intro h0; exact hno (fun h => by omega)
    · cases hso : s.secOk with
      | false => rfl
      | true => exact absurd (fun _ s' hs' => by rw [hs] at hs'; cases hs'; exact hso) hno

theorem okey_pick {d : Dir} {N : Net} {a a' : Run} {b i : Nat} (hb : b < i) (hi : i < 2 ^ 32) :
    okey d N (pick (codec d N) (some (a, b)) (some (a', i))) = min (bkey d N a' i) (bkey d N a b) := by
  by_cases hpe : packEt d N.base a ≤ packEt d N.base a'
  · have hc : (codec d N).le a a' = true := decide_eq_true hpe
    have : pick (codec d N) (some (a, b)) (some (a', i)) = some (a, b) := by
      simp only [pick, hc, if_true]
    rw [this, okey, Nat.min_eq_right]
    unfold bkey; generalize packEt d N.base a = x at *; generalize packEt d N.base a' = y at *; omega
  · have hc : (codec d N).le a a' = false := decide_eq_false hpe
    have : pick (codec d N) (some (a, b)) (some (a', i)) = some (a', i) := by
      simp only [pick, hc, Bool.false_eq_true, if_false]
    rw [this, okey, Nat.min_eq_left]
    unfold bkey; generalize packEt d N.base a = x at *; generalize packEt d N.base a' = y at *; omega

theorem bkey_parts {d : Dir} {N : Net} {a : Run} {b i : Nat} (p1 : Packable N.base a) (hb : b < i) (hi : i < 2 ^ 32) :
    bkey d N a b % 2 ^ 32 = b ∧ bkey d N a b >>> 32 = packEt d N.base a ∧ bkey d N a b ≠ kEtKeyInvalid := by
  obtain ⟨q1, q2, q3⟩ := C87_transport_partial d N.base a p1
  refine ⟨by unfold bkey; omega, by rw [Nat.shiftRight_eq_div_pow]; unfold bkey; omega, by unfold bkey kEtKeyInvalid; unfold kEtInvalid at q2; omega⟩

theorem lane_seq {P : Problem} {d : Dir} {N : Net} {k ri : Nat} {r : Route} {tad : Int} {idx : Nat} {s : Stop} (hs : r.stops[idx]? = some s)
    (hi : idx < 2 ^ 32) (c : Option (Run × Nat)) (hb : ∀ a b, c = some (a, b) → Packable N.base a ∧ b < idx) :
    laneArrival P d N k ri r tad idx (okey d N c) =
    match (generalizing := false) c with
    | some (a, b) => if s.canAlight then arrival P k tad s.loc ⟨P.clamp (r.alight a idx), (codec d N).bcStatic ri a b idx⟩ else []
    | none => [] := by
  unfold laneArrival
  rw [hs]
  cases c with
  | none => simp only [okey, ne_eq, not_true_eq_false, decide_false, Bool.false_and, Bool.false_eq_true, if_false]
  | some x =>
    obtain ⟨a, b⟩ := x
    obtain ⟨p1, p2⟩ := hb a b rfl
    obtain ⟨d1, d2, d3⟩ := bkey_parts (d := d) p1 p2 hi
    obtain ⟨q1, q2, q3⟩ := C87_transport_partial d N.base a p1
    simp only [okey, d1, d2, q1, d3, p2, ne_eq, not_false_eq_true, decide_true, Bool.true_and]

theorem routeArrivals_eq {P : Problem} {d : Dir} {N : Net} {k ri : Nat} {r : Route} {rk : Loc → Int} {tad : Int} {prev : Loc → Bool} {sections : Bool}
    (h : WarpOk P N r rk tad prev sections) (rest : List Stop) : ∀ (idx : Nat) (c : Option (Run × Nat)), (∀ x, r.stops[idx + x]? = rest[x]?) →
    okey d N c = carry (myKey r.stops.length (etResult P d N r rk tad prev)) (myKill sections r.stops.length (secKilled r)) idx →
    (∀ a b, c = some (a, b) → Packable N.base a ∧ b < idx) →
    routeArrivals P (codec d N) k ri r rk tad prev rest idx c =
      (List.range' idx rest.length).flatMap fun i =>
        laneArrival P d N k ri r tad i (stopKey sections r.stops.length (etResult P d N r rk tad prev) (secKilled r) i) := by
  induction rest with
  | nil => intro idx c _ _ _; simp [routeArrivals]
  | cons s rest ih =>
    intro idx c hsuf hc hb
    have hs : r.stops[idx]? = some s := by have := hsuf 0; simpa using this
    have hlt : idx < r.stops.length := (List.getElem?_eq_some_iff.mp hs).1
    have hst := h.stops
    have hlen : r.stops.length = idx + (rest.length + 1) := by
      have h1 := hsuf (rest.length + 1)
      have h2 := hsuf rest.length
      rw [List.getElem?_eq_none (l := s :: rest) (i := rest.length + 1) (by simp)] at h1
      rw [List.getElem?_eq_getElem (l := s :: rest) (i := rest.length) (by simp)] at h2
      have := List.getElem?_eq_none_iff.mp h1
      have := (List.getElem?_eq_some_iff.mp h2).1
      omega
    have hlast : rest.isEmpty = decide (idx + 1 = r.stops.length) := by
      cases rest with
      | nil => simp at hlen; simp [hlen]
      | cons _ _ => simp at hlen; simp; omega
    have hkf := filterEt_kill h hs c
    have hfb : ∀ a b, filterEt idx s none c = some (a, b) → Packable N.base a ∧ b < idx := by
      intro a b hf
      rw [hkf] at hf
      split at hf
      · cases hf
      · exact hb a b hf
    have hnext : ∀ a b, pick (codec d N) (filterEt idx s none c) (lookup P r rk tad prev (decide (idx + 1 = r.stops.length)) idx s) = some (a, b) →
        Packable N.base a ∧ b < idx + 1 := by
      intro a b hp
      rcases pick_cases (codec d N) (filterEt idx s none c) (lookup P r rk tad prev (decide (idx + 1 = r.stops.length)) idx s) with g | g
      · rw [g] at hp
        have := hfb a b hp
        exact ⟨this.1, by omega⟩
      · rw [g] at hp
        have := lookup_snd hp
        exact ⟨h.fits idx s a b hs hp, by omega⟩
    have hsuf' : ∀ x, r.stops[idx + 1 + x]? = rest[x]? := by
      intro x; have := hsuf (x + 1); rw [show idx + 1 + x = idx + (x + 1) by omega, this]; simp
    have e : okey d N (filterEt idx s none c) = stopKey sections r.stops.length (etResult P d N r rk tad prev) (secKilled r) idx := by
      rw [hkf]; unfold stopKey
      cases myKill sections r.stops.length (secKilled r) idx with
      | true => simp only [if_true, okey]
      | false => simp only [Bool.false_eq_true, if_false]; exact hc
    have hcar : okey d N (pick (codec d N) (filterEt idx s none c) (lookup P r rk tad prev (decide (idx + 1 = r.stops.length)) idx s)) =
        carry (myKey r.stops.length (etResult P d N r rk tad prev)) (myKill sections r.stops.length (secKilled r)) (idx + 1) := by
      have hle := carry_le (kill := myKill sections r.stops.length (secKilled r)) (myKey_le hst (etResult_lt (d := d) h)) idx
      have hkl := myKey_le hst (etResult_lt (d := d) h) idx
      have hmin : okey d N (pick (codec d N) (filterEt idx s none c) (lookup P r rk tad prev (decide (idx + 1 = r.stops.length)) idx s)) =
          min (myKey r.stops.length (etResult P d N r rk tad prev) idx) (okey d N (filterEt idx s none c)) := by
        have hok : okey d N (filterEt idx s none c) ≤ kEtKeyInvalid := by
          rw [hkf]
          cases myKill sections r.stops.length (secKilled r) idx with
          | true => simp only [if_true, okey]; exact Nat.le_refl _
          | false => simp only [Bool.false_eq_true, if_false]; rw [hc]; exact hle
        rcases myKey_cases (d := d) h idx with ⟨g1, g2⟩ | ⟨s', a', e1, e2, e3, e4, e5⟩
        · rw [g1, g2 s hs, Nat.min_eq_right hok]
          cases filterEt idx s none c with
          | none => simp only [pick]
          | some x => simp only [pick]
        · rw [hs] at e1; cases e1
          rw [e2, e4]
          cases hf : filterEt idx s none c with
          | none => simp only [pick, okey]; rw [Nat.min_eq_left (Nat.le_of_lt e5)]
          | some x =>
            obtain ⟨a, b⟩ := x
            obtain ⟨p1, p2⟩ := hfb a b hf
            rw [okey_pick p2 (by omega)]
            simp only [okey]
      rw [hmin, e]
      have hcs : carry (myKey r.stops.length (etResult P d N r rk tad prev)) (myKill sections r.stops.length (secKilled r)) (idx + 1) =
        if myKill sections r.stops.length (secKilled r) idx then myKey r.stops.length (etResult P d N r rk tad prev) idx else
          min (myKey r.stops.length (etResult P d N r rk tad prev) idx) (carry (myKey r.stops.length (etResult P d N r rk tad prev)) (myKill sections r.stops.length (secKilled r)) idx) := by
        simp only [carry]
      rw [hcs]
      unfold stopKey
      cases myKill sections r.stops.length (secKilled r) idx with
      | true => simp only [if_true]; rw [Nat.min_eq_left hkl]
      | false => simp only [Bool.false_eq_true, if_false]
    have hrest := ih (idx + 1) _ hsuf' hcar hnext
    simp only [List.length_cons, List.range'_succ, List.flatMap_cons]
    rw [← hrest, ← e, lane_seq hs (by omega) _ hfb, ← hlast]
    simp only [routeArrivals]
    generalize routeArrivals P (codec d N) k ri r rk tad prev rest (idx + 1) _ = tail
    cases filterEt idx s none c with
    | none => simp only
    | some x => simp only

/-- C88: the warp writes exactly the arrivals of the scan of the stops one after the other (the model of the search in
`Verif.Model.GpuRaptor`), in the same order. -/
theorem C88_sequential (P : Problem) (d : Dir) (N : Net) (k ri : Nat) (r : Route) (rk : Loc → Int) (tad : Int) (prev : Loc → Bool) (sections : Bool)
    (h : WarpOk P N r rk tad prev sections) :
    warpArrivals P d N k ri r tad sections (etResult P d N r rk tad prev) (secKilled r) =
      routeArrivals P (codec d N) k ri r rk tad prev r.stops 0 none := by
  rw [warpArrivals_eq P d N k ri r tad sections h.stops (etResult_lt h)]
  refine (routeArrivals_eq (sections := sections) h r.stops 0 none (fun x => ?_) ?_ (fun a b hab => ?_)).symm
  · rw [Nat.zero_add]
  · simp only [okey, carry]
  · cases hab

end Nigiri.Gpu
