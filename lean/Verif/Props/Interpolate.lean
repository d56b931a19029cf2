import Verif.Model.Interpolate
/-!
# Property C13: interpolation of missing stop times
-/

namespace Nigiri.Interpolate

/-- Specification: `p` is the closest position before `j` with a known time `t`. -/
def PrevKnown (es : List (Option Int)) (j p : Nat) (t : Int) : Prop :=
  p < j ∧ es[p]? = some (some t) ∧ ∀ i, p < i → i < j → es[i]? = some none

/-- Specification: `q` is the closest position after `j` with a known time `t`. -/
def NextKnown (es : List (Option Int)) (j q : Nat) (t : Int) : Prop :=
  j < q ∧ es[q]? = some (some t) ∧ ∀ i, j < i → i < q → es[i]? = some none

private theorem fwd_length (es : List (Option Int)) (j : Nat) (st : Int × Int) :
    (fwdPass es j st).length = es.length := by
  induction es generalizing j st with
  | nil => rfl
  | cons e es ih => cases e <;> simp [fwdPass, ih]

private theorem bwd_length (es : List (Option Int)) (j : Nat) : (bwdPass es j).1.length = es.length := by
  induction es generalizing j with
  | nil => rfl
  | cons e es ih => cases e <;> simp [bwdPass, ih]

/-- Forward pass at a missing position. -/
private theorem fwd_none (es : List (Option Int)) (k : Nat) (st : Int × Int) (i : Nat)
    (h : es[i]? = some none) :
    (∃ p t, PrevKnown es i p t ∧ (fwdPass es k st)[i]? = some (t, (((k + p) / 2 : Nat) : Int))) ∨
    ((∀ p, p < i → es[p]? = some none) ∧ (fwdPass es k st)[i]? = some st) := by
  induction es generalizing k st i with
  | nil => simp at h
  | cons e es ih =>
    cases i with
    | zero =>
      simp at h; subst h
      right; exact ⟨by omega, rfl⟩
    | succ i =>
      simp only [List.getElem?_cons_succ] at h
      cases e with
      | none =>
        simp only [fwdPass, List.getElem?_cons_succ]
        rcases ih (k + 1) st i h with ⟨p, t, ⟨h1, h2, h3⟩, h4⟩ | ⟨h1, h2⟩
        · left
          refine ⟨p + 1, t, ⟨by omega, by simpa using h2, ?_⟩, ?_⟩
          · intro x hx1 hx2
            cases x with
            | zero => omega
            | succ x => simpa using h3 x (by omega) (by omega)
          · rw [h4, show k + 1 + p = k + (p + 1) by omega]
        · right
          refine ⟨?_, h2⟩
          intro p hp
          cases p with
          | zero => rfl
          | succ p => simpa using h1 p (by omega)
      | some t0 =>
        simp only [fwdPass, List.getElem?_cons_succ]
        left
        rcases ih (k + 1) (t0, ((k / 2 : Nat) : Int)) i h with ⟨p, t, ⟨h1, h2, h3⟩, h4⟩ | ⟨h1, h2⟩
        · refine ⟨p + 1, t, ⟨by omega, by simpa using h2, ?_⟩, ?_⟩
          · intro x hx1 hx2
            cases x with
            | zero => omega
            | succ x => simpa using h3 x (by omega) (by omega)
          · rw [h4, show k + 1 + p = k + (p + 1) by omega]
        · refine ⟨0, t0, ⟨by omega, rfl, ?_⟩, by rw [h2]; simp⟩
          intro x hx1 hx2
          cases x with
          | zero => omega
          | succ x => simpa using h1 x (by omega)

/-- State of the backward pass: first known time of the list. -/
private theorem bwd_state (es : List (Option Int)) (k : Nat) :
    (∃ q t, es[q]? = some (some t) ∧ (∀ i, i < q → es[i]? = some none) ∧
      (bwdPass es k).2 = (t, (((k + q) / 2 : Nat) : Int))) ∨
    ((∀ i < es.length, es[i]? = some none) ∧ (bwdPass es k).2 = (0, 0)) := by
  induction es generalizing k with
  | nil => right; exact ⟨by simp, rfl⟩
  | cons e es ih =>
    cases e with
    | some t => left; exact ⟨0, t, rfl, by omega, by simp [bwdPass]⟩
    | none =>
      simp only [bwdPass]
      rcases ih (k + 1) with ⟨q, t, h1, h2, h3⟩ | ⟨h1, h2⟩
      · left
        refine ⟨q + 1, t, by simpa using h1, ?_, ?_⟩
        · intro i hi
          cases i with
          | zero => rfl
          | succ i => simpa using h2 i (by omega)
        · rw [h3]; congr 3; omega
      · right
        refine ⟨?_, h2⟩
        intro i hi
        cases i with
        | zero => rfl
        | succ i => simpa using h1 i (by simpa using hi)

/-- Backward pass at a missing position. -/
private theorem bwd_none (es : List (Option Int)) (k : Nat) (i : Nat) (h : es[i]? = some none) :
    (∃ q t, NextKnown es i q t ∧ (bwdPass es k).1[i]? = some (t, (((k + q) / 2 : Nat) : Int))) ∨
    ((∀ q, i < q → q < es.length → es[q]? = some none) ∧ (bwdPass es k).1[i]? = some (0, 0)) := by
  induction es generalizing k i with
  | nil => simp at h
  | cons e es ih =>
    cases i with
    | zero =>
      simp at h; subst h
      simp only [bwdPass, List.getElem?_cons_zero]
      rcases bwd_state es (k + 1) with ⟨q, t, h1, h2, h3⟩ | ⟨h1, h2⟩
      · left
        refine ⟨q + 1, t, ⟨by omega, by simpa using h1, ?_⟩, ?_⟩
        · intro x hx1 hx2
          cases x with
          | zero => omega
          | succ x => simpa using h2 x (by omega)
        · rw [h3]; congr 4; omega
      · right
        refine ⟨?_, by rw [h2]⟩
        intro q hq hq'
        cases q with
        | zero => omega
        | succ q => simpa using h1 q (by simpa using hq')
    | succ i =>
      simp only [List.getElem?_cons_succ] at h
      have hb : (bwdPass (e :: es) k).1[i + 1]? = (bwdPass es (k + 1)).1[i]? := by
        cases e <;> simp [bwdPass]
      rw [hb]
      rcases ih (k + 1) i h with ⟨q, t, ⟨h1, h2, h3⟩, h4⟩ | ⟨h1, h2⟩
      · left
        refine ⟨q + 1, t, ⟨by omega, by simpa using h2, ?_⟩, ?_⟩
        · intro x hx1 hx2
          cases x with
          | zero => omega
          | succ x => simpa using h3 x (by omega) (by omega)
        · rw [h4, show k + 1 + q = k + (q + 1) by omega]
      · right
        refine ⟨?_, h2⟩
        intro q hq hq'
        cases q with
        | zero => omega
        | succ q => simpa using h1 q (by omega) (by simpa using hq')

private theorem bwd_some (es : List (Option Int)) (k i : Nat) (t : Int) (h : es[i]? = some (some t)) :
    (bwdPass es k).1[i]? = some (t, -1) := by
  induction es generalizing k i with
  | nil => simp at h
  | cons e es ih =>
    cases i with
    | zero => simp at h; subst h; rfl
    | succ i =>
      have hb : (bwdPass (e :: es) k).1[i + 1]? = (bwdPass es (k + 1)).1[i]? := by
        cases e <;> simp [bwdPass]
      rw [hb]; exact ih (k + 1) i (by simpa using h)

private theorem fwd_some (es : List (Option Int)) (k i : Nat) (st : Int × Int) (t : Int) (h : es[i]? = some (some t)) :
    (fwdPass es k st)[i]? = some (t, -1) := by
  induction es generalizing k i st with
  | nil => simp at h
  | cons e es ih =>
    cases i with
    | zero => simp at h; subst h; rfl
    | succ i =>
      cases e with
      | none => simp only [fwdPass, List.getElem?_cons_succ]; exact ih _ _ _ (by simpa using h)
      | some t0 => simp only [fwdPass, List.getElem?_cons_succ]; exact ih _ _ _ (by simpa using h)

private theorem finish_get (interp : Int → Int → Int → Int) (es : List (Option Int)) (mns mxs : List (Int × Int))
    (k : Nat) (h1 : mns.length = es.length) (h2 : mxs.length = es.length) :
    (finish interp es mns mxs k).length = es.length ∧
    ∀ i e mn mx, es[i]? = some e → mns[i]? = some mn → mxs[i]? = some mx →
      (finish interp es mns mxs k)[i]? = some (match e with
        | some t => t
        | none => boundInterpolate interp mn mx (((k + i) / 2 : Nat) : Int)) := by
  induction es generalizing mns mxs k with
  | nil => constructor <;> simp [finish]
  | cons e es ih =>
    cases mns with
    | nil => simp at h1
    | cons mn mns =>
      cases mxs with
      | nil => simp at h2
      | cons mx mxs =>
        simp at h1 h2
        obtain ⟨g1, g2⟩ := ih mns mxs (k + 1) h1 h2
        cases e with
        | none =>
          simp only [finish, List.length_cons, g1, true_and]
          intro i e a b he ha hb
          cases i with
          | zero => simp at he ha hb; subst he; subst ha; subst hb; simp
          | succ i =>
            simp at he ha hb
            simp only [List.getElem?_cons_succ]
            rw [g2 i e a b he ha hb]
            have : k + 1 + i = k + (i + 1) := by omega
            rw [this]
        | some t =>
          simp only [finish, List.length_cons, g1, true_and]
          intro i e a b he ha hb
          cases i with
          | zero => simp at he ha hb; subst he; simp
          | succ i =>
            simp at he ha hb
            simp only [List.getElem?_cons_succ]
            rw [g2 i e a b he ha hb]
            have : k + 1 + i = k + (i + 1) := by omega
            rw [this]

private theorem getD_of {α : Type} {l : List α} {i : Nat} {x d : α} (h : l[i]? = some x) : l.getD i d = x := by
  simp [List.getD_eq_getElem?_getD, h]

/-- When the code accepts, for trips with at least two stops. -/
private theorem accept_iff (interp : Int → Int → Int → Int) (es : List (Option Int)) (n : Nat) (hn : 2 ≤ n)
    (hlen : es.length = 2 * n) :
    (interpolate interp es = .errorLastMissing ↔ es[2 * n - 2]? = some none ∧ es[2 * n - 1]? = some none) ∧
    (interpolate interp es ≠ .errorLastMissing →
      (interpolate interp es = .errorFirstMissing ↔ es[0]? = some none ∧ es[1]? = some none) ∧
      (¬ (es[0]? = some none ∧ es[1]? = some none) → interpolate interp es =
        .ok (finish interp es (fwdPass es 0 (0, (n : Int) - 1)) (bwdPass es 0).1 0))) := by
  have hdiv : es.length / 2 = n := by omega
  -- last arrival
  have hlast : ((bwdPass es 0).1.getD (es.length - 2) (0, 0)).2 = 0 ↔
      es[2 * n - 2]? = some none ∧ es[2 * n - 1]? = some none := by
    rw [show es.length - 2 = 2 * n - 2 by omega]
    have hlt : 2 * n - 2 < es.length := by omega
    cases hx : es[2 * n - 2] with
    | some t =>
      have hx' : es[2 * n - 2]? = some (some t) := by rw [List.getElem?_eq_getElem hlt, hx]
      rw [getD_of (bwd_some es 0 _ t hx'), hx']
      simp
    | none =>
      have hx' : es[2 * n - 2]? = some none := by rw [List.getElem?_eq_getElem hlt, hx]
      rcases bwd_none es 0 _ hx' with ⟨q, t, ⟨h1, h2, h3⟩, h4⟩ | ⟨h1, h2⟩
      · have hq : q = 2 * n - 1 := by
          have : q < es.length := by
            rw [List.getElem?_eq_some_iff] at h2; exact h2.1
          omega
        rw [getD_of h4, hx', ← hq, h2]
        simp; omega
      · rw [getD_of h2, hx', h1 (2 * n - 1) (by omega) (by omega)]
        simp
  have hfirst : ((fwdPass es 0 (0, (n : Int) - 1)).getD 1 (0, 0)).2 = (n : Int) - 1 ↔
      es[0]? = some none ∧ es[1]? = some none := by
    have h1lt : 1 < es.length := by omega
    have h0lt : 0 < es.length := by omega
    cases hx : es[1] with
    | some t =>
      have hx' : es[1]? = some (some t) := by rw [List.getElem?_eq_getElem h1lt, hx]
      rw [getD_of (fwd_some es 0 1 _ t hx'), hx']
      simp; omega
    | none =>
      have hx' : es[1]? = some none := by rw [List.getElem?_eq_getElem h1lt, hx]
      rcases fwd_none es 0 (0, (n : Int) - 1) _ hx' with ⟨p, t, ⟨h1, h2, h3⟩, h4⟩ | ⟨h1, h2⟩
      · have hp : p = 0 := by omega
        subst hp
        rw [getD_of h4, hx', h2]
        simp; omega
      · rw [getD_of h2, hx', h1 0 (by omega)]
        simp
  unfold interpolate
  simp only [hdiv]
  have hl1 : ¬ es.length ≤ 1 := by omega
  simp only [hl1, false_or, hlast, hfirst]
  by_cases c1 : es[2 * n - 2]? = some none ∧ es[2 * n - 1]? = some none
  · simp [c1]
  · simp only [c1, if_false]
    by_cases c2 : es[0]? = some none ∧ es[1]? = some none
    · simp [c2]
    · simp [c2]

/-- C13: for every trip with at least two stops, interpolation is refused exactly if the first stop
or the last stop has no time at all.  Otherwise all times are filled in: given times are unchanged;
a missing time between two given ones lies between the closest of them; a missing last departure
equals the last arrival; and (a quirk) a missing first arrival becomes 0. -/
theorem C13_interpolate (interp : Int → Int → Int → Int) (hi : IsInterp interp) (es : List (Option Int))
    (n : Nat) (hn : 2 ≤ n) (hlen : es.length = 2 * n)
    (hmono : ∀ (i j : Nat) (s t : Int), i < j → es[i]? = some (some s) → es[j]? = some (some t) → s ≤ t) :
    match interpolate interp es with
    | .errorLastMissing => es[2 * n - 2]? = some none ∧ es[2 * n - 1]? = some none
    | .errorFirstMissing => es[0]? = some none ∧ es[1]? = some none
    | .ok out => out.length = 2 * n ∧
        ¬ (es[2 * n - 2]? = some none ∧ es[2 * n - 1]? = some none) ∧
        ¬ (es[0]? = some none ∧ es[1]? = some none) ∧
        (∀ (j : Nat) (t : Int), es[j]? = some (some t) → out[j]? = some t) ∧
        (∀ (j p : Nat) (s : Int) (q : Nat) (t : Int), es[j]? = some none → PrevKnown es j p s → NextKnown es j q t →
          ∃ x, out[j]? = some x ∧ s ≤ x ∧ x ≤ t) ∧
        (∀ t, es[2 * n - 2]? = some (some t) → es[2 * n - 1]? = some none → out[2 * n - 1]? = some t) ∧
        (es[0]? = some none → out[0]? = some 0) ∧
        ((∀ (j : Nat) (t : Int), es[j]? = some (some t) → 0 ≤ t) → out.Pairwise (· ≤ ·)) := by
  obtain ⟨a1, a2⟩ := accept_iff interp es n hn hlen
  cases hres : interpolate interp es with
  | errorLastMissing => exact a1.mp hres
  | errorFirstMissing => exact (a2 (by rw [hres]; simp)).1.mp hres
  | ok out =>
    simp only
    obtain ⟨b1, b2⟩ := a2 (by rw [hres]; simp)
    have c1 : ¬ (es[2 * n - 2]? = some none ∧ es[2 * n - 1]? = some none) := by
      intro h; rw [a1.mpr h] at hres; simp at hres
    have c2 : ¬ (es[0]? = some none ∧ es[1]? = some none) := by
      intro h; rw [b1.mpr h] at hres; simp at hres
    have hout := b2 c2
    rw [hres] at hout
    have hout : out = finish interp es (fwdPass es 0 (0, (n : Int) - 1)) (bwdPass es 0).1 0 := by
      simpa using hout
    obtain ⟨f1, f2⟩ := finish_get interp es (fwdPass es 0 (0, (n : Int) - 1)) (bwdPass es 0).1 0
      (fwd_length _ _ _) (bwd_length _ _)
    rw [← hout] at f1 f2
    have hknown : ∀ (j : Nat) (t : Int), es[j]? = some (some t) → out[j]? = some t := by
      intro j t h
      have := f2 j _ _ _ h (fwd_some es 0 j _ t h) (bwd_some es 0 j t h)
      simpa using this
    -- value at a missing position between known ones
    have hval : ∀ (j p : Nat) (s : Int) (q : Nat) (t : Int), es[j]? = some none → PrevKnown es j p s → NextKnown es j q t →
        out[j]? = some (s + interp (t - s) (((j / 2 : Nat) : Int) - ((p / 2 : Nat) : Int))
          (((q / 2 : Nat) : Int) - ((p / 2 : Nat) : Int))) ∧
        (0 : Int) < ((q / 2 : Nat) : Int) - ((p / 2 : Nat) : Int) := by
      intro j p s q t hj hp hq
      have hpos : (0 : Int) < ((q / 2 : Nat) : Int) - ((p / 2 : Nat) : Int) := by
        have := hp.1; have := hq.1; omega
      refine ⟨?_, hpos⟩
      rcases fwd_none es 0 (0, (n : Int) - 1) j hj with ⟨p', s', hp', h4⟩ | ⟨h1, h2⟩
      · have : p' = p := by
          rcases Nat.lt_trichotomy p p' with h | h | h
          · have := hp.2.2 p' h hp'.1; rw [hp'.2.1] at this; simp at this
          · exact h.symm
          · have := hp'.2.2 p h hp.1; rw [hp.2.1] at this; simp at this
        subst this
        have hs : s' = s := by have := hp'.2.1; rw [hp.2.1] at this; simpa using this.symm
        subst hs
        rcases bwd_none es 0 j hj with ⟨q', t', hq', h5⟩ | ⟨h1, h2⟩
        · have : q' = q := by
            rcases Nat.lt_trichotomy q q' with h | h | h
            · have := hq'.2.2 q hq.1 h; rw [hq.2.1] at this; simp at this
            · exact h.symm
            · have := hq.2.2 q' hq'.1 h; rw [hq'.2.1] at this; simp at this
          subst this
          have ht : t' = t := by have := hq'.2.1; rw [hq.2.1] at this; simpa using this.symm
          subst ht
          rw [f2 j none _ _ hj h4 h5]
          simp only [boundInterpolate, Nat.zero_add]
          rw [if_pos (by simpa using hpos)]
        · have hlt : q < es.length := by
            have := hq.2.1; rw [List.getElem?_eq_some_iff] at this; exact this.1
          have := h1 q hq.1 hlt; rw [hq.2.1] at this; simp at this
      · have := h1 p hp.1; rw [hp.2.1] at this; simp at this
    have hlastdep : ∀ t, es[2 * n - 2]? = some (some t) → es[2 * n - 1]? = some none → out[2 * n - 1]? = some t := by
      intro t h1 h2
      rcases fwd_none es 0 (0, (n : Int) - 1) _ h2 with ⟨p, s, ⟨g1, g2, g3⟩, g4⟩ | ⟨g1, g2⟩
      · have hp : p = 2 * n - 2 := by
          rcases Nat.lt_trichotomy p (2 * n - 2) with h | h | h
          · have := g3 (2 * n - 2) h (by omega); rw [h1] at this; simp at this
          · exact h
          · omega
        subst hp
        rw [h1] at g2
        have hs : t = s := by simpa using g2
        subst hs
        rcases bwd_none es 0 _ h2 with ⟨q, t', ⟨k1, k2, k3⟩, k4⟩ | ⟨k1, k2⟩
        · have : q < es.length := by rw [List.getElem?_eq_some_iff] at k2; exact k2.1
          omega
        · rw [f2 _ none _ _ h2 g4 k2]
          simp only [boundInterpolate, Nat.zero_add]
          rw [if_neg (by omega)]
          simp
      · have := g1 (2 * n - 2) (by omega); rw [h1] at this; simp at this
    have hfirstarr : es[0]? = some none → out[0]? = some 0 := by
      intro h0
      have h1 : ∃ t, es[1]? = some (some t) := by
        have hlt : 1 < es.length := by omega
        cases hx : es[1] with
        | some t => exact ⟨t, by rw [List.getElem?_eq_getElem hlt, hx]⟩
        | none => exact absurd ⟨h0, by rw [List.getElem?_eq_getElem hlt, hx]⟩ c2
      obtain ⟨t, ht⟩ := h1
      rcases fwd_none es 0 (0, (n : Int) - 1) 0 h0 with ⟨p, s, ⟨g1, -, -⟩, -⟩ | ⟨-, g2⟩
      · omega
      · rcases bwd_none es 0 0 h0 with ⟨q, t', ⟨k1, k2, k3⟩, k4⟩ | ⟨k1, k2⟩
        · have hq : q = 1 := by
            rcases Nat.lt_trichotomy q 1 with h | h | h
            · omega
            · exact h
            · have := k3 1 (by omega) h; rw [ht] at this; simp at this
          subst hq
          rw [f2 0 none _ _ h0 g2 k4]
          simp only [boundInterpolate]
          rw [if_neg (by omega)]
          simp
        · have := k1 1 (by omega) (by omega); rw [ht] at this; simp at this
    have hbetween : ∀ (j p : Nat) (s : Int) (q : Nat) (t : Int), es[j]? = some none → PrevKnown es j p s → NextKnown es j q t →
        ∃ x, out[j]? = some x ∧ s ≤ x ∧ x ≤ t := by
      intro j p s q t hj hp hq
      obtain ⟨h1, h2⟩ := hval j p s q t hj hp hq
      have hst := hmono p q s t (by have := hp.1; have := hq.1; omega) hp.2.1 hq.2.1
      have := hi.range (t - s) (((j / 2 : Nat) : Int) - ((p / 2 : Nat) : Int))
        (((q / 2 : Nat) : Int) - ((p / 2 : Nat) : Int)) h2 (by have := hp.1; omega)
        (by have := hq.1; omega) (by omega)
      exact ⟨_, h1, by omega, by omega⟩
    refine ⟨by rw [f1, hlen], c1, c2, hknown, hbetween, hlastdep, hfirstarr, ?_⟩
    -- monotone
    intro hpos
    -- neighbours of a missing inner position
    have hprev : ∀ j, es[j]? = some none → 0 < j → ∃ p s, PrevKnown es j p s := by
      intro j hj h0
      rcases fwd_none es 0 (0, (n : Int) - 1) j hj with ⟨p, s, hp, -⟩ | ⟨g, -⟩
      · exact ⟨p, s, hp⟩
      · exfalso
        apply c2
        refine ⟨g 0 h0, ?_⟩
        by_cases h1 : j = 1
        · rw [← h1]; exact hj
        · exact g 1 (by omega)
    have hnext : ∀ j, es[j]? = some none → j < 2 * n - 1 → ∃ q t, NextKnown es j q t := by
      intro j hj h0
      rcases bwd_none es 0 j hj with ⟨q, t, hq, -⟩ | ⟨g, -⟩
      · exact ⟨q, t, hq⟩
      · exfalso
        apply c1
        refine ⟨?_, g (2 * n - 1) h0 (by omega)⟩
        by_cases h1 : j = 2 * n - 2
        · rw [← h1]; exact hj
        · exact g (2 * n - 2) (by omega) (by omega)
    have hcases : ∀ j, j < 2 * n → es[j]? = some none ∨ ∃ t, es[j]? = some (some t) := by
      intro j hj
      have hlt : j < es.length := by omega
      cases hx : es[j] with
      | none => left; rw [List.getElem?_eq_getElem hlt, hx]
      | some t => right; exact ⟨t, by rw [List.getElem?_eq_getElem hlt, hx]⟩
    have hstep : ∀ j, j + 1 < 2 * n → ∃ x y, out[j]? = some x ∧ out[j + 1]? = some y ∧ x ≤ y := by
      intro j hj
      rcases hcases j (by omega) with hjn | ⟨s, hjs⟩
      · by_cases hj0 : j = 0
        · subst hj0
          rcases hcases 1 hj with h1 | ⟨t, h1⟩
          · exact absurd ⟨hjn, h1⟩ c2
          · exact ⟨0, t, hfirstarr hjn, hknown 1 t h1, hpos 1 t h1⟩
        · obtain ⟨p, s, hp⟩ := hprev j hjn (by omega)
          obtain ⟨q, t, hq⟩ := hnext j hjn (by omega)
          obtain ⟨hv, hd⟩ := hval j p s q t hjn hp hq
          have hst := hmono p q s t (by have := hp.1; have := hq.1; omega) hp.2.1 hq.2.1
          rcases hcases (j + 1) hj with h1 | ⟨t', h1⟩
          · -- same neighbours
            have hp1 : PrevKnown es (j + 1) p s := ⟨by have := hp.1; omega, hp.2.1, fun i h h' => by
              by_cases hij : i = j
              · rw [hij]; exact hjn
              · exact hp.2.2 i h (by omega)⟩
            have hqj : q ≠ j + 1 := by
              rintro rfl; have := hq.2.1; rw [h1] at this; simp at this
            have hq1 : NextKnown es (j + 1) q t := ⟨by have := hq.1; omega, hq.2.1, fun i h h' =>
              hq.2.2 i (by omega) h'⟩
            obtain ⟨hv1, -⟩ := hval (j + 1) p s q t h1 hp1 hq1
            refine ⟨_, _, hv, hv1, ?_⟩
            have := hi.mono (t - s) (((j / 2 : Nat) : Int) - ((p / 2 : Nat) : Int))
              ((((j + 1) / 2 : Nat) : Int) - ((p / 2 : Nat) : Int))
              (((q / 2 : Nat) : Int) - ((p / 2 : Nat) : Int)) hd (by have := hp.1; omega) (by omega)
              (by have := hq1.1; omega) (by omega)
            omega
          · obtain ⟨x, hx1, hx2, hx3⟩ := hbetween j p s q t hjn hp hq
            have hqj : q = j + 1 := by
              rcases Nat.lt_trichotomy q (j + 1) with h | h | h
              · have := hq.1; omega
              · exact h
              · have := hq.2.2 (j + 1) (by omega) h; rw [h1] at this; simp at this
            subst hqj
            have : t = t' := by have := hq.2.1; rw [h1] at this; simpa using this.symm
            subst this
            exact ⟨x, t, hx1, hknown _ _ h1, hx3⟩
      · rcases hcases (j + 1) hj with h1 | ⟨t, h1⟩
        · by_cases hl : j + 1 = 2 * n - 1
          · have hj2 : j = 2 * n - 2 := by omega
            refine ⟨s, s, hknown j s hjs, ?_, Int.le_refl _⟩
            rw [hl]
            exact hlastdep s (by rw [← hj2]; exact hjs) (by rw [← hl]; exact h1)
          · obtain ⟨q, t, hq⟩ := hnext (j + 1) h1 (by omega)
            have hp : PrevKnown es (j + 1) j s := ⟨by omega, hjs, fun i _ _ => by omega⟩
            obtain ⟨x, hx1, hx2, -⟩ := hbetween (j + 1) j s q t h1 hp hq
            exact ⟨s, x, hknown j s hjs, hx1, hx2⟩
        · exact ⟨s, t, hknown j s hjs, hknown _ t h1, hmono j (j + 1) s t (by omega) hjs h1⟩
    rw [List.pairwise_iff_getElem]
    intro i j hi' hj' hij
    have key : ∀ d, ∀ (hj : i + d < out.length), out[i] ≤ out[i + d] := by
      intro d
      induction d with
      | zero => intro _; exact Int.le_refl _
      | succ d ihd =>
        intro hj
        have h1 := ihd (by omega)
        obtain ⟨x, y, hx, hy, hxy⟩ := hstep (i + d) (by rw [f1, hlen] at hj; omega)
        rw [List.getElem?_eq_some_iff] at hx hy
        obtain ⟨hx1, hx2⟩ := hx
        obtain ⟨hy1, hy2⟩ := hy
        have e : out[i + (d + 1)] = y := hy2
        rw [e]; omega
    have := key (j - i) (by omega)
    have e : out[i + (j - i)]'(by omega) = out[j] := by congr 1; omega
    rw [e] at this; exact this

/-- The assumption about the rounding function is met by exact rounding. -/
theorem C13_rounding_exists : IsInterp roundExact := by
  refine ⟨?_, ?_, ?_⟩
  · intro D num den h1 h2 h3 h4
    unfold roundExact
    have hDn : 0 ≤ D * num := Int.mul_nonneg h4 h2
    have hDn' : D * num ≤ D * den := Int.mul_le_mul_of_nonneg_left h3 h4
    have e1 : 2 * D * num = 2 * (D * num) := by rw [Int.mul_assoc]
    constructor
    · apply Int.ediv_nonneg <;> omega
    · have h5 : (2 * D * num + den) / (2 * den) < D + 1 := by
        apply Int.ediv_lt_of_lt_mul (by omega)
        have e2 : (D + 1) * (2 * den) = 2 * (D * den) + 2 * den := by
          rw [Int.add_mul, Int.one_mul]
          rw [show D * (2 * den) = 2 * (D * den) by rw [← Int.mul_assoc, Int.mul_comm D 2, Int.mul_assoc]]
        omega
      omega
  · intro D num num' den h1 h2 h3 h4 h5
    unfold roundExact
    apply Int.ediv_le_ediv (by omega)
    have : 2 * D * num ≤ 2 * D * num' := Int.mul_le_mul_of_nonneg_left h3 (by omega)
    omega
  · intro D den h
    unfold roundExact
    rw [Int.mul_zero, Int.zero_add]
    exact Int.ediv_eq_zero_of_lt (by omega) (by omega)

example : interpolate roundExact [none, some 480, none, none, none, some 495, some 500, none]
    = .ok [0, 480, 488, 488, 495, 495, 500, 500] := by decide +kernel

end Nigiri.Interpolate
