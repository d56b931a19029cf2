import Verif.Model.Ontrip
import Verif.Props.StartTimes
import Verif.Props.TdFootpath
/-!
# C121: queries from inside a train; C122: refinement of time-dependent walks
-/

namespace Nigiri.Ontrip
open Nigiri.Raptor Nigiri.StartTimes
open Nigiri.TdFootpath (Usable Sorted)

theorem loop_eq (tt : Loc → Nat) (first : Int) : ∀ (r : List TrainStop) (i : Nat) (out : List Offset),
    loop tt first i r out = out ++ loop tt first i r [] := by
  intro r
  induction r with
  | nil => intro i out; simp [loop]
  | cons s r ih => intro i out; simp only [loop]; rw [ih (i + 1) (out ++ _), ih (i + 1) ([] ++ _)]; simp

theorem loop_get (tt : Loc → Nat) (first : Int) : ∀ (r : List TrainStop) (i k : Nat),
    (loop tt first i r [])[k]? = (r[k]?).map fun s => offsetAt tt first s (i + k) := by
  intro r
  induction r with
  | nil => intro i k; simp [loop]
  | cons s r ih =>
    intro i k
    simp only [loop]
    rw [loop_eq]
    cases k with
    | zero => simp
    | succ k =>
      have : i + (k + 1) = i + 1 + k := by omega
      simp [ih, this]

theorem loop_length (tt : Loc → Nat) (first : Int) : ∀ (r : List TrainStop) (i : Nat), (loop tt first i r []).length = r.length := by
  intro r
  induction r with
  | nil => intro i; rfl
  | cons s r ih => intro i; simp only [loop]; rw [loop_eq]; simp [ih]

/-- C121: the call is rejected exactly for the first stop and for positions which do not exist. -/
theorem C121_rejected (stops : List TrainStop) (tt : Loc → Nat) (s : Nat) (q : OQuery) :
    generate stops tt s q = none ↔ s = 0 ∨ stops.length ≤ s := by
  unfold generate
  by_cases h0 : s = 0
  · simp [h0]
  · rw [if_neg h0]
    cases h : stops[s]? with
    | none => simpa [h0] using h
    | some x =>
      have := (List.getElem?_eq_some_iff.mp h).1
      simp only [reduceCtorEq, false_iff]
      omega

/-- C121: the query then starts when the train reaches the given stop; the starts that were there are kept and
one start is appended for this and every later stop, in order, whose duration leads from the start time to the
arrival there plus the transfer time of the stop (when this is within 16 bits). -/
theorem C121_starts (stops : List TrainStop) (tt : Loc → Nat) (s : Nat) (q q' : OQuery) (h : generate stops tt s q = some q') :
    ∃ first, stops[s]? = some first ∧ q'.startTime = first.arr ∧
      ∃ added, q'.start = q.start ++ added ∧ added.length = stops.length - s ∧
        ∀ k x, stops[s + k]? = some x → x.arr + tt x.loc - first.arr < 32768 → -32768 ≤ x.arr + tt x.loc - first.arr →
          ∃ o, added[k]? = some o ∧ o.target = x.loc ∧ q'.startTime + o.duration = x.arr + tt x.loc ∧ o.mode = (s + k) % 256 := by
  unfold generate at h
  split at h
  · cases h
  · split at h
    · cases h
    · rename_i first hf
      injection h with h
      subst h
      refine ⟨first, hf, rfl, loop tt first.arr s (stops.drop s) [], loop_eq _ _ _ _ _, ?_, ?_⟩
      · rw [loop_length, List.length_drop]
      · intro k x hx h1 h2
        refine ⟨offsetAt tt first.arr x (s + k), ?_, rfl, ?_, rfl⟩
        · rw [loop_get, List.getElem?_drop, hx]; rfl
        · simp only [offsetAt, toInt16]
          omega

/-- Times along a train: the arrivals at the stop `s` and later plus transfer times do not lie before the arrival
at `s` and not 22 days later (durations of 16 bits). -/
def Short (stops : List TrainStop) (tt : Loc → Nat) (s : Nat) : Prop :=
  ∀ first k x, stops[s]? = some first → stops[s + k]? = some x →
    first.arr ≤ x.arr + tt x.loc ∧ x.arr + tt x.loc - first.arr < 32768

/-- One may get off at a later position, at a location with `m` as its start (`T`, `mode`: which locations belong to
a start location), and continue at `t`. -/
def OffAt (T : Lb.Tt) (mode : Lb.Mode) (stops : List TrainStop) (tt : Loc → Nat) (s : Nat) (m : Loc) (t : Int) : Prop :=
  ∃ k x, stops[s + k]? = some x ∧ m ∈ Lb.forEachMeta T mode x.loc ∧ t = x.arr + tt x.loc

/-- C121, with the search's start times (any iteration order `entries` of the map, no via stop, no footpaths at the
start, forward): the traveller in the train is at a location exactly if the train calls there at the given
position or later (or at a location which belongs to it), and at the earliest time at which they can have left the train, the transfer time included. -/
theorem C121_at_stops (T : Lb.Tt) (fps : Loc → List (Loc × Int)) (N : Net) (mode : Lb.Mode) (maxOff : Int) (ontrip : Bool)
    (stops : List TrainStop) (tt : Loc → Nat) (s : Nat) (first : TrainStop) (q : OQuery) (t0 : Int) (hs : Short stops tt s)
    (hf : stops[s]? = some first) (h : generate stops tt s ⟨[], t0⟩ = some q) (entries : List (Loc × Int))
    (hent : ∀ p, p ∈ entries ↔ p ∈ shortestStart T fps ⟨mode, q.start.map (fun o => (o.target, o.duration)), [], [], maxOff, false⟩) (e : Ev) :
    e ∈ getStarts .fwd N (.point q.startTime) entries [] maxOff ontrip [] ↔
      e.timeAtStart = first.arr ∧ OffAt T mode stops tt s e.stop e.timeAtStop ∧
        ∀ t, OffAt T mode stops tt s e.stop t → e.timeAtStop ≤ t := by
  obtain ⟨first', hf', hst, added, hadd, hlen, hall⟩ := C121_starts stops tt s _ q h
  rw [hf] at hf'
  cases hf'
  simp only [List.nil_append] at hadd
  have hway : ∀ l y, Way T fps ⟨mode, q.start.map (fun o => (o.target, o.duration)), [], [], maxOff, false⟩ l y ↔
      OffAt T mode stops tt s l (first.arr + y) := by
    intro l y
    constructor
    · rintro ⟨o, ho, m, hm, ⟨rfl, hy⟩ | ⟨hfalse, -⟩⟩
      · obtain ⟨o', ho', rfl⟩ := List.mem_map.mp ho
        rw [hadd] at ho'
        obtain ⟨k, hk⟩ := List.mem_iff_getElem?.mp ho'
        have hk' : k < stops.length - s := by
          have := (List.getElem?_eq_some_iff.mp hk).1
          omega
        have hx : stops[s + k]? = some (stops[s + k]'(by omega)) := List.getElem?_eq_getElem (by omega)
        have hb := hs first k _ hf hx
        obtain ⟨o2, ho2, ht, hd, -⟩ := hall k _ hx hb.2 (by omega)
        rw [hk] at ho2
        cases ho2
        refine ⟨k, _, hx, ?_, ?_⟩
        · rw [← ht]; exact hm
        · have hz : FirstStay [] m = 0 := by simp [FirstStay]
          have hy : y = o'.duration + FirstStay [] m := hy
          rw [← hd, hst, hy, hz]
          simp
      · cases hfalse
    · rintro ⟨k, x, hx, hm, ht⟩
      have hb := hs first k _ hf hx
      obtain ⟨o, ho, htar, hd, -⟩ := hall k _ hx hb.2 (by omega)
      refine ⟨(o.target, o.duration), List.mem_map.mpr ⟨o, ?_, rfl⟩, l, ?_, Or.inl ⟨rfl, ?_⟩⟩
      · rw [hadd]; exact List.mem_iff_getElem?.mpr ⟨k, ho⟩
      · show l ∈ Lb.forEachMeta T mode o.target
        rw [htar]; exact hm
      · have hz : FirstStay [] l = 0 := by simp [FirstStay]
        show y = o.duration + FirstStay [] l
        rw [hst] at hd
        omega
  rw [C27_point]
  simp only [List.not_mem_nil, false_or, false_and, exists_false, or_false]
  rw [hst]
  refine and_congr_right fun _ => ?_
  constructor
  · rintro ⟨x, hx, ht⟩
    obtain ⟨h1, h2⟩ := ((C27_locations T fps _).2 e.stop x).mp ((hent _).mp hx)
    simp only [After] at ht
    rw [ht]
    refine ⟨(hway _ _).mp h1, fun t hoff => ?_⟩
    have := h2 (t - first.arr) ((hway _ _).mpr (by rw [show first.arr + (t - first.arr) = t by omega]; exact hoff))
    omega
  · rintro ⟨h1, h2⟩
    refine ⟨e.timeAtStop - first.arr, (hent _).mpr (((C27_locations T fps _).2 e.stop _).mpr ⟨?_, ?_⟩), ?_⟩
    · rw [hway, show first.arr + (e.timeAtStop - first.arr) = e.timeAtStop by omega]; exact h1
    · intro y hy
      have := h2 _ ((hway _ _).mp hy)
      omega
    · simp only [After]; omega

/-- C121 (partial: trains with at most 256 stops): the number of an appended start is the position where one gets
off. -/
theorem C121_position_partial (stops : List TrainStop) (tt : Loc → Nat) (s : Nat) (q q' : OQuery)
    (hlen : stops.length ≤ 256) (h : generate stops tt s q = some q') :
    ∃ added, q'.start = q.start ++ added ∧ ∀ o ∈ added, s ≤ o.mode ∧ ∃ x, stops[o.mode]? = some x ∧ x.loc = o.target := by
  unfold generate at h
  split at h
  · cases h
  · split at h
    · cases h
    · rename_i first hf
      injection h with h
      subst h
      refine ⟨_, loop_eq _ _ _ _ _, fun o ho => ?_⟩
      obtain ⟨k, hk⟩ := List.mem_iff_getElem?.mp ho
      rw [loop_get, List.getElem?_drop] at hk
      cases hx : stops[s + k]? with
      | none => rw [hx] at hk; cases hk
      | some x =>
        rw [hx] at hk
        have hk : offsetAt tt first.arr x (s + k) = o := by simpa using hk
        have hlt := (List.getElem?_eq_some_iff.mp hx).1
        have hm : o.mode = s + k := by rw [← hk]; show (s + k) % 256 = s + k; omega
        refine ⟨by omega, x, by rw [hm]; exact hx, by rw [← hk]; rfl⟩

/-- Finding: with more than 256 stops two starts with different locations have the same number. -/
theorem C121_position_counterexample :
    ∃ (stops : List TrainStop) (q : OQuery), generate stops (fun _ => 2) 1 ⟨[], 0⟩ = some q ∧
      ∃ a ∈ q.start, ∃ b ∈ q.start, a.target ≠ b.target ∧ a.mode = b.mode := by
  let stops : List TrainStop := (List.range 300).map fun i => ⟨i, i, true⟩
  have hget : ∀ i, i < 300 → stops[i]? = some ⟨i, i, true⟩ := by
    intro i hi
    simp [stops, hi]
  have hlen : stops.length = 300 := by simp [stops]
  cases h : generate stops (fun _ => 2) 1 ⟨[], 0⟩ with
  | none => rcases (C121_rejected _ _ _ _).mp h with h | h <;> omega
  | some q =>
    obtain ⟨first, hf, hst, added, hadd, -, hall⟩ := C121_starts _ _ _ _ _ h
    rw [hget 1 (by omega)] at hf
    cases hf
    obtain ⟨a, ha, hta, -, hma⟩ := hall 0 _ (hget 1 (by omega)) (by simp) (by simp)
    obtain ⟨b, hb, htb, -, hmb⟩ := hall 256 _ (hget 257 (by omega)) (by simp) (by simp)
    refine ⟨stops, q, h, a, ?_, b, ?_, ?_, by rw [hma, hmb]⟩
    · rw [hadd]; exact List.mem_append_right _ (List.mem_iff_getElem?.mpr ⟨0, ha⟩)
    · rw [hadd]; exact List.mem_append_right _ (List.mem_iff_getElem?.mpr ⟨256, hb⟩)
    · rw [hta, htb]; simp

/-- Finding: a stop where nobody may get off is offered as well. -/
theorem C121_alight_counterexample :
    let stops : List TrainStop := [⟨0, 0, true⟩, ⟨1, 10, false⟩, ⟨2, 20, true⟩]
    generate stops (fun _ => 2) 1 ⟨[], 0⟩ = some ⟨[⟨1, 2, 1⟩, ⟨2, 12, 2⟩], 10⟩ := by decide

/-- A loop line which calls at location 1 twice: the hypotheses of `C121_at_stops` hold. -/
example : Short [⟨0, 0, true⟩, ⟨1, 10, true⟩, ⟨2, 20, true⟩, ⟨1, 30, true⟩] (fun _ => 2) 1 := by
  intro first k x hf hx
  cases hf
  rcases k with _ | _ | _ | k
  · cases hx; decide
  · cases hx; decide
  · cases hx; decide
  · exfalso
    rw [List.getElem?_eq_none (by simp only [List.length_cons, List.length_nil]; omega)] at hx
    cases hx

/-! ## C122 -/

/-- `e` can be started at `dep`, arrives by `t`, and nothing that leaves later arrives by `t`. -/
def LatestWalk (c : List TdEntry) (t : Int) (e : TdEntry) (dep : Int) : Prop :=
  Usable c e dep ∧ dep + e.duration ≤ t ∧ ∀ e' dep', Usable c e' dep' → dep' + e'.duration ≤ t → dep' ≤ dep

/-- `e` can be started at `dep ≥ t`, and nothing can be started between. -/
def NextWalk (c : List TdEntry) (t : Int) (e : TdEntry) (dep : Int) : Prop :=
  Usable c e dep ∧ t ≤ dep ∧ ∀ e' dep', Usable c e' dep' → t ≤ dep' → dep ≤ dep'

theorem usable_unique {c : List TdEntry} {e e' : TdEntry} {t : Int} (h : Usable c e t) (h' : Usable c e' t) : e' = e := by
  obtain ⟨p, q, h1, -, h3, h4⟩ := h
  obtain ⟨p', q', h1', -, h3', h4'⟩ := h'
  rw [h1] at h1'
  rcases List.append_eq_append_iff.mp h1' with ⟨a, ha, hb⟩ | ⟨a, ha, hb⟩
  · cases a with
    | nil => simp at hb; exact hb.1.symm
    | cons x a =>
      simp at hb
      have := h4 e' (by rw [hb.2]; simp)
      omega
  · cases a with
    | nil => simp at hb; exact hb.1
    | cons x a =>
      simp at hb
      have := h4' e (by rw [hb.2]; simp)
      omega

/-- What the refinement of the first leg is about: `none` = nothing is changed. -/
theorem C122_first (td : Loc → Option (List TdEntry)) (l : Leg) (hs : ∀ x c, td x = some c → Sorted c) :
    refineFirst td l = l ∨
    ∃ o c e dep, l.offset = some o ∧ td o.target = some c ∧ NextWalk c l.dep e dep ∧
      refineFirst td l = ⟨l.src, l.dst, l.dep, l.dep + e.duration, some ⟨o.target, e.duration, o.mode⟩⟩ ∧
      ((∃ e', Usable c e' l.dep) → Usable c e l.dep) := by
  unfold refineFirst
  cases ho : l.offset with
  | none => exact Or.inl rfl
  | some o =>
    simp only
    cases hc : td o.target with
    | none => exact Or.inl rfl
    | some c =>
      simp only
      have hf := TdFootpath.C09_forward c (hs _ _ hc) l.dep
      cases hr : TdFootpath.fwd l.dep c with
      | none => exact Or.inl rfl
      | some r =>
        rw [hr] at hf
        obtain ⟨dep, h1, -, h3, -, h5⟩ := hf
        refine Or.inr ⟨o, c, r.2, dep, rfl, hc, ⟨h3, h1, fun e' dep' hu ht => h5 e' dep' ht hu⟩, rfl, ?_⟩
        rintro ⟨e', hu⟩
        have := h5 e' l.dep (by omega) hu
        rw [show l.dep = dep by omega]
        exact h3

theorem C122_last (td : Loc → Option (List TdEntry)) (l : Leg) (hs : ∀ x c, td x = some c → Sorted c) :
    refineLast td l = l ∨
    ∃ o c e dep, l.offset = some o ∧ td o.target = some c ∧ LatestWalk c l.arr e dep ∧
      refineLast td l = ⟨l.src, l.dst, l.arr - e.duration, l.arr, some ⟨o.target, e.duration, o.mode⟩⟩ ∧
      dep ≤ l.arr - e.duration ∧ (dep + e.duration = l.arr → Usable c e (l.arr - e.duration)) := by
  unfold refineLast
  cases ho : l.offset with
  | none => exact Or.inl rfl
  | some o =>
    simp only
    cases hc : td o.target with
    | none => exact Or.inl rfl
    | some c =>
      simp only
      have hf := TdFootpath.C09_backward c (hs _ _ hc) l.arr
      cases hr : TdFootpath.bwd l.arr c with
      | none => exact Or.inl rfl
      | some r =>
        rw [hr] at hf
        obtain ⟨dep, h1, h2, -, -, h5⟩ := hf
        refine Or.inr ⟨o, c, r.2, dep, rfl, hc, ⟨h1, h2, h5⟩, rfl, by omega, ?_⟩
        intro h
        rw [show l.arr - r.2.duration = dep by omega]
        exact h1

theorem modifyLast_get (f : Leg → Leg) : ∀ (ls : List Leg) (i : Nat),
    (modifyLast f ls)[i]? = (ls[i]?).map fun l => if i + 1 = ls.length then f l else l := by
  intro ls
  induction ls with
  | nil => intro i; simp [modifyLast]
  | cons a r ih =>
    intro i
    cases r with
    | nil => cases i <;> simp [modifyLast]
    | cons b r =>
      rw [modifyLast]
      cases i with
      | zero => simp
      | succ i => simp only [List.getElem?_cons_succ, ih, List.length_cons]; congr 1; funext l; simp

/-- C122: only the first leg may be changed as `C122_first` says, and, if there are at least two legs, the last one as
`C122_last` says. -/
theorem C122_legs (tdStart tdDest : Loc → Option (List TdEntry)) (legs : List Leg) (i : Nat) :
    (specify tdStart tdDest legs)[i]? = (legs[i]?).map fun l =>
      if i = 0 then refineFirst tdStart l else if i + 1 = legs.length then refineLast tdDest l else l := by
  unfold specify
  cases legs with
  | nil => simp
  | cons a r =>
    cases r with
    | nil => cases i <;> simp
    | cons b r =>
      cases i with
      | zero => simp
      | succ i => simp only [List.getElem?_cons_succ, modifyLast_get, List.length_cons]; congr 1; funext l; simp

/-- C122 (partial: no waiting before the walk): if one can start walking at the departure of the first leg, the leg
is a walk the schedule permits; so is the last leg if the walk that leaves last arrives exactly at its end. -/
theorem C122_permitted_partial (tdStart tdDest : Loc → Option (List TdEntry)) (legs : List Leg)
    (hs : ∀ x c, tdStart x = some c → Sorted c) (hd : ∀ x c, tdDest x = some c → Sorted c) :
    (∀ l l' o c, legs[0]? = some l → (specify tdStart tdDest legs)[0]? = some l' → l.offset = some o → tdStart o.target = some c →
      (∃ e, Usable c e l.dep) → ∃ e, Usable c e l'.dep ∧ l'.arr = l'.dep + e.duration ∧ l'.dep = l.dep) ∧
    (∀ i l l' o c, 0 < i → i + 1 = legs.length → legs[i]? = some l → (specify tdStart tdDest legs)[i]? = some l' → l.offset = some o →
      tdDest o.target = some c → (∃ e dep, LatestWalk c l.arr e dep ∧ dep + e.duration = l.arr) →
      ∃ e, Usable c e l'.dep ∧ l'.arr = l'.dep + e.duration ∧ l'.arr = l.arr) := by
  constructor
  · rintro l l' o c hl hl' ho hc ⟨e, hu⟩
    rw [C122_legs, hl] at hl'
    have hl' : refineFirst tdStart l = l' := by simpa using hl'
    have hf := TdFootpath.C09_forward c (hs _ _ hc) l.dep
    unfold refineFirst at hl'
    rw [ho] at hl'
    simp only [hc] at hl'
    cases hr : TdFootpath.fwd l.dep c with
    | none => rw [hr] at hf; have := hf e l.dep (by omega) hu; omega
    | some r =>
      rw [hr] at hf hl'
      obtain ⟨dep, h1, -, h3, -, h5⟩ := hf
      have := h5 e l.dep (by omega) hu
      subst hl'
      exact ⟨r.2, by show Usable c r.2 l.dep; rw [show l.dep = dep by omega]; exact h3, rfl, rfl⟩
  · rintro i l l' o c hi hlen hl hl' ho hc ⟨e, dep, ⟨hu, hle, hmax⟩, heq⟩
    rw [C122_legs, hl] at hl'
    have hl' : refineLast tdDest l = l' := by
      simpa [show i ≠ 0 by omega, hlen] using hl'
    have hf := TdFootpath.C09_backward c (hd _ _ hc) l.arr
    unfold refineLast at hl'
    rw [ho] at hl'
    simp only [hc] at hl'
    cases hr : TdFootpath.bwd l.arr c with
    | none =>
      rw [hr] at hf
      obtain ⟨e2, dep2, h1, h2, h3⟩ := hf e dep hu hle
      exfalso
      have hdur := hmax e2 dep2 h1
      have hsame : dep2 = dep := by
        by_cases h : dep2 + e2.duration ≤ l.arr
        · have := hdur h; omega
        · omega
      subst hsame
      have : e2 = e := usable_unique hu h1
      subst this
      omega
    | some r =>
      rw [hr] at hf hl'
      obtain ⟨dep2, h1, h2, -, -, h5⟩ := hf
      have h6 := h5 e dep hu hle
      have h7 := hmax r.2 dep2 h1 h2
      have hsame : dep2 = dep := by omega
      subst hsame
      have : r.2 = e := usable_unique hu h1
      subst hl'
      refine ⟨r.2, ?_, by show l.arr = l.arr - r.2.duration + r.2.duration; omega, rfl⟩
      show Usable c r.2 (l.arr - r.2.duration)
      rw [this, show l.arr - e.duration = dep2 by omega]
      exact hu

/-- Finding: if the walk is not possible yet at the departure, the waiting time is dropped but the departure is kept:
the leg is placed at a time when the walk is closed. -/
theorem C122_waiting_counterexample :
    let c : List TdEntry := [⟨0, 511⟩, ⟨600, 5⟩]
    Sorted c ∧ specify (fun _ => some c) (fun _ => none) [⟨9, 1, 500, 605, some ⟨1, 105, 7⟩⟩] =
        [⟨9, 1, 500, 505, some ⟨1, 5, 7⟩⟩] ∧ ∀ e, ¬ Usable c e 500 := by
  refine ⟨by simp [Sorted], by decide, ?_⟩
  intro e hu
  have := TdFootpath.C09_forward [⟨0, 511⟩, ⟨600, 5⟩] (by simp [Sorted]) 500
  rw [show TdFootpath.fwd 500 [⟨0, 511⟩, ⟨600, 5⟩] = some (105, ⟨600, 5⟩) by decide] at this
  obtain ⟨dep, h1, h2, -, h4, h5⟩ := this
  have := h5 e 500 (by omega) hu
  simp only at h4
  omega

/-- A journey with walks at both ends, both possible at once. -/
example : specify (fun _ => some [⟨0, 5⟩]) (fun _ => some [⟨0, 8⟩, ⟨900, 511⟩])
    [⟨9, 1, 500, 510, some ⟨1, 10, 7⟩⟩, ⟨1, 2, 510, 600, none⟩, ⟨2, 8, 600, 615, some ⟨2, 15, 7⟩⟩] =
    [⟨9, 1, 500, 505, some ⟨1, 5, 7⟩⟩, ⟨1, 2, 510, 600, none⟩, ⟨2, 8, 607, 615, some ⟨2, 8, 7⟩⟩] := by decide

example : Usable [⟨0, 5⟩] ⟨0, 5⟩ 500 := ⟨[], [], rfl, by decide, by decide, by simp⟩

end Nigiri.Ontrip
