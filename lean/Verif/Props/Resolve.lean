import Verif.Model.Resolve
import Verif.Props.LocalToUtc
import Verif.Props.Packing
/-!
# Property C69: a trip descriptor finds the run it describes

Specification: a *run of the trip* is a transport and a day on which it is active, restricted to the
stops of the trip. Its *local departure* is the wall clock instant (minutes since the first timetable
midnight, on the clock of the service) of its first departure; its *service date* is the day it is
accounted to.
-/

namespace Nigiri.Resolve
open LocalToUtc

/-- Specification: `r` is a run of the trip: one of its transports on an active day. -/
def RunOf (tt : TT) (trip : Nat) (r : Run) : Prop :=
  ⟨r.t, r.fr, r.to⟩ ∈ tt.ranges trip ∧ r.day < 512 ∧ (tt.transport r.t).days r.day = true

/-- Specification: UTC instant of the first departure of the run, in minutes. -/
def utcDep (tt : TT) (r : Run) : Int := (r.day : Int) * 1440 + (tt.transport r.t).dep r.fr

/-- Specification: wall clock of the first departure of the run: UTC plus the stored UTC offset. -/
def localDep (tt : TT) (r : Run) : Int := utcDep tt r + (tt.transport r.t).off.toOffset.2

/-- Specification: the day the run is accounted to. -/
def serviceDate (tt : TT) (r : Run) : Int := (r.day : Int) - (tt.transport r.t).off.toOffset.1

/-- Specification: start time of the trip on the clock of its service day, "24:10" being 1450. -/
def startTime (tt : TT) (x : Range) : Int :=
  (tt.transport x.t).dep x.fr + (tt.transport x.t).off.toOffset.1 * 1440 + (tt.transport x.t).off.toOffset.2

/-- Specification: the run is the one meant by a date and, if given, a start time. -/
def Matches (tt : TT) (date : Int) : Option Int → Run → Prop
  | some T, r => localDep tt r = date * 1440 + T
  | none, r => serviceDate tt r = date

theorem isActive_iff (tr : Transport) (d : Nat) : isActive tr d = true ↔ d < 512 ∧ tr.days d = true := by
  unfold isActive kMaxDays; rw [Bool.and_eq_true, decide_eq_true_iff]

theorem tmod_nonneg (a : Int) (h : 0 ≤ a) : a.tmod 1440 = a % 1440 := Int.tmod_eq_emod_of_nonneg h
theorem tdiv_nonneg (a : Int) (h : 0 ≤ a) : a.tdiv 1440 = a / 1440 := Int.tdiv_eq_ediv_of_nonneg h

theorem resolveRange_none (tt : TT) (date : Int) (x : Range) (r : Run) :
    resolveRange tt date none x = some r ↔
      r.t = x.t ∧ r.fr = x.fr ∧ r.to = x.to ∧ isActive (tt.transport x.t) r.day = true ∧
      (r.day : Int) = date + (tt.transport x.t).off.toOffset.1 := by
  obtain ⟨t, d, f, u⟩ := r
  unfold resolveRange
  simp only [kMaxDays]
  generalize (tt.transport x.t).off.toOffset.1 = F
  simp only [Bool.false_eq_true, if_false, Int.sub_zero]
  by_cases h1 : date + F > (512 : Nat) ∨ date + F < 0
  · rw [if_pos h1]
    constructor
    · intro h; cases h
    · rintro ⟨-, -, -, h, h2⟩
      have := ((isActive_iff _ _).1 h).1
      omega
  · rw [if_neg h1]
    by_cases h2 : isActive (tt.transport x.t) (date + F).toNat = true
    · rw [if_pos h2]
      constructor
      · intro h
        have := Option.some.inj h
        injection this with a b c e
        subst a b c e
        exact ⟨rfl, rfl, rfl, h2, by omega⟩
      · rintro ⟨a, b, c, -, e⟩
        subst a b c
        have : d = (date + F).toNat := by omega
        subst this
        rfl
    · rw [if_neg h2]
      constructor
      · intro h; cases h
      · rintro ⟨-, -, -, h, h3⟩
        have : d = (date + F).toNat := by omega
        subst this
        exact absurd h h2

theorem resolveRange_some (tt : TT) (date T : Int) (hT : 0 ≤ T) (x : Range) (hL : 0 ≤ startTime tt x) (r : Run) :
    resolveRange tt date (some T) x = some r ↔
      r.t = x.t ∧ r.fr = x.fr ∧ r.to = x.to ∧ isActive (tt.transport x.t) r.day = true ∧
      (r.day : Int) * 1440 + (tt.transport x.t).dep x.fr + (tt.transport x.t).off.toOffset.2 = date * 1440 + T := by
  obtain ⟨t, d, f, u⟩ := r
  unfold startTime at hL
  unfold resolveRange split
  simp only [kMaxDays]
  generalize (tt.transport x.t).off.toOffset.1 = F at *
  generalize (tt.transport x.t).off.toOffset.2 = Z at *
  generalize (tt.transport x.t).dep x.fr = D at *
  rw [tmod_nonneg _ hT, tdiv_nonneg _ hT, tmod_nonneg _ hL, tdiv_nonneg _ hL]
  by_cases h0 : (D + F * 1440 + Z) % 1440 = T % 1440
  · have e0 : decide ((D + F * 1440 + Z) % 1440 ≠ T % 1440) = false := by simp [h0]
    rw [e0]
    simp only [Bool.false_eq_true, if_false]
    generalize hdd : date + F - ((D + F * 1440 + Z) / 1440 - T / 1440) = dd
    have key : ∀ n : Nat, (n : Int) = dd ↔ (n : Int) * 1440 + D + Z = date * 1440 + T := by
      intro n; constructor <;> intro h <;> omega
    by_cases h1 : dd > (512 : Nat) ∨ dd < 0
    · rw [if_pos h1]
      constructor
      · intro h; cases h
      · rintro ⟨-, -, -, h, h2⟩
        have := ((isActive_iff _ _).1 h).1
        have := (key d).2 h2
        omega
    · rw [if_neg h1]
      by_cases h2 : isActive (tt.transport x.t) dd.toNat = true
      · rw [if_pos h2]
        constructor
        · intro h
          have := Option.some.inj h
          injection this with a b c e
          subst a b c e
          exact ⟨rfl, rfl, rfl, h2, (key _).1 (by omega)⟩
        · rintro ⟨a, b, c, -, e⟩
          subst a b c
          have : d = dd.toNat := by have := (key d).2 e; omega
          subst this
          rfl
      · rw [if_neg h2]
        constructor
        · intro h; cases h
        · rintro ⟨-, -, -, h, h3⟩
          have : d = dd.toNat := by have := (key d).2 h3; omega
          subst this
          exact absurd h h2
  · have e0 : decide ((D + F * 1440 + Z) % 1440 ≠ T % 1440) = true := by simp [h0]
    rw [e0]
    simp only [if_true]
    constructor
    · intro h; cases h
    · rintro ⟨-, -, -, -, h3⟩
      omega

theorem resolveRange_active (tt : TT) (date : Int) (time : Option Int) (x : Range) (r : Run)
    (h : resolveRange tt date time x = some r) : ∃ d, d < 512 ∧ (tt.transport x.t).days d = true := by
  unfold resolveRange at h
  dsimp only at h
  repeat' (split at h)
  all_goals first
    | exact ⟨_, (isActive_iff _ _).1 (by assumption)⟩
    | exact absurd h (by simp)

/-- C69 (start date and time): the runs reported for a trip, a date and a start time are exactly the
runs of the trip that depart, on the local clock, at that time of that date (a time of 24 hours or more
counting into the following days). -/
theorem C69_start_time (tt : TT) (trip : Nat) (date T : Int) (hT : 0 ≤ T)
    (hL : ∀ x ∈ tt.ranges trip, (∃ d, d < 512 ∧ (tt.transport x.t).days d = true) → 0 ≤ startTime tt x) (r : Run) :
    r ∈ resolveTrip tt date (some T) trip ↔ RunOf tt trip r ∧ localDep tt r = date * 1440 + T := by
  unfold resolveTrip RunOf localDep utcDep
  rw [List.mem_filterMap]
  constructor
  · rintro ⟨x, hx, h⟩
    obtain ⟨a, b, c, d, e⟩ := (resolveRange_some tt date T hT x (hL x hx (resolveRange_active _ _ _ _ _ h)) r).1 h
    obtain ⟨t, dy, f, u⟩ := r
    dsimp only at a b c d e ⊢
    subst a b c
    exact ⟨⟨hx, (isActive_iff _ _).1 d⟩, e⟩
  · rintro ⟨⟨h1, h2⟩, h3⟩
    exact ⟨_, h1, (resolveRange_some tt date T hT _ (hL _ h1 ⟨_, h2⟩) r).2
      ⟨rfl, rfl, rfl, (isActive_iff _ _).2 h2, h3⟩⟩

/-- C69 (start date only): the runs reported for a trip and a date are exactly the runs of the trip
accounted to that date. -/
theorem C69_start_date (tt : TT) (trip : Nat) (date : Int) (r : Run) :
    r ∈ resolveTrip tt date none trip ↔ RunOf tt trip r ∧ serviceDate tt r = date := by
  unfold resolveTrip RunOf serviceDate
  rw [List.mem_filterMap]
  constructor
  · rintro ⟨x, hx, h⟩
    obtain ⟨a, b, c, d, e⟩ := (resolveRange_none tt date x r).1 h
    obtain ⟨t, dy, f, u⟩ := r
    dsimp only at a b c d e ⊢
    subst a b c
    exact ⟨⟨hx, (isActive_iff _ _).1 d⟩, by omega⟩
  · rintro ⟨⟨h1, h2⟩, h3⟩
    exact ⟨_, h1, (resolveRange_none tt date _ r).2
      ⟨rfl, rfl, rfl, (isActive_iff _ _).2 h2, by dsimp only; omega⟩⟩

/-! ### The id table -/

theorem lexLt_irrefl (a : List Nat) : lexLt a a = false := by
  induction a with
  | nil => rfl
  | cons x xs ih => simp [lexLt, ih]

theorem lexLt_trans : ∀ a b c : List Nat, lexLt a b = true → lexLt b c = true → lexLt a c = true
  | [], [], _, h, _ => by simp [lexLt] at h
  | [], _ :: _, [], _, h => by simp [lexLt] at h
  | [], _ :: _, _ :: _, _, _ => rfl
  | _ :: _, [], _, h, _ => by simp [lexLt] at h
  | _ :: _, _ :: _, [], _, h => by simp [lexLt] at h
  | x :: xs, y :: ys, z :: zs, h1, h2 => by
    simp only [lexLt, Bool.or_eq_true, Bool.and_eq_true, decide_eq_true_eq] at *
    rcases h1 with h1 | ⟨rfl, h1⟩
    · rcases h2 with h2 | ⟨rfl, h2⟩
      · left; omega
      · left; exact h1
    · rcases h2 with h2 | ⟨rfl, h2⟩
      · left; exact h2
      · right; exact ⟨rfl, lexLt_trans _ _ _ h1 h2⟩

theorem lexLt_total : ∀ a b : List Nat, lexLt a b = true ∨ a = b ∨ lexLt b a = true
  | [], [] => by simp
  | [], _ :: _ => by simp [lexLt]
  | _ :: _, [] => by simp [lexLt]
  | x :: xs, y :: ys => by
    simp only [lexLt, Bool.or_eq_true, Bool.and_eq_true, decide_eq_true_eq, List.cons.injEq]
    rcases Nat.lt_trichotomy x y with h | h | h
    · exact .inl (.inl h)
    · rcases lexLt_total xs ys with h' | h' | h'
      · exact .inl (.inr ⟨h, h'⟩)
      · exact .inr (.inl ⟨h, h'⟩)
      · exact .inr (.inr (.inr ⟨h.symm, h'⟩))
    · exact .inr (.inr (.inl h))

/-- `std::lower_bound` finds the partition point. -/
theorem lowerBound_spec (p : Nat → Bool) (first len : Nat)
    (hp : ∀ i j, first ≤ i → i ≤ j → j < first + len → p j = true → p i = true) :
    first ≤ lowerBound p first len ∧ lowerBound p first len ≤ first + len ∧
    (∀ i, first ≤ i → i < lowerBound p first len → p i = true) ∧
    (∀ i, lowerBound p first len ≤ i → i < first + len → p i = false) := by
  fun_induction lowerBound p first len with
  | case1 first => exact ⟨by omega, by omega, by omega, by omega⟩
  | case2 first len h half hm ih =>
    have hhalf : half < len := by show len / 2 < len; omega
    obtain ⟨a, b, c, d⟩ := ih (fun i j h1 h2 h3 h4 => hp i j (by omega) h2 (by omega) h4)
    refine ⟨by omega, by omega, fun i h1 h2 => ?_, fun i h1 h2 => d i h1 (by omega)⟩
    by_cases hi : i ≤ first + half
    · exact hp i (first + half) h1 hi (by omega) hm
    · exact c i (by omega) h2
  | case3 first len h half hm ih =>
    have hhalf : half < len := by show len / 2 < len; omega
    obtain ⟨a, b, c, d⟩ := ih (fun i j h1 h2 h3 h4 => hp i j (by omega) h2 (by omega) h4)
    refine ⟨a, by omega, c, fun i h1 h2 => ?_⟩
    by_cases hi : i < first + half
    · exact d i h1 hi
    · by_cases hpi : p i = true
      · exact absurd (hp (first + half) i (by omega) (by omega) h2 hpi) hm
      · simpa using hpi

/-- Specification: the id table is sorted by (source, id). -/
def IdsSorted (tt : TT) : Prop := tt.ids.Pairwise fun a b => lexLt b.1 a.1 = false

theorem takeWhile_sorted (id : TripId) : ∀ l : List (TripId × Nat),
    (l.Pairwise fun a b => lexLt b.1 a.1 = false) → (∀ e ∈ l, lexLt e.1 id = false) →
    l.takeWhile (fun e => e.1 == id) = l.filter fun e => e.1 == id
  | [], _, _ => rfl
  | e :: l, hs, hl => by
    rw [List.pairwise_cons] at hs
    by_cases h : e.1 = id
    · rw [List.takeWhile_cons, List.filter_cons, if_pos (by simp [h]), if_pos (by simp [h]),
        takeWhile_sorted id l hs.2 (fun x hx => hl x (List.mem_cons_of_mem _ hx))]
    · rw [List.takeWhile_cons, List.filter_cons, if_neg (by simp [h]), if_neg (by simp [h])]
      symm
      rw [List.filter_eq_nil_iff]
      intro x hx hxe
      have hxe : x.1 = id := by simpa using hxe
      have h1 := hs.1 x hx
      have h2 := hl e (by simp)
      rcases lexLt_total e.1 id with h3 | h3 | h3
      · rw [h3] at h2; cases h2
      · exact h h3
      · rw [hxe, h3] at h1; cases h1

/-- C69 (trip id): in a sorted id table, the binary search followed by the scan visits exactly the
trips registered under the id, in table order, each as often as it is registered. -/
theorem C69_trip_id (tt : TT) (hs : IdsSorted tt) (id : TripId) :
    tripsOf tt id = (tt.ids.filter fun e => e.1 == id).map (·.2) := by
  have hget : ∀ (i j : Nat) (a b : TripId × Nat), i < j → tt.ids[i]? = some a → tt.ids[j]? = some b →
      lexLt b.1 a.1 = false := by
    intro i j a b hij ha hb
    obtain ⟨h1, rfl⟩ := List.getElem?_eq_some_iff.1 ha
    obtain ⟨h2, rfl⟩ := List.getElem?_eq_some_iff.1 hb
    exact List.pairwise_iff_getElem.1 hs i j h1 h2 hij
  have hle : ∀ a b : List Nat, lexLt b a = false → lexLt b id = true → lexLt a id = true := by
    intro a b h1 h2
    rcases lexLt_total a b with h | h | h
    · exact lexLt_trans _ _ _ h h2
    · rw [h]; exact h2
    · rw [h] at h1; cases h1
  unfold tripsOf
  obtain ⟨-, hlen, hlt, hge⟩ := lowerBound_spec
    (fun i => match tt.ids[i]? with | some e => lexLt e.1 id | none => false) 0 tt.ids.length (by
      intro i j _ hij hj hpj
      rcases Nat.lt_or_eq_of_le hij with hij | rfl
      · have hj' : tt.ids[j]? = some tt.ids[j] := by simp at hj ⊢
        have hi' : tt.ids[i]? = some tt.ids[i] := by simp
        simp only [hj', hi'] at hpj ⊢
        exact hle _ _ (hget i j _ _ hij hi' hj') hpj
      · exact hpj)
  generalize lowerBound (fun i => match tt.ids[i]? with | some e => lexLt e.1 id | none => false)
    0 tt.ids.length = lb at *
  dsimp only
  rw [takeWhile_sorted id _ (hs.sublist (List.drop_sublist _ _)) (by
    intro e he
    obtain ⟨i, hi, rfl⟩ := List.getElem_of_mem he
    rw [List.length_drop] at hi
    have := hge (lb + i) (by omega) (by omega)
    rw [List.getElem?_eq_getElem (by omega)] at this
    rw [List.getElem_drop]; exact this)]
  congr 1
  conv => rhs; rw [← List.take_append_drop lb tt.ids, List.filter_append]
  have : (tt.ids.take lb).filter (fun e => e.1 == id) = [] := by
    rw [List.filter_eq_nil_iff]
    intro e he hid
    have hid : e.1 = id := by simpa using hid
    obtain ⟨i, hi, rfl⟩ := List.getElem_of_mem he
    rw [List.length_take] at hi
    have := hlt i (by omega) (by omega)
    rw [List.getElem?_eq_getElem (by omega)] at this
    rw [List.getElem_take] at hid
    dsimp only at this
    rw [hid, lexLt_irrefl] at this
    cases this
  rw [this, List.nil_append]

/-- The table built by `finalize` is sorted and contains exactly the registered entries. -/
theorem C69_id_table (l : List (TripId × Nat)) :
    (sortIds l).Pairwise (fun a b => lexLt b.1 a.1 = false) ∧ (sortIds l).Perm l := by
  have hins : ∀ (e : TripId × Nat) l, (insertId e l).Perm (e :: l) := by
    intro e l
    induction l with
    | nil => exact List.Perm.refl _
    | cons x xs ih =>
      unfold insertId
      split
      · exact List.Perm.refl _
      · exact (ih.cons x).trans (List.Perm.swap e x xs)
  induction l with
  | nil => exact ⟨List.Pairwise.nil, List.Perm.refl _⟩
  | cons e l ih =>
    have hd : sortIds (e :: l) = insertId e (sortIds l) := rfl
    rw [hd]
    refine ⟨?_, (hins e _).trans (ih.2.cons e)⟩
    have hs := ih.1
    generalize sortIds l = s at hs
    induction s with
    | nil => simp [insertId]
    | cons x xs ihs =>
      rw [List.pairwise_cons] at hs
      unfold insertId
      have hasym : ∀ a b : List Nat, lexLt a b = true → lexLt b a = false := by
        intro a b h
        by_cases h' : lexLt b a = true
        · have := lexLt_trans _ _ _ h h'
          rw [lexLt_irrefl] at this; cases this
        · simpa using h'
      split
      · rename_i hlt
        rw [List.pairwise_cons]
        refine ⟨?_, by rw [List.pairwise_cons]; exact hs⟩
        intro y hy
        rcases List.mem_cons.1 hy with rfl | hy
        · exact hasym _ _ hlt
        · have h1 := hs.1 y hy
          by_cases h' : lexLt y.1 e.1 = true
          · rw [lexLt_trans _ _ _ h' hlt] at h1; cases h1
          · simpa using h'
      · rename_i hlt
        rw [List.pairwise_cons]
        refine ⟨?_, ihs hs.2⟩
        intro y hy
        rcases List.mem_cons.1 ((hins e xs).mem_iff.1 hy) with rfl | hy
        · simpa using hlt
        · exact hs.1 y hy

/-! ### What `gtfsrt_resolve_run` and `resolve` return -/

theorem lastFirst_spec (tt : TT) (date : Int) (time : Option Int) (trips : List Nat) :
    ∀ o, lastFirst tt date time trips = o →
    (∀ r t, o = some (r, t) → t ∈ trips ∧ r ∈ resolveTrip tt date time t) ∧
    (o = none → ∀ t ∈ trips, resolveTrip tt date time t = []) := by
  unfold lastFirst
  suffices h : ∀ (ts done : List Nat) (acc : Option (Run × Nat)),
      ((∀ r t, acc = some (r, t) → t ∈ done ∧ r ∈ resolveTrip tt date time t) ∧
        (acc = none → ∀ t ∈ done, resolveTrip tt date time t = [])) →
      ∀ o, ts.foldl (lfStep tt date time) acc = o →
      (∀ r t, o = some (r, t) → t ∈ done ++ ts ∧ r ∈ resolveTrip tt date time t) ∧
      (o = none → ∀ t ∈ done ++ ts, resolveTrip tt date time t = []) by
    have := h trips [] none (by simp)
    simpa using this
  intro ts
  induction ts with
  | nil => intro done acc h o ho; simp only [List.foldl_nil] at ho; subst ho; simpa using h
  | cons x xs ih =>
    intro done acc h o ho
    rw [List.foldl_cons] at ho
    have := ih (done ++ [x]) _ (by
      unfold lfStep
      cases hx : (resolveTrip tt date time x).head? with
      | none =>
        dsimp only
        refine ⟨fun r t hrt => ⟨List.mem_append_left _ (h.1 r t hrt).1, (h.1 r t hrt).2⟩, fun hn t ht => ?_⟩
        rcases List.mem_append.1 ht with ht | ht
        · exact h.2 hn t ht
        · rw [List.mem_singleton.1 ht]; exact List.head?_eq_none_iff.1 hx
      | some r0 =>
        dsimp only
        refine ⟨fun r t hrt => ?_, fun hn => by cases hn⟩
        have := Option.some.inj hrt
        injection this with a b
        subst a b
        exact ⟨by simp, List.mem_of_head? hx⟩) o ho
    simpa using this

/-- C69 (API): `gtfsrt_resolve_run` for a trip id returns a run of a trip with that id that matches the
given date (and time, if there is one), and returns none only if there is no such run. `date` is the
start date of the descriptor, or `today` if it has none. -/
theorem C69_resolve (tt : TT) (hs : IdsSorted tt) (today : Int) (id : TripId) (date time : Option Int)
    (hT : ∀ T ∈ time, 0 ≤ T) (hL : ∀ trip, ∀ x ∈ tt.ranges trip, (∃ d, d < 512 ∧ (tt.transport x.t).days d = true) → 0 ≤ startTime tt x) :
    ∃ o, resolve tt today { tripId := some id, date := date, time := time } = some o ∧
      (∀ r trip, o = some (r, trip) → (id, trip) ∈ tt.ids ∧ RunOf tt trip r ∧
        Matches tt (date.getD today) time r) ∧
      (o = none → ¬ ∃ r trip, (id, trip) ∈ tt.ids ∧ RunOf tt trip r ∧
        Matches tt (date.getD today) time r) := by
  have hmem : ∀ trip, trip ∈ tripsOf tt id ↔ (id, trip) ∈ tt.ids := by
    intro trip
    rw [C69_trip_id tt hs, List.mem_map]
    constructor
    · rintro ⟨⟨a, b⟩, h, rfl⟩
      rw [List.mem_filter] at h
      have : a = id := by simpa using h.2
      subst this; exact h.1
    · intro h
      exact ⟨(id, trip), by simp [List.mem_filter, h], rfl⟩
  have hrun : ∀ r trip, r ∈ resolveTrip tt (date.getD today) time trip ↔ RunOf tt trip r ∧
      Matches tt (date.getD today) time r := by
    intro r trip
    cases time with
    | none => exact C69_start_date tt trip _ r
    | some T => exact C69_start_time tt trip _ T (hT T rfl) (hL trip) r
  obtain ⟨h1, h2⟩ := lastFirst_spec tt (date.getD today) time (tripsOf tt id) _ rfl
  refine ⟨_, rfl, ?_, ?_⟩
  · intro r trip h
    obtain ⟨a, b⟩ := h1 r trip h
    exact ⟨(hmem trip).1 a, (hrun r trip).1 b⟩
  · rintro h ⟨r, trip, a, b⟩
    have := h2 h trip ((hmem trip).2 a)
    have hb := (hrun r trip).2 b
    rw [this] at hb
    cases hb

/-- **C69 (by route).** A descriptor without trip id, with route, direction, start date and start time:
the run found is one of a trip of the route in this direction that leaves on the date at the time, and if
none is found there is no such run. Direction ids other than 0 count as 1. -/
theorem C69_route (tt : TT) (today : Int) (route : TripId) (dir : Nat) (date T : Int) (hT : 0 ≤ T)
    (hL : ∀ trip, ∀ x ∈ tt.ranges trip, (∃ d, d < 512 ∧ (tt.transport x.t).days d = true) → 0 ≤ startTime tt x) :
    ∃ o, resolve tt today { route := some route, dir := some dir, date := some date, time := some T } = some o ∧
      (∀ r trip, o = some (r, trip) → (∃ ts, tt.routeTrips route = some ts ∧ trip ∈ ts) ∧
        (tt.direction trip = true ↔ dir ≠ 0) ∧ RunOf tt trip r ∧ Matches tt date (some T) r) ∧
      (o = none → ¬ ∃ r trip ts, tt.routeTrips route = some ts ∧ trip ∈ ts ∧ (tt.direction trip = true ↔ dir ≠ 0) ∧
        RunOf tt trip r ∧ Matches tt date (some T) r) := by
  have hrun : ∀ r trip, r ∈ resolveTrip tt date (some T) trip ↔ RunOf tt trip r ∧ Matches tt date (some T) r :=
    fun r trip => C69_start_time tt trip _ T hT (hL trip) r
  have hdir : ∀ trip, (tt.direction trip == decide ((if dir = 0 then 0 else 1) ≠ 0)) = true ↔ (tt.direction trip = true ↔ dir ≠ 0) := by
    intro trip
    by_cases h : dir = 0
    · simp [h]
    · simp [h]
  unfold resolve
  cases hr : tt.routeTrips route with
  | none =>
    refine ⟨none, by simp [hr], by simp, ?_⟩
    rintro - ⟨r, trip, ts, h, -⟩
    cases h
  | some ts =>
    obtain ⟨h1, h2⟩ := lastFirst_spec tt date (some T) (ts.filter fun t => tt.direction t == decide ((if dir = 0 then 0 else 1) ≠ 0)) _ rfl
    refine ⟨_, (by simp only [hr]; rfl), ?_, ?_⟩
    · intro r trip h
      obtain ⟨a, b⟩ := h1 r trip h
      rw [List.mem_filter] at a
      exact ⟨⟨ts, rfl, a.1⟩, (hdir trip).1 a.2, (hrun r trip).1 b⟩
    · rintro h ⟨r, trip, ts', hts, hm, hd, b⟩
      cases hts
      have := h2 h trip (List.mem_filter.2 ⟨hm, (hdir trip).2 hd⟩)
      have hb := (hrun r trip).2 b
      rw [this] at hb
      cases hb

/-- A descriptor with neither trip id nor all of route, direction, date and time is rejected. -/
theorem C69_rejected (tt : TT) (today : Int) (td : Descriptor) (h : td.tripId = none) :
    resolve tt today td = none ↔ td.route = none ∨ td.dir = none ∨ td.time = none ∨ td.date = none := by
  unfold resolve
  rw [h]
  cases hr : td.route <;> cases hd : td.dir <;> cases ht : td.time <;> cases hda : td.date <;> simp
  split <;> simp

end Nigiri.Resolve
