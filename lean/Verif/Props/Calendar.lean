import Verif.Model.Calendar
/-!
# Properties C10 and C11: GTFS service days
-/

namespace Nigiri.Calendar

/-- C10 (weekdays): the weekday number is the one of the proleptic calendar: day 0 (1970-01-01) is a
Thursday and weekdays advance cyclically. -/
theorem C10_weekday (z : Int) : (weekday z : Int) = (z + 4) % 7 ∧ weekday z < 7 := by
  unfold weekday
  split
  · rw [Int.tmod_eq_emod_of_nonneg (by omega)]
    have := Int.emod_nonneg (z + 4) (show (7 : Int) ≠ 0 by decide)
    have := Int.emod_lt_of_pos (z + 4) (show (0 : Int) < 7 by decide)
    omega
  · rename_i h
    have h1 : Int.tmod (z + 5) 7 = -((-(z + 5)) % 7) := by
      rw [← Int.tmod_eq_emod_of_nonneg (by omega), ← Int.neg_tmod]
      congr 1; omega
    rw [h1]
    omega

private theorem fill_spec (wd : Nat → Bool) (to' : Int) :
    ∀ (n : Nat) (d : Int) (bit : Nat) (b : Bitfield), kMaxDays - bit = n →
      ∃ b', fill wd to' d bit b = some b' ∧
        ∀ i, b' i = if bit ≤ i ∧ i < kMaxDays ∧ d + (i - bit : Nat) < to' then
          wd (weekday (d + (i - bit : Nat))) else b i := by
  intro n
  induction n with
  | zero =>
    intro d bit b hn
    rw [fill, dif_neg (by omega)]
    exact ⟨b, rfl, fun i => by rw [if_neg (by omega)]⟩
  | succ n ih =>
    intro d bit b hn
    rw [fill]
    split
    · rename_i h
      simp only [Bitfield.set, if_pos h.2]
      obtain ⟨b', h1, h2⟩ := ih (d + 1) (bit + 1) (fun j => if j = bit then wd (weekday d) else b j) (by omega)
      refine ⟨b', h1, fun i => ?_⟩
      rw [h2]
      by_cases hi : i = bit
      · subst hi
        rw [if_neg (by omega), if_pos rfl, if_pos ⟨Nat.le_refl _, h.2, by have := h.1; omega⟩]
        simp
      · by_cases hlt : bit ≤ i
        · have e : d + 1 + ((i - (bit + 1) : Nat) : Int) = d + ((i - bit : Nat) : Int) := by omega
          rw [e]
          by_cases hc : bit + 1 ≤ i ∧ i < kMaxDays ∧ d + ((i - bit : Nat) : Int) < to'
          · rw [if_pos hc, if_pos (by omega)]
          · rw [if_neg hc, if_neg hi, if_neg (by omega)]
        · rw [if_neg (by omega), if_neg hi, if_neg (by omega)]
    · rename_i h
      refine ⟨b, rfl, fun i => ?_⟩
      rw [if_neg]
      rintro ⟨h1, h2, h3⟩
      apply h
      omega

/-- Specification: the row makes the service operate on day `d` within the timetable interval: `d`
is in the timetable, not before the row's start, before the row's (exclusive) end - or the row ends
exactly with the feed and the calendar is extended -, and its weekday is enabled. -/
def Operates (tt : Interval) (c : Row) (feedEnd : Option Int) (d : Int) : Prop :=
  tt.from' ≤ d ∧ d < tt.to' ∧ c.interval.from' ≤ d ∧
  (d < c.interval.to' ∨ feedEnd = some (c.interval.to' - 1)) ∧
  c.weekDays ((d + 4) % 7).toNat = true

/-- C10: for every timetable interval, calendar row and feed end date, bit `i` of the service's
traffic days is set iff day `tt.from + i` is an operating day of the row (bits exist up to 512). -/
theorem C10_calendar (tt : Interval) (htt : tt.from' ≤ tt.to') (c : Row) (feedEnd : Option Int) :
    ∃ b, toBitfield tt c feedEnd = some b ∧
      ∀ i, b i = true ↔ i < 512 ∧ Operates tt c feedEnd (tt.from' + i) := by
  have hwd : ∀ d, weekday d = ((d + 4) % 7).toNat := by
    intro d; have := (C10_weekday d).1; omega
  unfold toBitfield
  by_cases hskip : (!(tt.overlaps c.interval) && !(feedEnd == some (c.interval.to' - 1))) = true
  · simp only [hskip, if_true]
    refine ⟨_, rfl, fun i => ?_⟩
    simp only [Bitfield.empty, Bool.false_eq_true, false_iff]
    rintro ⟨-, h1, h2, h3, h4, -⟩
    simp only [Bool.and_eq_true, Bool.not_eq_true', beq_eq_false_iff_ne, ne_eq] at hskip
    rcases h4 with h4 | h4
    · have : tt.overlaps c.interval = true := by
        simp only [Interval.overlaps, Bool.and_eq_true, decide_eq_true_eq]; omega
      rw [this] at hskip; exact absurd hskip.1 (by decide)
    · exact hskip.2 h4
  · simp only [hskip, Bool.false_eq_true, if_false]
    simp only [Interval.clamp, if_neg (show ¬ tt.to' < tt.from' by omega)]
    obtain ⟨b, h1, h2⟩ := fill_spec c.weekDays
      (if (feedEnd == some (c.interval.to' - 1)) = true then tt.to' else
        if c.interval.to' < tt.from' then tt.from' else if tt.to' < c.interval.to' then tt.to' else c.interval.to')
      _ (if c.interval.from' < tt.from' then tt.from' else if tt.to' < c.interval.from' then tt.to' else c.interval.from')
      ((if c.interval.from' < tt.from' then tt.from' else if tt.to' < c.interval.from' then tt.to' else c.interval.from') - tt.from').toNat
      Bitfield.empty rfl
    refine ⟨b, h1, fun i => ?_⟩
    rw [h2]
    unfold Operates
    by_cases hext : feedEnd = some (c.interval.to' - 1)
    · simp only [hext, beq_self_eq_true, if_true, or_true, true_and]
      by_cases hcond : ((if c.interval.from' < tt.from' then tt.from' else if tt.to' < c.interval.from' then tt.to' else c.interval.from') - tt.from').toNat ≤ i ∧
          i < kMaxDays ∧ (if c.interval.from' < tt.from' then tt.from' else if tt.to' < c.interval.from' then tt.to' else c.interval.from') +
          ((i - ((if c.interval.from' < tt.from' then tt.from' else if tt.to' < c.interval.from' then tt.to' else c.interval.from') - tt.from').toNat : Nat) : Int) < tt.to'
      · rw [if_pos hcond]
        have e : (if c.interval.from' < tt.from' then tt.from' else if tt.to' < c.interval.from' then tt.to' else c.interval.from') +
          ((i - ((if c.interval.from' < tt.from' then tt.from' else if tt.to' < c.interval.from' then tt.to' else c.interval.from') - tt.from').toNat : Nat) : Int) = tt.from' + i := by
          split <;> (try split) <;> omega
        rw [e] at hcond ⊢
        rw [hwd]
        simp only [kMaxDays] at hcond
        constructor
        · intro hw
          refine ⟨hcond.2.1, by omega, hcond.2.2, ?_, hw⟩
          split at hcond
          · omega
          · split at hcond <;> omega
        · intro h; exact h.2.2.2.2
      · rw [if_neg hcond]
        simp only [Bitfield.empty, Bool.false_eq_true, false_iff]
        rintro ⟨g1, g2, g3, g4, -⟩
        apply hcond
        simp only [kMaxDays]
        split <;> (try split) <;> omega
    · have hne : (feedEnd == some (c.interval.to' - 1)) = false := by simpa using hext
      simp only [hne, Bool.false_eq_true, if_false, hext, or_false]
      simp only [hne, Bool.not_false, Bool.and_true, Bool.not_eq_true', Bool.not_eq_false] at hskip
      have hov : tt.from' < c.interval.to' ∧ tt.to' > c.interval.from' := by
        simpa only [Interval.overlaps, Bool.and_eq_true, decide_eq_true_eq] using hskip
      generalize hf : (if c.interval.from' < tt.from' then tt.from' else if tt.to' < c.interval.from' then tt.to' else c.interval.from') = f
      generalize ht : (if c.interval.to' < tt.from' then tt.from' else if tt.to' < c.interval.to' then tt.to' else c.interval.to') = t
      have hf' : f = max c.interval.from' tt.from' := by
        rw [← hf]; split <;> (try split) <;> omega
      have ht' : t = min c.interval.to' tt.to' := by
        rw [← ht]; split <;> (try split) <;> omega
      by_cases hcond : (f - tt.from').toNat ≤ i ∧ i < kMaxDays ∧ f + ((i - (f - tt.from').toNat : Nat) : Int) < t
      · rw [if_pos hcond]
        have e : f + ((i - (f - tt.from').toNat : Nat) : Int) = tt.from' + i := by omega
        rw [e] at hcond ⊢
        rw [hwd]
        simp only [kMaxDays] at hcond
        constructor
        · intro hw
          exact ⟨hcond.2.1, by omega, by omega, by omega, by omega, hw⟩
        · intro h; exact h.2.2.2.2.2
      · rw [if_neg hcond]
        simp only [Bitfield.empty, Bool.false_eq_true, false_iff]
        rintro ⟨g1, g2, g3, g4, g5, -⟩
        apply hcond
        simp only [kMaxDays]
        omega

/-- C10 (column layout): the weekday bits of a row enable Monday by the Monday column, and so on:
for 1970-01-05 (day 4), a Monday, up to 1970-01-11, a Sunday. -/
theorem C10_columns (mo tu we th fr sa su : Bool) :
    (List.map (fun d : Nat => weekDaysOf mo tu we th fr sa su (weekday ((d : Int) + 4))) [0, 1, 2, 3, 4, 5, 6])
      = [mo, tu, we, th, fr, sa, su] := by
  rfl

/-! ## C11 -/

/-- Specification: the last exception (in file order) for a day, if any. -/
def lastException (es : List Exception) (day : Int) : Option Bool :=
  (es.reverse.find? (fun e => e.day = day)).map (·.add)

private theorem addExceptions_spec (tt : Interval) (es : List Exception) (b : Bitfield) :
    ∃ b', addExceptions tt es b = some b' ∧
      ∀ i, i < 512 → b' i = (lastException es (tt.from' + i)).getD (b i) := by
  induction es generalizing b with
  | nil => exact ⟨b, rfl, fun i _ => rfl⟩
  | cons e es ih =>
    have hlast : ∀ d, lastException (e :: es) d = match lastException es d with
        | some x => some x
        | none => if e.day = d then some e.add else none := by
      intro d
      simp only [lastException, List.reverse_cons, List.find?_append]
      cases List.find? (fun e => decide (e.day = d)) es.reverse with
      | some x => simp
      | none => by_cases h : e.day = d <;> simp [h]
    simp only [addExceptions, addException]
    by_cases hr : e.day - tt.from' < 0 ∨ e.day - tt.from' ≥ (kMaxDays : Int)
    · rw [if_pos hr]
      obtain ⟨b', h1, h2⟩ := ih b
      refine ⟨b', h1, fun i hi => ?_⟩
      rw [h2 i hi, hlast]
      simp only [kMaxDays] at hr
      have : ¬ e.day = tt.from' + i := by omega
      cases lastException es (tt.from' + i) <;> simp [this]
    · rw [if_neg hr]
      simp only [kMaxDays] at hr
      have hlt : (e.day - tt.from').toNat < kMaxDays := by simp only [kMaxDays]; omega
      simp only [Bitfield.set, if_pos hlt]
      obtain ⟨b', h1, h2⟩ := ih (fun j => if j = (e.day - tt.from').toNat then e.add else b j)
      refine ⟨b', h1, fun i hi => ?_⟩
      rw [h2 i hi, hlast]
      cases lastException es (tt.from' + i) with
      | some x => rfl
      | none =>
        by_cases h : e.day = tt.from' + i
        · have : i = (e.day - tt.from').toNat := by omega
          rw [← this]; simp [h]
        · have : ¬ i = (e.day - tt.from').toNat := by omega
          simp [this, h]

private theorem addBase_spec (tt : Interval) (htt : tt.from' ≤ tt.to') (feedEnd : Option Int) (base : List (String × Row))
    (hn : (base.map (·.1)).Nodup) (s : Services) :
    ∃ s', addBase tt feedEnd base s = some s' ∧
      (∀ n c, (n, c) ∈ base → ∃ b, toBitfield tt c feedEnd = some b ∧ s' n = some b) ∧
      (∀ n, n ∉ base.map (·.1) → s' n = s n) := by
  induction base generalizing s with
  | nil => exact ⟨s, rfl, by simp, fun _ _ => rfl⟩
  | cons x base ih =>
    obtain ⟨n, c⟩ := x
    simp only [List.map_cons, List.nodup_cons] at hn
    obtain ⟨b, hb, -⟩ := C10_calendar tt htt c feedEnd
    simp only [addBase, hb]
    obtain ⟨s', h1, h2, h3⟩ := ih hn.2 (fun k => if k = n then some b else s k)
    refine ⟨s', h1, ?_, ?_⟩
    · intro m d hm
      simp only [List.mem_cons, Prod.mk.injEq] at hm
      rcases hm with ⟨rfl, rfl⟩ | hm
      · exact ⟨b, hb, by rw [h3 _ hn.1]; simp⟩
      · exact h2 m d hm
    · intro m hm
      simp only [List.map_cons, List.mem_cons, not_or] at hm
      rw [h3 m hm.2]; simp [hm.1]

private theorem addAll_spec (tt : Interval) (exs : List (String × List Exception))
    (hn : (exs.map (·.1)).Nodup) (s : Services) :
    ∃ s', addAllExceptions tt exs s = some s' ∧
      (∀ n es, (n, es) ∈ exs → es ≠ [] → ∃ b, addExceptions tt es ((s n).getD Bitfield.empty) = some b ∧ s' n = some b) ∧
      (∀ n, (∀ es, (n, es) ∈ exs → es = []) → s' n = s n) := by
  induction exs generalizing s with
  | nil => exact ⟨s, rfl, by simp, fun _ _ => rfl⟩
  | cons x exs ih =>
    obtain ⟨n, es⟩ := x
    simp only [List.map_cons, List.nodup_cons] at hn
    have hnot : ∀ es', (n, es') ∉ exs := by
      intro es' h; exact hn.1 (List.mem_map.mpr ⟨_, h, rfl⟩)
    simp only [addAllExceptions]
    by_cases he : es.isEmpty = true
    · rw [if_pos he]
      obtain ⟨s', h1, h2, h3⟩ := ih hn.2 s
      have he' : es = [] := by simpa using he
      refine ⟨s', h1, ?_, ?_⟩
      · intro m d hm hd
        simp only [List.mem_cons, Prod.mk.injEq] at hm
        rcases hm with ⟨rfl, rfl⟩ | hm
        · exact absurd he' hd
        · exact h2 m d hm hd
      · intro m hm; exact h3 m (fun d hd => hm d (by simp [hd]))
    · rw [if_neg he]
      obtain ⟨b, hb, -⟩ := addExceptions_spec tt es ((s n).getD Bitfield.empty)
      rw [hb]
      obtain ⟨s', h1, h2, h3⟩ := ih hn.2 (fun k => if k = n then some b else s k)
      refine ⟨s', h1, ?_, ?_⟩
      · intro m d hm hd
        simp only [List.mem_cons, Prod.mk.injEq] at hm
        rcases hm with ⟨rfl, rfl⟩ | hm
        · exact ⟨b, hb, by rw [h3 _ (fun d hd' => absurd hd' (hnot d))]; simp⟩
        · obtain ⟨b2, g1, g2⟩ := h2 m d hm hd
          have : m ≠ n := by rintro rfl; exact hnot d hm
          simp only [if_neg this] at g1
          exact ⟨b2, g1, g2⟩
      · intro m hm
        have : m ≠ n := by
          rintro rfl
          exact he (by simpa using hm es (by simp))
        rw [h3 m (fun d hd => hm d (by simp [hd]))]
        simp [this]

/-- C11: the final traffic days of a service contain timetable day `i < 512` iff the last exception
for that day adds it, or no exception mentions the day and the service's calendar row makes it
operate.  Exceptions for other days (in particular before the timetable or 512 or more days after
its begin) have no effect, and a service exists iff it has a calendar row or an exception. -/
theorem C11_exceptions (tt : Interval) (htt : tt.from' ≤ tt.to') (base : List (String × Row))
    (exceptions : List (String × List Exception)) (feedEnd : Option Int)
    (hb : (base.map (·.1)).Nodup) (he : (exceptions.map (·.1)).Nodup) :
    ∃ s, mergeTrafficDays tt base exceptions feedEnd = some s ∧
      ∀ (name : String) (row : Option Row) (es : List Exception),
        (∀ c, row = some c ↔ (name, c) ∈ base) →
        ((name, es) ∈ exceptions ∨ (name ∉ exceptions.map (·.1) ∧ es = [])) →
        match s name with
        | none => row = none ∧ es = []
        | some b => (row ≠ none ∨ es ≠ []) ∧ ∀ i, i < 512 →
            (b i = true ↔ lastException es (tt.from' + i) = some true ∨
              (lastException es (tt.from' + i) = none ∧
                ∃ c, row = some c ∧ Operates tt c feedEnd (tt.from' + i))) := by
  obtain ⟨s0, h1, h2, h3⟩ := addBase_spec tt htt feedEnd base hb (fun _ => none)
  obtain ⟨s1, g1, g2, g3⟩ := addAll_spec tt exceptions he s0
  refine ⟨s1, by simp only [mergeTrafficDays, h1, g1], ?_⟩
  intro name row es hrow hes
  have hs0 : ∀ i, i < 512 → ((s0 name).getD Bitfield.empty i = true ↔ ∃ c, row = some c ∧ Operates tt c feedEnd (tt.from' + i)) := by
    intro i hi
    cases row with
    | none =>
      have : name ∉ base.map (·.1) := by
        intro hm
        obtain ⟨⟨n, c⟩, hc, rfl⟩ := List.mem_map.mp hm
        exact absurd ((hrow c).mpr hc) (by simp)
      rw [h3 name this]
      simp [Bitfield.empty]
    | some c =>
      obtain ⟨b, hb1, hb2⟩ := h2 name c ((hrow c).mp rfl)
      obtain ⟨b', hb3, hb4⟩ := C10_calendar tt htt c feedEnd
      rw [hb1] at hb3; cases hb3
      rw [hb2]
      simp only [Option.getD_some, Option.some.injEq, exists_eq_left']
      rw [hb4]; simp [hi]
  have hs0' : s0 name = none ↔ row = none := by
    cases row with
    | none =>
      have : name ∉ base.map (·.1) := by
        intro hm
        obtain ⟨⟨n, c⟩, hc, rfl⟩ := List.mem_map.mp hm
        exact absurd ((hrow c).mpr hc) (by simp)
      simp [h3 name this]
    | some c =>
      obtain ⟨b, hb1, hb2⟩ := h2 name c ((hrow c).mp rfl)
      simp [hb2]
  by_cases hne : es = []
  · have hs1 : s1 name = s0 name := by
      apply g3
      intro es' hes'
      rcases hes with hes | hes
      · -- keys are unique
        have key : ∀ (l : List (String × List Exception)), (l.map (·.1)).Nodup → ∀ a b,
            (name, a) ∈ l → (name, b) ∈ l → a = b := by
          intro l
          induction l with
          | nil => simp
          | cons x l ih =>
            intro hl a b ha hb
            simp only [List.map_cons, List.nodup_cons] at hl
            simp only [List.mem_cons] at ha hb
            rcases ha with ha | ha <;> rcases hb with hb | hb
            · rw [← ha] at hb; exact (Prod.mk.inj hb).2.symm
            · exact absurd (List.mem_map.mpr ⟨_, hb, by rw [← ha]⟩) hl.1
            · exact absurd (List.mem_map.mpr ⟨_, ha, by rw [← hb]⟩) hl.1
            · exact ih hl.2 a b ha hb
        rw [key exceptions he es' es hes' hes]; exact hne
      · exact absurd (List.mem_map.mpr ⟨_, hes', rfl⟩) hes.1
    rw [hs1]
    cases hs : s0 name with
    | none => exact ⟨hs0'.mp hs, hne⟩
    | some b =>
      refine ⟨Or.inl (fun hr => by rw [hs0'.mpr hr] at hs; simp at hs), fun i hi => ?_⟩
      have := hs0 i hi
      rw [hs] at this
      subst hne
      simpa [lastException] using this
  · rcases hes with hes | hes
    · obtain ⟨b, hb1, hb2⟩ := g2 name es hes hne
      rw [hb2]
      refine ⟨Or.inr hne, fun i hi => ?_⟩
      obtain ⟨b', hb3, hb4⟩ := addExceptions_spec tt es ((s0 name).getD Bitfield.empty)
      rw [hb1] at hb3; cases hb3
      rw [hb4 i hi]
      cases hl : lastException es (tt.from' + i) with
      | none => simp only [Option.getD_none, reduceCtorEq, true_and, false_or]; exact hs0 i hi
      | some x => simp
    · exact absurd hes.2 hne

/-- C11 does not hold for days after the timetable end: an exception for a day after the timetable
interval but within 512 days of its begin does set a (never used) bit. -/
theorem C11_outside_timetable_counterexample :
    ∃ b, addException ⟨0, 10⟩ ⟨true, 11⟩ Bitfield.empty = some b ∧ b 11 = true ∧
      (⟨0, 10⟩ : Interval).contains 11 = false :=
  ⟨_, rfl, rfl, rfl⟩

/-- Example service: weekdays Monday to Friday in days `[3, 20)`, with two exceptions. -/
def exRow : Row := ⟨weekDaysOf true true true true true false false, ⟨3, 20⟩⟩

example : ((mergeTrafficDays ⟨0, 30⟩ [("S", exRow)] [("S", [⟨true, 2⟩, ⟨false, 4⟩, ⟨true, 4⟩, ⟨false, 5⟩])] none).bind
    (fun s => s "S")).map (fun b => (List.range 12).map b)
    = some [false, false, true, false, true, false, true, true, true, false, false, true] := by
  decide +kernel

end Nigiri.Calendar
