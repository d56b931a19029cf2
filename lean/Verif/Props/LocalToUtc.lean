import Verif.Model.LocalToUtc
/-!
# Property C15: local time expansion preserves the absolute instants
-/

namespace Nigiri.LocalToUtc

/-- Specification: local service day `g` of the trip is to be expanded: it is a timetable day, the
service runs on it, its days touch the selection, and its UTC day is representable. -/
def ServiceDay (e : Env) (trips : List FTrip) (g : Nat) : Prop :=
  g < e.nDays ∧ e.traffic g = true ∧ inSelection e trips g = true ∧
  0 ≤ (g : Int) + (firstDep trips - e.noonOffset g) / 1440 ∧
  (g : Int) + (firstDep trips - e.noonOffset g) / 1440 < 512

private def Run (m : KeyMap) (k : Key) (d : Nat) : Prop := ∃ b, (k, b) ∈ m ∧ b d = true

private def NodupKeys (m : KeyMap) : Prop := (m.map (·.1)).Nodup

private theorem setIn_keys (k : Key) (i : Nat) (m : KeyMap) : (setIn k i m).map (·.1) = m.map (·.1) := by
  induction m with
  | nil => rfl
  | cons x m ih => obtain ⟨k', b⟩ := x; unfold setIn; split <;> simp [ih]

private theorem run_setIn (k : Key) (i : Nat) (m : KeyMap) (hn : NodupKeys m) (hk : ∃ b, (k, b) ∈ m) (k' : Key) (d : Nat) :
    Run (setIn k i m) k' d ↔ Run m k' d ∨ (k' = k ∧ d = i) := by
  induction m with
  | nil => obtain ⟨b, hb⟩ := hk; simp at hb
  | cons x m ih =>
    obtain ⟨kx, bx⟩ := x
    have hn' : NodupKeys m := by unfold NodupKeys at hn ⊢; simp at hn; exact hn.2
    have hkx : ∀ b, (kx, b) ∉ m := by
      unfold NodupKeys at hn; simp at hn; exact hn.1
    unfold setIn
    by_cases h : kx = k
    · subst h
      rw [if_pos rfl]
      constructor
      · rintro ⟨b, hb, hd⟩
        simp at hb
        rcases hb with ⟨rfl, rfl⟩ | hb
        · unfold setBit at hd
          by_cases hdi : d = i
          · right; exact ⟨rfl, hdi⟩
          · rw [if_neg hdi] at hd; left; exact ⟨bx, by simp, hd⟩
        · left; exact ⟨b, by simp [hb], hd⟩
      · rintro (⟨b, hb, hd⟩ | ⟨rfl, rfl⟩)
        · simp at hb
          rcases hb with ⟨rfl, rfl⟩ | hb
          · exact ⟨_, List.mem_cons_self, by unfold setBit; split <;> simp [hd]⟩
          · exact ⟨b, by simp [hb], hd⟩
        · exact ⟨_, List.mem_cons_self, by simp [setBit]⟩
    · rw [if_neg h]
      have hk' : ∃ b, (k, b) ∈ m := by
        obtain ⟨b, hb⟩ := hk
        simp at hb
        rcases hb with ⟨rfl, -⟩ | hb
        · exact absurd rfl h
        · exact ⟨b, hb⟩
      have ih := ih hn' hk'
      have hcons : ∀ m' : KeyMap, Run ((kx, bx) :: m') k' d ↔ (k' = kx ∧ bx d = true) ∨ Run m' k' d := by
        intro m'
        constructor
        · rintro ⟨b, hb, hd⟩
          simp at hb
          rcases hb with ⟨rfl, rfl⟩ | hb
          · left; exact ⟨rfl, hd⟩
          · right; exact ⟨b, hb, hd⟩
        · rintro (⟨rfl, hd⟩ | ⟨b, hb, hd⟩)
          · exact ⟨bx, by simp, hd⟩
          · exact ⟨b, by simp [hb], hd⟩
      rw [hcons, hcons, ih]
      constructor
      · rintro (h | h | h)
        · left; left; exact h
        · left; right; exact h
        · right; exact h
      · rintro ((h | h) | h)
        · left; exact h
        · right; left; exact h
        · right; right; exact h

private theorem emplace_nodup (k : Key) (m : KeyMap) (hn : NodupKeys m) : NodupKeys (emplace k m) := by
  unfold emplace
  split
  · exact hn
  · rename_i h
    unfold NodupKeys at hn ⊢
    simp only [List.map_append, List.map_cons, List.map_nil]
    rw [List.nodup_append]
    refine ⟨hn, by simp, ?_⟩
    intro a ha b hb
    simp at hb; subst hb
    rintro rfl
    apply h
    simp only [List.mem_map] at ha
    obtain ⟨x, hx, hx'⟩ := ha
    rw [List.any_eq_true]
    exact ⟨x, hx, by simpa using hx'⟩

private theorem emplace_mem (k : Key) (m : KeyMap) : ∃ b, (k, b) ∈ emplace k m := by
  unfold emplace
  split
  · rename_i h
    rw [List.any_eq_true] at h
    obtain ⟨⟨k', b⟩, hx, hx'⟩ := h
    simp at hx'; subst hx'
    exact ⟨b, hx⟩
  · exact ⟨_, by simp; right; rfl⟩

private theorem run_emplace (k : Key) (m : KeyMap) (k' : Key) (d : Nat) : Run (emplace k m) k' d ↔ Run m k' d := by
  unfold emplace
  split
  · rfl
  · constructor
    · rintro ⟨b, hb, hd⟩
      simp at hb
      rcases hb with hb | ⟨rfl, rfl⟩
      · exact ⟨b, hb, hd⟩
      · simp at hd
    · rintro ⟨b, hb, hd⟩
      exact ⟨b, by simp [hb], hd⟩

private def SelDay (e : Env) (trips : List FTrip) (g : Nat) : Prop :=
  e.traffic g = true ∧ inSelection e trips g = true ∧
  0 ≤ (g : Int) + (firstDep trips - e.noonOffset g) / 1440 ∧
  (g : Int) + (firstDep trips - e.noonOffset g) / 1440 < 512

private structure Inv (e : Env) (trips : List FTrip) (done : Nat → Prop) (st : St) : Prop where
  nodup : NodupKeys st.map
  runs : ∀ k d, Run st.map k d ↔ ∃ g, done g ∧ SelDay e trips g ∧ keyOf e trips g = k ∧
    (d : Int) = (g : Int) + k.dayOffset
  prev : ∀ k, st.prevIt = some k → st.prevKey = k ∧ ∃ b, (k, b) ∈ st.map
  prevNone : st.prevIt = none → st.prevKey = ⟨2, -1⟩

private theorem step_inv (e : Env) (trips : List FTrip) (done : Nat → Prop) (st : St) (g : Nat)
    (hI : Inv e trips done st) (hkey : SelDay e trips g → keyOf e trips g ≠ ⟨2, -1⟩) :
    ∃ st', step e trips st g = some st' ∧ Inv e trips (fun x => done x ∨ x = g) st' := by
  have skip : ¬ SelDay e trips g → Inv e trips (fun x => done x ∨ x = g) st := by
    intro hns
    refine ⟨hI.nodup, ?_, hI.prev, hI.prevNone⟩
    intro k d
    rw [hI.runs]
    constructor
    · rintro ⟨x, h1, h2⟩; exact ⟨x, Or.inl h1, h2⟩
    · rintro ⟨x, h1 | rfl, h2⟩
      · exact ⟨x, h1, h2⟩
      · exact absurd h2.1 hns
  unfold step
  by_cases c1 : inSelection e trips g = true
  case neg => simp [c1]; exact skip (fun h => c1 h.2.1)
  by_cases c2 : e.traffic g = true
  case neg => simp [c1, c2]; exact skip (fun h => c2 h.1)
  simp only [c1, c2, Bool.not_true, Bool.false_eq_true, if_false]
  by_cases c3 : (g : Int) + (keyOf e trips g).dayOffset < 0 ∨ (g : Int) + (keyOf e trips g).dayOffset ≥ kMaxDays
  · rw [if_pos c3]
    refine ⟨_, rfl, skip ?_⟩
    rintro ⟨-, -, h1, h2⟩
    simp only [keyOf, kMaxDays] at c3
    omega
  · rw [if_neg c3]
    have hsel : SelDay e trips g := by
      simp only [keyOf, kMaxDays] at c3
      exact ⟨c2, c1, by omega, by omega⟩
    have hne := hkey hsel
    have hd : (((g : Int) + (keyOf e trips g).dayOffset).toNat : Int) = (g : Int) + (keyOf e trips g).dayOffset := by
      omega
    -- common: result of setting the bit
    have hruns : ∀ m, NodupKeys m → (∃ b, (keyOf e trips g, b) ∈ m) → (∀ k d, Run m k d ↔ Run st.map k d) →
        ∀ k d, Run (setIn (keyOf e trips g) ((g : Int) + (keyOf e trips g).dayOffset).toNat m) k d ↔
        ∃ x, (done x ∨ x = g) ∧ SelDay e trips x ∧ keyOf e trips x = k ∧ (d : Int) = (x : Int) + k.dayOffset := by
      intro m hm1 hm2 hm3 k d
      rw [run_setIn _ _ _ hm1 hm2, hm3, hI.runs]
      constructor
      · rintro (⟨x, h1, h2⟩ | ⟨rfl, h2⟩)
        · exact ⟨x, Or.inl h1, h2⟩
        · exact ⟨g, Or.inr rfl, hsel, rfl, by rw [h2]; exact hd⟩
      · rintro ⟨x, h1 | rfl, h2, h3, h4⟩
        · left; exact ⟨x, h1, h2, h3, h4⟩
        · right; subst h3; refine ⟨rfl, ?_⟩; omega
    by_cases c4 : keyOf e trips g = st.prevKey
    · rw [if_pos c4]
      cases hp : st.prevIt with
      | none => exact absurd (c4.trans (hI.prevNone hp)) hne
      | some k =>
        obtain ⟨h1, h2⟩ := hI.prev k hp
        have hk : k = keyOf e trips g := by rw [c4, h1]
        subst hk
        refine ⟨_, rfl, ?_, ?_, ?_, ?_⟩
        · show NodupKeys _
          unfold NodupKeys; rw [setIn_keys]; exact hI.nodup
        · exact hruns st.map hI.nodup h2 (fun _ _ => Iff.rfl)
        · intro k hk
          simp at hk; subst hk
          refine ⟨h1, ?_⟩
          obtain ⟨b, hb⟩ := h2
          have : keyOf e trips g ∈ (setIn (keyOf e trips g) ((g : Int) + (keyOf e trips g).dayOffset).toNat st.map).map (·.1) := by
            rw [setIn_keys]; exact List.mem_map.mpr ⟨_, hb, rfl⟩
          rw [List.mem_map] at this
          obtain ⟨⟨k', b'⟩, hb', hk'⟩ := this
          simp at hk'; subst hk'
          exact ⟨b', hb'⟩
        · intro hk; simp at hk
    · rw [if_neg c4]
      have hm := emplace_mem (keyOf e trips g) st.map
      have hnd := emplace_nodup (keyOf e trips g) st.map hI.nodup
      refine ⟨_, rfl, ?_, ?_, ?_, ?_⟩
      · show NodupKeys _
        unfold NodupKeys; rw [setIn_keys]; exact hnd
      · exact hruns _ hnd hm (run_emplace _ _)
      · intro k hk
        simp at hk; subst hk
        refine ⟨rfl, ?_⟩
        obtain ⟨b, hb⟩ := hm
        have : keyOf e trips g ∈ (setIn (keyOf e trips g) ((g : Int) + (keyOf e trips g).dayOffset).toNat
            (emplace (keyOf e trips g) st.map)).map (·.1) := by
          rw [setIn_keys]; exact List.mem_map.mpr ⟨_, hb, rfl⟩
        rw [List.mem_map] at this
        obtain ⟨⟨k', b'⟩, hb', hk'⟩ := this
        simp at hk'; subst hk'
        exact ⟨b', hb'⟩
      · intro hk; simp at hk

private theorem loop_inv (e : Env) (trips : List FTrip) (gs : List Nat) (done : Nat → Prop) (st : St)
    (hI : Inv e trips done st) (hkey : ∀ g ∈ gs, SelDay e trips g → keyOf e trips g ≠ ⟨2, -1⟩) :
    ∃ st', loop e trips st gs = some st' ∧ Inv e trips (fun x => done x ∨ x ∈ gs) st' := by
  induction gs generalizing done st with
  | nil =>
    refine ⟨st, rfl, ?_⟩
    simpa using hI
  | cons g gs ih =>
    obtain ⟨st1, h1, h2⟩ := step_inv e trips done st g hI (hkey g (by simp))
    obtain ⟨st2, h3, h4⟩ := ih _ st1 h2 (fun x hx => hkey x (by simp [hx]))
    refine ⟨st2, by simp [loop, h1, h3], ?_⟩
    have : (fun x => (done x ∨ x = g) ∨ x ∈ gs) = fun x => done x ∨ x ∈ g :: gs := by
      funext x
      simp [or_assoc]
    rw [← this]; exact h4

private theorem runMax_id (p : Int) (l : List Int) (h : (p :: l).Pairwise (· ≤ ·)) : runMax p l = l := by
  induction l generalizing p with
  | nil => rfl
  | cons x l ih =>
    have hpx : p ≤ x := by rw [List.pairwise_cons] at h; exact h.1 x (by simp)
    have h2 : (x :: l).Pairwise (· ≤ ·) := by rw [List.pairwise_cons] at h; exact h.2
    simp only [runMax]
    rw [Int.max_eq_right hpx, ih x h2]

private theorem runMax_mono (p : Int) (l : List Int) : (p :: runMax p l).Pairwise (· ≤ ·) := by
  induction l generalizing p with
  | nil => simp [runMax]
  | cons x l ih =>
    have := ih (max p x)
    rw [List.pairwise_cons] at this ⊢
    refine ⟨?_, ?_⟩
    · intro y hy
      simp only [runMax, List.mem_cons] at hy
      have hm : p ≤ max p x := Int.le_max_left _ _
      rcases hy with rfl | hy
      · exact hm
      · exact Int.le_trans hm (this.1 y hy)
    · simp only [runMax]; rw [List.pairwise_cons]; exact this

/-- C15 (days): the expansion succeeds, and the runs (transport, UTC day) it generates are exactly
one per service day: the transport with UTC offset `tz` and day offset `o` runs on UTC day `d` iff
`d - o` is a service day whose UTC offset is `tz` and whose first departure lies `o` UTC days later.
No two transports have the same (`o`, `tz`), so no run is generated twice.

`hkey` excludes the sentinel pair of the code (UTC offset -1 minute), on which it would dereference
the end iterator. -/
theorem C15_one_run_per_service_day (e : Env) (trips : List FTrip) (hne : trips ≠ [])
    (hkey : ∀ g, g < e.nDays → e.noonOffset g ≠ -1) :
    ∃ out, expand e trips = some out ∧
      (∀ t ∈ out, ∀ d, t.days d = true →
        ∃ g, ServiceDay e trips g ∧ e.noonOffset g = t.tzOffset ∧ (d : Int) = (g : Int) + t.firstDepOffset ∧
          t.firstDepOffset = (firstDep trips - e.noonOffset g) / 1440) ∧
      (∀ g, ServiceDay e trips g → ∃ t ∈ out, ∃ d, t.days d = true ∧ e.noonOffset g = t.tzOffset ∧
          (d : Int) = (g : Int) + t.firstDepOffset) ∧
      (out.map fun t => (t.firstDepOffset, t.tzOffset)).Nodup := by
  obtain ⟨st, h1, hI⟩ := loop_inv e trips (List.range e.nDays) (fun _ => False)
    { map := [], prevKey := ⟨2, -1⟩, prevIt := none }
    ⟨by simp [NodupKeys], by
      intro k d
      constructor
      · rintro ⟨b, hb, -⟩; simp at hb
      · rintro ⟨g, h, -⟩; exact h.elim, by simp, by simp⟩
    (by
      intro g hg _ hk
      have := hkey g (by simpa using hg)
      apply this
      have := congrArg Key.tz hk
      simpa [keyOf] using this)
  have hemp : trips.isEmpty = false := by cases trips <;> simp_all
  refine ⟨_, by unfold expand; rw [hemp, h1]; rfl, ?_, ?_, ?_⟩
  · intro t ht d hd
    rw [List.mem_map] at ht
    obtain ⟨⟨k, b⟩, hkb, rfl⟩ := ht
    obtain ⟨g, hg, hs, hk, hdd⟩ := (hI.runs k d).mp ⟨b, hkb, hd⟩
    have hg : g < e.nDays := by simpa using hg
    refine ⟨g, ⟨hg, hs⟩, ?_, hdd, ?_⟩
    · rw [← hk]; rfl
    · rw [← hk]; rfl
  · rintro g ⟨hg, hs⟩
    have hd0 : (((g : Int) + (keyOf e trips g).dayOffset).toNat : Int) = (g : Int) + (keyOf e trips g).dayOffset := by
      have := hs.2.2.1
      simp only [keyOf]; omega
    obtain ⟨b, hb, hbd⟩ := (hI.runs (keyOf e trips g) ((g : Int) + (keyOf e trips g).dayOffset).toNat).mpr
      ⟨g, by simp [hg], hs, rfl, hd0⟩
    exact ⟨_, List.mem_map.mpr ⟨_, hb, rfl⟩, _, hbd, rfl, hd0⟩
  · have := hI.nodup
    unfold NodupKeys at this
    rw [List.map_map]
    have e1 : ((fun t : UtcTrip => (t.firstDepOffset, t.tzOffset)) ∘ fun (x : Key × Bitfield) =>
        ({ firstDepOffset := x.1.dayOffset, tzOffset := x.1.tz, utcTimes := buildTimes trips x.1, days := x.2 } : UtcTrip))
        = (fun k : Key => (k.dayOffset, k.tz)) ∘ (·.1) := rfl
    show List.Nodup (List.map ((fun t : UtcTrip => (t.firstDepOffset, t.tzOffset)) ∘ fun (x : Key × Bitfield) =>
        ({ firstDepOffset := x.1.dayOffset, tzOffset := x.1.tz, utcTimes := buildTimes trips x.1, days := x.2 } : UtcTrip)) st.map)
    rw [e1, ← List.map_map]
    refine List.Pairwise.map _ ?_ this
    intro a b hab heq
    apply hab
    obtain ⟨a1, a2⟩ := a; obtain ⟨b1, b2⟩ := b
    simp at heq
    rw [heq.1, heq.2]

/-- C15 (instants): if all trips have the same frequency offset and the local times along the run
are non-decreasing, then the run of service day `g` happens at exactly the scheduled instants: with
days counted in minutes since the first timetable day, the UTC instant of event `i` equals the local
midnight reference (`g * 1440 - tz`) plus the scheduled local time of event `i`. -/
theorem C15_instants (e : Env) (trips : List FTrip) (out : List UtcTrip) (off : Int)
    (hexp : expand e trips = some out)
    (hoff : ∀ t ∈ trips, t.offset = off) (hev : ∀ t ∈ trips, 2 ≤ t.events.length)
    (hmono : (localTimes trips).Pairwise (· ≤ ·))
    (t : UtcTrip) (ht : t ∈ out) (d g : Nat) (hg : e.noonOffset g = t.tzOffset)
    (hd : (d : Int) = (g : Int) + t.firstDepOffset)
    (hfirst : t.firstDepOffset = (firstDep trips - e.noonOffset g) / 1440) :
    t.utcTimes.map (fun x => (d : Int) * 1440 + x) =
      (localTimes trips).map (fun x => (g : Int) * 1440 - e.noonOffset g + x) := by
  unfold expand at hexp
  by_cases hemp : trips.isEmpty = true
  · simp [hemp] at hexp; subst hexp; simp at ht
  · simp only [hemp] at hexp
    simp only [Option.map_eq_some_iff, Bool.false_eq_true, if_false] at hexp
    obtain ⟨st, -, rfl⟩ := hexp
    rw [List.mem_map] at ht
    obtain ⟨⟨k, b⟩, -, rfl⟩ := ht
    simp only at hg hd hfirst ⊢
    unfold buildTimes
    have hid : runMax 0 ((localTimes trips).map fun t => t - k.tz - k.dayOffset * 1440) =
        (localTimes trips).map fun t => t - k.tz - k.dayOffset * 1440 := by
      apply runMax_id
      rw [List.pairwise_cons]
      constructor
      · intro x hx
        rw [List.mem_map] at hx
        obtain ⟨y, hy, rfl⟩ := hx
        -- the first departure is a lower bound
        have hfd : firstDep trips ≤ y := by
          cases trips with
          | nil => simp at hemp
          | cons f r =>
            have hl : ∃ l, (f :: r).getLast? = some l ∧ l.offset = off := by
              cases hgl : (f :: r).getLast? with
              | none => simp at hgl
              | some l => exact ⟨l, rfl, hoff l (List.mem_of_getLast? hgl)⟩
            obtain ⟨l, hl1, hl2⟩ := hl
            have hfev := hev f (by simp)
            match hfe : f.events with
            | [] => rw [hfe] at hfev; simp at hfev
            | [_] => rw [hfe] at hfev; simp at hfev
            | a :: b :: r' =>
              have hlt : localTimes (f :: r) = (a.dep - f.offset) :: ((localTimes (f :: r)).tail) := by
                simp [localTimes, hfe, pairTimes]
              have hf0 := hoff f (by simp)
              have hfd : firstDep (f :: r) = a.dep - f.offset := by
                simp only [firstDep, hl1, List.head?_cons, hfe]
                omega
              rw [hfd]
              rw [hlt] at hy hmono
              rw [List.pairwise_cons] at hmono
              simp only [List.mem_cons] at hy
              rcases hy with rfl | hy
              · exact Int.le_refl _
              · exact hmono.1 y hy
        rw [hfirst, ← hg]
        omega
      · exact List.Pairwise.map _ (fun a b hab => by omega) hmono
    rw [hid, List.map_map]
    apply List.map_congr_left
    intro x _
    simp only [Function.comp]
    rw [hd, ← hg]
    omega

/-- C15: whatever the input, the UTC times of a generated transport are non-negative and
non-decreasing. -/
theorem C15_monotone (e : Env) (trips : List FTrip) (out : List UtcTrip)
    (hexp : expand e trips = some out) (t : UtcTrip) (ht : t ∈ out) :
    (0 :: t.utcTimes).Pairwise (· ≤ ·) := by
  unfold expand at hexp
  by_cases hemp : trips.isEmpty = true
  · simp [hemp] at hexp; subst hexp; simp at ht
  · simp only [hemp] at hexp
    simp only [Option.map_eq_some_iff, Bool.false_eq_true, if_false] at hexp
    obtain ⟨st, -, rfl⟩ := hexp
    rw [List.mem_map] at ht
    obtain ⟨⟨k, b⟩, -, rfl⟩ := ht
    exact runMax_mono 0 _

/-! ### Non-vacuity and counterexample -/

/-- A trip across midnight, `23:50 → 00:20`, on two days with different UTC offsets (summer time
ends in between). -/
def exTrips : List FTrip := [{ events := [⟨1430, 1430⟩, ⟨1460, 1460⟩], offset := 0 }]
def exEnv : Env := { nDays := 3, traffic := fun g => g = 0 || g = 2, noonOffset := fun g => if g < 2 then 120 else 60,
                     selFrom := 0, selTo := 3 }

example : (expand exEnv exTrips).map (fun l => l.map fun t => (t.firstDepOffset, t.tzOffset, t.utcTimes, (List.range 4).map t.days))
    = some [(0, 120, [1310, 1340], [true, false, false, false]), (0, 60, [1370, 1400], [false, false, true, false])] := by
  decide +kernel

example : ServiceDay exEnv exTrips 2 := by
  refine ⟨by decide, by decide, by decide, by decide, by decide⟩

/-- Two frequency-based trips of one block whose templates start at different offsets: first trip
leaves 23:00, second 24:30. -/
def badTrips : List FTrip :=
  [{ events := [⟨0, 0⟩, ⟨20, 20⟩], offset := -1380 }, { events := [⟨30, 30⟩, ⟨60, 60⟩], offset := -1440 }]
def badEnv : Env := { nDays := 3, traffic := fun g => g = 0, noonOffset := fun _ => 0, selFrom := 0, selTo := 3 }

/-- C15 needs equal offsets: the code takes the first departure relative to the offset of the *last*
trip, so this block, scheduled at 23:00, 23:20, 24:30, 25:00 of day 0, is generated with its first
two events at 24:00 (they are clamped to minute 0 of day 1). -/
theorem C15_offset_counterexample :
    (expand badEnv badTrips).map (fun l => l.map fun t => (t.utcTimes, (List.range 3).map t.days))
      = some [([0, 0, 30, 60], [false, true, false])] ∧
    localTimes badTrips = [1380, 1400, 1470, 1500] := by
  constructor <;> decide +kernel

end Nigiri.LocalToUtc
