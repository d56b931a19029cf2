import Verif.Spec.HrdTracks
import Verif.Props.HrdService
/-!
# C147: HRD tracks
-/

namespace Nigiri.HrdTracks

open Hrd

/-- What a line adds to the rules of a key, as seen from the (later) state `s`. -/
def ruleOf (locationOf : Nat → Option Nat) (s : St) (k : TrackKey) (l : Line) : Option TrackRule :=
  match locationOf l.eva, s.adminOf l.admin with
  | some p, some a =>
    if k = ⟨p, l.trainNum, a⟩ then (s.trackOf p l.track).map fun t => ⟨l.bitfield, t, l.mam⟩ else none
  | _, _ => none

structure Inv (locationOf : Nat → Option Nat) (s0 : St) (done : List Line) (s : St) : Prop where
  admins : ∀ l ∈ done, (s.adminOf l.admin).isSome = true
  tracks : ∀ l ∈ done, ∀ p, locationOf l.eva = some p → (s.trackOf p l.track).isSome = true
  rules : ∀ k, s.rules k = done.filterMap (ruleOf locationOf s k)
  known : ∀ p n t, s.trackOf p n = some t ↔ IsTrack s t p n
  from' : ∀ t p n, IsTrack s t p n → ∃ l ∈ done, locationOf l.eva = some p ∧ l.track = n
  locs : ∃ more, s.locs = s0.locs ++ more ∧ ∀ x ∈ more, x.isSome = true
  children : ∀ p, s.children p = s0.children p ++ (List.range s.locs.length).filter
    fun t => decide (stationOf s t = some p)
  adminOld : ∀ a i, s0.adminOf a = some i → s.adminOf a = some i
  adminNew : ∀ a i, s.adminOf a = some i → s0.adminOf a = some i ∨
    ((∃ l ∈ done, l.admin = a) ∧ s0.providers.length ≤ i ∧ s.providers[i]? = some a)
  providers : ∃ more, s.providers = s0.providers ++ more


theorem find_cons {α : Type} [DecidableEq α] (k x : α) (v : Nat) (l : List (α × Nat)) :
    (((k, v) :: l).find? fun y => y.1 = x).map (·.2) = if k = x then some v else (l.find? fun y => y.1 = x).map (·.2) := by
  rw [List.find?_cons]
  by_cases h : k = x
  · rw [if_pos h]; simp [h]
  · rw [if_neg h]; simp [h]

theorem admin_facts (s : St) (a : String) :
    (resolveProvider s a).1.adminOf a = some (resolveProvider s a).2 ∧
    (∀ b i, s.adminOf b = some i → (resolveProvider s a).1.adminOf b = some i) ∧
    (∀ b i, (resolveProvider s a).1.adminOf b = some i → s.adminOf b = some i ∨
      (b = a ∧ i = s.providers.length ∧ (resolveProvider s a).1.providers[i]? = some a)) ∧
    (∃ more, (resolveProvider s a).1.providers = s.providers ++ more) ∧
    (resolveProvider s a).1.locs = s.locs ∧ (resolveProvider s a).1.children = s.children ∧
    (resolveProvider s a).1.known = s.known ∧ (resolveProvider s a).1.rules = s.rules := by
  unfold resolveProvider
  cases h : s.adminOf a with
  | some i => exact ⟨h, fun _ _ h => h, fun _ _ h => Or.inl h, ⟨[], (List.append_nil _).symm⟩, rfl, rfl, rfl, rfl⟩
  | none =>
    refine ⟨?_, ?_, ?_, ⟨[a], rfl⟩, rfl, rfl, rfl, rfl⟩
    · exact (find_cons a a _ _).trans (if_pos rfl)
    · intro b i hb
      refine (find_cons a b _ _).trans ?_
      rw [if_neg]
      · exact hb
      · rintro rfl
        rw [h] at hb; cases hb
    · intro b i hb
      have hb := (find_cons a b s.providers.length s.admins).symm.trans hb
      by_cases he : a = b
      · rw [if_pos he] at hb
        cases hb
        exact Or.inr ⟨he.symm, rfl, by simp⟩
      · rw [if_neg he] at hb
        exact Or.inl hb

theorem track_facts (s : St) (p : Nat) (n : String) :
    (getTrack s p n).1.trackOf p n = some (getTrack s p n).2 ∧
    (∀ q m i, s.trackOf q m = some i → (getTrack s p n).1.trackOf q m = some i) ∧
    ((getTrack s p n).1 = s ∨
      ((getTrack s p n).1.locs = s.locs ++ [some (p, n)] ∧
        (getTrack s p n).1.children = (fun x => if x = p then s.children x ++ [s.locs.length] else s.children x) ∧
        ∀ q m i, (getTrack s p n).1.trackOf q m = some i ↔ s.trackOf q m = some i ∨ ((q, m) = (p, n) ∧ i = s.locs.length))) ∧
    (getTrack s p n).1.admins = s.admins ∧ (getTrack s p n).1.providers = s.providers ∧ (getTrack s p n).1.rules = s.rules := by
  unfold getTrack
  cases h : s.trackOf p n with
  | some i => exact ⟨h, fun _ _ _ h => h, Or.inl rfl, rfl, rfl, rfl⟩
  | none =>
    refine ⟨?_, ?_, Or.inr ⟨rfl, rfl, ?_⟩, rfl, rfl, rfl⟩
    · exact (find_cons (p, n) (p, n) _ _).trans (if_pos rfl)
    · intro q m i hb
      refine (find_cons (p, n) (q, m) _ _).trans ?_
      rw [if_neg]
      · exact hb
      · intro hc
        cases hc
        rw [h] at hb; cases hb
    · intro q m i
      have hb := find_cons (p, n) (q, m) s.locs.length s.known
      have hb : St.trackOf { s with locs := s.locs ++ [some (p, n)], known := ((p, n), s.locs.length) :: s.known, children := fun x => if x = p then s.children x ++ [s.locs.length] else s.children x } q m = _ := hb
      rw [hb]
      by_cases he : (p, n) = (q, m)
      · rw [if_pos he]
        cases he
        constructor
        · intro h1; cases h1; exact Or.inr ⟨rfl, rfl⟩
        · rintro (h1 | ⟨_, rfl⟩)
          · rw [h] at h1; cases h1
          · rfl
      · rw [if_neg he]
        constructor
        · exact Or.inl
        · rintro (h1 | ⟨h1, _⟩)
          · exact h1
          · exact absurd h1.symm he

/-- The rules of a key as seen from a later state. -/
theorem ruleOf_later {locationOf : Nat → Option Nat} {s s' : St} {l : Line} (k : TrackKey)
    (ha : (s.adminOf l.admin).isSome = true)
    (ht : ∀ p, locationOf l.eva = some p → (s.trackOf p l.track).isSome = true)
    (h1 : ∀ b i, s.adminOf b = some i → s'.adminOf b = some i)
    (h2 : ∀ q m i, s.trackOf q m = some i → s'.trackOf q m = some i) :
    ruleOf locationOf s' k l = ruleOf locationOf s k l := by
  obtain ⟨a, ha⟩ := Option.isSome_iff_exists.1 ha
  unfold ruleOf
  rw [ha, h1 _ _ ha]
  cases hp : locationOf l.eva with
  | none => rfl
  | some p =>
    obtain ⟨t, ht⟩ := Option.isSome_iff_exists.1 (ht p hp)
    show (if k = _ then _ else none) = (if k = _ then _ else none)
    rw [ht, h2 _ _ _ ht]

theorem filterMap_later {locationOf : Nat → Option Nat} {s s' : St} (done : List Line) (k : TrackKey)
    (ha : ∀ l ∈ done, (s.adminOf l.admin).isSome = true)
    (ht : ∀ l ∈ done, ∀ p, locationOf l.eva = some p → (s.trackOf p l.track).isSome = true)
    (h1 : ∀ b i, s.adminOf b = some i → s'.adminOf b = some i)
    (h2 : ∀ q m i, s.trackOf q m = some i → s'.trackOf q m = some i) :
    done.filterMap (ruleOf locationOf s' k) = done.filterMap (ruleOf locationOf s k) := by
  induction done with
  | nil => rfl
  | cons l done ih =>
    rw [List.filterMap_cons, List.filterMap_cons,
      ruleOf_later k (ha l (List.mem_cons_self ..)) (ht l (List.mem_cons_self ..)) h1 h2,
      ih (fun q hq => ha q (List.mem_cons_of_mem _ hq)) (fun q hq => ht q (List.mem_cons_of_mem _ hq))]

theorem step_eq_none {locationOf : Nat → Option Nat} (s : St) (l : Line) (h : locationOf l.eva = none) :
    step locationOf s l = (resolveProvider s l.admin).1 := by
  unfold step
  rw [h]

/-- The state after the track of a line has been looked up. -/
def mid (s : St) (l : Line) (p : Nat) : St × Nat := getTrack (resolveProvider s l.admin).1 p l.track

theorem step_eq_some {locationOf : Nat → Option Nat} (s : St) (l : Line) {p : Nat} (h : locationOf l.eva = some p) :
    step locationOf s l =
      { (mid s l p).1 with
        rules := fun k =>
          if k = ⟨p, l.trainNum, (resolveProvider s l.admin).2⟩ then (mid s l p).1.rules k ++ [⟨l.bitfield, (mid s l p).2, l.mam⟩]
          else (mid s l p).1.rules k } := by
  unfold step mid
  rw [h]

theorem inv_step {locationOf : Nat → Option Nat} {s0 : St} {done : List Line} {s : St} (l : Line)
    (hi : Inv locationOf s0 done s) : Inv locationOf s0 (done ++ [l]) (step locationOf s l) := by
  obtain ⟨a1, a2, a3, ⟨pm, a4⟩, a5, a6, a7, a8⟩ := admin_facts s l.admin
  have hsame : ∀ q m, (resolveProvider s l.admin).1.trackOf q m = s.trackOf q m := by
    intro q m
    unfold St.trackOf
    rw [a7]
  have hprov : s0.providers.length ≤ s.providers.length := by
    obtain ⟨m, hm⟩ := hi.providers
    rw [hm, List.length_append]
    omega
  have hget : ∀ (i : Nat) a, s.providers[i]? = some a → (resolveProvider s l.admin).1.providers[i]? = some a := by
    intro i a h
    obtain ⟨h1, h2⟩ := List.getElem?_eq_some_iff.1 h
    rw [a4, List.getElem?_append_left h1, h]
  have hnew : ∀ a i, (resolveProvider s l.admin).1.adminOf a = some i → s0.adminOf a = some i ∨
      ((∃ q ∈ done ++ [l], q.admin = a) ∧ s0.providers.length ≤ i ∧ (resolveProvider s l.admin).1.providers[i]? = some a) := by
    intro a i h
    rcases a3 a i h with h | ⟨rfl, rfl, h1⟩
    · rcases hi.adminNew a i h with h | ⟨⟨q, hq, hqa⟩, h1, h2⟩
      · exact Or.inl h
      · exact Or.inr ⟨⟨q, List.mem_append_left _ hq, hqa⟩, h1, hget _ _ h2⟩
    · exact Or.inr ⟨⟨l, by simp, rfl⟩, hprov, h1⟩
  have hpm : ∃ more, (resolveProvider s l.admin).1.providers = s0.providers ++ more := by
    obtain ⟨m, hm⟩ := hi.providers
    exact ⟨m ++ pm, by rw [a4, hm, List.append_assoc]⟩
  cases hp : locationOf l.eva with
  | none =>
    rw [step_eq_none s l hp]
    refine ⟨?_, ?_, ?_, ?_, ?_, ?_, ?_, fun a i h => a2 _ _ (hi.adminOld a i h), hnew, hpm⟩
    · intro q hq
      rcases List.mem_append.1 hq with hq | hq
      · obtain ⟨i, h⟩ := Option.isSome_iff_exists.1 (hi.admins q hq)
        rw [a2 _ _ h]; rfl
      · rw [List.mem_singleton.1 hq, a1]; rfl
    · intro q hq p hqp
      rw [hsame]
      rcases List.mem_append.1 hq with hq | hq
      · exact hi.tracks q hq p hqp
      · rw [List.mem_singleton.1 hq, hp] at hqp; cases hqp
    · intro k
      rw [a8, hi.rules, List.filterMap_append]
      have h1 : [l].filterMap (ruleOf locationOf (resolveProvider s l.admin).1 k) = [] := by
        rw [List.filterMap_cons]
        have : ruleOf locationOf (resolveProvider s l.admin).1 k l = none := by
          unfold ruleOf; rw [hp]
        rw [this]; rfl
      rw [h1, List.append_nil]
      exact (filterMap_later done k hi.admins hi.tracks a2 (fun q m i h => by rw [hsame]; exact h)).symm
    · intro q m t
      rw [hsame, hi.known]
      unfold IsTrack
      rw [a5]
    · intro t q m h
      unfold IsTrack at h
      rw [a5] at h
      obtain ⟨x, hx, h1⟩ := hi.from' t q m h
      exact ⟨x, List.mem_append_left _ hx, h1⟩
    · rw [a5]; exact hi.locs
    · intro q
      rw [a6, hi.children]
      unfold stationOf
      rw [a5]
  | some p =>
    rw [step_eq_some s l hp]
    obtain ⟨b1, b2, b3, b4, b5, b6⟩ := track_facts (resolveProvider s l.admin).1 p l.track
    have hmid : mid s l p = getTrack (resolveProvider s l.admin).1 p l.track := rfl
    rw [← hmid] at b1 b2 b3 b4 b5 b6
    have hadm : ∀ a, (mid s l p).1.adminOf a = (resolveProvider s l.admin).1.adminOf a := by
      intro a
      unfold St.adminOf
      rw [b4]
    have htr : ∀ q m i, s.trackOf q m = some i → (mid s l p).1.trackOf q m = some i := by
      intro q m i h
      exact b2 q m i (by rw [hsame]; exact h)
    have had : ∀ b i, s.adminOf b = some i → (mid s l p).1.adminOf b = some i := by
      intro b i h
      rw [hadm]
      exact a2 b i h
    refine ⟨?_, ?_, ?_, ?_, ?_, ?_, ?_, ?_, ?_, ?_⟩
    · intro q hq
      show ((mid s l p).1.adminOf q.admin).isSome = true
      rcases List.mem_append.1 hq with hq | hq
      · obtain ⟨i, h⟩ := Option.isSome_iff_exists.1 (hi.admins q hq)
        rw [had _ _ h]; rfl
      · rw [List.mem_singleton.1 hq, hadm, a1]; rfl
    · intro q hq r hqr
      show ((mid s l p).1.trackOf r q.track).isSome = true
      rcases List.mem_append.1 hq with hq | hq
      · obtain ⟨i, h⟩ := Option.isSome_iff_exists.1 (hi.tracks q hq r hqr)
        rw [htr _ _ _ h]; rfl
      · rw [List.mem_singleton.1 hq] at hqr ⊢
        rw [hp] at hqr
        cases hqr
        rw [b1]; rfl
    · intro k
      rw [List.filterMap_append]
      have h1 : done.filterMap (ruleOf locationOf (mid s l p).1 k) = s.rules k := by
        rw [hi.rules]
        exact filterMap_later done k hi.admins hi.tracks had htr
      show (if k = _ then _ else _) = done.filterMap (ruleOf locationOf (mid s l p).1 k) ++ [l].filterMap (ruleOf locationOf (mid s l p).1 k)
      rw [h1, b6, a8]
      have h2 : ruleOf locationOf (mid s l p).1 k l =
          if k = ⟨p, l.trainNum, (resolveProvider s l.admin).2⟩ then some ⟨l.bitfield, (mid s l p).2, l.mam⟩ else none := by
        unfold ruleOf
        rw [hp, hadm, a1]
        show (if k = _ then _ else none) = _
        rw [b1]; rfl
      rw [List.filterMap_cons, h2]
      by_cases hk : k = ⟨p, l.trainNum, (resolveProvider s l.admin).2⟩
      · rw [if_pos hk, if_pos hk]; rfl
      · rw [if_neg hk, if_neg hk]; exact (List.append_nil _).symm
    · intro q m t
      show (mid s l p).1.trackOf q m = some t ↔ (mid s l p).1.locs[t]? = some (some (q, m))
      have hk := hi.known q m t
      unfold IsTrack at hk
      rcases b3 with h | ⟨h1, h2, h3⟩
      · rw [h, hsame, a5]; exact hk
      · rw [h3, h1, hsame, a5, hk]
        constructor
        · rintro (h4 | ⟨h4, rfl⟩)
          · have := (List.getElem?_eq_some_iff.1 h4).1
            rw [List.getElem?_append_left this, h4]
          · rw [h4]; simp
        · intro h4
          by_cases hlt : t < s.locs.length
          · rw [List.getElem?_append_left hlt] at h4
            exact Or.inl h4
          · have : t = s.locs.length := by
              have := (List.getElem?_eq_some_iff.1 h4).1
              simp at this
              omega
            subst this
            simp at h4
            exact Or.inr ⟨by rw [h4.1, h4.2], rfl⟩
    · intro t q m h
      have h : (mid s l p).1.locs[t]? = some (some (q, m)) := h
      have hf := hi.from' t q m
      unfold IsTrack at hf
      rcases b3 with h0 | ⟨h1, h2, h3⟩
      · rw [h0, a5] at h
        obtain ⟨x, hx, h1⟩ := hf h
        exact ⟨x, List.mem_append_left _ hx, h1⟩
      · rw [h1, a5] at h
        by_cases hlt : t < s.locs.length
        · rw [List.getElem?_append_left hlt] at h
          obtain ⟨x, hx, h1⟩ := hf h
          exact ⟨x, List.mem_append_left _ hx, h1⟩
        · have : t = s.locs.length := by
            have := (List.getElem?_eq_some_iff.1 h).1
            simp at this
            omega
          subst this
          simp at h
          exact ⟨l, by simp, by rw [hp, h.1], h.2⟩
    · obtain ⟨m, h1, h2⟩ := hi.locs
      show ∃ more, (mid s l p).1.locs = s0.locs ++ more ∧ _
      rcases b3 with h0 | ⟨h3, _, _⟩
      · rw [h0, a5]; exact ⟨m, h1, h2⟩
      · rw [h3, a5, h1]
        refine ⟨m ++ [some (p, l.track)], List.append_assoc .., ?_⟩
        intro x hx
        rcases List.mem_append.1 hx with hx | hx
        · exact h2 x hx
        · rw [List.mem_singleton.1 hx]; rfl
    · intro q
      show (mid s l p).1.children q = s0.children q ++ (List.range (mid s l p).1.locs.length).filter
        fun t => decide (((mid s l p).1.locs[t]?.bind id).map (·.1) = some q)
      have hc := hi.children q
      unfold stationOf at hc
      rcases b3 with h0 | ⟨h1, h2, h3⟩
      · rw [h0, a5, a6]; exact hc
      · rw [h1, h2, a5, a6, List.length_append, List.length_singleton, List.range_succ, List.filter_append]
        have e1 : (List.range s.locs.length).filter (fun t => decide (((s.locs ++ [some (p, l.track)])[t]?.bind id).map (·.1) = some q)) =
            (List.range s.locs.length).filter fun t => decide ((s.locs[t]?.bind id).map (·.1) = some q) := by
          refine List.filter_congr fun t ht => ?_
          rw [List.getElem?_append_left (List.mem_range.1 ht)]
        rw [e1]
        have e2 : [s.locs.length].filter (fun t => decide (((s.locs ++ [some (p, l.track)])[t]?.bind id).map (·.1) = some q)) =
            if q = p then [s.locs.length] else [] := by
          by_cases hq : q = p
          · rw [if_pos hq]; simp [hq]
          · rw [if_neg hq]
            have : ¬ p = q := fun h => hq h.symm
            simp [this]
        rw [e2]
        show (if q = p then _ else _) = _
        by_cases hq : q = p
        · rw [if_pos hq, if_pos hq, hc, List.append_assoc]
        · rw [if_neg hq, if_neg hq, hc, List.append_nil]
    · intro a i h
      exact had a i (hi.adminOld a i h)
    · intro a i h
      have h : (mid s l p).1.adminOf a = some i := h
      show _ ∨ (_ ∧ _ ∧ (mid s l p).1.providers[i]? = some a)
      rw [b5]
      rw [hadm] at h
      exact hnew a i h
    · show ∃ more, (mid s l p).1.providers = _
      rw [b5]; exact hpm

theorem inv_fold {locationOf : Nat → Option Nat} {s0 : St} (lines : List Line) : ∀ (done : List Line) (s : St),
    Inv locationOf s0 done s → Inv locationOf s0 (done ++ lines) (lines.foldl (step locationOf) s) := by
  induction lines with
  | nil => intro done s h; rw [List.append_nil]; exact h
  | cons l lines ih =>
    intro done s h
    have := ih _ _ (inv_step l h)
    rw [List.append_assoc] at this
    exact this

theorem inv_start {locationOf : Nat → Option Nat} {s0 : St} (h : Start s0) : Inv locationOf s0 [] s0 := by
  have hn : ∀ t p n, ¬ IsTrack s0 t p n := by
    intro t p n hc
    unfold IsTrack at hc
    have := h.noLocs _ (List.mem_of_getElem? hc)
    cases this
  refine ⟨fun l hl => (by cases hl), fun l hl => (by cases hl), fun k => h.noRules k, ?_, fun t p n hc => absurd hc (hn t p n),
    ⟨[], (List.append_nil _).symm, fun x hx => (by cases hx)⟩, ?_, fun _ _ h => h, fun _ _ h => Or.inl h, ⟨[], (List.append_nil _).symm⟩⟩
  · intro p n t
    constructor
    · intro hc
      unfold St.trackOf at hc
      rw [h.noTracks] at hc
      cases hc
    · exact fun hc => absurd hc (hn t p n)
  · intro p
    rw [List.filter_eq_nil_iff.2, List.append_nil]
    intro t ht hc
    have hc := of_decide_eq_true hc
    unfold stationOf at hc
    obtain ⟨x, hx, _⟩ := Option.map_eq_some_iff.1 hc
    obtain ⟨y, hy, hyx⟩ := Option.bind_eq_some_iff.1 hx
    have := h.noLocs _ (List.mem_of_getElem? hy)
    subst this
    cases hyx

section

variable {locationOf : Nat → Option Nat} {s0 : St} (h0 : Start s0) (lines : List Line)
include h0

theorem inv_parse : Inv locationOf s0 lines (parse locationOf s0 lines) := by
  have := inv_fold lines [] s0 (inv_start (locationOf := locationOf) h0)
  rw [List.nil_append] at this
  exact this

omit h0 in
theorem applies_at (bitfields : Nat → Option Bitfield) (l : Line) (t : Nat) (mam : Int) (day : Nat) :
    Applies bitfields ⟨l.bitfield, t, l.mam⟩ mam day ↔ l.At bitfields mam day := Iff.rfl

/-- **C147**.  A stop gets the track of the first line of the file for its station, train number and
administration that applies at the time and on the day; this track is a location of the timetable, a
generated track of the station with the name that the line gives … -/
theorem C147_track (bitfields : Nat → Option Bitfield) (k : TrackKey) (mam : Int) (day : Nat)
    (pre post : List Line) (l : Line) (hl : lines = pre ++ l :: post)
    (hpre : ∀ q ∈ pre, q.For locationOf (parse locationOf s0 lines) k.location k.trainNum k.admin → ¬ q.At bitfields mam day)
    (hk : l.For locationOf (parse locationOf s0 lines) k.location k.trainNum k.admin) (ha : l.At bitfields mam day) :
    IsTrack (parse locationOf s0 lines) (resolveTrack bitfields (parse locationOf s0 lines).rules k mam day) k.location l.track := by
  have hi := inv_parse (locationOf := locationOf) h0 lines
  generalize parse locationOf s0 lines = s at *
  obtain ⟨h1, h2, h3⟩ := hk
  have hm : l ∈ lines := by rw [hl]; simp
  obtain ⟨t, ht⟩ := Option.isSome_iff_exists.1 (hi.tracks l hm _ h1)
  have hr : ruleOf locationOf s k l = some ⟨l.bitfield, t, l.mam⟩ := by
    unfold ruleOf
    rw [h1, h3]
    show (if k = _ then _ else none) = _
    rw [if_pos (by rw [h2]), ht]; rfl
  have hrules := hi.rules k
  rw [hl, List.filterMap_append, List.filterMap_cons, hr] at hrules
  rw [C97_track bitfields s.rules k mam day _ _ _ hrules ?_ ((applies_at bitfields l t mam day).2 ha)]
  · exact (hi.known _ _ _).1 ht
  · intro q hq
    obtain ⟨x, hx, hxq⟩ := List.mem_filterMap.1 hq
    unfold ruleOf at hxq
    split at hxq
    · rename_i p a hp haa
      split at hxq
      · rename_i hkk
        obtain ⟨t', ht', rfl⟩ := Option.map_eq_some_iff.1 hxq
        refine hpre x hx ?_
        subst hkk
        exact ⟨hp, rfl, haa⟩
      · cases hxq
    · cases hxq

/-- **C147** … and the station itself if no line for it applies. -/
theorem C147_no_track (bitfields : Nat → Option Bitfield) (k : TrackKey) (mam : Int) (day : Nat)
    (hno : ∀ q ∈ lines, q.For locationOf (parse locationOf s0 lines) k.location k.trainNum k.admin → ¬ q.At bitfields mam day) :
    resolveTrack bitfields (parse locationOf s0 lines).rules k mam day = k.location := by
  have hi := inv_parse (locationOf := locationOf) h0 lines
  generalize parse locationOf s0 lines = s at *
  refine C97_no_track bitfields s.rules k mam day ?_
  intro q hq
  rw [hi.rules] at hq
  obtain ⟨x, hx, hxq⟩ := List.mem_filterMap.1 hq
  unfold ruleOf at hxq
  split at hxq
  · rename_i p a hp haa
    split at hxq
    · rename_i hkk
      obtain ⟨t', ht', rfl⟩ := Option.map_eq_some_iff.1 hxq
      refine hno x hx ?_
      subst hkk
      exact ⟨hp, rfl, haa⟩
    · cases hxq
  · cases hxq

/-- **C147** (locations).  The locations from before stay; every further one is a track; there is exactly one
for each station and track name of the lines with a known station. -/
theorem C147_locations :
    (∃ more, (parse locationOf s0 lines).locs = s0.locs ++ more ∧ ∀ x ∈ more, x.isSome = true) ∧
    (∀ p n, (∃ t, IsTrack (parse locationOf s0 lines) t p n) ↔ ∃ l ∈ lines, locationOf l.eva = some p ∧ l.track = n) ∧
    (∀ p n t t', IsTrack (parse locationOf s0 lines) t p n → IsTrack (parse locationOf s0 lines) t' p n → t = t') := by
  have hi := inv_parse (locationOf := locationOf) h0 lines
  generalize parse locationOf s0 lines = s at *
  refine ⟨hi.locs, fun p n => ⟨?_, ?_⟩, ?_⟩
  · rintro ⟨t, ht⟩
    exact hi.from' t p n ht
  · rintro ⟨l, hl, h1, rfl⟩
    obtain ⟨t, ht⟩ := Option.isSome_iff_exists.1 (hi.tracks l hl _ h1)
    exact ⟨t, (hi.known _ _ _).1 ht⟩
  · intro p n t t' h1 h2
    have h1 := (hi.known _ _ _).2 h1
    rw [(hi.known _ _ _).2 h2] at h1
    cases h1; rfl

/-- **C147** (children).  Each track is a child of its station, once. -/
theorem C147_children (p : Nat) :
    ∃ more, (parse locationOf s0 lines).children p = s0.children p ++ more ∧ more.Nodup ∧
      ∀ t, t ∈ more ↔ ∃ n, IsTrack (parse locationOf s0 lines) t p n := by
  have hi := inv_parse (locationOf := locationOf) h0 lines
  generalize parse locationOf s0 lines = s at *
  refine ⟨_, hi.children p, List.nodup_range.sublist List.filter_sublist, fun t => ?_⟩
  rw [List.mem_filter, List.mem_range, decide_eq_true_iff]
  unfold stationOf IsTrack
  constructor
  · rintro ⟨_, h⟩
    obtain ⟨⟨q, n⟩, hx, hq⟩ := Option.map_eq_some_iff.1 h
    obtain ⟨y, hy, hyx⟩ := Option.bind_eq_some_iff.1 hx
    have hq : q = p := hq
    subst hq
    have hyx : y = some (q, n) := hyx
    exact ⟨n, by rw [hy, hyx]⟩
  · rintro ⟨n, h⟩
    exact ⟨(List.getElem?_eq_some_iff.1 h).1, by rw [h]; rfl⟩

/-- **C147** (administrations).  Every administration of a line has a provider in the end: that from before,
or else one of its own that has its name. -/
theorem C147_admin (l : Line) (hl : l ∈ lines) : ∃ i, (parse locationOf s0 lines).adminOf l.admin = some i ∧
    i < (parse locationOf s0 lines).providers.length ∧
    (s0.adminOf l.admin = some i ∨
      (s0.adminOf l.admin = none ∧ s0.providers.length ≤ i ∧ (parse locationOf s0 lines).providers[i]? = some l.admin)) := by
  have hi := inv_parse (locationOf := locationOf) h0 lines
  generalize parse locationOf s0 lines = s at *
  obtain ⟨i, h⟩ := Option.isSome_iff_exists.1 (hi.admins l hl)
  refine ⟨i, h, ?_⟩
  rcases hi.adminNew _ _ h with h1 | ⟨_, h1, h2⟩
  · obtain ⟨m, hm⟩ := hi.providers
    have := h0.providers _ _ h1
    refine ⟨?_, Or.inl h1⟩
    rw [hm, List.length_append]
    omega
  · refine ⟨(List.getElem?_eq_some_iff.1 h2).1, ?_⟩
    cases h3 : s0.adminOf l.admin with
    | none => exact Or.inr ⟨rfl, h1, h2⟩
    | some j =>
      have := hi.adminOld _ _ h3
      rw [h] at this
      exact Or.inl this.symm

end

/-! ## Examples -/

def exStart : St := { admins := [("80", 0)], providers := ["DB"], locs := [none, none], children := fun _ => [] }

def exLoc : Nat → Option Nat := fun e => if e = 8001 then some 0 else if e = 8002 then some 1 else none

def exLines : List Line :=
  [⟨8001, 7, "80", 600, 0, "3"⟩, ⟨8001, 7, "XY", -1, 0, "3"⟩, ⟨9999, 7, "Z", -1, 0, "1"⟩, ⟨8001, 7, "80", -1, 0, "4"⟩,
   ⟨8002, 7, "80", -1, 0, "3"⟩]

theorem ex_start : Start exStart := by
  refine ⟨rfl, fun _ => rfl, fun x hx => ?_, fun a i h => ?_⟩
  · simp [exStart] at hx; exact hx
  · simp only [St.adminOf, exStart, List.find?_cons, List.find?_nil] at h
    split at h
    · simp at h; simp [← h, exStart]
    · cases h

/-- At 10:00 the first line applies, at 11:00 the fourth. -/
example : IsTrack (parse exLoc exStart exLines)
    (resolveTrack (fun _ => none) (parse exLoc exStart exLines).rules ⟨0, 7, 0⟩ 600 3) 0 "3" ∧
    IsTrack (parse exLoc exStart exLines)
    (resolveTrack (fun _ => none) (parse exLoc exStart exLines).rules ⟨0, 7, 0⟩ 660 3) 0 "4" := by
  constructor
  · exact C147_track ex_start exLines _ _ 600 3 [] _ _ rfl (fun q hq => by cases hq) ⟨rfl, rfl, by decide +kernel⟩ ⟨Or.inr rfl, by omega, Or.inl rfl⟩
  · refine C147_track ex_start exLines _ _ 660 3 (exLines.take 3) (exLines.drop 4) _ rfl ?_ ⟨rfl, rfl, by decide +kernel⟩ ⟨Or.inl rfl, by omega, Or.inl rfl⟩
    intro q hq hf ha
    simp only [exLines, List.take, List.mem_cons, List.not_mem_nil, or_false] at hq
    rcases hq with rfl | rfl | rfl
    · rcases ha.1 with h | h <;> exact absurd h (by decide)
    · exact absurd hf.2.2 (by decide +kernel)
    · exact absurd hf.1 (by decide)

example : (parse exLoc exStart exLines).locs = [none, none, some (0, "3"), some (0, "4"), some (1, "3")] ∧
    (parse exLoc exStart exLines).children 0 = [2, 3] ∧ (parse exLoc exStart exLines).providers = ["DB", "XY", "Z"] := by
  decide +kernel

end Nigiri.HrdTracks
