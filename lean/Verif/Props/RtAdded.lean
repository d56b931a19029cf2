import Verif.Props.RtResend

/-!
# C113: an added trip runs as announced
-/

namespace Nigiri.Rt

/-- The time (in minutes) which the stop updates of an added trip announce for its `e`-th event: departure at the
first stop, arrival and departure at the second, and so on.  If the first stop has no departure its arrival counts. -/
def announced (us : List StopUpd) (e : Nat) : Option Int :=
  if e = 0 then us[0]?.bind (fun u => (match u.dep with | some ev => ev.time | none => u.arr.bind Ev.time).map toMinutes)
  else if e % 2 = 1 then us[(e + 1) / 2]?.bind (fun u => (u.arr.bind Ev.time).map toMinutes)
  else us[e / 2]?.bind (fun u => (u.dep.bind Ev.time).map toMinutes)

/-- The announced time of an event, or else the one announced last before it. -/
def lastAnnounced (us : List StopUpd) : Nat → Int
  | 0 => (announced us 0).getD 0
  | e + 1 => (announced us (e + 1)).getD (lastAnnounced us e)

/-- The stop a stop update of an added trip announces. -/
def announcedStop (tt : Tt) (src : Nat) (inOut : StopUpd → Bool × Bool) (u : StopUpd) : Stop :=
  ⟨(tt.lookup src (u.stopId.getD "")).getD 0, !u.skipped && (inOut u).1, !u.skipped && (inOut u).2, false, false⟩

theorem mapM_some {α β} (f : α → Option β) : ∀ (l : List α) (m : List β), l.mapM f = some m →
    l.length = m.length ∧ ∀ (i : Nat) (a : α), l[i]? = some a → f a = m[i]? := by
  intro l
  induction l with
  | nil => intro m h; simp at h; subst h; exact ⟨rfl, by intro i a h; simp at h⟩
  | cons x l ih =>
    intro m h
    rw [List.mapM_cons] at h
    cases hx : f x with
    | none => rw [hx] at h; simp at h
    | some y =>
      rw [hx] at h
      cases hl : l.mapM f with
      | none => rw [hl] at h; simp at h
      | some ys =>
        rw [hl] at h
        simp at h
        subst h
        obtain ⟨h1, h2⟩ := ih ys hl
        refine ⟨by simp [h1], ?_⟩
        intro i a hi
        cases i with
        | zero => simp at hi; subst hi; simpa using hx
        | succ i => simp at hi; simpa using h2 i a hi

/-- What the loop over the stops of an added trip is about. -/
structure AddedSit (c : Ctx) (us : List StopUpd) : Prop where
  unsched : c.scheduled = false
  first : c.first = 0
  len : c.locSeq.length = us.length
  two : 1 < us.length
  ids : ∀ (i : Nat) (u : StopUpd) (s : Stop), us[i]? = some u → c.locSeq[i]? = some s → u.stopId = some (c.locId s.loc)
  noAssigned : ∀ u ∈ us, u.assigned = none
  arrTime : ∀ u ∈ us, ∀ ev, u.arr = some ev → ev.time.isSome
  depTime : ∀ u ∈ us, ∀ ev, u.dep = some ev → ev.time.isSome
  some_ : ∀ u ∈ us, (u.dep.bind Ev.time).isSome ∨ (u.arr.bind Ev.time).isSome
  mono : ∀ e e' t t', e ≤ e' → e' < 2 * us.length - 2 → announced us e = some t → announced us e' = some t' → t ≤ t'
  pos : ∀ t, announced us 0 = some t → 0 ≤ t
  range : ∀ e t, e < 2 * us.length - 2 → announced us e = some t →
    deltaMin ≤ t - dayToUnix c.base ∧ t - dayToUnix c.base ≤ deltaMax

theorem AddedSit.zero {c : Ctx} {us : List StopUpd} (h : AddedSit c us) : ∃ t, announced us 0 = some t := by
  have h2 := h.two
  cases hu : us[0]? with
  | none => rw [List.getElem?_eq_none_iff] at hu; omega
  | some u =>
    have hm : u ∈ us := List.mem_of_getElem? hu
    simp only [announced, if_pos, hu, Option.bind_some]
    cases hd : u.dep with
    | some ev =>
      obtain ⟨t, ht⟩ := Option.isSome_iff_exists.mp (h.depTime u hm ev hd)
      exact ⟨_, by simp only [ht]; rfl⟩
    | none =>
      rcases h.some_ u hm with hs | hs
      · rw [hd] at hs; cases hs
      · obtain ⟨t, ht⟩ := Option.isSome_iff_exists.mp hs
        exact ⟨_, by simp only [ht]; rfl⟩

theorem lastAnnounced_mem {us : List StopUpd} (h : ∃ t, announced us 0 = some t) (e : Nat) :
    ∃ e', e' ≤ e ∧ announced us e' = some (lastAnnounced us e) := by
  induction e with
  | zero =>
    obtain ⟨t, ht⟩ := h
    exact ⟨0, Nat.le_refl _, by rw [ht, lastAnnounced, ht]; rfl⟩
  | succ e ih =>
    cases ha : announced us (e + 1) with
    | some t => exact ⟨e + 1, Nat.le_refl _, by rw [ha, lastAnnounced, ha]; rfl⟩
    | none =>
      obtain ⟨e', h1, h2⟩ := ih
      exact ⟨e', by omega, by rw [h2, lastAnnounced, ha]; rfl⟩

theorem AddedSit.inRange {c : Ctx} {us : List StopUpd} (h : AddedSit c us) {e : Nat} (he : e < 2 * us.length - 2) :
    unixToDelta c.base (lastAnnounced us e) = lastAnnounced us e - dayToUnix c.base := by
  obtain ⟨e', h1, h2⟩ := lastAnnounced_mem h.zero e
  obtain ⟨h3, h4⟩ := h.range e' _ (by omega) h2
  unfold unixToDelta clampDelta stdClamp
  rw [if_neg (by omega), if_neg (by omega)]

theorem AddedSit.le {c : Ctx} {us : List StopUpd} (h : AddedSit c us) {e : Nat} {t : Int}
    (he : e + 1 < 2 * us.length - 2) (ha : announced us (e + 1) = some t) : lastAnnounced us e ≤ t := by
  obtain ⟨e', h1, h2⟩ := lastAnnounced_mem h.zero e
  exact h.mono e' (e + 1) _ _ (by omega) he h2 ha

theorem AddedSit.lastMono {c : Ctx} {us : List StopUpd} (h : AddedSit c us) {e : Nat}
    (he : e + 1 < 2 * us.length - 2) : lastAnnounced us e ≤ lastAnnounced us (e + 1) := by
  cases ha : announced us (e + 1) with
  | some t =>
    have := h.le he ha
    rw [show lastAnnounced us (e + 1) = t by rw [lastAnnounced, ha]; rfl]
    exact this
  | none => rw [show lastAnnounced us (e + 1) = lastAnnounced us e by rw [lastAnnounced, ha]; rfl]; exact Int.le_refl _

/-- The arrays after the first `e` events and `k` stops. -/
structure AddedInv (c : Ctx) (us : List StopUpd) (e k : Nat) (st : St) : Prop where
  len : st.times.length = 2 * us.length - 2
  times : ∀ i < e, st.times[i]? = some (lastAnnounced us i - dayToUnix c.base)
  slen : st.stops.length = us.length
  stops : ∀ (i : Nat) (u : StopUpd) (s : Stop), us[i]? = some u → c.locSeq[i]? = some s →
    st.stops[i]? = some (if i < k ∧ u.skipped then ⟨s.loc, false, false, false, false⟩ else s)

/-- Writing the time of event `e`. -/
theorem AddedInv.write {c : Ctx} {us : List StopUpd} {e k : Nat} {st : St} (h : AddedSit c us)
    (hi : AddedInv c us e k st) (he : e < 2 * us.length - 2) :
    AddedInv c us (e + 1) k (updateTime c st e (lastAnnounced us e)) where
  len := by simp [updateTime, hi.len]
  times := by
    intro i hie
    show (st.times.set e (unixToDelta c.base (lastAnnounced us e)))[i]? = _
    rw [List.getElem?_set]
    by_cases hh : e = i
    · subst hh
      rw [if_pos rfl, if_pos (by have := hi.len; omega), h.inRange he]
    · rw [if_neg hh]
      exact hi.times i (by omega)
  slen := hi.slen
  stops := hi.stops

theorem evTime_write {c : Ctx} {us : List StopUpd} {e k : Nat} {st : St} (h : AddedSit c us)
    (hi : AddedInv c us e k st) (he : e < 2 * us.length - 2) :
    evTime c (updateTime c st e (lastAnnounced us e)) e = lastAnnounced us e := by
  have := (hi.write h he).times e (by omega)
  rw [evTime, List.getD_eq_getElem?_getD, this, Option.getD_some]
  omega

/-- An event which is announced. -/
theorem write_event {c : Ctx} {us : List StopUpd} {e : Nat} {st : St} (h : AddedSit c us)
    (he : e + 1 < 2 * us.length - 2) {ev : Ev} {t : Int} (hev : ev.time = some t)
    (ha : announced us (e + 1) = some (toMinutes t)) :
    updateEvent c st (e + 1) ev (lastAnnounced us e) =
      (updateTime c st (e + 1) (lastAnnounced us (e + 1)), ⟨lastAnnounced us (e + 1), 0⟩) := by
  have hl : lastAnnounced us (e + 1) = toMinutes t := by rw [lastAnnounced, ha]; rfl
  have hle := h.le he ha
  unfold updateEvent
  rw [h.unsched]
  simp only [Bool.and_false, Bool.false_eq_true, if_false, hev, Option.getD_some]
  rw [Int.max_eq_right hle, hl]
  congr 2
  show wrap16 (toMinutes t - toMinutes t) = 0
  rw [Int.sub_self]
  decide

/-- An event which is not announced. -/
theorem write_delay {c : Ctx} {us : List StopUpd} {e k : Nat} {st : St} (h : AddedSit c us)
    (hi : AddedInv c us (e + 1) k st) (he : e + 1 < 2 * us.length - 2) (ha : announced us (e + 1) = none) :
    updateDelay c st (e + 1) 0 (some (lastAnnounced us e)) =
      (updateTime c st (e + 1) (lastAnnounced us (e + 1)), ⟨lastAnnounced us (e + 1), 0⟩) := by
  have hl : lastAnnounced us (e + 1) = lastAnnounced us e := by rw [lastAnnounced, ha]; rfl
  have hw := evTime_write h hi he
  unfold updateDelay
  rw [h.unsched]
  simp only [Bool.false_eq_true, if_false, Option.getD_some, Int.add_zero]
  rw [Int.max_eq_left (Int.le_refl _), ← hl, hw]

theorem arr_bind {us : List StopUpd} {k : Nat} {u : StopUpd} (hu : us[k]? = some u) (hk : 0 < k) :
    announced us (2 * k - 1) = (u.arr.bind Ev.time).map toMinutes := by
  unfold announced
  rw [if_neg (by omega), if_pos (by omega), show (2 * k - 1 + 1) / 2 = k by omega, hu]
  rfl

theorem dep_bind {us : List StopUpd} {k : Nat} {u : StopUpd} (hu : us[k]? = some u) (hk : 0 < k) :
    announced us (2 * k) = (u.dep.bind Ev.time).map toMinutes := by
  unfold announced
  rw [if_neg (by omega), if_neg (by omega), show 2 * k / 2 = k by omega, hu]
  rfl

/-- The arrival at a stop which is not the first. -/
theorem added_stepArr {c : Ctx} {us : List StopUpd} {k j : Nat} {st : St} {u : StopUpd} (h : AddedSit c us)
    (hu : us[k]? = some u) (hk : 0 < k) (hi : AddedInv c us (2 * k - 1) j st) :
    ∃ st', stepArr c k (some u) (st, some ⟨lastAnnounced us (2 * k - 2), 0⟩) =
      (st', some ⟨lastAnnounced us (2 * k - 1), 0⟩) ∧ AddedInv c us (2 * k) j st' := by
  have hkl : k < us.length := (List.getElem?_eq_some_iff.mp hu).1
  have hm : u ∈ us := List.mem_of_getElem? hu
  have he : evIdx k true = 2 * k - 2 + 1 := by simp only [evIdx, if_true]; omega
  have hlt : 2 * k - 2 + 1 < 2 * us.length - 2 := by omega
  have hi' : AddedInv c us (2 * k - 2 + 1) j st := by rw [show 2 * k - 2 + 1 = 2 * k - 1 by omega]; exact hi
  have hb := arr_bind hu hk
  rw [show 2 * k - 1 = 2 * k - 2 + 1 by omega] at hb ⊢
  have hw := hi'.write h hlt
  rw [show 2 * k - 2 + 1 + 1 = 2 * k by omega] at hw
  refine ⟨_, ?_, hw⟩
  unfold stepArr
  rw [if_pos (by rw [h.first]; omega), he]
  cases ha : u.arr with
  | none =>
    rw [ha] at hb
    simp only [Option.bind_some, ha, Ev.has, Bool.false_eq_true, if_false]
    rw [write_delay h hi' hlt hb]
  | some ev =>
    obtain ⟨t, ht⟩ := Option.isSome_iff_exists.mp (h.arrTime u hm ev ha)
    rw [ha] at hb
    have hb' : announced us (2 * k - 2 + 1) = some (toMinutes t) := by rw [hb, Option.bind_some, ht]; rfl
    have hh : Ev.has (some ev) = true := by simp [Ev.has, ht]
    simp only [Option.bind_some, ha, hh, if_true, fallbackArr]
    rw [write_event h hlt ht hb']

/-- The departure at a stop which is neither the first nor the last. -/
theorem added_stepDep {c : Ctx} {us : List StopUpd} {k j : Nat} {st : St} {u : StopUpd} (h : AddedSit c us)
    (hu : us[k]? = some u) (hk : 0 < k) (hkn : k + 1 < us.length) (hi : AddedInv c us (2 * k) j st) :
    ∃ st', stepDep c k (some u) (st, some ⟨lastAnnounced us (2 * k - 1), 0⟩) =
      (st', some ⟨lastAnnounced us (2 * k), 0⟩) ∧ AddedInv c us (2 * k + 1) j st' := by
  have hm : u ∈ us := List.mem_of_getElem? hu
  have he : evIdx k false = 2 * k - 1 + 1 := by simp only [evIdx, Bool.false_eq_true, if_false]; omega
  have hlt : 2 * k - 1 + 1 < 2 * us.length - 2 := by omega
  have hi' : AddedInv c us (2 * k - 1 + 1) j st := by rw [show 2 * k - 1 + 1 = 2 * k by omega]; exact hi
  have hb := dep_bind hu hk
  have hw := hi'.write h hlt
  rw [show 2 * k - 1 + 1 + 1 = 2 * k + 1 by omega] at hw
  refine ⟨_, ?_, hw⟩
  unfold stepDep
  have h0 : ¬ (k = 0) := by omega
  simp only [Option.bind_some, h0, decide_false, Bool.false_and, Bool.false_eq_true, if_false]
  rw [if_pos (by rw [h.len]; omega), he]
  rw [show 2 * k = 2 * k - 1 + 1 by omega] at hb
  rw [show lastAnnounced us (2 * k) = lastAnnounced us (2 * k - 1 + 1) by rw [show 2 * k - 1 + 1 = 2 * k by omega]]
  cases ha : u.dep with
  | none =>
    rw [ha] at hb
    simp only [Ev.has, Bool.false_eq_true, if_false]
    rw [write_delay h hi' hlt hb]
  | some ev =>
    obtain ⟨t, ht⟩ := Option.isSome_iff_exists.mp (h.depTime u hm ev ha)
    rw [ha] at hb
    have hb' : announced us (2 * k - 1 + 1) = some (toMinutes t) := by rw [hb, Option.bind_some, ht]; rfl
    have hh : Ev.has (some ev) = true := by simp [Ev.has, ht]
    simp only [hh, if_true, fallbackDep]
    rw [write_event h hlt ht hb']

/-- The departure at the first stop. -/
theorem added_first {c : Ctx} {us : List StopUpd} {j : Nat} {st : St} {u : StopUpd} (h : AddedSit c us)
    (hu : us[0]? = some u) (hi : AddedInv c us 0 j st) :
    ∃ st', stepDep c 0 (some u) (st, none) = (st', some ⟨lastAnnounced us 0, 0⟩) ∧ AddedInv c us 1 j st' := by
  have hm : u ∈ us := List.mem_of_getElem? hu
  have h2 := h.two
  have hlt : 0 < 2 * us.length - 2 := by omega
  obtain ⟨t0, ht0⟩ := h.zero
  have hl : lastAnnounced us 0 = t0 := by rw [lastAnnounced, ht0]; rfl
  have hp := h.pos t0 ht0
  have hw := hi.write h hlt
  have key : ∀ (ev : Ev) (t : Int), ev.time = some t → toMinutes t = t0 →
      updateEvent c st 0 ev 0 = (updateTime c st 0 (lastAnnounced us 0), ⟨lastAnnounced us 0, 0⟩) := by
    intro ev t hev ht
    unfold updateEvent
    rw [h.unsched]
    simp only [Bool.and_false, Bool.false_eq_true, if_false, hev, Option.getD_some]
    rw [ht, Int.max_eq_right hp, hl]
    congr 2
    show wrap16 (t0 - t0) = 0
    rw [Int.sub_self]
    decide
  refine ⟨_, ?_, hw⟩
  have ha : announced us 0 = ((match u.dep with | some ev => ev.time | none => u.arr.bind Ev.time).map toMinutes) := by
    simp only [announced, if_pos, hu, Option.bind_some]
  rw [ht0] at ha
  have he : evIdx 0 false = 0 := rfl
  unfold stepDep
  rw [he]
  cases hd : u.dep with
  | none =>
    rw [hd] at ha
    simp only at ha
    cases hr : u.arr with
    | none => rw [hr] at ha; cases ha
    | some ev =>
      rw [hr, Option.bind_some] at ha
      cases ht : ev.time with
      | none => rw [ht] at ha; cases ha
      | some t =>
        rw [ht] at ha
        have hh : Ev.has (some ev) = true := by simp [Ev.has, ht]
        simp only [Option.bind_some, hr, hd, hh, decide_true, Bool.true_and, Option.isNone_none, if_true]
        rw [key ev t ht (by simpa using ha.symm)]
  | some ev =>
    rw [hd] at ha
    simp only at ha
    cases ht : ev.time with
    | none => rw [ht] at ha; cases ha
    | some t =>
      rw [ht] at ha
      have hh : Ev.has (some ev) = true := by simp [Ev.has, ht]
      simp only [Option.bind_some, hd, Option.isNone_some, Bool.and_false, Bool.false_eq_true, if_false, hh, if_true,
        fallbackDep]
      rw [if_pos (by rw [h.len]; omega), key ev t ht (by simpa using ha.symm)]

/-- The departure of the last stop does not exist. -/
theorem added_last {c : Ctx} {us : List StopUpd} {k : Nat} {u : StopUpd} (h : AddedSit c us) (hk : 0 < k)
    (hkn : k + 1 = us.length) (s : St × Option Prop') : stepDep c k (some u) s = s := by
  unfold stepDep
  have h0 : ¬ (k = 0) := by omega
  simp only [Option.bind_some, h0, decide_false, Bool.false_and, Bool.false_eq_true, if_false]
  rw [if_neg (by rw [h.len]; omega)]

/-- The stop of a matching update. -/
theorem added_stop {c : Ctx} {us : List StopUpd} {e k : Nat} {st : St} {u : StopUpd} (h : AddedSit c us)
    (hu : us[k]? = some u) (hi : AddedInv c us e k st) :
    ∃ st', applyStop c st k u = some st' ∧ AddedInv c us e (k + 1) st' := by
  have hkl : k < us.length := (List.getElem?_eq_some_iff.mp hu).1
  have hm : u ∈ us := List.mem_of_getElem? hu
  obtain ⟨s, hs⟩ : ∃ s, c.locSeq[k]? = some s := by
    cases hs : c.locSeq[k]? with
    | none => rw [List.getElem?_eq_none_iff, h.len] at hs; omega
    | some s => exact ⟨s, rfl⟩
  have hid := h.ids k u s hu hs
  have hst := hi.stops k u s hu hs
  rw [if_neg (by omega)] at hst
  have go : ∀ s' : Stop, s' = (if u.skipped then ⟨s.loc, false, false, false, false⟩ else s) →
      AddedInv c us e (k + 1) { st with stops := st.stops.set k s' } := by
    intro s' hs'
    refine ⟨hi.len, hi.times, by simp [hi.slen], ?_⟩
    intro i u' s'' hu' hs''
    show (st.stops.set k s')[i]? = _
    rw [List.getElem?_set]
    by_cases hik : k = i
    · subst hik
      rw [hu] at hu'
      rw [hs] at hs''
      cases hu'
      cases hs''
      rw [if_pos rfl, if_pos (by have := hi.slen; omega), hs']
      simp
    · rw [if_neg hik, hi.stops i u' s'' hu' hs'']
      congr 1
      have : (i < k ∧ u'.skipped = true) ↔ (i < k + 1 ∧ u'.skipped = true) := by
        constructor
        · intro ⟨a, b⟩; exact ⟨by omega, b⟩
        · intro ⟨a, b⟩; exact ⟨by omega, b⟩
      by_cases hh : i < k ∧ u'.skipped = true
      · rw [if_pos hh, if_pos (this.mp hh)]
      · rw [if_neg hh, if_neg (fun x => hh (this.mpr x))]
  unfold applyStop
  have g1 : c.locSeq.getD k ⟨0, false, false, false, false⟩ = s := by
    rw [List.getD_eq_getElem?_getD, hs, Option.getD_some]
  have g2 : st.stops.getD k ⟨0, false, false, false, false⟩ = s := by
    rw [List.getD_eq_getElem?_getD, hst, Option.getD_some]
  rw [g1, g2]
  cases hsk : u.skipped with
  | true =>
    exact ⟨_, by rw [if_pos rfl], go _ (by rw [hsk]; rfl)⟩
  | false =>
    refine ⟨{ st with stops := st.stops.set k s }, ?_, go _ (by rw [hsk]; rfl)⟩
    rw [if_neg (by decide), h.noAssigned u hm, hid]
    simp

theorem added_align {c : Ctx} {us : List StopUpd} {k : Nat} {u : StopUpd} (h : AddedSit c us)
    (hu : us[k]? = some u) (ps : List (Nat × Nat)) :
    align c ((k, k) :: ps) (us.drop k) = (true, us.drop k) := by
  have hkl : k < us.length := (List.getElem?_eq_some_iff.mp hu).1
  have hd : us.drop k = u :: us.drop (k + 1) := by
    rw [List.drop_eq_getElem_cons hkl]
    rw [List.getElem?_eq_getElem hkl] at hu
    cases hu
    rfl
  have hma : matchesAt c u (k, k) = true := by
    cases hs : c.locSeq[k]? with
    | none => rw [List.getElem?_eq_none_iff, h.len] at hs; omega
    | some s =>
      have := h.ids k u s hu hs
      unfold matchesAt
      simp only [List.getD_eq_getElem?_getD, hs, Option.getD_some, this]
      simp
  rw [hd, align, if_pos (by simp [hma])]
  simp only [hma]

/-- The loop from the second stop on. -/
theorem added_loop {c : Ctx} {us : List StopUpd} (h : AddedSit c us) : ∀ (m k : Nat) (st : St), 0 < k → k + m = us.length →
    AddedInv c us (2 * k - 1) k st → m ≠ 0 →
    AddedInv c us (2 * us.length - 2) us.length
      (runLoop c ((List.range' k m).map fun i => (i, i)) (us.drop k) (st, some ⟨lastAnnounced us (2 * k - 2), 0⟩)).1 := by
  intro m
  induction m with
  | zero => intro k st _ _ _ h; exact absurd rfl h
  | succ m ih =>
    intro k st hk hkm hi _
    obtain ⟨u, hu⟩ : ∃ u, us[k]? = some u := ⟨_, List.getElem?_eq_getElem (show k < us.length by omega)⟩
    have hd : us.drop k = u :: us.drop (k + 1) := by
      rw [List.drop_eq_getElem_cons (show k < us.length by omega)]
      rw [List.getElem?_eq_getElem (show k < us.length by omega)] at hu
      cases hu
      rfl
    rw [List.range'_succ, List.map_cons, runLoop, added_align h hu, hd]
    obtain ⟨st1, e1, i1⟩ := added_stop h hu hi
    obtain ⟨st2, e2, i2⟩ := added_stepArr h hu hk i1
    simp only [e1, e2]
    by_cases hm : m = 0
    · subst hm
      rw [added_last h hk (by omega)]
      simp only [List.range'_zero, List.map_nil, runLoop]
      rw [show 2 * us.length - 2 = 2 * k by omega, show us.length = k + 1 by omega]
      exact i2
    · obtain ⟨st3, e3, i3⟩ := added_stepDep h hu hk (by omega) i2
      rw [e3]
      have := ih (k + 1) st3 (by omega) (by omega) (by rw [show 2 * (k + 1) - 1 = 2 * k + 1 by omega]; exact i3) hm
      rw [show 2 * (k + 1) - 2 = 2 * k by omega] at this
      exact this

theorem added_run {c : Ctx} {us : List StopUpd} (h : AddedSit c us) (hq : c.seqs = List.range us.length) (st : St)
    (hi : AddedInv c us 0 0 st) :
    AddedInv c us (2 * us.length - 2) us.length (updateRun c us st).1 ∧
      (updateRun c us st).2 = decide (((updateRun c us st).1.stops.filter (fun x => !x.cancelled)).length ≤ 1) := by
  refine ⟨?_, rfl⟩
  have h2 := h.two
  have hv : visits c = (List.range' 0 us.length).map fun i => (i, i) := by
    unfold visits
    rw [hq, h.unsched, List.length_range, List.range_eq_range']
    simp [List.zip_eq_zipWith, List.zipWith_self]
  have hp : initPred c st = none := by unfold initPred; rw [h.unsched]; rfl
  have main : AddedInv c us (2 * us.length - 2) us.length (runLoop c (visits c) us (st, initPred c st)).1 := by
    obtain ⟨u, hu⟩ : ∃ u, us[0]? = some u := ⟨_, List.getElem?_eq_getElem (show 0 < us.length by omega)⟩
    have hd : us.drop 0 = u :: us.drop 1 := by
      rw [List.drop_eq_getElem_cons (show 0 < us.length by omega)]
      rw [List.getElem?_eq_getElem (show 0 < us.length by omega)] at hu
      cases hu
      rfl
    rw [hv, hp]
    obtain ⟨st1, e1, i1⟩ := added_stop h hu hi
    obtain ⟨st2, e2, i2⟩ := added_first h hu i1
    have e0 : stepArr c 0 (some u) (st1, none) = (st1, none) := by
      unfold stepArr
      rw [if_neg (by rw [h.first]; omega)]
    have hr : List.range' 0 us.length = 0 :: List.range' 1 (us.length - 1) := by
      have := List.range'_succ (s := 0) (n := us.length - 1) (step := 1)
      rw [show us.length - 1 + 1 = us.length by omega] at this
      exact this
    have ha := added_align h hu ((List.range' 1 (us.length - 1)).map fun i => (i, i))
    rw [List.drop_zero] at ha hd
    rw [hr, List.map_cons]
    have key : ∀ (ps : List (Nat × Nat)) (full : List StopUpd), full = u :: us.drop 1 →
        align c ((0, 0) :: ps) full = (true, full) →
        runLoop c ((0, 0) :: ps) full (st, none) = runLoop c ps (us.drop 1) (st2, some ⟨lastAnnounced us 0, 0⟩) := by
      intro ps full hf ha
      rw [runLoop, ha]
      generalize us.drop 1 = rest at hf
      subst hf
      simp only [e1, e0, e2]
    rw [key _ us hd ha]
    exact added_loop h (us.length - 1) 1 st2 (by omega) (by omega) i2 (by omega)
  simp only [updateRun]
  generalize runLoop c (visits c) us (st, initPred c st) = z at main
  have hnd : ∀ i, i + 1 < 2 * us.length - 2 →
      lastAnnounced us i ≤ lastAnnounced us (i + 1) := fun i hi => h.lastMono hi
  have hle : ∀ i j, i ≤ j → j < 2 * us.length - 2 → lastAnnounced us i ≤ lastAnnounced us j := by
    intro i j hij hj
    induction j with
    | zero => rw [show i = 0 by omega]; exact Int.le_refl _
    | succ j ih =>
      by_cases hh : i = j + 1
      · rw [hh]; exact Int.le_refl _
      · exact Int.le_trans (ih (by omega) (by omega)) (hnd j hj)
  have hmono : monoPass deltaMin z.1.times = z.1.times := by
    apply List.ext_getElem?
    intro i
    by_cases hi : i < z.1.times.length
    · have hget : ∀ (j : Nat) (a : Int), z.1.times[j]? = some a → j < 2 * us.length - 2 ∧
          a = lastAnnounced us j - dayToUnix c.base := by
        intro j a hj
        have hlt : j < 2 * us.length - 2 := by
          have := (List.getElem?_eq_some_iff.mp hj).1
          have := main.len
          omega
        rw [main.times j hlt] at hj
        cases hj
        exact ⟨hlt, rfl⟩
      have := monoPass_keep z.1.times deltaMin i
        (by
          intro j a _ hj
          obtain ⟨h3, h4⟩ := hget j a hj
          obtain ⟨e', h5, h6⟩ := lastAnnounced_mem h.zero j
          have := (h.range e' _ (by omega) h6).1
          omega)
        (by
          intro j k a b hjk _ hj hk
          obtain ⟨_, h4⟩ := hget j a hj
          obtain ⟨h5, h6⟩ := hget k b hk
          have := hle j k hjk h5
          omega)
      simp only [List.getD_eq_getElem?_getD] at this
      have hml : i < (monoPass deltaMin z.1.times).length := by rw [monoPass_length]; exact hi
      rw [List.getElem?_eq_getElem hi, List.getElem?_eq_getElem hml] at this ⊢
      simpa using this
    · rw [List.getElem?_eq_none (show z.1.times.length ≤ i by omega),
        List.getElem?_eq_none (show (monoPass deltaMin z.1.times).length ≤ i by rw [monoPass_length]; omega)]
  rw [hmono]
  exact main

theorem modify_snoc {α} (l : List α) (a : α) (f : α → α) : (l ++ [a]).modify l.length f = l ++ [f a] := by
  induction l with
  | nil => rfl
  | cons x l ih => simp [ih]

/-- A usable announcement of an added trip: no stop is assigned to another one, every event that is present has
an absolute time, and these times do not decrease and fit into the 16 bits relative to the base day. -/
structure WellAnnounced (base : Int) (us : List StopUpd) : Prop where
  noAssigned : ∀ u ∈ us, u.assigned = none
  arrTime : ∀ u ∈ us, ∀ ev, u.arr = some ev → ev.time.isSome
  depTime : ∀ u ∈ us, ∀ ev, u.dep = some ev → ev.time.isSome
  mono : ∀ e e' t t', e ≤ e' → e' < 2 * us.length - 2 → announced us e = some t → announced us e' = some t' → t ≤ t'
  pos : ∀ t, announced us 0 = some t → 0 ≤ t
  range : ∀ e t, e < 2 * us.length - 2 → announced us e = some t →
    deltaMin ≤ t - dayToUnix base ∧ t - dayToUnix base ≤ deltaMax

theorem newStops_spec {tt : Tt} {src : Nat} {plausible : List StopUpd → Bool} {inOut : StopUpd → Bool × Bool}
    {us : List StopUpd} {ss : List Stop} (h : newStops tt src plausible inOut us = some ss) :
    1 < us.length ∧ ss.length = us.length ∧
    (∀ u ∈ us, ((u.dep.bind Ev.time).isSome ∨ (u.arr.bind Ev.time).isSome) ∧ u.stopId.isSome) ∧
    ∀ (i : Nat) (u : StopUpd), us[i]? = some u → ∃ l, tt.lookup src (u.stopId.getD "") = some l ∧
      ss[i]? = some ⟨l, (inOut u).1, (inOut u).2, false, false⟩ := by
  unfold newStops at h
  by_cases hp : (plausible us && us.all (fun u =>
      ((u.dep.bind Ev.time).isSome || (u.arr.bind Ev.time).isSome) && u.stopId.isSome)) = true
  · rw [if_pos hp] at h
    cases hm : us.mapM (fun u => (tt.lookup src (u.stopId.getD "")).map fun l =>
        (⟨l, (inOut u).1, (inOut u).2, false, false⟩ : Stop)) with
    | none => rw [hm] at h; cases h
    | some ss' =>
      rw [hm] at h
      by_cases hl : 1 < ss'.length
      · simp only [hl, if_true, Option.some.injEq] at h
        subst h
        obtain ⟨h1, h2⟩ := mapM_some _ us ss' hm
        rw [Bool.and_eq_true, List.all_eq_true] at hp
        refine ⟨by omega, h1.symm, ?_, ?_⟩
        · intro u hu
          have := hp.2 u hu
          rw [Bool.and_eq_true, Bool.or_eq_true] at this
          exact this
        · intro i u hu
          have hlt := (List.getElem?_eq_some_iff.mp hu).1
          have h3 := h2 i u hu
          cases hlo : tt.lookup src (u.stopId.getD "") with
          | none =>
            rw [hlo, List.getElem?_eq_getElem (by omega)] at h3
            cases h3
          | some l =>
            rw [hlo] at h3
            exact ⟨l, rfl, h3.symm⟩
      · simp only [hl, if_false] at h
        cases h
  · rw [if_neg hp] at h
    cases h

/-- **C113.** A trip that is added by a message and not known yet becomes one new real-time transport.  It stops
at the announced stops in the announced order (skipped ones closed), with the announced permissions, at the
announced times; an event without a time has the last time announced before it.  If at most one stop is left
it is cancelled.  Nothing else changes among the transports.

Part: times which decrease are raised, but then counted again as a delay (`C31_added_trip_counterexample`); see also
`C113_resent_counterexample`. -/
theorem C113_added_trip_partial (tt : Tt) (r : Rtt) (src : Nat) (id : String) (plausible : List StopUpd → Bool)
    (inOut : StopUpd → Bool × Bool) (us : List StopUpd) (hnew : (r.addIds src).find id = none)
    (hok : (newStops tt src plausible inOut us).isSome)
    (hid : ∀ s l, tt.lookup src s = some l → tt.locId l = s) (hw : WellAnnounced r.base us) :
    (process tt r (.added src id plausible inOut us)).transports = r.transports ++
      [⟨none, src, (List.range (2 * us.length - 2)).map (fun e => lastAnnounced us e - dayToUnix r.base),
        us.map (announcedStop tt src inOut),
        decide (((us.map (announcedStop tt src inOut)).filter (fun x => !x.cancelled)).length ≤ 1)⟩] := by
  obtain ⟨ss, hss⟩ := Option.isSome_iff_exists.mp hok
  obtain ⟨h1, h2, h3, h4⟩ := newStops_spec hss
  have hres : resolveRt r ⟨none, none, 0, []⟩ id src = ⟨none, none, 0, []⟩ := by
    unfold resolveRt
    simp only [hnew]
  simp only [process, hres, hss]
  obtain ⟨rr, hrr⟩ : ∃ rr, addRtTransport tt r src none ss (List.replicate (2 * ss.length - 2) 0) id = rr := ⟨_, rfl⟩
  have ht : rr.1.transports = r.transports ++ [⟨none, src, List.replicate (2 * ss.length - 2) 0, ss, false⟩] := by
    rw [← hrr]
    simp [addRtTransport]
  have hn : rr.2 = r.transports.length := by rw [← hrr]; rfl
  have hb : rr.1.base = r.base := by rw [← hrr]; rfl
  rw [hrr]
  have hx : rr.1.transports[rr.2]? = some ⟨none, src, List.replicate (2 * ss.length - 2) 0, ss, false⟩ := by
    rw [ht, hn]
    simp
  let c := ctxOf tt rr.1 src ⟨none, some rr.2, 0, []⟩ rr.2
  have hc1 : c.locSeq = ss := by
    show ((rr.1.transports[rr.2]?).map (·.stops)).getD [] = ss
    rw [hx]
    rfl
  have hc2 : c.seqs = List.range us.length := by
    show List.range (((rr.1.transports[rr.2]?).map (·.stops)).getD []).length = _
    rw [hx]
    show List.range ss.length = _
    rw [h2]
  have hcb : c.base = r.base := hb
  have hsit : AddedSit c us := by
    refine ⟨rfl, rfl, by rw [hc1]; exact h2, h1, ?_, hw.noAssigned, hw.arrTime, hw.depTime, fun u hu => (h3 u hu).1,
      hw.mono, hw.pos, by rw [hcb]; exact hw.range⟩
    intro i u s hu hs
    obtain ⟨l, h5, h6⟩ := h4 i u hu
    rw [hc1, h6] at hs
    cases hs
    obtain ⟨sid, hsid⟩ := Option.isSome_iff_exists.mp (h3 u (List.mem_of_getElem? hu)).2
    rw [hsid, Option.getD_some] at h5
    show u.stopId = some (tt.locId l)
    rw [hid _ _ h5, hsid]
  have hinv : AddedInv c us 0 0 ⟨List.replicate (2 * ss.length - 2) 0, ss, []⟩ := by
    refine ⟨by simp [h2], by intro i hi; omega, h2, ?_⟩
    intro i u s hu hs
    rw [if_neg (by omega)]
    rw [hc1] at hs
    exact hs
  obtain ⟨hr1, hr2⟩ := added_run hsit hc2 _ hinv
  have hstops : (updateRun c us ⟨List.replicate (2 * ss.length - 2) 0, ss, []⟩).1.stops =
      us.map (announcedStop tt src inOut) := by
    apply List.ext_getElem?
    intro i
    by_cases hi : i < us.length
    · have hu : us[i]? = some us[i] := List.getElem?_eq_getElem hi
      obtain ⟨l, h5, h6⟩ := h4 i _ hu
      rw [hr1.stops i _ _ hu (by rw [hc1]; exact h6), List.getElem?_map, hu]
      simp only [Option.map_some, hi, true_and, announcedStop, h5, Option.getD_some, Option.some.injEq]
      cases hsk : (us[i]).skipped <;> simp
    · rw [List.getElem?_eq_none (by rw [hr1.slen]; omega), List.getElem?_eq_none (by simp; omega)]
  have htimes : (updateRun c us ⟨List.replicate (2 * ss.length - 2) 0, ss, []⟩).1.times =
      (List.range (2 * us.length - 2)).map (fun e => lastAnnounced us e - dayToUnix r.base) := by
    apply List.ext_getElem?
    intro i
    by_cases hi : i < 2 * us.length - 2
    · rw [hr1.times i hi, hcb, List.getElem?_map, List.getElem?_range hi]
      rfl
    · rw [List.getElem?_eq_none (by rw [hr1.len]; omega), List.getElem?_eq_none (by simp; omega)]
  rw [hstops] at hr2
  show (updateExisting tt rr.1 src ⟨none, some rr.2, 0, []⟩ rr.2 us).transports = _
  unfold updateExisting
  rw [hx]
  simp only
  change (if (updateRun c us ⟨List.replicate (2 * ss.length - 2) 0, ss, []⟩).2 = true then _ else _ : Rtt).transports = _
  rw [hr2]
  have hset : ∀ x : RtTransport, rr.1.transports.set rr.2 x = r.transports ++ [x] := by
    intro x
    rw [ht, hn]
    simp
  by_cases hc : ((us.map (announcedStop tt src inOut)).filter (fun x => !x.cancelled)).length ≤ 1
  · rw [if_pos (decide_eq_true hc)]
    show ((rr.1.transports.set rr.2 { (⟨none, src, List.replicate (2 * ss.length - 2) 0, ss, false⟩ : RtTransport) with
      times := (updateRun c us ⟨List.replicate (2 * ss.length - 2) 0, ss, []⟩).1.times
      stops := (updateRun c us ⟨List.replicate (2 * ss.length - 2) 0, ss, []⟩).1.stops }).modify rr.2
        (fun x => { x with cancelled := true })) = _
    rw [hset, hstops, htimes, hn]
    rw [modify_snoc]
    simp [hc]
  · rw [if_neg (by simpa using hc)]
    show (rr.1.transports.set rr.2 { (⟨none, src, List.replicate (2 * ss.length - 2) 0, ss, false⟩ : RtTransport) with
      times := (updateRun c us ⟨List.replicate (2 * ss.length - 2) 0, ss, []⟩).1.times
      stops := (updateRun c us ⟨List.replicate (2 * ss.length - 2) 0, ss, []⟩).1.stops }) = _
    rw [hset, hstops, htimes]
    simp [hc]

namespace FeedDemo

/-- Midnight of the base day in seconds. -/
def midnight : Int := 6 * 1440 * 60

/-- An added trip: from A at 10:00, at B from 10:20 (no departure given), at C at 10:40, to A at 11:00. -/
def extra : List StopUpd :=
  [⟨none, some "a", none, false, none, some ⟨none, some (midnight + 36000)⟩⟩,
   ⟨none, some "b", none, false, some ⟨none, some (midnight + 37200)⟩, none⟩,
   ⟨none, some "c", none, true, none, some ⟨none, some (midnight + 38400)⟩⟩,
   ⟨none, some "a", none, false, some ⟨none, some (midnight + 39600)⟩, none⟩]

/-- All stops can be used. -/
def both : StopUpd → Bool × Bool := fun _ => (true, true)

theorem extra_announced : (List.range 6).map (announced extra) =
    [some 9240, some 9260, none, none, some 9280, some 9300] := by decide +kernel

theorem extra_well : WellAnnounced 6 extra := by
  have hb : ∀ e, e < 6 → announced extra e =
      (match e with | 0 => some 9240 | 1 => some 9260 | 4 => some 9280 | 5 => some 9300 | _ => none) := by
    intro e he
    rcases e with _ | _ | _ | _ | _ | _ | e <;> first | decide +kernel | omega
  refine ⟨by decide, by decide, by decide, ?_, ?_, ?_⟩
  · intro e e' t t' hee he h1 h2
    have he : e' < 6 := he
    rw [hb e (by omega)] at h1
    rw [hb e' he] at h2
    rcases e with _ | _ | _ | _ | _ | _ | e <;> rcases e' with _ | _ | _ | _ | _ | _ | e' <;>
      first | omega | (simp at h1; done) | (simp at h2; done) | (simp at h1 h2; omega)
  · intro t h
    rw [hb 0 (by omega)] at h
    simp only [Option.some.injEq] at h
    omega
  · intro e t he h
    have he : e < 6 := he
    rw [hb e he] at h
    have hd : dayToUnix 6 = 8640 := by decide
    rw [hd]
    unfold deltaMin deltaMax
    rcases e with _ | _ | _ | _ | _ | _ | e <;>
      first | omega | (simp at h; done) | (simp at h; omega)

/-- The hypotheses of `C113_added_trip_partial` hold for a trip with a skipped stop and missing times. -/
example : (process tt (processAll tt 6 feed) (.added 0 "x" (fun _ => true) both extra)).transports.length = 2 ∧
    ((processAll tt 6 feed).addIds 0).find "x" = none ∧ (newStops tt 0 (fun _ => true) both extra).isSome ∧
    (∀ s l, tt.lookup 0 s = some l → tt.locId l = s) ∧ WellAnnounced (processAll tt 6 feed).base extra := by
  refine ⟨by decide +kernel, by decide +kernel, by decide +kernel, ?_, extra_well⟩
  intro s l h
  simp only [tt] at h ⊢
  by_cases h1 : s = "a"
  · rw [if_pos h1] at h; cases h; exact h1.symm
  · rw [if_neg h1] at h
    by_cases h2 : s = "b"
    · rw [if_pos h2] at h; cases h; exact h2.symm
    · rw [if_neg h2] at h
      by_cases h3 : s = "c"
      · rw [if_pos h3] at h; cases h; exact h3.symm
      · rw [if_neg h3] at h
        by_cases h4 : s = "b2"
        · rw [if_pos h4] at h; cases h; exact h4.symm
        · rw [if_neg h4] at h; cases h

/-- An added trip from A over B to C, `m` minutes after ten, with the second stop as given. -/
def extraB (m : Int) (assigned : Option String) (skipped : Bool) : List StopUpd :=
  [⟨none, some "a", none, false, none, some ⟨none, some (midnight + 36000 + 60 * m)⟩⟩,
   ⟨none, some "b", assigned, skipped, some ⟨none, some (midnight + 37200 + 60 * m)⟩, some ⟨none, some (midnight + 37200 + 60 * m)⟩⟩,
   ⟨none, some "c", none, false, some ⟨none, some (midnight + 38400 + 60 * m)⟩, none⟩]

/-- **C113 (limitation).** The second stop of an added trip is assigned to another track.  When the same message
arrives again, now ten minutes later than planned, the second stop is not found any more (updates are compared with
the assigned stop) and its times are ignored: the train is shown at B at 10:10 instead of 10:30. -/
theorem C113_resent_counterexample :
    (processAll tt 6 [.added 0 "x" (fun _ => true) both (extraB 0 (some "b2") false)]).transports.map (·.times) =
      [[600, 620, 620, 640]] ∧
    (processAll tt 6 [.added 0 "x" (fun _ => true) both (extraB 0 (some "b2") false),
      .added 0 "x" (fun _ => true) both (extraB 10 (some "b2") false)]).transports.map (·.times) =
      [[610, 610, 610, 650]] := by decide +kernel

/-- **C113 (limitation).** A stop of an added trip that was skipped once is skipped forever. -/
theorem C113_skipped_counterexample :
    (processAll tt 6 [.added 0 "x" (fun _ => true) both (extraB 0 none true),
      .added 0 "x" (fun _ => true) both (extraB 0 none false)]).transports.map (fun x => x.stops.map (·.cancelled)) =
      [[false, true, false]] := by decide +kernel

end FeedDemo

end Nigiri.Rt
