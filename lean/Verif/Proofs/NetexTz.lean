import Verif.Spec.Netex
/-!
# Time zones: the cached conversion
-/

namespace Nigiri.Netex

def ChOk (l : List (Int × Int)) : Prop := l.Pairwise fun a b => a.1 < b.1 ∧ a.1 + a.2 ≤ b.1 + b.2

def offFrom (u : Int) (o : Int) (l : List (Int × Int)) : Int := l.foldl (fun o c => if c.1 ≤ u then c.2 else o) o

theorem offFrom_later (u o : Int) (l : List (Int × Int)) (h : ∀ c ∈ l, u < c.1) : offFrom u o l = o := by
  induction l with
  | nil => rfl
  | cons c r ih =>
    have hc := h c (List.mem_cons_self ..)
    show offFrom u (if c.1 ≤ u then c.2 else o) r = o
    rw [if_neg (by omega)]
    exact ih fun x hx => h x (List.mem_cons_of_mem _ hx)

theorem segs_lo {l : List (Int × Int)} {t o : Int} {s : Info} (hs : s ∈ segs (some t) o l)
    (h : ChOk ((t, o) :: l)) : ∃ t', s.lo = some t' ∧ t ≤ t' ∧ t + o ≤ t' + s.off := by
  induction l generalizing t o with
  | nil =>
    simp only [segs, List.mem_singleton] at hs
    subst hs
    exact ⟨t, rfl, by omega, by simp⟩
  | cons c r ih =>
    obtain ⟨t2, o2⟩ := c
    simp only [segs, List.mem_cons] at hs
    rcases hs with rfl | hs
    · exact ⟨t, rfl, by omega, by simp⟩
    · have h2 : ChOk ((t2, o2) :: r) := (List.pairwise_cons.1 h).2
      obtain ⟨t', e, h3, h4⟩ := ih hs h2
      have := (List.pairwise_cons.1 h).1 (t2, o2) (List.mem_cons_self ..)
      simp only at this
      exact ⟨t', e, by omega, by omega⟩

theorem seg_off {l : List (Int × Int)} {lo : Option Int} {o : Int} {s : Info} {u : Int} (hs : s ∈ segs lo o l)
    (hok : ChOk l) (hc : s.contains u = true) : offFrom u o l = s.off := by
  induction l generalizing lo o with
  | nil =>
    simp only [segs, List.mem_singleton] at hs
    subst hs; rfl
  | cons c r ih =>
    obtain ⟨t, o2⟩ := c
    have hp := List.pairwise_cons.1 hok
    simp only [segs, List.mem_cons] at hs
    simp only [Info.contains, Bool.and_eq_true] at hc
    rcases hs with rfl | hs
    · have hb : u < t := by simpa [Info.before] using hc.2
      apply offFrom_later
      intro c hcm
      rcases List.mem_cons.1 hcm with rfl | hcm
      · exact hb
      · have := hp.1 c hcm
        simp only at this; omega
    · obtain ⟨t', e, h1, -⟩ := segs_lo hs hok
      have ha : t' ≤ u := by simpa [Info.after, e] using hc.1
      show offFrom u (if t ≤ u then o2 else o) r = s.off
      rw [if_pos (by omega)]
      exact ih hs hp.2

theorem seg_cover (l : List (Int × Int)) (lo : Option Int) (o u : Int) (h : ∀ t, lo = some t → t ≤ u) :
    ∃ s ∈ segs lo o l, s.contains u = true := by
  induction l generalizing lo o with
  | nil =>
    refine ⟨_, List.mem_singleton.2 rfl, ?_⟩
    cases lo with
    | none => rfl
    | some t => simp [Info.contains, Info.after, Info.before, h t rfl]
  | cons c r ih =>
    obtain ⟨t, o2⟩ := c
    by_cases hu : u < t
    · refine ⟨_, List.mem_cons_self .., ?_⟩
      cases lo with
      | none => simp [Info.contains, Info.after, Info.before, hu]
      | some t' => simp [Info.contains, Info.after, Info.before, h t' rfl, hu]
    · obtain ⟨s, hs, hc⟩ := ih (some t) o2 (by intro t' e; cases e; omega)
      exact ⟨s, List.mem_cons_of_mem _ hs, hc⟩

theorem isUtc_iff (tz : Tz) (hok : TzOk tz) (l u : Int) :
    IsUtc tz l u ↔ ∃ s ∈ tz.segments, s.contains u = true ∧ u + s.off = l := by
  constructor
  · intro h
    obtain ⟨s, hs, hc⟩ := seg_cover tz.changes none tz.first u (by intro t e; cases e)
    refine ⟨s, hs, hc, ?_⟩
    rw [← seg_off hs hok hc]; exact h
  · rintro ⟨s, hs, hc, h⟩
    have := seg_off hs hok hc
    show u + offFrom u tz.first tz.changes = l
    rw [this]; exact h

/-- What `getInfo` finds. -/
inductive Found (l : Int) (prev : Info) (lo : Option Int) (o : Int) (ch : List (Int × Int)) (i : Info) : Prop
  | hit (h : i ∈ segs lo o ch) (hc : i.contains (l - i.off) = true)
  | early (hi : i = prev) (t : Int) (ht : lo = some t) (h : l < t + o)
      (hn : ∀ s ∈ segs lo o ch, s.contains (l - s.off) = false)
  | skip (h : i ∈ segs lo o ch) (c : Int × Int) (hc : c ∈ ch) (hi : i.hi = some c.1) (h1 : c.1 + i.off ≤ l)
      (h2 : l < c.1 + c.2) (hn : ∀ s ∈ segs lo o ch, s.contains (l - s.off) = false)

theorem getInfo_found (l : Int) (ch : List (Int × Int)) (prev : Info) (lo : Option Int) (o : Int)
    (hok : ChOk ch) (hlo : ∀ t, lo = some t → ChOk ((t, o) :: ch)) :
    Found l prev lo o ch (getInfo l prev (segs lo o ch)) := by
  induction ch generalizing prev lo o with
  | nil =>
    by_cases ha : (Info.mk lo none o).after (l - o) = true
    · refine .hit ?_ ?_
      · simp [segs, getInfo, Info.before, ha]
      · simp [segs, getInfo, Info.before, Info.contains, ha]
    · cases lo with
      | none => exact absurd rfl ha
      | some t =>
        have hlt : l - o < t := by simpa [Info.after] using ha
        refine .early ?_ t rfl (by omega) ?_
        · simp [segs, getInfo, Info.before, Info.after]; omega
        · intro s hs
          simp only [segs, List.mem_singleton] at hs
          subst hs
          simp [Info.contains, Info.after, Info.before]; omega
  | cons c r ih =>
    obtain ⟨t, o2⟩ := c
    have hp := List.pairwise_cons.1 hok
    by_cases hb : l - o < t
    · by_cases ha : (Info.mk lo (some t) o).after (l - o) = true
      · refine .hit ?_ ?_
        · simp [segs, getInfo, Info.before, ha, hb]
        · simp [segs, getInfo, Info.before, Info.contains, ha, hb]
      · cases lo with
        | none => exact absurd rfl ha
        | some t0 =>
          have hlt : l - o < t0 := by simpa [Info.after] using ha
          refine .early ?_ t0 rfl (by omega) ?_
          · have h3 : (Info.mk (some t0) (some t) o).after (l - o) = false := by simpa using ha
            simp [segs, getInfo, Info.before, hb, h3]
          · intro s hs
            obtain ⟨t', e, -, h4⟩ := segs_lo hs (hlo t0 rfl)
            simp [Info.contains, Info.after, e]; omega
    · have hstep : getInfo l prev (segs lo o ((t, o2) :: r)) =
          getInfo l ⟨lo, some t, o⟩ (segs (some t) o2 r) := by
        simp [segs, getInfo, Info.before]; omega
      have hcur : (Info.mk lo (some t) o).contains (l - o) = false := by
        simp [Info.contains, Info.before]; omega
      rw [hstep]
      cases ih ⟨lo, some t, o⟩ (some t) o2 hp.2 (by intro t' e; cases e; exact hok) with
      | hit h hc => exact .hit (List.mem_cons_of_mem _ h) hc
      | early hi t' ht h hn =>
        cases ht
        rw [hi]
        refine .skip (List.mem_cons_self ..) (t, o2) (List.mem_cons_self ..) rfl ?_ h ?_
        · show t + o ≤ l; omega
        · intro s hs
          rcases List.mem_cons.1 hs with rfl | hs
          · exact hcur
          · exact hn s hs
      | skip h c hc hi h1 h2 hn =>
        refine .skip (List.mem_cons_of_mem _ h) c (List.mem_cons_of_mem _ hc) hi h1 h2 ?_
        intro s hs
        rcases List.mem_cons.1 hs with rfl | hs
        · exact hcur
        · exact hn s hs

theorem segs_lt {l : List (Int × Int)} {lo : Option Int} {o : Int} {s : Info} {h : Int} (hs : s ∈ segs lo o l)
    (hok : ChOk l) (hlo : ∀ t, lo = some t → ChOk ((t, o) :: l)) (hh : s.hi = some h) :
    s.contains (h - 1) = true := by
  induction l generalizing lo o with
  | nil =>
    simp only [segs, List.mem_singleton] at hs
    subst hs; simp at hh
  | cons c r ih =>
    obtain ⟨t, o2⟩ := c
    simp only [segs, List.mem_cons] at hs
    rcases hs with rfl | hs
    · simp only [Option.some.injEq] at hh
      subst hh
      cases lo with
      | none => simp [Info.contains, Info.after, Info.before]; omega
      | some t0 =>
        have := (List.pairwise_cons.1 (hlo t0 rfl)).1 (t, o2) (List.mem_cons_self ..)
        simp only at this
        simp [Info.contains, Info.after, Info.before]; omega
    · exact ih hs (List.pairwise_cons.1 hok).2 (by intro t' e; cases e; exact hok)

theorem offFrom_change {ch : List (Int × Int)} (hok : ChOk ch) (o : Int) {c : Int × Int} (hc : c ∈ ch) :
    offFrom c.1 o ch = c.2 := by
  induction ch generalizing o with
  | nil => cases hc
  | cons d r ih =>
    have hp := List.pairwise_cons.1 hok
    rcases List.mem_cons.1 hc with rfl | hc
    · show offFrom c.1 (if c.1 ≤ c.1 then c.2 else o) r = c.2
      rw [if_pos (by omega)]
      exact offFrom_later _ _ _ fun x hx => (hp.1 x hx).1
    · exact ih hp.2 _ hc

theorem info_spec (tz : Tz) (hok : TzOk tz) (l : Int) :
    tz.info l ∈ tz.segments ∧ Converted tz l (l - (tz.info l).off) := by
  have hf := getInfo_found l tz.changes ⟨none, none, tz.first⟩ none tz.first hok (by intro t e; cases e)
  have : tz.info l = getInfo l ⟨none, none, tz.first⟩ (segs none tz.first tz.changes) := rfl
  rw [← this] at hf
  have hnone : (∀ s ∈ segs none tz.first tz.changes, s.contains (l - s.off) = false) → ∀ v, ¬ IsUtc tz l v := by
    intro hn v hv
    obtain ⟨s, hs, hc, he⟩ := (isUtc_iff tz hok l v).1 hv
    have := hn s hs
    rw [show l - s.off = v by omega, hc] at this
    cases this
  cases hf with
  | hit h hc => exact ⟨h, Or.inl ((isUtc_iff tz hok l _).2 ⟨_, h, hc, by omega⟩)⟩
  | early hi t ht h hn => cases ht
  | skip h c hc hi h1 h2 hn =>
    refine ⟨h, Or.inr ⟨hnone hn, c, hc, ?_, ?_, ?_⟩⟩
    all_goals have e1 : offsetAt tz (c.1 - 1) = (tz.info l).off :=
                seg_off h hok (segs_lt h hok (by intro t e; cases e) hi)
    · rw [e1]; exact h1
    · have e2 : offsetAt tz c.1 = c.2 := offFrom_change hok tz.first hc
      rw [e2]; exact h2
    · rw [e1]

/-- The cache holds nothing or an interval of the time zone. -/
def CacheOk (tz : Tz) (c : Option Info) : Prop := ∀ i, c = some i → i ∈ tz.segments

theorem toUtc_spec (tz : Tz) (hok : TzOk tz) (c : Option Info) (hc : CacheOk tz c) (day x : Int) :
    Converted tz (day + x) (day + (toUtc tz c day x).1) ∧ CacheOk tz (toUtc tz c day x).2 := by
  have hi := info_spec tz hok (day + x)
  have key : ∀ i : Info, i ∈ tz.segments → i.contains (day + x - i.off) = true →
      Converted tz (day + x) (day + (x - i.off)) := by
    intro i h1 h2
    refine Or.inl ((isUtc_iff tz hok _ _).2 ⟨i, h1, ?_, by omega⟩)
    rw [show day + (x - i.off) = day + x - i.off by omega]; exact h2
  have base : Converted tz (day + x) (day + (x - (tz.info (day + x)).off)) := by
    rw [show day + (x - (tz.info (day + x)).off) = day + x - (tz.info (day + x)).off by omega]; exact hi.2
  cases c with
  | none => exact ⟨base, by intro i e; cases e; exact hi.1⟩
  | some i =>
    unfold toUtc
    simp only
    by_cases h : i.contains (day + x - i.off) = true
    · rw [if_pos h]
      exact ⟨key i (hc i rfl) h, by intro k e; cases e; exact hc i rfl⟩
    · rw [if_neg h]
      exact ⟨base, by intro k e; cases e; exact hi.1⟩

theorem toUtc_again (tz : Tz) (c : Option Info) (day x : Int) :
    toUtc tz (toUtc tz c day x).2 day x = toUtc tz c day x := by
  cases c with
  | none =>
    unfold toUtc
    simp only
    split <;> rfl
  | some i =>
    unfold toUtc
    simp only
    by_cases h : i.contains (day + x - i.off) = true
    · simp only [if_pos h]
    · simp only [if_neg h]
      split <;> rfl

theorem toUtcs_spec (tz : Tz) (hok : TzOk tz) (day : Int) (xs : List Int) (c : Option Info) (hc : CacheOk tz c) :
    CacheOk tz (toUtcs tz day c xs).2 ∧ (toUtcs tz day c xs).1.length = xs.length ∧
    ∀ (i : Nat) (x : Int), xs[i]? = some x → ∃ u, (toUtcs tz day c xs).1[i]? = some u ∧ Converted tz (day + x) (day + u) := by
  induction xs generalizing c with
  | nil => exact ⟨hc, rfl, by intro i x h; simp at h⟩
  | cons x r ih =>
    have h1 := toUtc_spec tz hok c hc day x
    have h2 := ih _ h1.2
    refine ⟨h2.1, by simp [toUtcs, h2.2.1], ?_⟩
    intro i y hy
    cases i with
    | zero =>
      simp only [List.getElem?_cons_zero, Option.some.injEq] at hy
      subst hy
      exact ⟨_, rfl, h1.1⟩
    | succ i => exact h2.2.2 i y hy

end Nigiri.Netex
