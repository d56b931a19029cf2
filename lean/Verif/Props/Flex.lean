import Verif.Model.Flex
import Verif.Proofs.VdvHistory
import Verif.Props.RtLocations

/-! # C125–C127: flexible trips -/

namespace Nigiri.Flex

open StopTimes (FlexStop Window)
open LocalToUtc (setBit)

/-! ## Specification -/

/-- Local day `g` is a service day of the trip within the selection. -/
def ServiceDay (e : Env) (t : FTrip) (g : Nat) : Prop :=
  g < e.nDays ∧ e.selFrom ≤ g ∧ (g : Int) < e.selTo ∧ t.service g = true

/-- The windows of service day `g` in UTC minutes since the first day. -/
def instants (e : Env) (t : FTrip) (g : Nat) : List (Int × Int) :=
  t.windows.map fun w => ((g : Int) * 1440 + w.start - e.noonOffset g, (g : Int) * 1440 + w.stop - e.noonOffset g)

/-- The windows of a transport on UTC day `d`. -/
def utc (x : Transport) (d : Nat) : List (Int × Int) :=
  x.windows.map fun w => ((d : Int) * 1440 + w.1, (d : Int) * 1440 + w.2)

/-- All UTC days of the trip fit into a bitfield. -/
def InRange (e : Env) (t : FTrip) : Prop :=
  ∀ g, ServiceDay e t g → 0 ≤ (g : Int) + (firstStart t - e.noonOffset g) / 1440 ∧
    (g : Int) + (firstStart t - e.noonOffset g) / 1440 < 512

/-! ## Lemmas: days -/

/-- Day `d` is recorded for offset `tz`. -/
def Has (m : DayMap) (tz : Int) (d : Nat) : Prop := ∃ b, (tz, b) ∈ m ∧ b d = true

theorem setDay_iff (b : Bitfield) (x : Int) (d : Nat) :
    setDay b x d = true ↔ b d = true ∨ ((d : Int) = x ∧ x < kMaxDays) := by
  unfold setDay
  split
  · next h =>
    unfold setBit
    split
    · next hd =>
      constructor
      · intro _; right; omega
      · intro _; rfl
    · next hd =>
      constructor
      · intro hb; exact Or.inl hb
      · rintro (hb | hb)
        · exact hb
        · omega
  · next h =>
    constructor
    · intro hb; exact Or.inl hb
    · rintro (hb | hb)
      · exact hb
      · omega

theorem record_mem (m : DayMap) (tz x : Int) (k : Int) (hk : k ∈ (record m tz x).map Prod.fst) :
    k = tz ∨ k ∈ m.map Prod.fst := by
  induction m with
  | nil =>
    unfold record at hk
    simp at hk; exact Or.inl hk
  | cons y m ih =>
    obtain ⟨k', b⟩ := y
    unfold record at hk
    split at hk
    · exact Or.inr hk
    · simp only [List.map_cons, List.mem_cons] at hk ⊢
      rcases hk with hk | hk
      · exact Or.inr (Or.inl hk)
      · rcases ih hk with h | h
        · exact Or.inl h
        · exact Or.inr (Or.inr h)

theorem record_nodup (m : DayMap) (tz x : Int) (h : (m.map Prod.fst).Nodup) : ((record m tz x).map Prod.fst).Nodup := by
  induction m with
  | nil => unfold record; simp
  | cons y m ih =>
    obtain ⟨k', b⟩ := y
    unfold record
    rw [List.map_cons, List.nodup_cons] at h
    split
    · rw [List.map_cons, List.nodup_cons]; exact h
    · next hne =>
      rw [List.map_cons, List.nodup_cons]
      refine ⟨fun hk => ?_, ih h.2⟩
      rcases record_mem m tz x k' hk with hk | hk
      · exact hne hk
      · exact h.1 hk

theorem record_has (m : DayMap) (tz x : Int) (h : (m.map Prod.fst).Nodup) (k : Int) (d : Nat) :
    Has (record m tz x) k d ↔ Has m k d ∨ (k = tz ∧ (d : Int) = x ∧ x < kMaxDays) := by
  induction m with
  | nil =>
    unfold record Has
    simp only [List.mem_singleton, Prod.mk.injEq, List.not_mem_nil, false_and, exists_false, false_or]
    constructor
    · rintro ⟨b, ⟨h1, rfl⟩, hb⟩
      rcases (setDay_iff _ _ _).mp hb with hb | hb
      · cases hb
      · exact ⟨h1, hb⟩
    · rintro ⟨h1, h2⟩
      exact ⟨_, ⟨h1, rfl⟩, (setDay_iff _ _ _).mpr (Or.inr h2)⟩
  | cons y m ih =>
    obtain ⟨k', b⟩ := y
    rw [List.map_cons, List.nodup_cons] at h
    unfold record
    split
    · next he =>
      subst he
      unfold Has
      constructor
      · rintro ⟨c, hc, hd⟩
        rcases List.mem_cons.mp hc with hc | hc
        · cases hc
          rcases (setDay_iff _ _ _).mp hd with hd | hd
          · exact Or.inl ⟨b, List.mem_cons_self .., hd⟩
          · exact Or.inr ⟨rfl, hd⟩
        · exact Or.inl ⟨c, List.mem_cons_of_mem _ hc, hd⟩
      · rintro (⟨c, hc, hd⟩ | ⟨rfl, hd⟩)
        · rcases List.mem_cons.mp hc with hc | hc
          · cases hc
            exact ⟨_, List.mem_cons_self .., (setDay_iff _ _ _).mpr (Or.inl hd)⟩
          · exact ⟨c, List.mem_cons_of_mem _ hc, hd⟩
        · exact ⟨_, List.mem_cons_self .., (setDay_iff _ _ _).mpr (Or.inr hd)⟩
    · have ih := ih h.2
      have hcons : ∀ l : DayMap, Has ((k', b) :: l) k d ↔ (k = k' ∧ b d = true) ∨ Has l k d := by
        intro l
        unfold Has
        constructor
        · rintro ⟨c, hc, hd⟩
          rcases List.mem_cons.mp hc with hc | hc
          · cases hc; exact Or.inl ⟨rfl, hd⟩
          · exact Or.inr ⟨c, hc, hd⟩
        · rintro (⟨rfl, hd⟩ | ⟨c, hc, hd⟩)
          · exact ⟨b, List.mem_cons_self .., hd⟩
          · exact ⟨c, List.mem_cons_of_mem _ hc, hd⟩
      rw [hcons, hcons, ih, or_assoc]

theorem dayMap_spec (e : Env) (t : FTrip) (n : Nat) :
    let m := (List.range n).foldl (dayStep e t) []
    (m.map Prod.fst).Nodup ∧ ∀ (tz : Int) (d : Nat), Has m tz d ↔
      ∃ g, g < n ∧ active e t g = true ∧ e.noonOffset g = tz ∧ (d : Int) = (g : Int) + dayOffset t tz ∧ (d : Int) < kMaxDays := by
  induction n with
  | zero =>
    refine ⟨List.nodup_nil, fun tz d => ⟨?_, ?_⟩⟩
    · rintro ⟨b, hb, _⟩; exact absurd hb List.not_mem_nil
    · rintro ⟨g, hg, _⟩; omega
  | succ n ih =>
    intro m
    have hm : m = dayStep e t ((List.range n).foldl (dayStep e t) []) n := by
      show (List.range (n + 1)).foldl _ _ = _
      rw [List.range_succ, List.foldl_append]; rfl
    obtain ⟨h1, h2⟩ := ih
    rw [hm]
    generalize (List.range n).foldl (dayStep e t) [] = m0 at h1 h2
    unfold dayStep
    split
    · next ha =>
      refine ⟨record_nodup _ _ _ h1, fun tz d => ?_⟩
      rw [record_has _ _ _ h1, h2]
      constructor
      · rintro (⟨g, hg, h⟩ | ⟨rfl, h3, h4⟩)
        · exact ⟨g, by omega, h⟩
        · exact ⟨n, by omega, ha, rfl, h3, by omega⟩
      · rintro ⟨g, hg, h3, h4, h5, h6⟩
        by_cases hgn : g = n
        · subst hgn; subst h4; exact Or.inr ⟨rfl, h5, by omega⟩
        · exact Or.inl ⟨g, by omega, h3, h4, h5, h6⟩
    · next ha =>
      refine ⟨h1, fun tz d => ?_⟩
      rw [h2]
      constructor
      · rintro ⟨g, hg, h⟩; exact ⟨g, by omega, h⟩
      · rintro ⟨g, hg, h3, h⟩
        have : g ≠ n := by rintro rfl; exact ha h3
        exact ⟨g, by omega, h3, h⟩

theorem active_iff (e : Env) (t : FTrip) (g : Nat) : g < e.nDays ∧ active e t g = true ↔ ServiceDay e t g := by
  unfold active ServiceDay
  simp only [Bool.and_eq_true, decide_eq_true_eq]
  constructor
  · rintro ⟨h1, ⟨h2, h3⟩, h4⟩; exact ⟨h1, h2, h3, h4⟩
  · rintro ⟨h1, h2, h3, h4⟩; exact ⟨h1, ⟨h2, h3⟩, h4⟩

/-! ## Lemmas: transports -/

theorem seqIdx_withSeq (seqs : List (List FlexStop)) (s : List FlexStop) :
    (withSeq seqs s)[seqIdx (withSeq seqs s) s]? = some s := by
  have hmem : s ∈ withSeq seqs s := by
    unfold withSeq
    split
    · assumption
    · exact List.mem_append_right _ (List.mem_singleton.mpr rfl)
  unfold seqIdx
  have hlt : (withSeq seqs s).findIdx (fun x => x == s) < (withSeq seqs s).length :=
    List.findIdx_lt_length_of_exists ⟨s, hmem, by simp⟩
  rw [List.getElem?_eq_getElem hlt]
  have := List.findIdx_getElem (w := hlt)
  rw [eq_of_beq this]

theorem withSeq_old (seqs : List (List FlexStop)) (s : List FlexStop) (i : Nat) (x : List FlexStop)
    (h : seqs[i]? = some x) : (withSeq seqs s)[i]? = some x := by
  unfold withSeq
  split
  · exact h
  · rw [List.getElem?_append_left]
    · exact h
    · by_cases hi : i < seqs.length
      · exact hi
      · rw [List.getElem?_eq_none (by omega)] at h; cases h

theorem pushNew_spec (l : List Nat) (x : Nat) (h : l.Pairwise (· < ·)) (hx : ∀ y ∈ l, y ≤ x) :
    (pushNew l x).Pairwise (· < ·) ∧ (∀ y ∈ pushNew l x, y ≤ x) ∧ ∀ y, y ∈ pushNew l x ↔ y ∈ l ∨ y = x := by
  unfold pushNew
  split
  · next hl =>
    refine ⟨h, hx, fun y => ⟨Or.inl, ?_⟩⟩
    rintro (hy | rfl)
    · exact hy
    · exact List.mem_of_getLast? hl
  · next hl =>
    have hlt : ∀ y ∈ l, y < x := by
      intro y hy
      have h1 := hx y hy
      by_cases he : y = x
      · exfalso
        subst he
        apply hl
        -- y is a maximum of an increasing list
        induction l using Vdv.snoc_ind with
        | h0 => exact absurd hy List.not_mem_nil
        | h l a _ =>
          rw [List.getLast?_concat]
          rcases List.mem_append.mp hy with hy | hy
          · have h2 := (List.pairwise_append.mp h).2.2 y hy a (List.mem_singleton.mpr rfl)
            have h3 := hx a (List.mem_append_right _ (List.mem_singleton.mpr rfl))
            omega
          · rw [List.mem_singleton.mp hy]
      · omega
    refine ⟨?_, ?_, fun y => by simp⟩
    · rw [List.pairwise_append]
      refine ⟨h, by simp, fun a ha b hb => ?_⟩
      rw [List.mem_singleton.mp hb]; exact hlt a ha
    · intro y hy
      rcases List.mem_append.mp hy with hy | hy
      · exact hx y hy
      · rw [List.mem_singleton.mp hy]; exact Nat.le_refl _

theorem listAt_fold (x : Nat) (stops : List FlexStop) (listed : FlexStop → List Nat)
    (h : ∀ f, (listed f).Pairwise (· < ·) ∧ ∀ y ∈ listed f, y ≤ x) :
    (∀ f, (stops.foldl (listAt x) listed f).Pairwise (· < ·) ∧ ∀ y ∈ stops.foldl (listAt x) listed f, y ≤ x) ∧
    ∀ f y, y ∈ stops.foldl (listAt x) listed f ↔ y ∈ listed f ∨ (y = x ∧ f ∈ stops) := by
  induction stops generalizing listed with
  | nil => exact ⟨h, fun f y => by simp⟩
  | cons s stops ih =>
    have hs := pushNew_spec (listed s) x (h s).1 (h s).2
    have h' : ∀ f, (listAt x listed s f).Pairwise (· < ·) ∧ ∀ y ∈ listAt x listed s f, y ≤ x := by
      intro f
      unfold listAt
      split
      · next he => subst he; exact ⟨hs.1, hs.2.1⟩
      · exact h f
    obtain ⟨h1, h2⟩ := ih (listAt x listed s) h'
    refine ⟨h1, fun f y => ?_⟩
    rw [List.foldl_cons, h2]
    unfold listAt
    split
    · next he =>
      subst he
      rw [hs.2.2]
      simp only [List.mem_cons, true_or, and_true]
      constructor
      · rintro ((h | h) | h)
        · exact Or.inl h
        · exact Or.inr h
        · exact Or.inr h.1
      · rintro (h | h)
        · exact Or.inl (Or.inl h)
        · exact Or.inl (Or.inr h)
    · next he => simp [he]

/-- What holds after the trips `ts`. -/
structure Inv (e : Env) (ord : DayMap → DayMap) (ts : List FTrip) (s : Tt) : Prop where
  own : ∀ t ∈ ts, t.windows ≠ [] → ∃ k, s.seqs[k]? = some t.stops ∧
    s.transports.filter (fun x => x.trip == t.idx) = (ord (dayMap e t)).map (transportOf t k)
  from_ : ∀ x ∈ s.transports, ∃ t ∈ ts, t.windows ≠ [] ∧ x.trip = t.idx ∧ s.seqs[x.stopSeq]? = some t.stops
  listed : ∀ f i, i ∈ s.listed f ↔ ∃ x st, s.transports[i]? = some x ∧ s.seqs[x.stopSeq]? = some st ∧ f ∈ st
  sorted : ∀ f, (s.listed f).Pairwise (· < ·)

theorem listed_lt {e : Env} {ord : DayMap → DayMap} {ts : List FTrip} {s : Tt} (h : Inv e ord ts s) (f : FlexStop)
    (y : Nat) (hy : y ∈ s.listed f) : y < s.transports.length := by
  obtain ⟨x, _, hx, _⟩ := (h.listed f y).mp hy
  by_cases hi : y < s.transports.length
  · exact hi
  · rw [List.getElem?_eq_none (by omega)] at hx; cases hx

/-- The transports of one trip are added. -/
theorem addAll (t : FTrip) (k : Nat) (m : DayMap) (s : Tt) (hk : s.seqs[k]? = some t.stops)
    (hl : ∀ f i, i ∈ s.listed f ↔ ∃ x st, s.transports[i]? = some x ∧ s.seqs[x.stopSeq]? = some st ∧ f ∈ st)
    (hs : ∀ f, (s.listed f).Pairwise (· < ·)) :
    let s' := m.foldl (addTransport t k) s
    s'.seqs = s.seqs ∧ s'.transports = s.transports ++ m.map (transportOf t k) ∧
    (∀ f i, i ∈ s'.listed f ↔ ∃ x st, s'.transports[i]? = some x ∧ s'.seqs[x.stopSeq]? = some st ∧ f ∈ st) ∧
    ∀ f, (s'.listed f).Pairwise (· < ·) := by
  induction m generalizing s with
  | nil => exact ⟨rfl, by simp, hl, hs⟩
  | cons a m ih =>
    intro s'
    have hs' : s' = m.foldl (addTransport t k) (addTransport t k s a) := rfl
    have hlt : ∀ f, (s.listed f).Pairwise (· < ·) ∧ ∀ y ∈ s.listed f, y ≤ s.transports.length := by
      intro f
      refine ⟨hs f, fun y hy => ?_⟩
      obtain ⟨x, _, hx, _⟩ := (hl f y).mp hy
      by_cases hi : y < s.transports.length
      · omega
      · rw [List.getElem?_eq_none (by omega)] at hx; cases hx
    obtain ⟨g1, g2⟩ := listAt_fold s.transports.length t.stops s.listed hlt
    obtain ⟨i1, i2, i3, i4⟩ := ih (addTransport t k s a) hk (by
      intro f i
      show i ∈ t.stops.foldl (listAt s.transports.length) s.listed f ↔
        ∃ x st, (s.transports ++ [transportOf t k a])[i]? = some x ∧ s.seqs[x.stopSeq]? = some st ∧ f ∈ st
      rw [g2, hl]
      constructor
      · rintro (⟨x, st, hx, h⟩ | ⟨rfl, hf⟩)
        · refine ⟨x, st, ?_, h⟩
          rw [List.getElem?_append_left]
          · exact hx
          · by_cases hi : i < s.transports.length
            · exact hi
            · rw [List.getElem?_eq_none (by omega)] at hx; cases hx
        · exact ⟨transportOf t k a, t.stops, by simp, hk, hf⟩
      · rintro ⟨x, st, hx, h2, h3⟩
        rcases Rt.getElem?_snoc hx with ⟨_, hx⟩ | ⟨rfl, rfl⟩
        · exact Or.inl ⟨x, st, hx, h2, h3⟩
        · right
          refine ⟨rfl, ?_⟩
          have : s.seqs[k]? = some st := h2
          rw [hk] at this
          rw [Option.some.inj this]; exact h3) (fun f => (g1 f).1)
    rw [hs']
    refine ⟨i1, ?_, i3, i4⟩
    rw [i2]
    show (s.transports ++ [transportOf t k a]) ++ _ = _
    simp

theorem inv_run (e : Env) (ord : DayMap → DayMap) (ts : List FTrip)
    (hid : (ts.map fun t => t.idx).Nodup) : Inv e ord ts (expandAll e ord ts) := by
  induction ts using Vdv.snoc_ind with
  | h0 =>
    refine ⟨fun t ht => absurd ht List.not_mem_nil, fun t ht => absurd ht List.not_mem_nil, ?_, fun f => List.Pairwise.nil⟩
    intro f i
    constructor
    · intro h; exact absurd h List.not_mem_nil
    · rintro ⟨x, st, hx, _⟩; cases hx
  | h ts t ih =>
    rw [List.map_append, List.nodup_append] at hid
    have hI := ih hid.1
    have hne : ∀ u ∈ ts, u.idx ≠ t.idx := fun u hu =>
      hid.2.2 u.idx (List.mem_map_of_mem hu) t.idx (List.mem_singleton.mpr rfl)
    have hs : expandAll e ord (ts ++ [t]) = expandTrip e ord (expandAll e ord ts) t := by
      unfold expandAll; rw [List.foldl_append]; rfl
    rw [hs]
    generalize expandAll e ord ts = s at hI
    unfold expandTrip
    split
    · next hw =>
      refine ⟨?_, ?_, hI.listed, hI.sorted⟩
      · intro u hu huw
        rcases List.mem_append.mp hu with hu | hu
        · exact hI.own u hu huw
        · rw [List.mem_singleton.mp hu] at huw; exact absurd hw huw
      · intro x hx
        obtain ⟨u, hu, h⟩ := hI.from_ x hx
        exact ⟨u, List.mem_append_left _ hu, h⟩
    · next hw =>
      have hk := seqIdx_withSeq s.seqs t.stops
      generalize seqIdx (withSeq s.seqs t.stops) t.stops = k at hk
      have hold : ∀ (x : Transport), x ∈ s.transports → ∃ st, s.seqs[x.stopSeq]? = some st := by
        intro x hx
        obtain ⟨u, _, _, _, h⟩ := hI.from_ x hx
        exact ⟨_, h⟩
      obtain ⟨a1, a2, a3, a4⟩ := addAll t k (ord (dayMap e t)) { s with seqs := withSeq s.seqs t.stops } hk (by
        intro f i
        show i ∈ s.listed f ↔ ∃ x st, s.transports[i]? = some x ∧ (withSeq s.seqs t.stops)[x.stopSeq]? = some st ∧ f ∈ st
        rw [hI.listed]
        constructor
        · rintro ⟨x, st, hx, h2, h3⟩
          exact ⟨x, st, hx, withSeq_old _ _ _ _ h2, h3⟩
        · rintro ⟨x, st, hx, h2, h3⟩
          obtain ⟨st', h⟩ := hold x (List.mem_of_getElem? hx)
          have := withSeq_old s.seqs t.stops _ _ h
          rw [h2] at this
          exact ⟨x, st, hx, by rw [h, Option.some.inj this], h3⟩) hI.sorted
      generalize (ord (dayMap e t)).foldl (addTransport t k) { s with seqs := withSeq s.seqs t.stops } = s' at a1 a2 a3 a4
      have a1 : s'.seqs = withSeq s.seqs t.stops := a1
      have a2 : s'.transports = s.transports ++ (ord (dayMap e t)).map (transportOf t k) := a2
      refine ⟨?_, ?_, a3, a4⟩
      · intro u hu huw
        rw [a1, a2, List.filter_append]
        rcases List.mem_append.mp hu with hu | hu
        · obtain ⟨j, h1, h2⟩ := hI.own u hu huw
          refine ⟨j, withSeq_old _ _ _ _ h1, ?_⟩
          rw [h2]
          have : ((ord (dayMap e t)).map (transportOf t k)).filter (fun x => x.trip == u.idx) = [] := by
            rw [List.filter_eq_nil_iff]
            intro x hx
            obtain ⟨y, _, rfl⟩ := List.mem_map.mp hx
            have := hne u hu
            show ¬(t.idx == u.idx) = true
            simpa using fun h => this h.symm
          rw [this, List.append_nil]
        · have hut := List.mem_singleton.mp hu
          subst hut
          refine ⟨k, hk, ?_⟩
          have h1 : s.transports.filter (fun x => x.trip == u.idx) = [] := by
            rw [List.filter_eq_nil_iff]
            intro x hx
            obtain ⟨v, hv, _, h, _⟩ := hI.from_ x hx
            rw [h]
            simpa using hne v hv
          have h2 : ((ord (dayMap e u)).map (transportOf u k)).filter (fun x => x.trip == u.idx) =
              (ord (dayMap e u)).map (transportOf u k) := by
            rw [List.filter_eq_self]
            intro x hx
            obtain ⟨y, _, rfl⟩ := List.mem_map.mp hx
            show (u.idx == u.idx) = true
            simp
          rw [h1, h2, List.nil_append]
      · intro x hx
        rw [a2] at hx
        rw [a1]
        rcases List.mem_append.mp hx with hx | hx
        · obtain ⟨u, hu, h1, h2, h3⟩ := hI.from_ x hx
          exact ⟨u, List.mem_append_left _ hu, h1, h2, withSeq_old _ _ _ _ h3⟩
        · obtain ⟨y, _, rfl⟩ := List.mem_map.mp hx
          exact ⟨t, List.mem_append_right _ (List.mem_singleton.mpr rfl), hw, rfl, hk⟩

theorem day_of_transport (e : Env) (t : FTrip) (k : Nat) (y : Int × Bitfield) (hy : y ∈ dayMap e t) (d : Nat)
    (hd : (transportOf t k y).days d = true) :
    ∃ g, ServiceDay e t g ∧ e.noonOffset g = y.1 ∧ utc (transportOf t k y) d = instants e t g := by
  obtain ⟨g, h1, h2, h3, h4, _⟩ := ((dayMap_spec e t e.nDays).2 y.1 d).mp ⟨y.2, hy, hd⟩
  refine ⟨g, (active_iff e t g).mp ⟨h1, h2⟩, h3, ?_⟩
  unfold utc instants transportOf
  dsimp only
  rw [List.map_map]
  apply List.map_congr_left
  intro w _
  simp only [Function.comp]
  rw [h3]
  have : (d : Int) = (g : Int) + dayOffset t y.1 := h4
  ext <;> simp only [] <;> omega

theorem pairwise_of_filter {α : Type} (f : α → Nat) (R : α → α → Prop) (l : List α)
    (h : ∀ x ∈ l, (l.filter fun y => f y == f x).Pairwise R) : l.Pairwise (fun x y => f x = f y → R x y) := by
  induction l with
  | nil => exact List.Pairwise.nil
  | cons a l ih =>
    rw [List.pairwise_cons]
    constructor
    · intro y hy hxy
      have := h a (List.mem_cons_self ..)
      rw [List.filter_cons_of_pos (by simp), List.pairwise_cons] at this
      exact this.1 y (List.mem_filter.mpr ⟨hy, by simp [hxy]⟩)
    · apply ih
      intro x hx
      have := h x (List.mem_cons_of_mem _ hx)
      exact this.sublist ((List.sublist_cons_self a l).filter _)

theorem inj_of_nodup {α : Type} (f : α → Nat) (l : List α) (h : (l.map f).Nodup) (a : α) (ha : a ∈ l) (b : α)
    (hb : b ∈ l) (hab : f a = f b) : a = b := by
  induction l with
  | nil => exact absurd ha List.not_mem_nil
  | cons c l ih =>
    rw [List.map_cons, List.nodup_cons] at h
    rcases List.mem_cons.mp ha with rfl | ha'
    · rcases List.mem_cons.mp hb with rfl | hb'
      · rfl
      · exact absurd (hab ▸ List.mem_map_of_mem hb') h.1
    · rcases List.mem_cons.mp hb with rfl | hb'
      · exact absurd (hab ▸ List.mem_map_of_mem ha') h.1
      · exact ih h.2 ha' hb'

/-! ## C125: service days of flexible trips -/

/-- For all trips, services, UTC offsets (with changes of clocks) and iteration orders of the hash map: the times at
which a flexible trip can be used are exactly the windows of its service days, in UTC. `InRange`: the days fit into
512 bits. -/
theorem C125_instants (e : Env) (ord : DayMap → DayMap) (hord : ∀ m, (ord m).Perm m) (ts : List FTrip)
    (hid : (ts.map fun t => t.idx).Nodup) (t : FTrip) (ht : t ∈ ts) (hw : t.windows ≠ []) (hr : InRange e t)
    (w : List (Int × Int)) :
    (∃ x ∈ (expandAll e ord ts).transports, x.trip = t.idx ∧ ∃ d, x.days d = true ∧ w = utc x d) ↔
      ∃ g, ServiceDay e t g ∧ w = instants e t g := by
  obtain ⟨k, _, hk⟩ := (inv_run e ord ts hid).own t ht hw
  constructor
  · rintro ⟨x, hx, hxt, d, hd, rfl⟩
    have : x ∈ (expandAll e ord ts).transports.filter (fun x => x.trip == t.idx) :=
      List.mem_filter.mpr ⟨hx, by simp [hxt]⟩
    rw [hk] at this
    obtain ⟨y, hy, rfl⟩ := List.mem_map.mp this
    obtain ⟨g, hg, _, h⟩ := day_of_transport e t k y ((hord _).mem_iff.mp hy) d hd
    exact ⟨g, hg, h⟩
  · rintro ⟨g, hg, rfl⟩
    have hb := hr g hg
    obtain ⟨b, hb1, hb2⟩ := ((dayMap_spec e t e.nDays).2 (e.noonOffset g)
      ((g : Int) + (firstStart t - e.noonOffset g) / 1440).toNat).mpr
      ⟨g, ((active_iff e t g).mpr hg).1, ((active_iff e t g).mpr hg).2, rfl, by unfold dayOffset; omega, by
        have : kMaxDays = 512 := rfl
        omega⟩
    have hm : transportOf t k (e.noonOffset g, b) ∈ (expandAll e ord ts).transports.filter (fun x => x.trip == t.idx) := by
      rw [hk]
      exact List.mem_map_of_mem ((hord _).mem_iff.mpr hb1)
    refine ⟨_, (List.mem_filter.mp hm).1, rfl, _, hb2, ?_⟩
    unfold utc instants transportOf dayOffset
    dsimp only
    rw [List.map_map]
    apply List.map_congr_left
    intro w _
    simp only [Function.comp]
    ext <;> simp only [] <;> omega

/-- No service day is offered twice, if UTC offsets differ by less than a day. -/
theorem C125_once (e : Env) (ord : DayMap → DayMap) (hord : ∀ m, (ord m).Perm m) (ts : List FTrip)
    (hid : (ts.map fun t => t.idx).Nodup)
    (hoff : ∀ g g', e.noonOffset g < e.noonOffset g' + 1440) :
    (expandAll e ord ts).transports.Pairwise (fun x y => x.trip = y.trip →
      ∀ d d', x.days d = true → y.days d' = true → utc x d ≠ utc y d') := by
  have hI := inv_run e ord ts hid
  apply pairwise_of_filter (fun x : Transport => x.trip)
  intro x hx
  obtain ⟨t, ht, hw, hxt, _⟩ := hI.from_ x hx
  obtain ⟨k, _, hk⟩ := hI.own t ht hw
  rw [hxt, hk, List.pairwise_map]
  have hnd : ((ord (dayMap e t)).map Prod.fst).Nodup := ((hord _).map _).nodup_iff.mpr (dayMap_spec e t e.nDays).1
  rw [List.nodup_iff_pairwise_ne, List.pairwise_map] at hnd
  apply hnd.imp_of_mem
  intro y z hy hz hyz d d' hd hd' he
  obtain ⟨g, _, h1, h2⟩ := day_of_transport e t k y ((hord _).mem_iff.mp hy) d hd
  obtain ⟨g', _, h1', h2'⟩ := day_of_transport e t k z ((hord _).mem_iff.mp hz) d' hd'
  rw [h2, h2'] at he
  unfold instants at he
  cases hws : t.windows with
  | nil => exact hw hws
  | cons a l =>
    rw [hws, List.map_cons, List.map_cons] at he
    have h3 := (List.cons.inj he).1
    simp only [Prod.mk.injEq] at h3
    have h4 := hoff g g'
    have h5 := hoff g' g
    have : g = g' := by omega
    subst this
    exact hyz (h1.symm.trans h1')

/-- Every transport belongs to a flexible trip and has its areas and booking rules. -/
theorem C125_rules (e : Env) (ord : DayMap → DayMap) (ts : List FTrip)
    (hid : (ts.map fun t => t.idx).Nodup) (x : Transport) (hx : x ∈ (expandAll e ord ts).transports) :
    ∃ t ∈ ts, t.windows ≠ [] ∧ x.trip = t.idx ∧ (expandAll e ord ts).seqs[x.stopSeq]? = some t.stops ∧
      x.pickupRules = t.windows.map (fun w => w.pickupRule) ∧
      x.dropOffRules = t.windows.map (fun w => w.dropOffRule) ∧ x.windows.length = t.windows.length := by
  have hI := inv_run e ord ts hid
  obtain ⟨t, ht, hw, hxt, h⟩ := hI.from_ x hx
  obtain ⟨k, _, hk⟩ := hI.own t ht hw
  have : x ∈ (expandAll e ord ts).transports.filter (fun x => x.trip == t.idx) :=
    List.mem_filter.mpr ⟨hx, by simp [hxt]⟩
  rw [hk] at this
  obtain ⟨y, _, rfl⟩ := List.mem_map.mp this
  exact ⟨t, ht, hw, hxt, h, rfl, rfl, by simp [transportOf]⟩

/-- At each area (group of stops) exactly those transports are listed that serve it, each once. -/
theorem C125_listed (e : Env) (ord : DayMap → DayMap) (ts : List FTrip)
    (hid : (ts.map fun t => t.idx).Nodup) (f : FlexStop) :
    ((expandAll e ord ts).listed f).Nodup ∧
    ∀ i, i ∈ (expandAll e ord ts).listed f ↔
      ∃ (x : Transport) (t : FTrip), (expandAll e ord ts).transports[i]? = some x ∧ t ∈ ts ∧ x.trip = t.idx ∧ f ∈ t.stops := by
  have hI := inv_run e ord ts hid
  refine ⟨(hI.sorted f).imp (fun h => by omega), fun i => ?_⟩
  rw [hI.listed]
  constructor
  · rintro ⟨x, st, hx, h2, h3⟩
    obtain ⟨t, ht, _, hxt, h⟩ := hI.from_ x (List.mem_of_getElem? hx)
    rw [h] at h2
    exact ⟨x, t, hx, ht, hxt, by rw [Option.some.inj h2]; exact h3⟩
  · rintro ⟨x, t, hx, ht, hxt, hf⟩
    obtain ⟨u, hu, _, hxu, h⟩ := hI.from_ x (List.mem_of_getElem? hx)
    have : u = t := inj_of_nodup (fun t : FTrip => t.idx) ts hid u hu t ht (hxu.symm.trans hxt)
    subst this
    exact ⟨x, u.stops, hx, h, hf⟩

/-- The days fit if the service starts on or after the first day, and offsets and windows are not extreme. -/
theorem C125_range (e : Env) (t : FTrip) (h1 : 5 ≤ e.selFrom) (h2 : e.nDays ≤ 500)
    (h3 : ∀ g, -7200 ≤ firstStart t - e.noonOffset g) (h4 : ∀ g, firstStart t - e.noonOffset g < 17280) :
    InRange e t := by
  intro g hg
  have := hg.1
  have := hg.2.1
  have := h3 g
  have := h4 g
  omega

/-! ## C126: areas -/

/-- The area a feature describes: id, name, description, outline, holes. -/
def areaOf (f : Feature) : Option (String × Nat × Nat × List (Int × Int) × List (List (Int × Int))) :=
  match f.id, f.typ, f.coords with
  | some id, some "Polygon", some (outer :: inner) => some (id, f.name, f.desc, outer, inner)
  | _, _, _ => none

theorem areaOf_some {f : Feature} {x : String × Nat × Nat × List (Int × Int) × List (List (Int × Int))}
    (h : areaOf f = some x) : f.id = some x.1 ∧ f.typ = some "Polygon" ∧ x.2.1 = f.name ∧ x.2.2.1 = f.desc ∧
      f.coords = some (x.2.2.2.1 :: x.2.2.2.2) := by
  unfold areaOf at h
  split at h
  · next h1 h2 h3 =>
    cases h
    exact ⟨h1, h2, rfl, rfl, h3⟩
  · cases h

/-- `m` finds for each id the first position. -/
def Finds (m : List (String × Nat)) (ids : List String) : Prop :=
  ∀ id i, (id, i) ∈ m ↔ ids[i]? = some id ∧ ∀ j, j < i → ids[j]? ≠ some id

theorem emplace_finds (m : List (String × Nat)) (ids : List String) (id : String) (h : Finds m ids) :
    Finds (emplace m id ids.length) (ids ++ [id]) := by
  have hany : (m.any (fun y => y.1 == id)) = true ↔ id ∈ ids := by
    rw [List.any_eq_true]
    constructor
    · rintro ⟨⟨x, i⟩, hx, he⟩
      have := eq_of_beq he
      dsimp only at this
      subst this
      exact List.mem_of_getElem? ((h _ _).mp hx).1
    · intro hm
      have hlt : ids.findIdx (fun x => x == id) < ids.length :=
        List.findIdx_lt_length_of_exists ⟨id, hm, by simp⟩
      refine ⟨(id, ids.findIdx (fun x => x == id)), (h _ _).mpr ⟨?_, ?_⟩, by simp⟩
      · rw [List.getElem?_eq_getElem hlt]
        rw [eq_of_beq (List.findIdx_getElem (w := hlt))]
      · intro j hj hs
        have := List.not_of_lt_findIdx hj
        rw [List.getElem?_eq_getElem (by omega)] at hs
        rw [Option.some.inj hs] at this
        simp at this
  intro id' i
  have key : (ids ++ [id])[i]? = some id' ∧ (∀ j, j < i → (ids ++ [id])[j]? ≠ some id') ↔
      (ids[i]? = some id' ∧ ∀ j, j < i → ids[j]? ≠ some id') ∨ (i = ids.length ∧ id' = id ∧ id ∉ ids) := by
    constructor
    · rintro ⟨h1, h2⟩
      rcases Rt.getElem?_snoc h1 with ⟨hlt, h1⟩ | ⟨rfl, rfl⟩
      · left
        refine ⟨h1, fun j hj hs => h2 j hj ?_⟩
        rw [List.getElem?_append_left (by omega)]; exact hs
      · right
        refine ⟨rfl, rfl, fun hm => ?_⟩
        obtain ⟨j, hj, he⟩ := List.getElem_of_mem hm
        apply h2 j hj
        rw [List.getElem?_append_left hj, List.getElem?_eq_getElem hj, he]
    · rintro (⟨h1, h2⟩ | ⟨rfl, rfl, hm⟩)
      · have hi : i < ids.length := by
          by_cases hi : i < ids.length
          · exact hi
          · rw [List.getElem?_eq_none (by omega)] at h1; cases h1
        refine ⟨by rw [List.getElem?_append_left hi]; exact h1, fun j hj => ?_⟩
        rw [List.getElem?_append_left (by omega)]; exact h2 j hj
      · refine ⟨by simp, fun j hj hs => ?_⟩
        rw [List.getElem?_append_left hj] at hs
        exact hm (List.mem_of_getElem? hs)
  rw [key]
  unfold emplace
  split
  · next ha =>
    rw [h id' i]
    constructor
    · exact Or.inl
    · rintro (h1 | ⟨_, _, hn⟩)
      · exact h1
      · exact absurd (hany.mp ha) hn
  · next ha =>
    rw [List.mem_append, h id' i, List.mem_singleton, Prod.mk.injEq]
    constructor
    · rintro (h1 | ⟨h1, h2⟩)
      · exact Or.inl h1
      · exact Or.inr ⟨h2, h1, fun hm => ha (hany.mpr hm)⟩
    · rintro (h1 | ⟨h1, h2, _⟩)
      · exact Or.inl h1
      · exact Or.inr ⟨h2, h1⟩

/-- For every file: the areas are the polygons which can be read, in the order of the file, with id, outline and
holes, and an id refers to its first one. -/
theorem C126_outlines (fs : List Feature) :
    (readAreas fs).ids = (fs.filterMap areaOf).map (fun x => x.1) ∧
    (readAreas fs).outers = (fs.filterMap areaOf).map (fun x => x.2.2.2.1) ∧
    (readAreas fs).inners = (fs.filterMap areaOf).map (fun x => x.2.2.2.2) ∧
    Finds (readAreas fs).map (readAreas fs).ids := by
  induction fs using Vdv.snoc_ind with
  | h0 =>
    refine ⟨rfl, rfl, rfl, fun id i => ⟨fun h => absurd h List.not_mem_nil, fun h => ?_⟩⟩
    have : ([] : List String)[i]? = some id := h.1
    simp at this
  | h fs f ih =>
    have hs : readAreas (fs ++ [f]) = readFeature (readAreas fs) f := by
      unfold readAreas; rw [List.foldl_append]; rfl
    rw [hs, List.filterMap_append]
    obtain ⟨h1, h2, h3, h4⟩ := ih
    generalize readAreas fs = s at h1 h2 h3 h4
    cases ha : areaOf f with
    | none =>
      have : (readFeature s f).ids = s.ids ∧ (readFeature s f).outers = s.outers ∧
          (readFeature s f).inners = s.inners ∧ (readFeature s f).map = s.map := by
        unfold areaOf at ha
        unfold readFeature
        split
        · next id typ hid htyp =>
          split
          · exact ⟨rfl, rfl, rfl, rfl⟩
          · next hp =>
            have hp : typ = "Polygon" := Classical.not_not.mp hp
            subst hp
            split
            · next hc =>
              rw [hid, htyp, hc] at ha
              cases ha
            · exact ⟨rfl, rfl, rfl, rfl⟩
        · exact ⟨rfl, rfl, rfl, rfl⟩
      rw [this.1, this.2.1, this.2.2.1, this.2.2.2]
      have hn : [f].filterMap areaOf = [] := by simp [ha]
      rw [hn, List.append_nil]
      exact ⟨h1, h2, h3, h4⟩
    | some x =>
      obtain ⟨g1, g2, g3, g4, g5⟩ := areaOf_some ha
      have hn : [f].filterMap areaOf = [x] := by simp [ha]
      have hr : readFeature s f = ⟨s.names ++ [f.name], s.descs ++ [f.desc], s.outers ++ [x.2.2.2.1],
          s.inners ++ [x.2.2.2.2], s.ids ++ [x.1], emplace s.map x.1 s.outers.length⟩ := by
        unfold readFeature
        rw [g1, g2, g5]
        simp
      rw [hr, hn]
      dsimp only
      refine ⟨by rw [h1]; simp, by rw [h2]; simp, by rw [h3]; simp, ?_⟩
      have : s.outers.length = s.ids.length := by rw [h1, h2]; simp
      rw [this]
      exact emplace_finds _ _ _ h4

/-- The names and descriptions are those of the areas, if each polygon in the file can be read. Missing in full: a
polygon which cannot be read leaves its name (`C126_names_counterexample`). -/
theorem C126_names_partial (fs : List Feature)
    (h : ∀ f ∈ fs, f.id ≠ none → f.typ = some "Polygon" → f.coords ≠ none ∧ f.coords ≠ some []) :
    (readAreas fs).names = (fs.filterMap areaOf).map (fun x => x.2.1) ∧
    (readAreas fs).descs = (fs.filterMap areaOf).map (fun x => x.2.2.1) := by
  induction fs using Vdv.snoc_ind with
  | h0 => exact ⟨rfl, rfl⟩
  | h fs f ih =>
    have hs : readAreas (fs ++ [f]) = readFeature (readAreas fs) f := by
      unfold readAreas; rw [List.foldl_append]; rfl
    rw [hs, List.filterMap_append]
    obtain ⟨h1, h2⟩ := ih (fun f hf => h f (List.mem_append_left _ hf))
    have hf := h f (List.mem_append_right _ (List.mem_singleton.mpr rfl))
    generalize readAreas fs = s at h1 h2
    cases ha : areaOf f with
    | none =>
      have : (readFeature s f).names = s.names ∧ (readFeature s f).descs = s.descs := by
        unfold areaOf at ha
        unfold readFeature
        split
        · next id typ hid htyp =>
          split
          · exact ⟨rfl, rfl⟩
          · next hp =>
            have hp : typ = "Polygon" := Classical.not_not.mp hp
            subst hp
            obtain ⟨c1, c2⟩ := hf (by rw [hid]; simp) htyp
            cases hc : f.coords with
            | none => exact absurd hc c1
            | some l => cases l with
              | nil => exact absurd hc c2
              | cons a l => rw [hid, htyp, hc] at ha; cases ha
        · exact ⟨rfl, rfl⟩
      have hn : [f].filterMap areaOf = [] := by simp [ha]
      rw [hn, List.append_nil, this.1, this.2]
      exact ⟨h1, h2⟩
    | some x =>
      obtain ⟨g1, g2, g3, g4, g5⟩ := areaOf_some ha
      have hn : [f].filterMap areaOf = [x] := by simp [ha]
      have hr : readFeature s f = ⟨s.names ++ [f.name], s.descs ++ [f.desc], s.outers ++ [x.2.2.2.1],
          s.inners ++ [x.2.2.2.2], s.ids ++ [x.1], emplace s.map x.1 s.outers.length⟩ := by
        unfold readFeature
        rw [g1, g2, g5]
        simp
      rw [hr, hn]
      dsimp only
      exact ⟨by rw [h1, ← g3]; simp, by rw [h2, ← g4]; simp⟩

/-! ## C127: stops of groups -/

/-- For every file: the stops of a group are those the rows with known ids list for it, in the order of the file and
as often, and likewise the groups of a stop. -/
theorem C127_group_stops (group stop : String → Option Nat) (rows : List (String × String)) (g l : Nat) :
    (readGroupStops group stop rows).locations g =
      (rows.filter fun r => group r.1 == some g).filterMap (fun r => stop r.2) ∧
    (readGroupStops group stop rows).groups l =
      (rows.filter fun r => stop r.2 == some l).filterMap (fun r => group r.1) := by
  induction rows using Vdv.snoc_ind with
  | h0 => exact ⟨rfl, rfl⟩
  | h rows r ih =>
    have hs : readGroupStops group stop (rows ++ [r]) = readGroupStop group stop (readGroupStops group stop rows) r := by
      unfold readGroupStops; rw [List.foldl_append]; rfl
    obtain ⟨h1, h2⟩ := ih
    rw [hs, List.filter_append, List.filterMap_append, ← h1, List.filter_append, List.filterMap_append, ← h2]
    generalize readGroupStops group stop rows = s
    unfold readGroupStop
    cases hg : group r.1 with
    | none =>
      constructor
      · simp [hg]
      · by_cases hl : stop r.2 = some l <;> simp [hl, hg]
    | some g' =>
      cases hl : stop r.2 with
      | none =>
        constructor
        · by_cases he : g' = g <;> simp [hl, hg, he]
        · simp [hl]
      | some l' =>
        dsimp only
        constructor
        · by_cases he : g = g'
          · simp [hl, hg, he]
          · simp [hg, he, Ne.symm he]
        · by_cases he : l = l'
          · simp [hl, hg, he]
          · simp [hl, he, Ne.symm he]

/-- A group lists a stop iff the stop lists the group. -/
theorem C127_inverse (group stop : String → Option Nat) (rows : List (String × String)) (g l : Nat) :
    l ∈ (readGroupStops group stop rows).locations g ↔ g ∈ (readGroupStops group stop rows).groups l := by
  rw [(C127_group_stops group stop rows g l).1, (C127_group_stops group stop rows g l).2]
  simp only [List.mem_filterMap, List.mem_filter, beq_iff_eq]
  constructor
  · rintro ⟨r, ⟨h1, h2⟩, h3⟩; exact ⟨r, ⟨h1, h3⟩, h2⟩
  · rintro ⟨r, ⟨h1, h2⟩, h3⟩; exact ⟨r, ⟨h1, h3⟩, h2⟩

/-! ## Examples -/

def exTrip : FTrip := ⟨0, [.area 3, .group 2, .area 3], [⟨none, some 1, 30, 60⟩, ⟨none, none, 90, 120⟩, ⟨none, none, 200, 220⟩],
  fun g => g == 6 || g == 7⟩

/-- Clocks change between days 6 and 7. -/
def exEnv : Env := ⟨20, fun g => if g ≤ 6 then 60 else 120, 5, 15⟩

theorem C125_example : InRange exEnv exTrip ∧
    (expandAll exEnv id [exTrip]).transports.map (fun x => ((List.range 10).filter x.days, x.windows)) =
      [([5], [(1410, 1440), (1470, 1500), (1580, 1600)]), ([6], [(1350, 1380), (1410, 1440), (1520, 1540)])] ∧
    (expandAll exEnv id [exTrip]).listed (.area 3) = [0, 1] := by
  refine ⟨?_, by decide +kernel, by decide +kernel⟩
  apply C125_range
  · decide
  · decide
  · intro g; show (-7200 : Int) ≤ 30 - (if g ≤ 6 then 60 else 120); split <;> omega
  · intro g; show (30 : Int) - (if g ≤ 6 then 60 else 120) < 17280; split <;> omega

/-- Service on day 4, window from 25:00 to 26:00, that is on day 5, the first day of the timetable: not offered. -/
theorem C125_previous_day_counterexample :
    let t : FTrip := ⟨0, [.area 3], [⟨none, none, 1500, 1560⟩], fun g => g == 4⟩
    instants ⟨20, fun _ => 0, 5, 15⟩ t 4 = [(5 * 1440 + 60, 5 * 1440 + 120)] ∧
    (expandAll ⟨20, fun _ => 0, 5, 15⟩ id [t]).transports.length = 0 := by decide +kernel

/-- The second polygon has coordinates which are not floating point numbers (`as_double` throws): it is skipped, but its
name stays, so the third polygon is shown with the name of the second. -/
theorem C126_names_counterexample :
    let f (id : String) (name : Nat) (c : Option (List (List (Int × Int)))) : Feature := ⟨some id, some "Polygon", name, 0, c⟩
    let s := readAreas [f "a" 1 (some [[(0, 0)]]), f "b" 2 none, f "c" 3 (some [[(1, 1)], [(2, 2)]])]
    s.ids = ["a", "c"] ∧ s.map = [("a", 0), ("c", 1)] ∧ s.names[1]? = some 2 := by decide +kernel

/-- The hypothesis of `C126_names_partial` holds for a file with a point and a polygon with a hole. -/
theorem C126_example :
    let s := readAreas [⟨some "p", some "Point", 9, 9, none⟩, ⟨some "c", some "Polygon", 3, 0, some [[(1, 1)], [(2, 2)]]⟩]
    s = ⟨[3], [0], [[(1, 1)]], [[[(2, 2)]]], ["c"], [("c", 0)]⟩ := by decide +kernel

theorem C127_example :
    let s := readGroupStops (fun x => if x = "g" then some 1 else none) (fun x => if x = "A" then some 5 else some 6)
      [("g", "A"), ("h", "A"), ("g", "B")]
    s.locations 1 = [5, 6] ∧ s.groups 5 = [1] := by decide +kernel

end Nigiri.Flex
