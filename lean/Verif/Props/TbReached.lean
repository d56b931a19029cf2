import Verif.Model.TbQuery
import Verif.Props.ParetoSet
/-!
# Property C36: reached segments of the trip-based search
-/

namespace Nigiri.TB

/-- A boarding recorded in the structure: route, trip within the route, day (relative to the first day of the
query), first segment and round. -/
structure Board where
  route : Nat
  trip : Nat
  day : Nat
  seg : Nat
  k : Nat
deriving DecidableEq, Repr

/-- The values fit into the bit fields. -/
structure Board.Ok (b : Board) : Prop where
  trip : b.trip < 4096
  day : b.day < 16
  seg : b.seg < 4096
  k : b.k < 16

/-- Trip `(t, d)` is the same as or before `(t', d')`: earlier day, or same day and not behind it in the route. -/
def NotLater (t d t' d' : Nat) : Prop := d < d' ∨ (d = d' ∧ t ≤ t')

/-- Segment `s` of trip `(t, d)` of route `r` is already covered with at most `k` transfers: an earlier or the same
trip was boarded at or before it, with no more transfers. -/
def Covered (hist : List Board) (r t d k s : Nat) : Prop :=
  ∃ b ∈ hist, b.route = r ∧ b.k ≤ k ∧ NotLater b.trip b.day t d ∧ b.seg ≤ s

/-- The structure after recording a history. -/
def record (hist : List Board) : RMap := hist.foldl (fun m b => m.update b.route b.trip b.seg b.day b.k) fun _ => []

theorem toTransport_eq (t d : Nat) (ht : t < 4096) (hd : d < 16) : toTransport t d = d * 4096 + t := by
  unfold toTransport
  have h1 : (d <<< 12) % 65536 = d <<< 12 := by
    rw [Nat.shiftLeft_eq]; omega
  rw [h1, ← Nat.shiftLeft_add_eq_or_of_lt (i := 12) (by omega), Nat.shiftLeft_eq]

theorem toTransport_le {t d t' d' : Nat} (ht : t < 4096) (hd : d < 16) (ht' : t' < 4096) (hd' : d' < 16) :
    toTransport t d ≤ toTransport t' d' ↔ NotLater t d t' d' := by
  rw [toTransport_eq t d ht hd, toTransport_eq t' d' ht' hd']
  unfold NotLater
  omega

/-- The stored form of a boarding. -/
def Board.entry (b : Board) : Entry := ⟨toTransport b.trip b.day, b.seg % 4096, b.k % 16⟩

theorem dominates_refl (a : Entry) : a.dominates a = true := by simp [Entry.dominates]

theorem dominates_trans (a b c : Entry) : a.dominates b = true → b.dominates c = true → a.dominates c = true := by
  simp only [Entry.dominates, Bool.and_eq_true, decide_eq_true_eq]
  omega

theorem record_route (hist : List Board) (r : Nat) :
    record hist r = ParetoSet.runAdds Entry.dominates ((hist.filter (fun b => b.route = r)).map Board.entry) := by
  have key : ∀ (hist : List Board) (m : RMap),
      (hist.foldl (fun m b => m.update b.route b.trip b.seg b.day b.k) m) r =
        (((hist.filter (fun b => b.route = r)).map Board.entry).map ParetoSet.Op.add).foldl
          (ParetoSet.step Entry.dominates) (m r) := by
    intro hist
    induction hist with
    | nil => intro m; rfl
    | cons b bs ih =>
      intro m
      rw [List.foldl_cons, ih]
      by_cases h : b.route = r
      · rw [List.filter_cons_of_pos (by simpa using h)]
        simp only [List.map_cons, List.foldl_cons]
        congr 1
        simp [RMap.update, Raptor.upd, h, ParetoSet.step, Board.entry]
      · rw [List.filter_cons_of_neg (by simpa using h)]
        congr 1
        simp only [RMap.update, Raptor.upd]
        rw [if_neg (fun e => h e.symm)]
  exact key hist _

theorem query_fold (k tr : Nat) : ∀ (es : List Entry) (m0 s : Nat),
    es.foldl (fun ms e => if e.k ≤ k ∧ e.tr ≤ tr ∧ e.seg < ms then e.seg else ms) m0 ≤ s ↔
      m0 ≤ s ∨ ∃ e ∈ es, e.k ≤ k ∧ e.tr ≤ tr ∧ e.seg ≤ s
  | [], m0, s => by simp
  | e :: es, m0, s => by
    rw [List.foldl_cons, query_fold k tr es]
    simp only [List.mem_cons, exists_eq_or_imp]
    by_cases h : e.k ≤ k ∧ e.tr ≤ tr ∧ e.seg < m0
    · rw [if_pos h]
      constructor
      · rintro (h1 | h1)
        · exact Or.inr (Or.inl ⟨h.1, h.2.1, h1⟩)
        · exact Or.inr (Or.inr h1)
      · rintro (h1 | ⟨_, _, h1⟩ | h1)
        · exact Or.inl (by omega)
        · exact Or.inl h1
        · exact Or.inr h1
    · rw [if_neg h]
      constructor
      · rintro (h1 | h1)
        · exact Or.inl h1
        · exact Or.inr (Or.inr h1)
      · rintro (h1 | ⟨h2, h3, h1⟩ | h1)
        · exact Or.inl h1
        · exact Or.inl (by omega)
        · exact Or.inr h1

/-- C36: after any history of boardings the structure reports, for a trip of a route, exactly the first covered
segment: a segment is at or after the reported one iff it is covered by the history or does not exist. -/
theorem C36_query (tt : TT) (hist : List Board) (hok : ∀ b ∈ hist, b.Ok) (r t d k s : Nat) (ht : t < 4096) (hd : d < 16)
    (hn : (tt.route r).stops.length ≤ 65536) :
    (record hist).query tt r t d k ≤ s ↔ (tt.route r).stops.length - 1 ≤ s ∨ Covered hist r t d k s := by
  unfold RMap.query
  rw [query_fold, show ((tt.route r).stops.length - 1) % 65536 = (tt.route r).stops.length - 1 by omega]
  have P := ParetoSet.C06_non_dominated dominates_refl dominates_trans
    ((hist.filter (fun b => b.route = r)).map Board.entry)
  rw [← record_route] at P
  have hent : ∀ b ∈ hist, b.entry.k = b.k ∧ b.entry.seg = b.seg := by
    intro b hb
    have := hok b hb
    have h1 := this.seg; have h2 := this.k
    simp only [Board.entry]
    omega
  constructor
  · rintro (h | ⟨e, he, h1, h2, h3⟩)
    · exact Or.inl h
    · right
      have hm := P.2.1 e he
      simp only [List.mem_map, List.mem_filter, decide_eq_true_eq] at hm
      obtain ⟨b, ⟨hb, hr⟩, rfl⟩ := hm
      have he := hent b hb
      refine ⟨b, hb, hr, by omega, ?_, by omega⟩
      exact (toTransport_le (hok b hb).trip (hok b hb).day ht hd).mp h2
  · rintro (h | ⟨b, hb, hr, h1, h2, h3⟩)
    · exact Or.inl h
    · right
      have hm : b.entry ∈ (hist.filter (fun b => b.route = r)).map Board.entry := by
        refine List.mem_map.mpr ⟨b, List.mem_filter.mpr ⟨hb, by simpa using hr⟩, rfl⟩
      obtain ⟨y, hy, hd'⟩ := P.1 _ hm
      simp only [Entry.dominates, Bool.and_eq_true, decide_eq_true_eq] at hd'
      have he := hent b hb
      have h4 := (toTransport_le (hok b hb).trip (hok b hb).day ht hd).mpr h2
      have h5 : b.entry.tr = toTransport b.trip b.day := rfl
      exact ⟨y, hy, by omega, by omega, by omega⟩

/-- The record of a newly boarded trip. -/
theorem record_append (hist : List Board) (b : Board) :
    record (hist ++ [b]) = (record hist).update b.route b.trip b.seg b.day b.k := by
  simp [record]

/-- C36: following a transfer in round `k` from a trip on query day `pd`.  If the target day lies outside of the range
of the query, or the target segment does not exist or is covered, nothing happens.  Otherwise the boarding is recorded
and the segments from the target segment up to (excluding) the first one that is covered are queued. -/
theorem C36_enqueue (tt : TT) (hist : List Board) (hok : ∀ b ∈ hist, b.Ok) (q : List QE) (x : Transfer) (p pd k : Nat)
    (ht : x.trOff < 4096) (hn : (tt.route x.route).stops.length ≤ 65536) (hs : x.toSegOff ≤ x.toSeg) :
    let d := (pd : Int) + x.dayOffset
    let n := (tt.route x.route).stops.length - 1
    let S' := enqueue tt ⟨q, record hist⟩ x p pd k
    ((d ≤ 0 ∨ 8 ≤ d ∨ n ≤ x.toSegOff ∨ Covered hist x.route x.trOff d.toNat k x.toSegOff) → S' = ⟨q, record hist⟩) ∧
    (¬ (d ≤ 0 ∨ 8 ≤ d ∨ n ≤ x.toSegOff ∨ Covered hist x.route x.trOff d.toNat k x.toSegOff) →
      ∃ e, S' = ⟨q ++ [e], record (hist ++ [⟨x.route, x.trOff, d.toNat, x.toSegOff, k⟩])⟩ ∧
        e.from' = x.toSeg ∧ e.parent = some p ∧ (e.day : Int) = d ∧ e.from' < e.to' ∧
        ∀ s, x.toSegOff ≤ s → (x.toSeg + (s - x.toSegOff) < e.to' ↔
          ¬ (n ≤ s ∨ Covered hist x.route x.trOff d.toNat k s))) := by
  intro d n S'
  have hk8 : (kTBMaxDayOffset : Int) = 8 := rfl
  by_cases hd : d ≤ 0 ∨ (kTBMaxDayOffset : Int) ≤ d
  · have hS : S' = ⟨q, record hist⟩ := by
      show enqueue tt ⟨q, record hist⟩ x p pd k = _
      unfold enqueue
      simp only
      rw [if_pos hd]
    refine ⟨fun _ => hS, fun h => absurd ?_ h⟩
    rcases hd with h | h
    · exact Or.inl h
    · exact Or.inr (Or.inl (by omega))
  · have hd' : ¬ d ≤ 0 ∧ ¬ 8 ≤ d := by omega
    have hquery := fun s => C36_query tt hist hok x.route x.trOff d.toNat k s ht (by omega) hn
    by_cases hm : (record hist).query tt x.route x.trOff d.toNat k ≤ x.toSegOff
    · have hS : S' = ⟨q, record hist⟩ := by
        show enqueue tt ⟨q, record hist⟩ x p pd k = _
        unfold enqueue
        simp only
        rw [if_neg hd, if_pos hm]
      refine ⟨fun _ => hS, fun h => absurd ?_ h⟩
      rcases (hquery _).mp hm with h | h
      · exact Or.inr (Or.inr (Or.inl h))
      · exact Or.inr (Or.inr (Or.inr h))
    · refine ⟨fun h => absurd ?_ hm, fun _ => ?_⟩
      · rw [hquery]
        rcases h with h | h | h | h
        · exact absurd h hd'.1
        · exact absurd h hd'.2
        · exact Or.inl h
        · exact Or.inr h
      · refine ⟨⟨x.toSeg, x.toSeg - x.toSegOff + (record hist).query tt x.route x.trOff d.toNat k, some p, d.toNat⟩, ?_,
          rfl, rfl, by show ((d.toNat : Nat) : Int) = d; omega, by show x.toSeg < x.toSeg - x.toSegOff + _; omega, ?_⟩
        · rw [record_append]
          show enqueue tt ⟨q, record hist⟩ x p pd k = _
          unfold enqueue
          simp only
          rw [if_neg hd, if_neg hm]
        · intro s hs'
          rw [← hquery s]
          show _ < _ + _ ↔ _
          omega

/-- C36: the same for boarding at a start of the query, where the day may also be the first one of the range. -/
theorem C36_initial (tt : TT) (tbd : TbData) (hist : List Board) (hok : ∀ b ∈ hist, b.Ok) (q : List QE)
    (r t i d : Nat) (ht : t < 4096) (hd : d < 16) (hi : i < 65536) (hn : (tt.route r).stops.length ≤ 65536) :
    let first := tbd.firstSeg.getD (trFrom tt r + t) 0
    let n := (tt.route r).stops.length - 1
    let S' := initialEnqueue tt tbd ⟨q, record hist⟩ r t i d
    ((n ≤ i ∨ Covered hist r t d 0 i) → S' = ⟨q, record hist⟩) ∧
    (¬ (n ≤ i ∨ Covered hist r t d 0 i) →
      ∃ e, S' = ⟨q ++ [e], record (hist ++ [⟨r, t, d, i, 0⟩])⟩ ∧
        e.from' = first + i ∧ e.parent = none ∧ e.day = d ∧ e.from' < e.to' ∧
        ∀ s, first + s < e.to' ↔ ¬ (n ≤ s ∨ Covered hist r t d 0 s)) := by
  intro first n S'
  have hquery := fun s => C36_query tt hist hok r t d 0 s ht hd hn
  have e1 : t % 65536 = t := by omega
  have e2 : i % 65536 = i := by omega
  by_cases hm : (record hist).query tt r t d 0 ≤ i
  · have hS : S' = ⟨q, record hist⟩ := by
      show initialEnqueue tt tbd ⟨q, record hist⟩ r t i d = _
      unfold initialEnqueue
      simp only [e1, e2]
      rw [if_pos hm]
    exact ⟨fun _ => hS, fun h => absurd ((hquery _).mp hm) h⟩
  · refine ⟨fun h => absurd ((hquery _).mpr h) hm, fun _ => ?_⟩
    refine ⟨⟨first + i, first + (record hist).query tt r t d 0, none, d⟩, ?_, rfl, rfl, rfl, by show _ + _ < _ + _; omega, ?_⟩
    · rw [record_append]
      show initialEnqueue tt tbd ⟨q, record hist⟩ r t i d = _
      unfold initialEnqueue
      simp only [e1, e2]
      rw [if_neg hm]
    · intro s
      rw [← hquery s]
      show _ + _ < _ + _ ↔ _
      omega

/-- C36: once recorded, a boarding covers the rest of its trip and of all later trips of the route, for all rounds
from its own on, and nothing recorded later uncovers anything. -/
theorem C36_monotone (hist more : List Board) (r t d k s : Nat) :
    (Covered hist r t d k s → ∀ t' d' k' s', NotLater t d t' d' → k ≤ k' → s ≤ s' →
      Covered (hist ++ more) r t' d' k' s') ∧
    Covered (hist ++ ⟨r, t, d, s, k⟩ :: more) r t d k s := by
  constructor
  · rintro ⟨b, hb, h1, h2, h3, h4⟩ t' d' k' s' hn hk hs
    refine ⟨b, List.mem_append_left _ hb, h1, by omega, ?_, by omega⟩
    unfold NotLater at *
    omega
  · exact ⟨⟨r, t, d, s, k⟩, by simp, rfl, Nat.le_refl _, Or.inr ⟨rfl, Nat.le_refl _⟩, Nat.le_refl _⟩

/-- The values must fit into the bit fields: the 4097th trip of a route on the first day is taken for the first trip of
the next day. -/
theorem C36_bitfield_counterexample : toTransport 4096 0 = toTransport 0 1 ∧ toTransport 4096 1 = toTransport 0 1 := by
  decide +kernel

/-! A history with three boardings of a route of five segments. -/
namespace Demo36

def hist : List Board := [⟨0, 3, 5, 2, 0⟩, ⟨0, 3, 5, 4, 0⟩, ⟨0, 2, 5, 3, 1⟩]

example : ∀ b ∈ hist, b.Ok := by
  intro b hb
  simp only [hist, List.mem_cons, List.not_mem_nil, or_false] at hb
  rcases hb with rfl | rfl | rfl <;> exact ⟨by decide, by decide, by decide, by decide⟩

def tt : TT where
  routes := [⟨List.replicate 6 noStop, 9, fun _ _ => 0, fun _ _ => 0, fun _ => 1⟩]
  transfer := fun _ => 0
  fpsOut := fun _ _ => []
  fpsIn := fun _ _ => []
  locRoutes := fun _ => [0]

example : (record hist).query tt 0 3 5 1 = 2 := by decide +kernel
example : (record hist).query tt 0 2 5 1 = 3 := by decide +kernel
example : (record hist).query tt 0 2 5 0 = 5 := by decide +kernel
example : (record hist).query tt 0 0 6 0 = 2 := by decide +kernel
example : (enqueue tt ⟨[], record hist⟩ ⟨11, 1, 0, 2, 1, 8⟩ 0 5 1).q = [⟨11, 13, some 0, 5⟩] := by decide +kernel

end Demo36

end Nigiri.TB
