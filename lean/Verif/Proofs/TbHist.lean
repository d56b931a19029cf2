import Verif.Proofs.TbQuery
/-!
# Trip-based search: what has been explored

The boardings recorded since the last reset are kept as an (auxiliary) history.
-/

namespace Nigiri.TB
open Raptor (Loc StopData)

/-- A boarding and the first segment behind those that were queued. -/
structure Ent where
  b : Board
  m : Nat

def boards (H : List Ent) : List Board := H.map Ent.b

theorem boards_append (H E : List Ent) : boards (H ++ E) = boards H ++ boards E := by simp [boards]

/-- First segment of a trip. -/
def fseg (tt : TT) (b : Board) : Nat := firstSeg tt (trFrom tt b.route + b.trip)

/-- An entry, given the boardings before it. -/
structure EntFit (tt : TT) (tbd : TbData) (Q : Query) (starts : List (Loc × Nat)) (hist : List Board) (x : Ent) : Prop where
  bd : Boarded tt tbd Q starts x.b.k x.b.route x.b.trip (Q.base' + x.b.day) x.b.seg
  ok : x.b.Ok
  lt : x.b.seg < x.m
  range : ∀ s, x.b.seg ≤ s →
    (s < x.m ↔ ¬ ((tt.route x.b.route).stops.length - 1 ≤ s ∨ Covered hist x.b.route x.b.trip x.b.day x.b.k s))

def HistOk (tt : TT) (tbd : TbData) (Q : Query) (starts : List (Loc × Nat)) (H : List Ent) : Prop :=
  ∀ p x, H[p]? = some x → EntFit tt tbd Q starts (boards (H.take p)) x

theorem EntFit.mono {tt : TT} {tbd : TbData} {Q : Query} {starts starts' : List (Loc × Nat)} (hs : ∀ x ∈ starts, x ∈ starts')
    {hist : List Board} {x : Ent} (h : EntFit tt tbd Q starts hist x) : EntFit tt tbd Q starts' hist x :=
  ⟨h.bd.mono hs, h.ok, h.lt, h.range⟩

theorem HistOk.mono {tt : TT} {tbd : TbData} {Q : Query} {starts starts' : List (Loc × Nat)} (hs : ∀ x ∈ starts, x ∈ starts')
    {H : List Ent} (h : HistOk tt tbd Q starts H) : HistOk tt tbd Q starts' H := fun p x hp => (h p x hp).mono hs

theorem HistOk.append {tt : TT} {tbd : TbData} {Q : Query} {starts : List (Loc × Nat)} {H : List Ent} (h : HistOk tt tbd Q starts H)
    {x : Ent} (hx : EntFit tt tbd Q starts (boards H) x) : HistOk tt tbd Q starts (H ++ [x]) := by
  intro p y hp
  by_cases hl : p < H.length
  · rw [List.getElem?_append_left hl] at hp
    rw [List.take_append_of_le_length (by omega)]
    exact h p y hp
  · have hlt := (List.getElem?_eq_some_iff.1 hp).1
    simp only [List.length_append, List.length_singleton] at hlt
    have e : p = H.length := by omega
    subst e
    simp only [List.getElem?_concat_length, Option.some.injEq] at hp
    subst hp
    simpa using hx

theorem HistOk.boards {tt : TT} {tbd : TbData} {Q : Query} {starts : List (Loc × Nat)} {H : List Ent} (h : HistOk tt tbd Q starts H) :
    ∀ b ∈ boards H, b.Ok := by
  intro b hb
  simp only [TB.boards, List.mem_map] at hb
  obtain ⟨x, hx, rfl⟩ := hb
  obtain ⟨p, hp⟩ := List.mem_iff_getElem?.1 hx
  exact (h p x hp).ok

theorem NotLater.trans {t d t' d' t'' d'' : Nat} (h : NotLater t d t' d') (h' : NotLater t' d' t'' d'') : NotLater t d t'' d'' := by
  unfold NotLater at *; omega

/-- A covered segment belongs to an entry of the same or an earlier trip with no more transfers. -/
theorem covered_entry {tt : TT} {tbd : TbData} {Q : Query} {starts : List (Loc × Nat)} {H : List Ent} (h : HistOk tt tbd Q starts H)
    {r t d k s : Nat} (hs : s + 1 < (tt.route r).stops.length) (hc : Covered (boards H) r t d k s) :
    ∃ x ∈ H, x.b.route = r ∧ x.b.k ≤ k ∧ NotLater x.b.trip x.b.day t d ∧ x.b.seg ≤ s ∧ s < x.m := by
  -- the first entry that covers the segment
  have key : ∀ n : Nat, (∃ p : Nat, p < n ∧ ∃ x : Ent, H[p]? = some x ∧ x.b.route = r ∧ x.b.k ≤ k ∧ NotLater x.b.trip x.b.day t d ∧ x.b.seg ≤ s) →
      ∃ p : Nat, (∃ x : Ent, H[p]? = some x ∧ x.b.route = r ∧ x.b.k ≤ k ∧ NotLater x.b.trip x.b.day t d ∧ x.b.seg ≤ s) ∧
        ∀ p' < p, ¬ ∃ x : Ent, H[p']? = some x ∧ x.b.route = r ∧ x.b.k ≤ k ∧ NotLater x.b.trip x.b.day t d ∧ x.b.seg ≤ s := by
    intro n
    induction n with
    | zero => rintro ⟨p, hp, _⟩; omega
    | succ n ih =>
      rintro ⟨p, hp, hx⟩
      by_cases h' : ∃ p : Nat, p < n ∧ ∃ x : Ent, H[p]? = some x ∧ x.b.route = r ∧ x.b.k ≤ k ∧ NotLater x.b.trip x.b.day t d ∧ x.b.seg ≤ s
      · exact ih h'
      · refine ⟨p, hx, fun p' hp' hx' => h' ⟨p', by omega, hx'⟩⟩
  obtain ⟨b, hb, h1, h2, h3, h4⟩ := hc
  simp only [boards, List.mem_map] at hb
  obtain ⟨x, hx, rfl⟩ := hb
  obtain ⟨p, hp⟩ := List.mem_iff_getElem?.1 hx
  obtain ⟨p, ⟨x, hp, h1, h2, h3, h4⟩, hmin⟩ := key (p + 1) ⟨p, by omega, x, hp, h1, h2, h3, h4⟩
  refine ⟨x, List.mem_of_getElem? hp, h1, h2, h3, h4, ?_⟩
  rw [(h p x hp).range s h4]
  rintro (h5 | ⟨b, hb, g1, g2, g3, g4⟩)
  · rw [h1] at h5; omega
  · simp only [boards, List.mem_map] at hb
    obtain ⟨y, hy, rfl⟩ := hb
    obtain ⟨p', hp'⟩ := List.mem_iff_getElem?.1 hy
    have hlt := (List.getElem?_eq_some_iff.1 hp').1
    simp only [List.length_take] at hlt
    rw [List.getElem?_take_of_lt (by omega)] at hp'
    exact hmin p' (by omega) ⟨y, hp', by rw [g1, h1], by omega, g3.trans h3, g4⟩

theorem Covered.append {H : List Board} {r t d k s : Nat} (h : Covered H r t d k s) (E : List Board) : Covered (H ++ E) r t d k s :=
  (C36_monotone H E r t d k s).1 h t d k s (Or.inr ⟨rfl, Nat.le_refl _⟩) (Nat.le_refl _) (Nat.le_refl _)

/-! ## What has been done for an entry -/

/-- Arrival at the end of segment `s` of the trip of a boarding. -/
def bArr (tt : TT) (Q : Query) (b : Board) (s : Nat) : Int :=
  ((Q.base' + b.day : Nat) : Int) * 1440 + ((tt.route b.route).arr b.trip (s + 1) : Nat)

def DestDone (tt : TT) (Q : Query) (S : State) (x : Ent) : Prop :=
  ∀ s, x.b.seg ≤ s → s < x.m → S.endReach (fseg tt x.b + s) = true →
    S.tmin x.b.k ≤ bArr tt Q x.b s + ((S.distToDest (fseg tt x.b + s)).getD 0 : Nat)

def PrunedAt (tt : TT) (Q : Query) (S : State) (x : Ent) : Prop :=
  bArr tt Q x.b x.b.seg + Q.lb ((tt.route x.b.route).stop (x.b.seg + 1)).loc > S.tmin (x.b.k + 1)

def TransDone (tt : TT) (tbd : TbData) (Q : Query) (H : List Ent) (x : Ent) : Prop :=
  ∀ s, x.b.seg ≤ s → s < x.m → ∀ y ∈ tbd.segTransfers.getD (fseg tt x.b + s) [], y.days.testBit (Q.base' + x.b.day) = true →
    0 < (x.b.day : Int) + y.dayOffset → (x.b.day : Int) + y.dayOffset < 8 →
    Covered (boards H) y.route y.trOff ((x.b.day : Int) + y.dayOffset).toNat (x.b.k + 1) y.toSegOff

def Done (tt : TT) (tbd : TbData) (Q : Query) (H : List Ent) (S : State) (x : Ent) : Prop :=
  DestDone tt Q S x ∧ (PrunedAt tt Q S x ∨ TransDone tt tbd Q H x)

/-- The state `S'` has the same marks and no later arrivals. -/
structure Better (S S' : State) : Prop where
  ends : S'.endReach = S.endReach
  dist : S'.distToDest = S.distToDest
  tmin : ∀ j, S'.tmin j ≤ S.tmin j

theorem Better.refl (S : State) : Better S S := ⟨rfl, rfl, fun _ => Int.le_refl _⟩
theorem Better.trans {S S' S'' : State} (h : Better S S') (h' : Better S' S'') : Better S S'' :=
  ⟨h'.ends.trans h.ends, h'.dist.trans h.dist, fun j => Int.le_trans (h'.tmin j) (h.tmin j)⟩

theorem DestDone.better {tt : TT} {Q : Query} {S S' : State} {x : Ent} (h : DestDone tt Q S x) (hb : Better S S') : DestDone tt Q S' x := by
  intro s h1 h2 h3
  rw [hb.ends] at h3
  rw [hb.dist]
  exact Int.le_trans (hb.tmin _) (h s h1 h2 h3)

theorem PrunedAt.better {tt : TT} {Q : Query} {S S' : State} {x : Ent} (h : PrunedAt tt Q S x) (hb : Better S S') : PrunedAt tt Q S' x := by
  unfold PrunedAt at *
  have := hb.tmin (x.b.k + 1)
  omega

theorem TransDone.append {tt : TT} {tbd : TbData} {Q : Query} {H : List Ent} {x : Ent} (h : TransDone tt tbd Q H x) (E : List Ent) :
    TransDone tt tbd Q (H ++ E) x := by
  intro s h1 h2 y hy h3 h4 h5
  rw [boards_append]
  exact (h s h1 h2 y hy h3 h4 h5).append _

theorem Done.better {tt : TT} {tbd : TbData} {Q : Query} {H : List Ent} {S S' : State} {x : Ent} (h : Done tt tbd Q H S x) (hb : Better S S')
    (E : List Ent) : Done tt tbd Q (H ++ E) S' x :=
  ⟨h.1.better hb, h.2.imp (fun h => h.better hb) (fun h => h.append E)⟩

/-- Queue entry of a boarding. -/
def Ent.Is (tt : TT) (x : Ent) (e : QE) : Prop :=
  e.from' = fseg tt x.b + x.b.seg ∧ e.to' = fseg tt x.b + x.m ∧ e.day = x.b.day

theorem foldl_mark {α σ : Type} (P : σ → Prop) (R : α → σ → Prop) (f : σ → α → σ) : ∀ (l : List α) (b : σ), P b →
    (∀ s a, a ∈ l → P s → P (f s a) ∧ R a (f s a) ∧ ∀ a', R a' s → R a' (f s a)) →
    P (l.foldl f b) ∧ (∀ a ∈ l, R a (l.foldl f b)) ∧ ∀ a, R a b → R a (l.foldl f b)
  | [], b, h, _ => ⟨h, by simp, fun _ h => h⟩
  | x :: xs, b, h, hs => by
    obtain ⟨h1, h2, h3⟩ := hs b x (by simp) h
    obtain ⟨i1, i2, i3⟩ := foldl_mark P R f xs (f b x) h1 (fun s a ha => hs s a (List.mem_cons_of_mem _ ha))
    rw [List.foldl_cons]
    refine ⟨i1, ?_, fun a ha => i3 a (h3 a ha)⟩
    intro a ha
    rcases List.mem_cons.1 ha with rfl | ha
    · exact i3 a h2
    · exact i2 a ha

/-! ## One round -/

theorem destUpd_better (k q : Nat) (time : Int) (S : State) : Better S (destUpd k q time S) := by
  refine ⟨rfl, rfl, fun j => ?_⟩
  simp only [destUpd]
  split <;> omega

/-- The first pass of a round. -/
theorem segDest_done (tt : TT) (tbd : TbData) (Q : Query) {k : Nat} (hk : k < kMaxTransfers) (S : State) (q : Nat) :
    (segDest tt tbd Q k S q).qs = S.qs ∧ Better S (segDest tt tbd Q k S q) ∧
    ∀ e, S.qs.q[q]? = some e → ∀ s ∈ e.segs, S.endReach s = true →
      (segDest tt tbd Q k S q).tmin k ≤ segArr tt tbd Q s e.day + ((S.distToDest s).getD 0 : Nat) := by
  unfold segDest
  cases hq : S.qs.q[q]? with
  | none => exact ⟨rfl, Better.refl S, fun e he => by simp at he⟩
  | some e =>
    simp only
    obtain ⟨h1, h2, -⟩ := foldl_mark (fun T : State => T.qs = S.qs ∧ Better S T)
      (fun (s : Nat) (T : State) => S.endReach s = true → T.tmin k ≤ segArr tt tbd Q s e.day + ((S.distToDest s).getD 0 : Nat))
      (fun S s => if S.endReach s then destUpd k q (segArr tt tbd Q s e.day + ((S.distToDest s).getD 0 : Nat)) S else S) e.segs S
      ⟨rfl, Better.refl S⟩ (by
        rintro T s hs ⟨hT, hB⟩
        by_cases he : T.endReach s = true
        · rw [if_pos he]
          have hB' := destUpd_better k q (segArr tt tbd Q s e.day + ((T.distToDest s).getD 0 : Nat)) T
          refine ⟨⟨hT, hB.trans hB'⟩, ?_, ?_⟩
          · intro _
            simp only [destUpd]
            rw [← hB.dist]
            by_cases hc : k ≤ k ∧ k < kMaxTransfers + 1 ∧ T.tmin k > segArr tt tbd Q s e.day + ((T.distToDest s).getD 0 : Nat)
            · rw [if_pos hc]; exact Int.le_refl _
            · rw [if_neg hc]
              have : ¬ T.tmin k > segArr tt tbd Q s e.day + ((T.distToDest s).getD 0 : Nat) := fun h => hc ⟨Nat.le_refl _, by omega, h⟩
              omega
          · intro s' h' hs'
            exact Int.le_trans (hB'.tmin k) (h' hs')
        · rw [if_neg he]
          refine ⟨⟨hT, hB⟩, ?_, fun _ h => h⟩
          intro h
          rw [← hB.ends] at h
          exact absurd h he)
    exact ⟨h1.1, h1.2, fun e' he' => by injection he' with he'; subst he'; exact h2⟩

/-- The first pass over all entries. -/
theorem destPass (tt : TT) (tbd : TbData) (Q : Query) {k : Nat} (hk : k < kMaxTransfers) (S : State) (idx : List Nat) :
    (idx.foldl (segDest tt tbd Q k) S).qs = S.qs ∧ Better S (idx.foldl (segDest tt tbd Q k) S) ∧
    ∀ q ∈ idx, ∀ e, S.qs.q[q]? = some e → ∀ s ∈ e.segs, S.endReach s = true →
      (idx.foldl (segDest tt tbd Q k) S).tmin k ≤ segArr tt tbd Q s e.day + ((S.distToDest s).getD 0 : Nat) := by
  obtain ⟨h1, h2, -⟩ := foldl_mark (fun T : State => T.qs = S.qs ∧ Better S T)
    (fun (q : Nat) (T : State) => ∀ e, S.qs.q[q]? = some e → ∀ s ∈ e.segs, S.endReach s = true →
      T.tmin k ≤ segArr tt tbd Q s e.day + ((S.distToDest s).getD 0 : Nat)) (segDest tt tbd Q k) idx S ⟨rfl, Better.refl S⟩ (by
      rintro T q hq ⟨hT, hB⟩
      obtain ⟨h1, h2, h3⟩ := segDest_done tt tbd Q hk T q
      refine ⟨⟨h1.trans hT, hB.trans h2⟩, ?_, ?_⟩
      · intro e he s hs hend
        have := h3 e (by rw [hT]; exact he) s hs (by rw [hB.ends]; exact hend)
        rw [hB.dist] at this
        exact this
      · intro q' h e he s hs hend
        exact Int.le_trans (h2.tmin k) (h e he s hs hend))
  exact ⟨h1.1, h1.2, h2⟩

/-- The condition of the second pass. -/
def PrunedQ (tt : TT) (tbd : TbData) (Q : Query) (k : Nat) (S : State) (e : QE) : Prop :=
  segArr tt tbd Q e.from' e.day + Q.lb ((segPos tt tbd e.from').1.stop ((segPos tt tbd e.from').2.2 + 1)).loc > S.tmin (k + 1)

/-- The second pass over all entries. -/
theorem prunePass (tt : TT) (tbd : TbData) (Q : Query) (k : Nat) (S : State) (idx : List Nat) :
    let S' := idx.foldl (segPrune tt tbd Q k) S
    S'.qs.r = S.qs.r ∧ S'.qs.q.length = S.qs.q.length ∧ S'.tmin = S.tmin ∧ S'.endReach = S.endReach ∧ S'.distToDest = S.distToDest ∧
    ∀ (i : Nat) e, S'.qs.q[i]? = some e → ∃ e0, S.qs.q[i]? = some e0 ∧ (e = e0 ∨ (e = { e0 with to' := e0.from' } ∧ PrunedQ tt tbd Q k S e0)) := by
  intro S'
  refine Raptor.foldl_inv (fun T : State => T.qs.r = S.qs.r ∧ T.qs.q.length = S.qs.q.length ∧ T.tmin = S.tmin ∧ T.endReach = S.endReach ∧
    T.distToDest = S.distToDest ∧ ∀ (i : Nat) e, T.qs.q[i]? = some e → ∃ e0, S.qs.q[i]? = some e0 ∧
      (e = e0 ∨ (e = { e0 with to' := e0.from' } ∧ PrunedQ tt tbd Q k S e0))) _ _ _
    ⟨rfl, rfl, rfl, rfl, rfl, fun i e he => ⟨e, he, Or.inl rfl⟩⟩ ?_
  rintro T q _ ⟨h1, h2, h3, h4, h5, h6⟩
  unfold segPrune
  cases hq : T.qs.q[q]? with
  | none => exact ⟨h1, h2, h3, h4, h5, h6⟩
  | some e =>
    simp only
    split
    · rename_i hc
      refine ⟨h1, by simpa using h2, h3, h4, h5, ?_⟩
      intro i e' hi
      simp only [List.getElem?_set] at hi
      by_cases hqi : q = i
      · subst hqi
        rw [if_pos rfl] at hi
        split at hi
        · injection hi with hi
          subst hi
          obtain ⟨e0, h7, h8⟩ := h6 q e hq
          refine ⟨e0, h7, Or.inr ?_⟩
          rcases h8 with rfl | ⟨rfl, h9⟩
          · refine ⟨rfl, ?_⟩
            unfold PrunedQ
            rw [← h3]
            exact hc
          · exact ⟨rfl, h9⟩
        · simp at hi
      · rw [if_neg hqi] at hi
        exact h6 i e' hi
    · exact ⟨h1, h2, h3, h4, h5, h6⟩

/-- The queue and the record while transfers of round `k` are followed. -/
structure TI (tt : TT) (tbd : TbData) (Q : Query) (starts : List (Loc × Nat)) (k off hi : Nat) (q0 : List QE) (H : List Ent) (qs : QS) : Prop where
  recd : qs.r = record (boards H)
  hist : HistOk tt tbd Q starts H
  len : off + qs.q.length = H.length
  hile : hi ≤ qs.q.length
  old : ∀ i, i < hi → qs.q[i]? = q0[i]?
  new : ∀ i e, hi ≤ i → qs.q[i]? = some e → ∃ x, H[off + i]? = some x ∧ x.b.k = k ∧ x.Is tt e

theorem TI.append {tt : TT} {tbd : TbData} {Q : Query} {starts : List (Loc × Nat)} {k off hi : Nat} {q0 : List QE} {H : List Ent} {qs : QS}
    (h : TI tt tbd Q starts k off hi q0 H qs) {x : Ent} {e : QE} (hx : EntFit tt tbd Q starts (boards H) x) (hk : x.b.k = k)
    (he : x.Is tt e) : TI tt tbd Q starts k off hi q0 (H ++ [x]) ⟨qs.q ++ [e], record (boards (H ++ [x]))⟩ := by
  refine ⟨rfl, h.hist.append hx, ?_, ?_, ?_, ?_⟩
  · simp only [List.length_append, List.length_singleton]; have := h.len; omega
  · simp only [List.length_append, List.length_singleton]; have := h.hile; omega
  · intro i hi'
    have := h.hile
    simp only
    rw [List.getElem?_append_left (by omega)]
    exact h.old i hi'
  · intro i e' hi' hie
    simp only at hie
    have hlen := h.len
    by_cases hl : i < qs.q.length
    · rw [List.getElem?_append_left hl] at hie
      rw [List.getElem?_append_left (by omega)]
      exact h.new i e' hi' hie
    · have hlt := (List.getElem?_eq_some_iff.1 hie).1
      simp only [List.length_append, List.length_singleton] at hlt
      have e1 : i = qs.q.length := by omega
      subst e1
      simp only [List.getElem?_concat_length, Option.some.injEq] at hie
      subst hie
      refine ⟨x, ?_, hk, he⟩
      rw [hlen]
      simp

/-- Following one transfer of an entry. -/
theorem enqueue_TI {tt : TT} {tbd : TbData} (hok : Ok tt tbd) {Q : Query} {starts : List (Loc × Nat)} {k off hi : Nat} (hk : k + 1 < 16)
    {q0 : List QE} {H : List Ent} {qs : QS} (h : TI tt tbd Q starts (k + 1) off hi q0 H qs) {r o d j s q : Nat}
    (hb : Boarded tt tbd Q starts k r o (Q.base' + d) j) (hjs : j ≤ s) (hs : s + 1 < (tt.route r).stops.length) {y : Transfer}
    (hy : y ∈ tbd.segTransfers.getD (firstSeg tt (trFrom tt r + o) + s) []) (hd : y.days.testBit (Q.base' + d) = true) :
    ∃ E, TI tt tbd Q starts (k + 1) off hi q0 (H ++ E) (enqueue tt qs y q d (k + 1)) ∧
      (0 < (d : Int) + y.dayOffset → (d : Int) + y.dayOffset < 8 →
        Covered (boards (H ++ E)) y.route y.trOff ((d : Int) + y.dayOffset).toNat (k + 1) y.toSegOff) := by
  obtain ⟨-, hfirst, -, -⟩ := preprocess_data hok.data
  rw [← hfirst r o hb.route hb.trip] at hy
  obtain ⟨⟨day', ed, hf⟩, hseg, -⟩ := C37_feasible tt tbd.prf hok.ttOk tbd hok.data r o s hb.route hb.trip hs y hy (Q.base' + d) hd
  have hc := hb.change (i := s + 1) (by omega) hf
  have hmem := route_mem (Nat.lt_of_succ_lt hc.stop)
  have htrip := hok.ttOk.trips _ hmem.2
  have hstops := hok.ttOk.stops _ hmem.2
  have hct := hc.trip
  have hcs := hc.stop
  rw [hfirst _ _ hc.route hc.trip] at hseg
  have hE := C36_enqueue tt (boards H) h.hist.boards qs.q y q d (k + 1) (by omega) (by omega) (by omega)
  have eqs : (⟨qs.q, record (boards H)⟩ : QS) = qs := by rw [← h.recd]
  simp only [eqs] at hE
  by_cases hcond : ((d : Int) + y.dayOffset ≤ 0 ∨ 8 ≤ (d : Int) + y.dayOffset ∨ (tt.route y.route).stops.length - 1 ≤ y.toSegOff ∨
      Covered (boards H) y.route y.trOff ((d : Int) + y.dayOffset).toNat (k + 1) y.toSegOff)
  · refine ⟨[], ?_, ?_⟩
    · rw [hE.1 hcond, List.append_nil]; exact h
    · intro h1 h2
      rw [List.append_nil]
      rcases hcond with h3 | h3 | h3 | h3
      · omega
      · omega
      · omega
      · exact h3
  · obtain ⟨e, e1, e2, e3, e4, e5, e6⟩ := hE.2 hcond
    have hdd : day' = Q.base' + ((d : Int) + y.dayOffset).toNat := by omega
    have hx : EntFit tt tbd Q starts (boards H)
        ⟨⟨y.route, y.trOff, ((d : Int) + y.dayOffset).toNat, y.toSegOff, k + 1⟩, e.to' - firstSeg tt (trFrom tt y.route + y.trOff)⟩ := by
      refine ⟨?_, ⟨?_, ?_, ?_, ?_⟩, ?_, ?_⟩
      · simp only; rw [← hdd]; exact hc
      · simp only; omega
      · simp only; omega
      · simp only; omega
      · exact hk
      · simp only; omega
      · intro s' hs'
        simp only at hs' ⊢
        rw [← e6 s' hs']
        omega
    refine ⟨[⟨⟨y.route, y.trOff, ((d : Int) + y.dayOffset).toNat, y.toSegOff, k + 1⟩, e.to' - firstSeg tt (trFrom tt y.route + y.trOff)⟩], ?_, ?_⟩
    · rw [e1]
      rw [show boards H ++ [⟨y.route, y.trOff, ((d : Int) + y.dayOffset).toNat, y.toSegOff, k + 1⟩] = boards (H ++
        [⟨⟨y.route, y.trOff, ((d : Int) + y.dayOffset).toNat, y.toSegOff, k + 1⟩, e.to' - firstSeg tt (trFrom tt y.route + y.trOff)⟩]) by
        rw [boards_append]; rfl]
      refine h.append hx rfl ⟨?_, ?_, ?_⟩
      · simp only [fseg]; omega
      · simp only [fseg]; omega
      · simp only; omega
    · intro _ _
      rw [boards_append]
      exact (C36_monotone (boards H) [] y.route y.trOff ((d : Int) + y.dayOffset).toNat (k + 1) y.toSegOff).2

/-- Following transfers of an entry. -/
theorem enqueueAll_TI {tt : TT} {tbd : TbData} (hok : Ok tt tbd) {Q : Query} {starts : List (Loc × Nat)} {k off hi : Nat} (hk : k + 1 < 16)
    {q0 : List QE} {r o d j q : Nat} (hb : Boarded tt tbd Q starts k r o (Q.base' + d) j) : ∀ (ys : List Transfer) (H : List Ent) (qs : QS),
    TI tt tbd Q starts (k + 1) off hi q0 H qs →
    (∀ y ∈ ys, ∃ s, j ≤ s ∧ s + 1 < (tt.route r).stops.length ∧ y ∈ tbd.segTransfers.getD (firstSeg tt (trFrom tt r + o) + s) []) →
    ∃ E, TI tt tbd Q starts (k + 1) off hi q0 (H ++ E) (ys.foldl (fun qs x =>
        if x.days.testBit (Q.base' + d) then enqueue tt qs x q d (k + 1) else qs) qs) ∧
      ∀ y ∈ ys, y.days.testBit (Q.base' + d) = true → 0 < (d : Int) + y.dayOffset → (d : Int) + y.dayOffset < 8 →
        Covered (boards (H ++ E)) y.route y.trOff ((d : Int) + y.dayOffset).toNat (k + 1) y.toSegOff
  | [], H, qs, h, _ => ⟨[], by simpa using h, by simp⟩
  | y :: ys, H, qs, h, hs => by
    rw [List.foldl_cons]
    have step : ∃ E, TI tt tbd Q starts (k + 1) off hi q0 (H ++ E)
        (if y.days.testBit (Q.base' + d) then enqueue tt qs y q d (k + 1) else qs) ∧
        (y.days.testBit (Q.base' + d) = true → 0 < (d : Int) + y.dayOffset → (d : Int) + y.dayOffset < 8 →
        Covered (boards (H ++ E)) y.route y.trOff ((d : Int) + y.dayOffset).toNat (k + 1) y.toSegOff) := by
      by_cases hd : y.days.testBit (Q.base' + d) = true
      · rw [if_pos hd]
        obtain ⟨s, h1, h2, h3⟩ := hs y (by simp)
        obtain ⟨E, h4, h5⟩ := enqueue_TI (q := q) hok hk h hb h1 h2 h3 hd
        exact ⟨E, h4, fun _ => h5⟩
      · rw [if_neg hd]
        exact ⟨[], by simpa using h, fun h' => absurd h' hd⟩
    obtain ⟨E, h1, h2⟩ := step
    obtain ⟨E', h3, h4⟩ := enqueueAll_TI (q := q) hok hk hb ys (H ++ E) _ h1 (fun y hy => hs y (List.mem_cons_of_mem _ hy))
    refine ⟨E ++ E', by rw [← List.append_assoc]; exact h3, ?_⟩
    intro z hz
    rw [← List.append_assoc]
    rcases List.mem_cons.1 hz with rfl | hz
    · intro a b c
      rw [boards_append]
      exact (h2 a b c).append _
    · exact h4 z hz

/-- The third pass over the entries `idx` of round `k`. -/
theorem transPass {tt : TT} {tbd : TbData} (hok : Ok tt tbd) {Q : Query} {starts : List (Loc × Nat)} {k off hi : Nat} (hk : k + 1 < 16)
    {q0 : List QE} : ∀ (idx : List Nat) (H : List Ent) (S : State), TI tt tbd Q starts (k + 1) off hi q0 H S.qs →
    (∀ i ∈ idx, i < hi) → (∀ i ∈ idx, ∀ e, q0[i]? = some e → ∃ x, H[off + i]? = some x ∧ x.b.k = k ∧
      (x.Is tt e ∨ (e.from' = e.to' ∧ PrunedAt tt Q S x))) →
    ∃ E, TI tt tbd Q starts (k + 1) off hi q0 (H ++ E) (idx.foldl (segTransfers tt tbd Q k) S).qs ∧
      (idx.foldl (segTransfers tt tbd Q k) S).tmin = S.tmin ∧ (idx.foldl (segTransfers tt tbd Q k) S).endReach = S.endReach ∧
      (idx.foldl (segTransfers tt tbd Q k) S).distToDest = S.distToDest ∧
      ∀ i ∈ idx, ∀ x, H[off + i]? = some x → q0[i]? ≠ none → PrunedAt tt Q S x ∨ TransDone tt tbd Q (H ++ E) x
  | [], H, S, h, _, _ => ⟨[], by simpa using h, rfl, rfl, rfl, by simp⟩
  | i :: idx, H, S, h, hlt, hm => by
    rw [List.foldl_cons]
    have step : ∃ E, TI tt tbd Q starts (k + 1) off hi q0 (H ++ E) (segTransfers tt tbd Q k S i).qs ∧
        (segTransfers tt tbd Q k S i).tmin = S.tmin ∧ (segTransfers tt tbd Q k S i).endReach = S.endReach ∧
        (segTransfers tt tbd Q k S i).distToDest = S.distToDest ∧
        ∀ x, H[off + i]? = some x → q0[i]? ≠ none → PrunedAt tt Q S x ∨ TransDone tt tbd Q (H ++ E) x := by
      unfold segTransfers
      rw [h.old i (hlt i (by simp))]
      cases hq : q0[i]? with
      | none => exact ⟨[], by simpa using h, rfl, rfl, rfl, fun x _ h => absurd rfl h⟩
      | some e =>
        simp only
        obtain ⟨x, hx, hxk, hc⟩ := hm i (by simp) e hq
        have hfit := h.hist _ _ hx
        have hbd := hfit.bd
        rcases hc with hc | ⟨hc, hp⟩
        · obtain ⟨c1, c2, c3⟩ := hc
          rw [hxk] at hbd
          have hrange : ∀ s, x.b.seg ≤ s → s < x.m → s + 1 < (tt.route x.b.route).stops.length := by
            intro s h1 h2
            have h3 := (hfit.range s h1).1 h2
            have h4 : ¬ (tt.route x.b.route).stops.length - 1 ≤ s := fun h => h3 (Or.inl h)
            omega
          obtain ⟨E, h1, h2⟩ := enqueueAll_TI (q := i) hok hk hbd (e.segs.flatMap fun s => tbd.segTransfers.getD s []) H S.qs h (by
            intro y hy
            simp only [QE.segs, List.mem_flatMap, List.mem_map, List.mem_range] at hy
            obtain ⟨_, ⟨z, hz, rfl⟩, hy⟩ := hy
            refine ⟨x.b.seg + z, by omega, hrange _ (by omega) (by omega), ?_⟩
            rw [c1] at hy
            rw [show firstSeg tt (trFrom tt x.b.route + x.b.trip) = fseg tt x.b from rfl, ← Nat.add_assoc]
            exact hy)
          rw [c3]
          refine ⟨E, h1, trivial, trivial, trivial, ?_⟩
          intro x' hx' _
          rw [hx] at hx'
          injection hx' with hx'
          subst hx'
          right
          intro s h3 h4 y hy h5 h6 h7
          rw [hxk]
          refine h2 y ?_ h5 h6 h7
          simp only [QE.segs, List.mem_flatMap, List.mem_map, List.mem_range]
          refine ⟨fseg tt x.b + s, ⟨s - x.b.seg, by omega, by omega⟩, hy⟩
        · have hsegs : e.segs = [] := by
            unfold QE.segs; rw [hc]; simp
          rw [hsegs]
          refine ⟨[], by simpa using h, trivial, trivial, trivial, ?_⟩
          intro x' hx' _
          rw [hx] at hx'
          injection hx' with hx'
          subst hx'
          exact Or.inl hp
    obtain ⟨E, h1, h2, h3, h4, h5⟩ := step
    obtain ⟨E', g1, g2, g3, g4, g5⟩ := transPass hok hk idx (H ++ E) (segTransfers tt tbd Q k S i) h1
      (fun j hj => hlt j (List.mem_cons_of_mem _ hj)) (by
        intro j hj e he
        obtain ⟨x, hx, hxk, hc⟩ := hm j (List.mem_cons_of_mem _ hj) e he
        refine ⟨x, ?_, hxk, ?_⟩
        · rw [List.getElem?_append_left (List.getElem?_eq_some_iff.1 hx).1]; exact hx
        · unfold PrunedAt at hc ⊢
          rw [h2]; exact hc)
    refine ⟨E ++ E', by rw [← List.append_assoc]; exact g1, g2.trans h2, g3.trans h3, g4.trans h4, ?_⟩
    intro j hj x hx hne
    rw [← List.append_assoc]
    rcases List.mem_cons.1 hj with rfl | hj
    · exact (h5 x hx hne).imp id (fun h => h.append E')
    · have := g5 j hj x (by rw [List.getElem?_append_left (List.getElem?_eq_some_iff.1 hx).1]; exact hx) hne
      unfold PrunedAt at this ⊢
      rw [h2] at this
      exact this

/-- Before round `k`: the entries of the queue from `lo` on are those of the round, all others are done. -/
structure RA (tt : TT) (tbd : TbData) (Q : Query) (starts : List (Loc × Nat)) (k off lo hi : Nat) (H : List Ent) (S : State) : Prop where
  recd : S.qs.r = record (boards H)
  hist : HistOk tt tbd Q starts H
  len : off + S.qs.q.length = H.length
  hiEq : hi = S.qs.q.length
  lohi : lo ≤ hi
  done : ∀ p x, p < off + lo → H[p]? = some x → x.b.k < kMaxTransfers → Done tt tbd Q H S x
  cur : ∀ i e, lo ≤ i → S.qs.q[i]? = some e → ∃ x, H[off + i]? = some x ∧ x.b.k = k ∧ x.Is tt e

theorem EntFit.inTrip {tt : TT} {tbd : TbData} {Q : Query} {starts : List (Loc × Nat)} {hist : List Board} {x : Ent}
    (h : EntFit tt tbd Q starts hist x) {s : Nat} (h1 : x.b.seg ≤ s) (h2 : s < x.m) : s + 1 < (tt.route x.b.route).stops.length := by
  have h3 := (h.range s h1).1 h2
  have h4 : ¬ (tt.route x.b.route).stops.length - 1 ≤ s := fun h => h3 (Or.inl h)
  omega

theorem segArr_bArr {tt : TT} {tbd : TbData} (hok : Ok tt tbd) {Q : Query} {starts : List (Loc × Nat)} {hist : List Board} {x : Ent}
    (h : EntFit tt tbd Q starts hist x) {s : Nat} (h1 : x.b.seg ≤ s) (h2 : s < x.m) :
    segArr tt tbd Q (fseg tt x.b + s) x.b.day = bArr tt Q x.b s := by
  simp only [segArr, bArr, fseg, segPos_eq hok h.bd.route h.bd.trip (h.inTrip h1 h2)]

theorem round_RA {tt : TT} {tbd : TbData} (hok : Ok tt tbd) {Q : Query} {starts : List (Loc × Nat)} {k off lo hi : Nat} {H : List Ent} {S : State}
    (hk : k < kMaxTransfers) (h : RA tt tbd Q starts k off lo hi H S) :
    ∃ E, RA tt tbd Q starts (k + 1) off hi (roundStep tt tbd Q k lo hi S).qs.q.length (H ++ E) (roundStep tt tbd Q k lo hi S) ∧
      Better S (roundStep tt tbd Q k lo hi S) := by
  have hk16 : k + 1 < 16 := by unfold kMaxTransfers at hk; omega
  have hidx : ∀ x ∈ (List.range (hi - lo)).map (lo + ·), lo ≤ x ∧ x < hi := by
    intro x hx
    simp only [List.mem_map, List.mem_range] at hx
    obtain ⟨y, hy, rfl⟩ := hx
    omega
  have hidx' : ∀ i, lo ≤ i → i < hi → i ∈ (List.range (hi - lo)).map (lo + ·) := by
    intro i h1 h2
    simp only [List.mem_map, List.mem_range]
    exact ⟨i - lo, by omega, by omega⟩
  unfold roundStep
  simp only
  generalize (List.range (hi - lo)).map (lo + ·) = idx at hidx hidx'
  obtain ⟨d1, d2, d3⟩ := destPass tt tbd Q hk S idx
  generalize idx.foldl (segDest tt tbd Q k) S = S1 at d1 d2 d3
  obtain ⟨p1, p2, p3, p4, p5, p6⟩ := prunePass tt tbd Q k S1 idx
  generalize idx.foldl (segPrune tt tbd Q k) S1 = S2 at p1 p2 p3 p4 p5 p6
  have hB2 : Better S S2 := d2.trans ⟨p4, p5, fun j => by rw [p3]; exact Int.le_refl _⟩
  have hlen2 : S2.qs.q.length = S.qs.q.length := by rw [p2, d1]
  have hTI : TI tt tbd Q starts (k + 1) off hi S2.qs.q H S2.qs := by
    refine ⟨by rw [p1, d1]; exact h.recd, h.hist, by rw [hlen2]; exact h.len, by rw [hlen2, h.hiEq]; exact Nat.le_refl _, fun _ _ => rfl, ?_⟩
    intro i e hi' he
    have := (List.getElem?_eq_some_iff.1 he).1
    have := h.hiEq
    omega
  obtain ⟨E, t1, t2, t3, t4, t5⟩ := transPass hok hk16 idx H S2 hTI (fun i hi' => (hidx i hi').2) (by
    intro i hi' e he
    obtain ⟨e0, he0, hc⟩ := p6 i e he
    rw [d1] at he0
    obtain ⟨x, hx, hxk, hIs⟩ := h.cur i e0 (hidx i hi').1 he0
    refine ⟨x, hx, hxk, ?_⟩
    rcases hc with rfl | ⟨rfl, hp⟩
    · exact Or.inl hIs
    · refine Or.inr ⟨rfl, ?_⟩
      have hfit := h.hist _ _ hx
      have hlt := hfit.lt
      obtain ⟨c1, c2, c3⟩ := hIs
      unfold PrunedQ at hp
      rw [c1, c3, segArr_bArr hok hfit (Nat.le_refl _) hlt, show fseg tt x.b = firstSeg tt (trFrom tt x.b.route + x.b.trip) from rfl,
        segPos_eq hok hfit.bd.route hfit.bd.trip hfit.bd.stop] at hp
      unfold PrunedAt
      rw [p3, hxk]
      exact hp)
  generalize idx.foldl (segTransfers tt tbd Q k) S2 = S3 at t1 t2 t3 t4
  have hB3 : Better S2 S3 := ⟨t3, t4, fun j => by rw [t2]; exact Int.le_refl _⟩
  refine ⟨E, ⟨t1.recd, t1.hist, t1.len, rfl, t1.hile, ?_, t1.new⟩, hB2.trans hB3⟩
  intro p x hp hx hxk
  have hHlen := h.len
  have hhi := h.hiEq
  rw [List.getElem?_append_left (by omega)] at hx
  by_cases hlo : p < off + lo
  · exact (h.done p x hlo hx hxk).better (hB2.trans hB3) E
  · obtain ⟨i, rfl⟩ : ∃ i, p = off + i := ⟨p - off, by omega⟩
    have hi1 : lo ≤ i := by omega
    have hi2 : i < hi := by omega
    have hmem := hidx' i hi1 hi2
    have hqi : ∃ e, S.qs.q[i]? = some e := ⟨_, List.getElem?_eq_getElem (by omega)⟩
    obtain ⟨e, he⟩ := hqi
    obtain ⟨x', hx', hxk', c1, c2, c3⟩ := h.cur i e hi1 he
    rw [hx] at hx'
    injection hx' with hx'
    subst hx'
    have hfit := h.hist _ _ hx
    refine ⟨?_, ?_⟩
    · intro s h1 h2 h3
      have hB13 : Better S1 S3 := Better.trans ⟨p4, p5, fun j => by rw [p3]; exact Int.le_refl _⟩ hB3
      rw [hB13.ends, d2.ends] at h3
      have := d3 i hmem e he (fseg tt x.b + s) (by
        simp only [QE.segs, List.mem_map, List.mem_range]
        exact ⟨s - x.b.seg, by omega, by omega⟩) h3
      rw [c3, segArr_bArr hok hfit h1 h2] at this
      rw [hB13.dist, d2.dist, hxk']
      exact Int.le_trans (hB13.tmin k) this
    · have hne : S2.qs.q[i]? ≠ none := by
        rw [List.getElem?_eq_getElem (by omega)]; simp
      exact (t5 i hmem x hx hne).imp (fun h => h.better hB3) id

/-- After the rounds everything up to `kMaxTransfers - 1` transfers is done. -/
theorem rounds_RA {tt : TT} {tbd : TbData} (hok : Ok tt tbd) {Q : Query} {starts : List (Loc × Nat)} {off : Nat} :
    ∀ (n k lo hi : Nat) (H : List Ent) (S : State), n + k = kMaxTransfers → RA tt tbd Q starts k off lo hi H S →
    ∃ E, (rounds tt tbd Q n k lo hi S).qs.r = record (boards (H ++ E)) ∧ HistOk tt tbd Q starts (H ++ E) ∧
      Better S (rounds tt tbd Q n k lo hi S) ∧
      ∀ x ∈ H ++ E, x.b.k < kMaxTransfers → Done tt tbd Q (H ++ E) (rounds tt tbd Q n k lo hi S) x
  | 0, k, lo, hi, H, S, hn, h => by
    unfold rounds
    refine ⟨[], by rw [List.append_nil]; exact h.recd, by rw [List.append_nil]; exact h.hist, Better.refl S, ?_⟩
    intro x hx hxk
    rw [List.append_nil] at hx ⊢
    obtain ⟨p, hp⟩ := List.mem_iff_getElem?.1 hx
    by_cases hlo : p < off + lo
    · exact h.done p x hlo hp hxk
    · have hl := (List.getElem?_eq_some_iff.1 hp).1
      have hHlen := h.len
      obtain ⟨x', hx', hxk', _⟩ := h.cur (p - off) S.qs.q[p - off] (by omega) (List.getElem?_eq_getElem (by omega))
      rw [show off + (p - off) = p by omega, hp] at hx'
      injection hx' with hx'
      subst hx'
      omega
  | n + 1, k, lo, hi, H, S, hn, h => by
    unfold rounds
    by_cases hlh : lo = hi
    · rw [if_pos hlh]
      refine ⟨[], by simpa using h.recd, by simpa using h.hist, Better.refl S, ?_⟩
      intro x hx hxk
      rw [List.append_nil] at hx ⊢
      obtain ⟨p, hp⟩ := List.mem_iff_getElem?.1 hx
      have hl := (List.getElem?_eq_some_iff.1 hp).1
      have hHlen := h.len
      have hhi := h.hiEq
      exact h.done p x (by omega) hp hxk
    · rw [if_neg hlh]
      simp only
      obtain ⟨E, h1, h2⟩ := round_RA hok (by omega) h
      obtain ⟨E', g1, g2, g3, g4⟩ := rounds_RA hok n (k + 1) hi _ (H ++ E) _ (by omega) h1
      exact ⟨E ++ E', by rw [← List.append_assoc]; exact g1, by rw [← List.append_assoc]; exact g2, h2.trans g3,
        by rw [← List.append_assoc]; exact g4⟩

/-! ## Starts -/

theorem startSegs_boarded {tt : TT} {tbd : TbData} {Q : Query} {starts : List (Loc × Nat)} {x : Loc × Nat}
    (hx : x ∈ starts) {y : Nat × Nat × Nat × Nat} (hy : y ∈ startSegs tt Q x.1 x.2) :
    Boarded tt tbd Q starts 0 y.1 y.2.1 (Q.base' + y.2.2.2) y.2.2.1 ∧ y.2.2.2 < 8 := by
  unfold startSegs at hy
  simp only [List.mem_flatMap, List.mem_filterMap, List.mem_range] at hy
  obtain ⟨r, hr, i, hi, hy⟩ := hy
  split at hy
  · simp at hy
  · rename_i hc
    cases hE : earliest (tt.route r) i (x.2 / 1440) (x.2 % 1440) with
    | none => rw [hE] at hy; simp at hy
    | some p =>
      obtain ⟨o, day⟩ := p
      rw [hE] at hy
      simp only at hy
      split at hy
      · simp at hy
      · rename_i hday
        injection hy with hy
        subst hy
        obtain ⟨h1, h2, h3⟩ := earliest_spec hE
        have hmem := route_mem (tt := tt) (r := r) (j := i) (by omega)
        have hinn : ((tt.route r).stop i).inAllowed = true := by
          cases hh : ((tt.route r).stop i).inAllowed with
          | true => rfl
          | false => exact absurd (Or.inl hh) hc
        have hloc : ((tt.route r).stop i).loc = x.1 := Decidable.byContradiction fun hh => hc (Or.inr hh)
        have h8 : kTBMaxDayOffset = 8 := rfl
        refine ⟨⟨hmem.1, h1, by simp only; omega, ?_, hinn, ?_⟩, by simp only; omega⟩
        · simp only
          rw [show Q.base' + (day - Q.base') = day by omega]
          exact h2
        · refine ⟨(x.2 : Int), ?_, ?_⟩
          · simp only; rw [hloc]; exact Chain.start hx
          · simp only
            rw [show Q.base' + (day - Q.base') = day by omega]
            omega

theorem initial_TI {tt : TT} {tbd : TbData} (hok : Ok tt tbd) {Q : Query} {starts : List (Loc × Nat)} {off : Nat}
    {H : List Ent} {qs : QS} (h : TI tt tbd Q starts 0 off 0 [] H qs) {x : Loc × Nat} (hx : x ∈ starts)
    {y : Nat × Nat × Nat × Nat} (hy : y ∈ startSegs tt Q x.1 x.2) :
    ∃ E, TI tt tbd Q starts 0 off 0 [] (H ++ E) (initialEnqueue tt tbd qs y.1 y.2.1 y.2.2.1 y.2.2.2) ∧
      Covered (boards (H ++ E)) y.1 y.2.1 y.2.2.2 0 y.2.2.1 := by
  obtain ⟨-, hfirst, -, -⟩ := preprocess_data hok.data
  obtain ⟨hb, hday⟩ := startSegs_boarded (tbd := tbd) hx hy
  have hmem := route_mem (Nat.lt_of_succ_lt hb.stop)
  have htrip := hok.ttOk.trips _ hmem.2
  have hstops := hok.ttOk.stops _ hmem.2
  have hct := hb.trip
  have hcs := hb.stop
  have hE := C36_initial tt tbd (boards H) h.hist.boards qs.q y.1 y.2.1 y.2.2.1 y.2.2.2 (by omega) (by omega) (by omega) (by omega)
  have eqs : (⟨qs.q, record (boards H)⟩ : QS) = qs := by rw [← h.recd]
  simp only [eqs, hfirst _ _ hb.route hb.trip] at hE
  by_cases hcond : ((tt.route y.1).stops.length - 1 ≤ y.2.2.1 ∨ Covered (boards H) y.1 y.2.1 y.2.2.2 0 y.2.2.1)
  · refine ⟨[], ?_, ?_⟩
    · rw [hE.1 hcond, List.append_nil]; exact h
    · rw [List.append_nil]
      exact hcond.resolve_left (by omega)
  · obtain ⟨e, e1, e2, e3, e4, e5, e6⟩ := hE.2 hcond
    have hxx : EntFit tt tbd Q starts (boards H)
        ⟨⟨y.1, y.2.1, y.2.2.2, y.2.2.1, 0⟩, e.to' - firstSeg tt (trFrom tt y.1 + y.2.1)⟩ := by
      refine ⟨hb, ⟨?_, ?_, ?_, ?_⟩, ?_, ?_⟩
      · simp only; omega
      · simp only; omega
      · simp only; omega
      · simp only; omega
      · simp only; omega
      · intro s' hs'
        simp only at hs' ⊢
        rw [← e6 s']
        omega
    refine ⟨[⟨⟨y.1, y.2.1, y.2.2.2, y.2.2.1, 0⟩, e.to' - firstSeg tt (trFrom tt y.1 + y.2.1)⟩], ?_, ?_⟩
    · rw [e1]
      rw [show boards H ++ [⟨y.1, y.2.1, y.2.2.2, y.2.2.1, 0⟩] = boards (H ++
        [⟨⟨y.1, y.2.1, y.2.2.2, y.2.2.1, 0⟩, e.to' - firstSeg tt (trFrom tt y.1 + y.2.1)⟩]) by
        rw [boards_append]; rfl]
      refine h.append hxx rfl ⟨?_, ?_, ?_⟩
      · simp only [fseg]; omega
      · simp only [fseg]; omega
      · simp only; omega
    · rw [boards_append]
      exact (C36_monotone (boards H) [] y.1 y.2.1 y.2.2.2 0 y.2.2.1).2

theorem initialAll_TI {tt : TT} {tbd : TbData} (hok : Ok tt tbd) {Q : Query} {starts : List (Loc × Nat)} {off : Nat} {x : Loc × Nat} (hx : x ∈ starts) :
    ∀ (ys : List (Nat × Nat × Nat × Nat)) (H : List Ent) (qs : QS), TI tt tbd Q starts 0 off 0 [] H qs → (∀ y ∈ ys, y ∈ startSegs tt Q x.1 x.2) →
    ∃ E, TI tt tbd Q starts 0 off 0 [] (H ++ E) (ys.foldl (fun qs y => initialEnqueue tt tbd qs y.1 y.2.1 y.2.2.1 y.2.2.2) qs) ∧
      ∀ y ∈ ys, Covered (boards (H ++ E)) y.1 y.2.1 y.2.2.2 0 y.2.2.1
  | [], H, qs, h, _ => ⟨[], by simpa using h, by simp⟩
  | y :: ys, H, qs, h, hy => by
    rw [List.foldl_cons]
    obtain ⟨E, h1, h2⟩ := initial_TI hok h hx (hy y (by simp))
    obtain ⟨E', g1, g2⟩ := initialAll_TI hok hx ys (H ++ E) _ h1 (fun z hz => hy z (List.mem_cons_of_mem _ hz))
    refine ⟨E ++ E', by rw [← List.append_assoc]; exact g1, ?_⟩
    intro z hz
    rw [← List.append_assoc]
    rcases List.mem_cons.1 hz with rfl | hz
    · rw [boards_append]; exact h2.append _
    · exact g2 z hz

theorem addStarts_TI {tt : TT} {tbd : TbData} (hok : Ok tt tbd) {Q : Query} {starts : List (Loc × Nat)} {off : Nat} :
    ∀ (new : List (Loc × Nat)) (H : List Ent) (S : State), TI tt tbd Q starts 0 off 0 [] H S.qs → (∀ x ∈ new, x ∈ starts) →
    ∃ E, TI tt tbd Q starts 0 off 0 [] (H ++ E) (new.foldl (addStart tt tbd Q) S).qs ∧
      (new.foldl (addStart tt tbd Q) S).tmin = S.tmin ∧ (new.foldl (addStart tt tbd Q) S).endReach = S.endReach ∧
      (new.foldl (addStart tt tbd Q) S).distToDest = S.distToDest ∧
      ∀ x ∈ new, ∀ y ∈ startSegs tt Q x.1 x.2, Covered (boards (H ++ E)) y.1 y.2.1 y.2.2.2 0 y.2.2.1
  | [], H, S, h, _ => ⟨[], by simpa using h, rfl, rfl, rfl, by simp⟩
  | x :: new, H, S, h, hx => by
    rw [List.foldl_cons]
    obtain ⟨E, h1, h2⟩ := initialAll_TI hok (hx x (by simp)) (startSegs tt Q x.1 x.2) H S.qs h (fun _ h => h)
    obtain ⟨E', g1, g2, g3, g4, g5⟩ := addStarts_TI hok new (H ++ E) (addStart tt tbd Q S x) h1 (fun z hz => hx z (List.mem_cons_of_mem _ hz))
    refine ⟨E ++ E', by rw [← List.append_assoc]; exact g1, g2, g3, g4, ?_⟩
    intro z hz y hy
    rw [← List.append_assoc]
    rcases List.mem_cons.1 hz with rfl | hz
    · rw [boards_append]; exact (h2 y hy).append _
    · exact g5 z hz y hy

/-! ## Whole calls -/

/-- What is known between two calls. -/
structure Explored (tt : TT) (tbd : TbData) (Q : Query) (starts : List (Loc × Nat)) (H : List Ent) (S : State) : Prop where
  recd : S.qs.r = record (boards H)
  hist : HistOk tt tbd Q starts H
  done : ∀ x ∈ H, x.b.k < kMaxTransfers → Done tt tbd Q H S x
  start : ∀ x ∈ starts, ∀ y ∈ startSegs tt Q x.1 x.2, Covered (boards H) y.1 y.2.1 y.2.2.2 0 y.2.2.1

theorem applyWorst_better (worst : Int) (S : State) : Better S (applyWorst worst S) := by
  refine ⟨rfl, rfl, fun j => ?_⟩
  simp only [applyWorst]
  split <;> omega

theorem oneStart_explored {tt : TT} {tbd : TbData} (hok : Ok tt tbd) {Q : Query} {starts : List (Loc × Nat)} {H : List Ent} {S : State}
    (h : Explored tt tbd Q starts H S) (new : List (Loc × Nat)) (mt : Nat) (worst : Int) :
    ∃ E, Explored tt tbd Q (starts ++ new) (H ++ E) (oneStart tt tbd Q mt S new worst).1 ∧
      Better S (oneStart tt tbd Q mt S new worst).1 := by
  unfold oneStart execute
  simp only
  have hTI : TI tt tbd Q (starts ++ new) 0 H.length 0 [] H (nextStartTime S).qs := by
    refine ⟨h.recd, h.hist.mono (fun x hx => List.mem_append_left _ hx), ?_, Nat.zero_le _, fun i hi => by omega, ?_⟩
    · simp [nextStartTime]
    · intro i e _ he; simp [nextStartTime] at he
  obtain ⟨E, h1, h2, h3, h4, h5⟩ := addStarts_TI hok new H (nextStartTime S) hTI (fun x hx => List.mem_append_right _ hx)
  generalize new.foldl (addStart tt tbd Q) (nextStartTime S) = S1 at h1 h2 h3 h4
  have hB1 : Better S S1 := ⟨h3, h4, fun j => by rw [h2]; exact Int.le_refl _⟩
  have hB2 : Better S (applyWorst worst S1) := hB1.trans (applyWorst_better worst S1)
  have hRA : RA tt tbd Q (starts ++ new) 0 H.length 0 (applyWorst worst S1).qs.q.length (H ++ E) (applyWorst worst S1) := by
    refine ⟨h1.recd, h1.hist, h1.len, rfl, Nat.zero_le _, ?_, ?_⟩
    · intro p x hp hx hxk
      rw [List.getElem?_append_left (by omega)] at hx
      exact (h.done x (List.mem_of_getElem? hx) hxk).better hB2 E
    · exact fun i e _ he => h1.new i e (Nat.zero_le _) he
  obtain ⟨E', g1, g2, g3, g4⟩ := rounds_RA hok kMaxTransfers 0 0 _ (H ++ E) (applyWorst worst S1) rfl hRA
  refine ⟨E ++ E', ⟨?_, ?_, ?_, ?_⟩, hB2.trans g3⟩
  · rw [← List.append_assoc]; exact g1
  · rw [← List.append_assoc]; exact g2
  · rw [← List.append_assoc]; exact g4
  · intro x hx y hy
    rw [← List.append_assoc, boards_append]
    rcases List.mem_append.1 hx with hx | hx
    · rw [boards_append]
      exact ((h.start x hx y hy).append _).append _
    · exact (h5 x hx y hy).append _

theorem resetArrivals_explored (tt : TT) (tbd : TbData) (Q : Query) (S : State) : Explored tt tbd Q [] [] (resetArrivals S) :=
  ⟨rfl, fun p x hp => by simp at hp, by simp, by simp⟩

end Nigiri.TB
