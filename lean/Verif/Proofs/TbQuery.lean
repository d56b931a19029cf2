import Verif.Spec.TripBased
import Verif.Props.TbPreprocess
import Verif.Props.TbReached
/-!
# Trip-based search: every reported arrival belongs to a journey
-/

namespace Nigiri.TB
open Raptor (Loc StopData Net RouteData)

/-- What is assumed about timetable, precomputed data and query. -/
structure Ok (tt : TT) (tbd : TbData) : Prop where
  ttOk : tt.Ok tbd.prf
  data : preprocess tt tbd.prf = some tbd
  /-- incoming footpaths are the reversed outgoing ones -/
  fps : ∀ l x, x ∈ tt.fpsIn tbd.prf l → (l, x.2) ∈ tt.fpsOut tbd.prf x.1

/-- Being ready at `l` at time `t` after `k` rides. -/
inductive Chain (N : Net) (starts : List (Loc × Nat)) : Nat → Loc → Int → Prop
  | start {l t} : (l, t) ∈ starts → Chain N starts 0 l (t : Int)
  | walk {k l t m a l' t'} : Chain N starts k l t → Raptor.RideDir .fwd N l t m a → Raptor.Walk N m a l' t' →
      Chain N starts (k + 1) l' t'

theorem Chain.mono {N : Net} {starts starts' : List (Loc × Nat)} (h : ∀ x ∈ starts, x ∈ starts') {k l t}
    (hc : Chain N starts k l t) : Chain N starts' k l t := by
  induction hc with
  | start hx => exact .start (h _ hx)
  | walk _ h2 h3 ih => exact .walk ih h2 h3

theorem Chain.journey {N : Net} {starts : List (Loc × Nat)} {k l t} (hc : Chain N starts k l t) :
    ∀ {m A}, Raptor.Journey .fwd N m l t A → ∃ x ∈ starts, Raptor.Journey .fwd N (k + m) x.1 (x.2 : Int) A := by
  induction hc with
  | start hx =>
    intro m A h
    exact ⟨_, hx, by simpa using h⟩
  | @walk k l t m a l' t' h1 h2 h3 ih =>
    intro n A h
    obtain ⟨x, hx, hj⟩ := ih (Raptor.Journey.more h2 h3 h)
    exact ⟨x, hx, by rw [show k + 1 + n = k + (n + 1) by omega]; exact hj⟩

/-- Trip `o` of route `r` runs on `day` and can be boarded at its stop `j` after `k` rides. -/
structure Boarded (tt : TT) (tbd : TbData) (Q : Query) (starts : List (Loc × Nat)) (k r o day j : Nat) : Prop where
  route : r < tt.routes.length
  trip : o < (tt.route r).nTr
  stop : j + 1 < (tt.route r).stops.length
  runs : ((tt.route r).bits o).testBit day = true
  board : ((tt.route r).stop j).inAllowed = true
  ready : ∃ t, Chain (net tt tbd.prf Q) starts k ((tt.route r).stop j).loc t ∧ t ≤ (day : Int) * 1440 + ((tt.route r).dep o j : Nat)

theorem route_getElem {tt : TT} {r : Nat} (h : r < tt.routes.length) : tt.routes[r]? = some (tt.route r) := by
  unfold TT.route
  rw [List.getD_eq_getElem?_getD, List.getElem?_eq_getElem h]
  rfl

theorem stop_getElem {r : Route} {i : Nat} (h : i < r.stops.length) : r.stops[i]? = some (r.stop i) := by
  unfold Route.stop
  rw [List.getD_eq_getElem?_getD, List.getElem?_eq_getElem h]
  rfl

/-- Riding on. -/
theorem Boarded.ride {tt : TT} {tbd : TbData} {Q : Query} {starts : List (Loc × Nat)} {k r o day j i : Nat}
    (h : Boarded tt tbd Q starts k r o day j) (hi : j < i) (hl : i < (tt.route r).stops.length)
    (hout : ((tt.route r).stop i).outAllowed = true) :
    ∃ l t, Chain (net tt tbd.prf Q) starts k l t ∧
      Raptor.RideDir .fwd (net tt tbd.prf Q) l t ((tt.route r).stop i).loc ((day : Int) * 1440 + ((tt.route r).arr o i : Nat)) := by
  obtain ⟨t, hc, ht⟩ := h.ready
  refine ⟨_, t, hc, _, ht, Or.inl ⟨(tt.route r).data, ?_, o, day, h.trip, ?_, ?_, j, i, _, _, hi, stop_getElem (Nat.lt_of_succ_lt h.stop),
    stop_getElem hl, rfl, rfl, ?_, ?_, ?_, ?_, ?_⟩⟩
  · exact List.mem_map_of_mem (List.mem_of_getElem? (route_getElem h.route))
  · simp only [Route.data, Bool.and_eq_true, decide_eq_true_eq]
    exact ⟨by omega, by simpa using h.runs⟩
  · show (1 : Nat).testBit 0 = true
    decide
  · simp only [Raptor.MayBoard, net, Bool.false_eq_true, if_false]; exact h.board
  · simp only [Raptor.MayAlight, net, Bool.false_eq_true, if_false]; exact hout
  · intro s _ _ f sec hf
    simp [net] at hf
  · simp [net, Route.data]
  · simp [net, Route.data]

/-- A transfer that is active leads to a trip that can be boarded. -/
theorem Boarded.change {tt : TT} {tbd : TbData} {Q : Query} {starts : List (Loc × Nat)} {k r o day j i r' t' day' j' : Nat}
    (h : Boarded tt tbd Q starts k r o day j) (hi : j < i)
    (hf : FeasibleChange tt tbd.prf r o day i r' t' day' j') : Boarded tt tbd Q starts (k + 1) r' t' day' j' := by
  have hb := hf.board
  obtain ⟨l, t, hc, hr⟩ := h.ride hi hf.alight.2.1 hf.alight.2.2
  refine ⟨(route_mem (Nat.lt_of_succ_lt hb.1)).1, hf.trip, hb.1, hf.runs', hb.2, ?_⟩
  obtain ⟨w, hw, ht⟩ := hf.walk
  refine ⟨(day : Int) * 1440 + ((tt.route r).arr o i : Nat) + (w : Int), Chain.walk hc hr ?_, by omega⟩
  rcases hw with ⟨e, rfl⟩ | hw
  · exact Or.inl ⟨e, by simp [net]⟩
  · right
    refine ⟨(w : Int), ?_, rfl⟩
    simp only [net, List.mem_map]
    exact ⟨_, hw, rfl⟩

/-- Queue entry `e` of round `k`. -/
def EntryOk (tt : TT) (tbd : TbData) (Q : Query) (starts : List (Loc × Nat)) (k : Nat) (e : QE) : Prop :=
  ∃ r o j, Boarded tt tbd Q starts k r o (Q.base' + e.day) j ∧ e.from' = firstSeg tt (trFrom tt r + o) + j ∧
    e.to' ≤ firstSeg tt (trFrom tt r + o) + ((tt.route r).stops.length - 1)

/-- Marked segments: the destination can be reached from the end of the segment. -/
def DestOk (tt : TT) (tbd : TbData) (Q : Query) (S : State) : Prop :=
  (∀ s, S.endReach s = true → S.distToDest s ≠ none) ∧
  ∀ s w, S.distToDest s = some w → ∃ r o i, r < tt.routes.length ∧ o < (tt.route r).nTr ∧ i + 1 < (tt.route r).stops.length ∧
    s = firstSeg tt (trFrom tt r + o) + i ∧ ((tt.route r).stop (i + 1)).outAllowed = true ∧
    ∀ a, Raptor.Arrive (net tt tbd.prf Q) ((tt.route r).stop (i + 1)).loc a (a + (w : Int))

theorem seg_inj {tt : TT} {r o i r' o' i' : Nat} (hr : r < tt.routes.length) (ho : o < (tt.route r).nTr)
    (hi : i + 1 < (tt.route r).stops.length) (hr' : r' < tt.routes.length) (ho' : o' < (tt.route r').nTr)
    (hi' : i' + 1 < (tt.route r').stops.length)
    (h : firstSeg tt (trFrom tt r + o) + i = firstSeg tt (trFrom tt r' + o') + i') : r = r' ∧ o = o' ∧ i = i' := by
  have h1 := segTr_get tt _ _ i (trList_get tt r o hr ho) (by unfold nSeg; simp only; omega)
  have h2 := segTr_get tt _ _ i' (trList_get tt r' o' hr' ho') (by unfold nSeg; simp only; omega)
  rw [h, h2] at h1
  injection h1 with h1
  have h3 := trList_get tt r o hr ho
  rw [← h1, trList_get tt r' o' hr' ho'] at h3
  injection h3 with h3
  injection h3 with e1 e2
  subst e1 e2
  exact ⟨rfl, rfl, by omega⟩

theorem segPos_eq {tt : TT} {tbd : TbData} (hok : Ok tt tbd) {r o i : Nat} (hr : r < tt.routes.length) (ho : o < (tt.route r).nTr)
    (hi : i + 1 < (tt.route r).stops.length) : segPos tt tbd (firstSeg tt (trFrom tt r + o) + i) = (tt.route r, o, i) := by
  obtain ⟨-, hfirst, hseg, -⟩ := preprocess_data hok.data
  unfold segPos
  rw [hseg _ _ i (trList_get tt r o hr ho) (by unfold nSeg; simp only; omega)]
  simp only
  rw [List.getD_eq_getElem?_getD, trList_get tt r o hr ho, hfirst r o hr ho]
  simp

/-- The bookkeeping of the best arrivals. -/
structure BestOk (tt : TT) (tbd : TbData) (Q : Query) (starts : List (Loc × Nat)) (S : State) : Prop where
  mono : ∀ i j, i ≤ j → j < kMaxTransfers → S.tmin j ≤ S.tmin i
  sound : ∀ n, n < kMaxTransfers → S.parent n ≠ none → ∃ m, m ≤ n ∧ S.parent m ≠ none ∧ S.tmin m = S.tmin n ∧
    JourneyFrom tt tbd.prf Q starts (m + 1) (S.tmin m)

theorem destUpd_ok {tt : TT} {tbd : TbData} {Q : Query} {starts : List (Loc × Nat)} {S : State} (h : BestOk tt tbd Q starts S)
    {k q : Nat} {time : Int} (hk : k < kMaxTransfers) (hj : JourneyFrom tt tbd.prf Q starts (k + 1) time) :
    BestOk tt tbd Q starts (destUpd k q time S) := by
  have e1 : ∀ j, j < kMaxTransfers → (destUpd k q time S).tmin j = if k ≤ j ∧ S.tmin j > time then time else S.tmin j := by
    intro j hjk
    simp only [destUpd]
    by_cases h1 : k ≤ j ∧ S.tmin j > time
    · rw [if_pos h1, if_pos ⟨h1.1, by omega, h1.2⟩]
    · rw [if_neg h1, if_neg (fun h2 => h1 ⟨h2.1, h2.2.2⟩)]
  have e2 : ∀ j, (destUpd k q time S).parent j = if j = k ∧ S.tmin k > time then some q else S.parent j := by
    intro j
    simp only [destUpd]
    by_cases h1 : j = k ∧ S.tmin k > time
    · rw [if_pos h1, if_pos ⟨h1.1, by omega, h1.2⟩]
    · rw [if_neg h1, if_neg (fun h2 => h1 ⟨h2.1, h2.2.2⟩)]
  constructor
  · intro i j hij hjm
    rw [e1 i (by omega), e1 j hjm]
    have := h.mono i j hij hjm
    split <;> split <;> omega
  · intro n hn hp
    rw [e2] at hp
    by_cases hc : k ≤ n ∧ S.tmin n > time
    · have hkk : S.tmin k > time := by have := h.mono k n hc.1 hn; omega
      refine ⟨k, hc.1, ?_, ?_, ?_⟩
      · rw [e2, if_pos ⟨rfl, hkk⟩]; simp
      · rw [e1 k hk, e1 n hn, if_pos ⟨Nat.le_refl _, hkk⟩, if_pos hc]
      · rw [e1 k hk, if_pos ⟨Nat.le_refl _, hkk⟩]; exact hj
    · have hp' : S.parent n ≠ none := by
        by_cases h1 : n = k ∧ S.tmin k > time
        · exact absurd ⟨by omega, by rw [h1.1]; exact h1.2⟩ hc
        · rwa [if_neg h1] at hp
      obtain ⟨m, hm, hpm, htm, hjm⟩ := h.sound n hn hp'
      have hcm : ¬ (k ≤ m ∧ S.tmin m > time) := by
        rintro ⟨h1, h2⟩
        exact hc ⟨by omega, by omega⟩
      refine ⟨m, hm, ?_, ?_, ?_⟩
      · rw [e2]; split
        · simp
        · exact hpm
      · rw [e1 m (by omega), e1 n hn, if_neg hcm, if_neg hc]; exact htm
      · rw [e1 m (by omega), if_neg hcm]; exact hjm

/-- Everything about a state during the rounds: the entries before `hi` are only of interest in `[lo, hi)`. -/
structure Inv (tt : TT) (tbd : TbData) (Q : Query) (starts : List (Loc × Nat)) (S : State) : Prop where
  dest : DestOk tt tbd Q S
  best : BestOk tt tbd Q starts S

theorem segDest_inv {tt : TT} {tbd : TbData} (hok : Ok tt tbd) {Q : Query} {starts : List (Loc × Nat)} {S : State}
    (h : Inv tt tbd Q starts S) {k q : Nat} (hk : k < kMaxTransfers) (he : ∀ e, S.qs.q[q]? = some e → EntryOk tt tbd Q starts k e) :
    Inv tt tbd Q starts (segDest tt tbd Q k S q) ∧ (segDest tt tbd Q k S q).qs = S.qs := by
  unfold segDest
  cases hq : S.qs.q[q]? with
  | none => exact ⟨h, rfl⟩
  | some e =>
    obtain ⟨r, o, j, hb, hfrom, hto⟩ := he e hq
    simp only
    refine Raptor.foldl_inv (fun S' : State => Inv tt tbd Q starts S' ∧ S'.qs = S.qs) _ _ _ ⟨h, rfl⟩ ?_
    rintro S' s hs ⟨hI, hqs⟩
    by_cases hend : S'.endReach s = true
    · rw [if_pos hend]
      refine ⟨⟨hI.dest, ?_⟩, hqs⟩
      apply destUpd_ok hI.best hk
      cases hw : S'.distToDest s with
      | none => exact absurd hw (hI.dest.1 s hend)
      | some w =>
        obtain ⟨r', o', i', hr', ho', hi', es, hout, harr⟩ := hI.dest.2 s w hw
        simp only [QE.segs, List.mem_map, List.mem_range] at hs
        obtain ⟨x, hx, rfl⟩ := hs
        have hxs : e.from' + x = firstSeg tt (trFrom tt r + o) + (j + x) := by omega
        obtain ⟨rfl, rfl, rfl⟩ := seg_inj (i' := j + x) hr' ho' hi' hb.route hb.trip (by omega) (by rw [← es, hxs])
        obtain ⟨l, t, hc, hride⟩ := hb.ride (i := j + x + 1) (by omega) hi' hout
        have hA := harr (((Q.base' + e.day : Nat) : Int) * 1440 + ((tt.route r').arr o' (j + x + 1) : Nat))
        obtain ⟨y, hy, hj⟩ := hc.journey (Raptor.Journey.last hride hA)
        refine ⟨y, hy, ?_⟩
        rw [es]
        simp only [segArr, segPos_eq hok hr' ho' hi', Option.getD_some]
        exact hj
    · rw [if_neg hend]
      exact ⟨hI, hqs⟩

theorem segPrune_inv {tt : TT} {tbd : TbData} {Q : Query} {starts : List (Loc × Nat)} {S : State}
    (h : Inv tt tbd Q starts S) {k q : Nat} (P : Nat → QE → Prop) (hP : ∀ i e, P i e → P i { e with to' := e.from' })
    (he : ∀ i e, S.qs.q[i]? = some e → P i e) :
    Inv tt tbd Q starts (segPrune tt tbd Q k S q) ∧ (segPrune tt tbd Q k S q).qs.q.length = S.qs.q.length ∧
    (segPrune tt tbd Q k S q).qs.r = S.qs.r ∧
    ∀ i e, (segPrune tt tbd Q k S q).qs.q[i]? = some e → P i e := by
  unfold segPrune
  cases hq : S.qs.q[q]? with
  | none => exact ⟨h, rfl, rfl, he⟩
  | some e =>
    simp only
    split
    · refine ⟨⟨h.dest, h.best.mono, h.best.sound⟩, by simp, rfl, ?_⟩
      intro i e' hi
      simp only [List.getElem?_set] at hi
      by_cases hqi : q = i
      · subst hqi
        rw [if_pos rfl] at hi
        split at hi
        · injection hi with hi
          rw [← hi]
          exact hP _ _ (he _ _ hq)
        · simp at hi
      · rw [if_neg hqi] at hi
        exact he _ _ hi
    · exact ⟨h, rfl, rfl, he⟩

theorem query_le (tt : TT) (m : RMap) (r off day k : Nat) : m.query tt r off day k ≤ (tt.route r).stops.length - 1 := by
  unfold RMap.query
  rw [query_fold]
  exact Or.inl (Nat.mod_le _ _)

theorem enqueue_inv {tt : TT} {tbd : TbData} (hok : Ok tt tbd) {Q : Query} {starts : List (Loc × Nat)} {S : QS} {k q : Nat} {e : QE}
    (he : EntryOk tt tbd Q starts k e) {s : Nat} (hs : s ∈ e.segs) {x : Transfer} (hx : x ∈ tbd.segTransfers.getD s [])
    (hd : x.days.testBit (Q.base' + e.day) = true) :
    (enqueue tt S x q e.day (k + 1)).q = S.q ∨
    ∃ e', (enqueue tt S x q e.day (k + 1)).q = S.q ++ [e'] ∧ EntryOk tt tbd Q starts (k + 1) e' := by
  obtain ⟨r, o, j, hb, hfrom, hto⟩ := he
  obtain ⟨-, hfirst, -, -⟩ := preprocess_data hok.data
  unfold enqueue
  simp only
  split
  · exact Or.inl rfl
  · rename_i hday
    split
    · exact Or.inl rfl
    · refine Or.inr ⟨_, rfl, ?_⟩
      simp only [QE.segs, List.mem_map, List.mem_range] at hs
      obtain ⟨y, hy, rfl⟩ := hs
      have hxs : e.from' + y = tbd.firstSeg.getD (trFrom tt r + o) 0 + (j + y) := by
        rw [hfirst r o hb.route hb.trip]; omega
      rw [hxs] at hx
      obtain ⟨⟨day', ed, hf⟩, hseg, -⟩ := C37_feasible tt tbd.prf hok.ttOk tbd hok.data r o (j + y) hb.route hb.trip (by omega) x hx
        (Q.base' + e.day) hd
      have hc := hb.change (by omega) hf
      rw [hfirst _ _ hc.route hc.trip] at hseg
      have hdd : day' = Q.base' + ((e.day : Int) + x.dayOffset).toNat := by omega
      refine ⟨x.route, x.trOff, x.toSegOff, ?_, hseg, ?_⟩
      · simp only
        rw [← hdd]
        exact hc
      · have := query_le tt S.r x.route x.trOff ((e.day : Int) + x.dayOffset).toNat (k + 1)
        simp only
        omega

/-- The queue during round `k`. -/
def Levels (tt : TT) (tbd : TbData) (Q : Query) (starts : List (Loc × Nat)) (k lo hi : Nat) (q : List QE) : Prop :=
  hi ≤ q.length ∧ ∀ i e, q[i]? = some e → (lo ≤ i → i < hi → EntryOk tt tbd Q starts k e) ∧ (hi ≤ i → EntryOk tt tbd Q starts (k + 1) e)

theorem EntryOk.prune {tt : TT} {tbd : TbData} {Q : Query} {starts : List (Loc × Nat)} {k : Nat} {e : QE}
    (h : EntryOk tt tbd Q starts k e) : EntryOk tt tbd Q starts k { e with to' := e.from' } := by
  obtain ⟨r, o, j, hb, h1, h2⟩ := h
  have := hb.stop
  exact ⟨r, o, j, hb, h1, by simp only; omega⟩

theorem Levels.append {tt : TT} {tbd : TbData} {Q : Query} {starts : List (Loc × Nat)} {k lo hi : Nat} {q : List QE} {e : QE}
    (h : Levels tt tbd Q starts k lo hi q) (he : EntryOk tt tbd Q starts (k + 1) e) : Levels tt tbd Q starts k lo hi (q ++ [e]) := by
  refine ⟨by simp; have := h.1; omega, ?_⟩
  intro i e' hi'
  by_cases hl : i < q.length
  · rw [List.getElem?_append_left hl] at hi'
    exact h.2 i e' hi'
  · rw [List.getElem?_append_right (by omega)] at hi'
    have hlt : i - q.length < 1 := by
      have := (List.getElem?_eq_some_iff.mp hi').1
      simpa using this
    have h0 : i - q.length = 0 := by omega
    rw [h0] at hi'
    simp only [List.getElem?_cons_zero, Option.some.injEq] at hi'
    subst hi'
    exact ⟨fun _ h2 => by have := h.1; omega, fun _ => he⟩

theorem segTransfers_inv {tt : TT} {tbd : TbData} (hok : Ok tt tbd) {Q : Query} {starts : List (Loc × Nat)} {S : State}
    (h : Inv tt tbd Q starts S) {k lo hi q : Nat} (hl : Levels tt tbd Q starts k lo hi S.qs.q) (hq : lo ≤ q ∧ q < hi) :
    Inv tt tbd Q starts (segTransfers tt tbd Q k S q) ∧ Levels tt tbd Q starts k lo hi (segTransfers tt tbd Q k S q).qs.q := by
  unfold segTransfers
  cases hqe : S.qs.q[q]? with
  | none => exact ⟨h, hl⟩
  | some e =>
    simp only
    refine ⟨⟨h.dest, h.best.mono, h.best.sound⟩, ?_⟩
    have he := (hl.2 q e hqe).1 hq.1 hq.2
    refine Raptor.foldl_inv (fun qs : QS => Levels tt tbd Q starts k lo hi qs.q) _ _ _ hl ?_
    intro qs x hx hqs
    split
    · rename_i hd
      rw [List.mem_flatMap] at hx
      obtain ⟨s, hs, hx⟩ := hx
      rcases enqueue_inv (S := qs) (q := q) hok he hs hx hd with h1 | ⟨e', h1, h2⟩
      · rw [h1]; exact hqs
      · rw [h1]; exact hqs.append h2
    · exact hqs

theorem roundStep_inv {tt : TT} {tbd : TbData} (hok : Ok tt tbd) {Q : Query} {starts : List (Loc × Nat)} {S : State}
    (h : Inv tt tbd Q starts S) {k lo hi : Nat} (hk : k < kMaxTransfers) (hlen : hi = S.qs.q.length)
    (hl : ∀ i e, S.qs.q[i]? = some e → lo ≤ i → EntryOk tt tbd Q starts k e) :
    let S' := roundStep tt tbd Q k lo hi S
    Inv tt tbd Q starts S' ∧ hi ≤ S'.qs.q.length ∧ ∀ i e, S'.qs.q[i]? = some e → hi ≤ i → EntryOk tt tbd Q starts (k + 1) e := by
  intro S'
  have hidx : ∀ x ∈ (List.range (hi - lo)).map (lo + ·), lo ≤ x ∧ x < hi := by
    intro x hx
    simp only [List.mem_map, List.mem_range] at hx
    obtain ⟨y, hy, rfl⟩ := hx
    omega
  have h1 : Inv tt tbd Q starts (((List.range (hi - lo)).map (lo + ·)).foldl (segDest tt tbd Q k) S) ∧
      (((List.range (hi - lo)).map (lo + ·)).foldl (segDest tt tbd Q k) S).qs = S.qs := by
    refine Raptor.foldl_inv (fun T : State => Inv tt tbd Q starts T ∧ T.qs = S.qs) _ _ _ ⟨h, rfl⟩ ?_
    rintro T q hq ⟨hT, hqs⟩
    have := segDest_inv hok hT (q := q) hk (fun e he => hl q e (by rw [← hqs]; exact he) (hidx q hq).1)
    exact ⟨this.1, by rw [this.2, hqs]⟩
  generalize hS1 : ((List.range (hi - lo)).map (lo + ·)).foldl (segDest tt tbd Q k) S = S1 at h1
  have hlv1 : Levels tt tbd Q starts k lo hi S1.qs.q := by
    rw [h1.2]
    refine ⟨by omega, fun i e he => ⟨fun a _ => hl i e he a, fun a => ?_⟩⟩
    have := (List.getElem?_eq_some_iff.mp he).1
    omega
  have h2 : Inv tt tbd Q starts (((List.range (hi - lo)).map (lo + ·)).foldl (segPrune tt tbd Q k) S1) ∧
      Levels tt tbd Q starts k lo hi (((List.range (hi - lo)).map (lo + ·)).foldl (segPrune tt tbd Q k) S1).qs.q := by
    refine Raptor.foldl_inv (fun T : State => Inv tt tbd Q starts T ∧ Levels tt tbd Q starts k lo hi T.qs.q) _ _ _ ⟨h1.1, hlv1⟩ ?_
    rintro T q hq ⟨hT, hlv⟩
    have := segPrune_inv hT (k := k) (q := q)
      (fun i e => (lo ≤ i → i < hi → EntryOk tt tbd Q starts k e) ∧ (hi ≤ i → EntryOk tt tbd Q starts (k + 1) e))
      (fun i e he => ⟨fun a b => (he.1 a b).prune, fun a => (he.2 a).prune⟩) hlv.2
    exact ⟨this.1, by rw [this.2.1]; exact hlv.1, this.2.2.2⟩
  generalize hS2 : ((List.range (hi - lo)).map (lo + ·)).foldl (segPrune tt tbd Q k) S1 = S2 at h2
  have h3 : Inv tt tbd Q starts (((List.range (hi - lo)).map (lo + ·)).foldl (segTransfers tt tbd Q k) S2) ∧
      Levels tt tbd Q starts k lo hi (((List.range (hi - lo)).map (lo + ·)).foldl (segTransfers tt tbd Q k) S2).qs.q := by
    refine Raptor.foldl_inv (fun T : State => Inv tt tbd Q starts T ∧ Levels tt tbd Q starts k lo hi T.qs.q) _ _ _ h2 ?_
    rintro T q hq ⟨hT, hlv⟩
    exact segTransfers_inv hok hT hlv (hidx q hq)
  have hS' : S' = ((List.range (hi - lo)).map (lo + ·)).foldl (segTransfers tt tbd Q k) S2 := by
    rw [← hS2, ← hS1]
    rfl
  rw [hS']
  exact ⟨h3.1, h3.2.1, fun i e he hi' => (h3.2.2 i e he).2 hi'⟩

theorem rounds_inv {tt : TT} {tbd : TbData} (hok : Ok tt tbd) {Q : Query} {starts : List (Loc × Nat)} :
    ∀ (n k lo hi : Nat) (S : State), n + k ≤ kMaxTransfers → Inv tt tbd Q starts S → hi = S.qs.q.length →
      (∀ i e, S.qs.q[i]? = some e → lo ≤ i → EntryOk tt tbd Q starts k e) →
      Inv tt tbd Q starts (rounds tt tbd Q n k lo hi S)
  | 0, k, lo, hi, S, _, h, _, _ => h
  | n + 1, k, lo, hi, S, hn, h, hlen, hl => by
    unfold rounds
    split
    · exact h
    · have h1 := roundStep_inv hok h (k := k) (by omega) hlen hl
      exact rounds_inv hok n (k + 1) hi _ _ (by omega) h1.1 rfl h1.2.2

theorem applyWorst_inv {tt : TT} {tbd : TbData} {Q : Query} {starts : List (Loc × Nat)} {S : State} (worst : Int)
    (h : Inv tt tbd Q starts S) : Inv tt tbd Q starts (applyWorst worst S) := by
  refine ⟨h.dest, ?_, ?_⟩
  · intro i j hij hj
    have := h.best.mono i j hij hj
    simp only [applyWorst]
    split <;> split <;> omega
  · intro n hn hp
    simp only [applyWorst] at hp
    have hc : ¬ (n < kMaxTransfers ∧ S.tmin n ≥ worst) := by
      intro hc; rw [if_pos hc] at hp; exact hp rfl
    rw [if_neg hc] at hp
    obtain ⟨m, h1, h2, h3, h4⟩ := h.best.sound n hn hp
    have hm : ¬ (m < kMaxTransfers ∧ S.tmin m ≥ worst) := by rw [h3]; intro hx; exact hc ⟨hn, hx.2⟩
    refine ⟨m, h1, ?_, ?_, ?_⟩
    · simp only [applyWorst]; rw [if_neg hm]; exact h2
    · simp only [applyWorst]; rw [if_neg hm, if_neg hc]; exact h3
    · simp only [applyWorst]; rw [if_neg hm]; exact h4

/-! ## Starts -/

theorem earliestOn_spec {r : Route} {i day mam : Nat} {first : Bool} {o d : Nat} (h : earliestOn r i day mam first = some (o, d)) :
    o < r.nTr ∧ (r.bits o).testBit d = true ∧ d * 1440 + r.dep o i = day * 1440 + r.dep o i % 1440 ∧
    (first = true → mam ≤ r.dep o i % 1440) := by
  unfold earliestOn at h
  simp only [Option.map_eq_some_iff] at h
  obtain ⟨t, ht, e⟩ := h
  injection e with e1 e2
  subst e1
  have hp := List.find?_some ht
  have hm := List.mem_of_find?_eq_some ht
  simp only [Bool.and_eq_true, decide_eq_true_eq, Bool.not_eq_true', Bool.and_eq_false_iff, Bool.not_eq_false'] at hp
  have hlt : t < r.nTr := by
    split at hm
    · exact List.mem_range.mp ((List.dropWhile_sublist _).subset hm)
    · exact List.mem_range.mp hm
  subst e2
  refine ⟨hlt, hp.2, by have := hp.1.2; omega, ?_⟩
  intro hf
  rcases hp.1.1 with h1 | h1
  · rw [hf] at h1; simp at h1
  · exact h1

theorem earliest_spec {r : Route} {i t : Nat} {o d : Nat} (h : earliest r i (t / 1440) (t % 1440) = some (o, d)) :
    o < r.nTr ∧ (r.bits o).testBit d = true ∧ t ≤ d * 1440 + r.dep o i := by
  unfold earliest at h
  cases h1 : earliestOn r i (t / 1440) (t % 1440) true with
  | some x =>
    rw [h1] at h
    injection h with h
    subst h
    obtain ⟨a, b, c, e⟩ := earliestOn_spec h1
    have := e rfl
    exact ⟨a, b, by omega⟩
  | none =>
    rw [h1] at h
    obtain ⟨a, b, c, e⟩ := earliestOn_spec h
    exact ⟨a, b, by omega⟩

theorem Boarded.mono {tt : TT} {tbd : TbData} {Q : Query} {starts starts' : List (Loc × Nat)} (hs : ∀ x ∈ starts, x ∈ starts')
    {k r o day j : Nat} (h : Boarded tt tbd Q starts k r o day j) : Boarded tt tbd Q starts' k r o day j :=
  ⟨h.route, h.trip, h.stop, h.runs, h.board, by obtain ⟨t, hc, ht⟩ := h.ready; exact ⟨t, hc.mono hs, ht⟩⟩

theorem EntryOk.mono {tt : TT} {tbd : TbData} {Q : Query} {starts starts' : List (Loc × Nat)} (hs : ∀ x ∈ starts, x ∈ starts')
    {k : Nat} {e : QE} (h : EntryOk tt tbd Q starts k e) : EntryOk tt tbd Q starts' k e := by
  obtain ⟨r, o, j, hb, h1, h2⟩ := h
  exact ⟨r, o, j, hb.mono hs, h1, h2⟩

theorem JourneyFrom.mono {tt : TT} {prf : Nat} {Q : Query} {starts starts' : List (Loc × Nat)} (hs : ∀ x ∈ starts, x ∈ starts')
    {n : Nat} {A : Int} (h : JourneyFrom tt prf Q starts n A) : JourneyFrom tt prf Q starts' n A := by
  obtain ⟨x, hx, hj⟩ := h
  exact ⟨x, hs x hx, hj⟩

theorem Inv.mono {tt : TT} {tbd : TbData} {Q : Query} {starts starts' : List (Loc × Nat)} (hs : ∀ x ∈ starts, x ∈ starts')
    {S : State} (h : Inv tt tbd Q starts S) : Inv tt tbd Q starts' S :=
  ⟨h.dest, h.best.mono, fun n hn hp => by
    obtain ⟨m, h1, h2, h3, h4⟩ := h.best.sound n hn hp
    exact ⟨m, h1, h2, h3, h4.mono hs⟩⟩

theorem addStart_inv {tt : TT} {tbd : TbData} (hok : Ok tt tbd) {Q : Query} {starts : List (Loc × Nat)} {S : State} {x : Loc × Nat}
    (hx : x ∈ starts) (h : Inv tt tbd Q starts S) (he : ∀ e ∈ S.qs.q, EntryOk tt tbd Q starts 0 e) :
    Inv tt tbd Q starts (addStart tt tbd Q S x) ∧ ∀ e ∈ (addStart tt tbd Q S x).qs.q, EntryOk tt tbd Q starts 0 e := by
  obtain ⟨-, hfirst, -, -⟩ := preprocess_data hok.data
  refine ⟨⟨h.dest, h.best.mono, h.best.sound⟩, ?_⟩
  unfold addStart
  simp only
  refine Raptor.foldl_inv (fun qs : QS => ∀ e ∈ qs.q, EntryOk tt tbd Q starts 0 e) _ _ _ he ?_
  intro qs y hy hqs
  unfold initialEnqueue
  simp only
  split
  · exact hqs
  · intro e he'
    rw [List.mem_append, List.mem_singleton] at he'
    rcases he' with he' | rfl
    · exact hqs e he'
    · unfold startSegs at hy
      simp only [List.mem_flatMap, List.mem_filterMap, List.mem_range] at hy
      obtain ⟨r, hr, i, hi, hy⟩ := hy
      split at hy
      · simp at hy
      · rename_i hc
        cases hE : earliest (tt.route r) i (x.2 / 1440) (x.2 % 1440) with
        | none => rw [hE] at hy; simp at hy
        | some p =>
          obtain ⟨o, day⟩ := p
          rw [hE] at hy
          simp only at hy
          split at hy
          · simp at hy
          · rename_i hday
            injection hy with hy
            subst hy
            obtain ⟨h1, h2, h3⟩ := earliest_spec hE
            have hmem := route_mem (tt := tt) (r := r) (j := i) (by omega)
            have hinn : ((tt.route r).stop i).inAllowed = true := by
              cases hh : ((tt.route r).stop i).inAllowed with
              | true => rfl
              | false => exact absurd (Or.inl hh) hc
            have hloc : ((tt.route r).stop i).loc = x.1 := Decidable.byContradiction fun hh => hc (Or.inr hh)
            refine ⟨r, o, i, ⟨hmem.1, h1, by omega, ?_, hinn, ?_⟩, ?_, ?_⟩
            · simp only
              rw [show Q.base' + (day - Q.base') = day by omega]
              exact h2
            · refine ⟨(x.2 : Int), ?_, ?_⟩
              · rw [hloc]; exact Chain.start hx
              · simp only
                rw [show Q.base' + (day - Q.base') = day by omega]
                omega
            · simp only
              rw [hfirst r o hmem.1 h1]
            · simp only
              rw [hfirst r o hmem.1 h1]
              have := query_le tt qs.r r (o % 65536) (day - Q.base') 0
              omega

theorem oneStart_inv {tt : TT} {tbd : TbData} (hok : Ok tt tbd) {Q : Query} {starts : List (Loc × Nat)} {S : State}
    (h : Inv tt tbd Q starts S) (new : List (Loc × Nat)) (hn : ∀ x ∈ new, x ∈ starts) (maxTransfers : Nat) (worst : Int) :
    Inv tt tbd Q starts (oneStart tt tbd Q maxTransfers S new worst).1 := by
  unfold oneStart execute
  simp only
  have h0 : Inv tt tbd Q starts (new.foldl (addStart tt tbd Q) (nextStartTime S)) ∧
      ∀ e ∈ (new.foldl (addStart tt tbd Q) (nextStartTime S)).qs.q, EntryOk tt tbd Q starts 0 e := by
    refine Raptor.foldl_inv (fun T : State => Inv tt tbd Q starts T ∧ ∀ e ∈ T.qs.q, EntryOk tt tbd Q starts 0 e) _ _ _
      ⟨⟨h.dest, h.best.mono, h.best.sound⟩, by simp [nextStartTime]⟩ ?_
    rintro T x hx ⟨hT, he⟩
    exact addStart_inv hok (hn x hx) hT he
  refine rounds_inv hok _ _ _ _ _ (by omega) (applyWorst_inv worst h0.1) rfl ?_
  intro i e he _
  exact h0.2 e (List.mem_of_getElem? he)

/-! ## Construction -/

theorem destDists_arrive {tt : TT} {tbd : TbData} (hok : Ok tt tbd) {Q : Query} {x : Loc × Nat} (hx : x ∈ destDists tt tbd Q)
    (a : Int) : Raptor.Arrive (net tt tbd.prf Q) x.1 a (a + (x.2 : Int)) := by
  unfold destDists at hx
  unfold Raptor.Arrive
  by_cases hd : Q.dist = []
  · rw [if_pos hd, List.mem_flatMap] at hx
    obtain ⟨l, hl, hx⟩ := hx
    rw [if_neg (by simp [net, hd])]
    rw [List.mem_cons] at hx
    rcases hx with rfl | hx
    · exact Or.inl ⟨by simpa [net] using hl, by simp⟩
    · right
      refine ⟨l, (x.2 : Int), by simpa [net] using hl, ?_, rfl⟩
      simp only [net, List.mem_map]
      exact ⟨_, hok.fps l x hx, rfl⟩
  · rw [if_neg hd, List.mem_filterMap] at hx
    obtain ⟨y, hy, hyx⟩ := hx
    rw [if_pos (by simp [net, hd])]
    rw [Option.map_eq_some_iff] at hyx
    obtain ⟨d, hyd, e⟩ := hyx
    subst e
    refine ⟨(d : Int), Or.inl ?_, rfl⟩
    have hg := List.mem_zipIdx_iff_getElem?.mp hy
    simp only [net]
    rw [List.getD_eq_getElem?_getD, hg]
    simp [hyd]

theorem construct_inv {tt : TT} {tbd : TbData} (hok : Ok tt tbd) (Q : Query) (S : State) (hd : ∀ s, S.distToDest s = none)
    (ht : ∀ i j, S.tmin i = S.tmin j) : Inv tt tbd Q [] (construct tt tbd Q S) := by
  obtain ⟨-, hfirst, -, -⟩ := preprocess_data hok.data
  have key : DestOk tt tbd Q (construct tt tbd Q S) ∧ (construct tt tbd Q S).tmin = S.tmin ∧
      (construct tt tbd Q S).parent = fun _ => none := by
    unfold construct
    refine Raptor.foldl_inv (fun T : State => DestOk tt tbd Q T ∧ T.tmin = S.tmin ∧ T.parent = fun _ => none) _ _ _ ?_ ?_
    · refine ⟨⟨fun s h => by simp [State.reset] at h, fun s w h => ?_⟩, rfl, rfl⟩
      have : S.distToDest s = some w := h
      rw [hd s] at this
      simp at this
    · intro T x hx hT
      unfold markDest
      refine Raptor.foldl_inv (fun T : State => DestOk tt tbd Q T ∧ T.tmin = S.tmin ∧ T.parent = fun _ => none) _ _ _ hT ?_
      rintro T s hs ⟨hT, h2, h3⟩
      refine ⟨⟨?_, ?_⟩, h2, h3⟩
      · intro s' hs'
        simp only [markSeg, Raptor.upd] at hs' ⊢
        by_cases he : s' = s
        · rw [if_pos he]
          split <;> simp
        · rw [if_neg he] at hs' ⊢
          exact hT.1 s' hs'
      · intro s' w hw
        simp only [markSeg, Raptor.upd] at hw
        by_cases he : s' = s
        · rw [if_pos he] at hw
          have hnew : ∃ r o i, r < tt.routes.length ∧ o < (tt.route r).nTr ∧ i + 1 < (tt.route r).stops.length ∧
              s = firstSeg tt (trFrom tt r + o) + i ∧ ((tt.route r).stop (i + 1)).outAllowed = true ∧
              ∀ a, Raptor.Arrive (net tt tbd.prf Q) ((tt.route r).stop (i + 1)).loc a (a + (x.2 : Int)) := by
            unfold destSegs at hs
            simp only [List.mem_flatMap, List.mem_filter, List.mem_map, List.mem_range, Bool.and_eq_true, decide_eq_true_eq] at hs
            obtain ⟨r, hr, i, ⟨hi, hl, ho⟩, t, ht, e⟩ := hs
            have hm := route_mem (tt := tt) (r := r) (j := i) (by omega)
            refine ⟨r, t, i, hm.1, ht, by omega, by rw [← e, hfirst r t hm.1 ht], ho, ?_⟩
            intro a
            rw [hl]
            exact destDists_arrive hok hx a
          cases hold : T.distToDest s with
          | none =>
            rw [hold] at hw
            simp only [Option.some.injEq] at hw
            rw [he, ← hw]
            exact hnew
          | some d' =>
            rw [hold] at hw
            simp only [Option.some.injEq] at hw
            rw [he]
            by_cases hle : d' ≤ x.2
            · rw [Nat.min_eq_left hle] at hw
              rw [← hw]
              exact hT.2 s d' hold
            · rw [Nat.min_eq_right (by omega)] at hw
              rw [← hw]
              exact hnew
        · rw [if_neg he] at hw
          exact hT.2 s' w hw
  refine ⟨key.1, ?_, ?_⟩
  · intro i j _ _
    rw [key.2.1, ht j i]
    exact Int.le_refl _
  · intro n _ hp
    rw [key.2.2] at hp
    exact absurd rfl hp

theorem resetArrivals_inv {tt : TT} {tbd : TbData} {Q : Query} {starts : List (Loc × Nat)} {S : State}
    (h : Inv tt tbd Q starts S) : Inv tt tbd Q [] (resetArrivals S) :=
  ⟨h.dest, fun _ _ _ _ => Int.le_refl _, fun _ _ hp => absurd rfl hp⟩

end Nigiri.TB
