import Verif.Props.RtTimetable

/-!
# C47, and C30/C48 for whole feed histories

`RegInv` is the invariant of the arrays indexed by real-time transports and locations.
-/

namespace Nigiri.Rt

/-- Stop times, stops and location index fit together. -/
structure RegInv (tt : Tt) (r : Rtt) : Prop where
  reg : ∀ (i : Nat) x, r.transports[i]? = some x → ∀ s ∈ x.stops, i ∈ r.locRt s.loc
  stat : ∀ (i : Nat) x t d, r.transports[i]? = some x → x.static = some (t, d) →
    x.stops.length = (tt.stops t).length ∧ (∀ s ∈ tt.stops t, i ∈ r.locRt s.loc) ∧
      ∀ (j : Nat) o s, (tt.stops t)[j]? = some o → x.stops[j]? = some s → Permitted tt.equiv o s
  bound : ∀ l i, i ∈ r.locRt l → i < r.transports.length
  nodup : ∀ l, (r.locRt l).Nodup

theorem RegInv.modify {tt : Tt} {r : Rtt} (h : RegInv tt r) (rt : Nat) (b : Bool) :
    RegInv tt { r with transports := r.transports.modify rt (fun x => { x with cancelled := b }) } := by
  have key : ∀ (i : Nat) x, (r.transports.modify rt (fun x => { x with cancelled := b }))[i]? = some x →
      ∃ y, r.transports[i]? = some y ∧ y.stops = x.stops ∧ y.static = x.static := by
    intro i x hx
    rw [List.getElem?_modify] at hx
    cases hy : r.transports[i]? with
    | none => rw [hy] at hx; cases hx
    | some y =>
      rw [hy] at hx
      refine ⟨y, rfl, ?_⟩
      have hx : (if rt = i then { y with cancelled := b } else y) = x := Option.some.inj hx
      split at hx <;> (rw [← hx]; exact ⟨rfl, rfl⟩)
  refine ⟨?_, ?_, ?_, h.nodup⟩
  · intro i x hx s hs
    obtain ⟨y, hy, h1, _⟩ := key i x hx
    exact h.reg i y hy s (by rw [h1]; exact hs)
  · intro i x t d hx hxs
    obtain ⟨y, hy, h1, h2⟩ := key i x hx
    have := h.stat i y t d hy (by rw [h2]; exact hxs)
    rw [h1] at this
    exact this
  · intro l i hi
    simpa using h.bound l i hi

theorem RegInv.cancel {tt : Tt} {r : Rtt} (h : RegInv tt r) (run : Run) : RegInv tt (cancelRun tt r run) := by
  unfold cancelRun
  have h1 : RegInv tt (match run.rt with
    | some rt => { r with transports := r.transports.modify rt (fun x => { x with cancelled := true }) }
    | none => r) := by
    cases run.rt with
    | none => exact h
    | some rt => exact h.modify rt true
  cases run.t with
  | none => exact h1
  | some td => exact ⟨h1.reg, h1.stat, h1.bound, h1.nodup⟩

theorem pushLast_spec (m : Nat → List Nat) (l rt : Nat) :
    (∀ l' i, i ∈ pushLast m l rt l' ↔ i ∈ m l' ∨ (l' = l ∧ i = rt)) := by
  intro l' i
  unfold pushLast
  split
  · rename_i h
    have := List.mem_of_getLast? h
    constructor
    · exact Or.inl
    · rintro (h | ⟨rfl, rfl⟩)
      · exact h
      · exact this
  · simp only
    split
    · rename_i h; subst h; simp
    · rename_i h; simp [h]

theorem pushNew_spec (m : Nat → List Nat) (l rt : Nat) :
    (∀ l' i, i ∈ pushNew m l rt l' ↔ i ∈ m l' ∨ (l' = l ∧ i = rt)) := by
  intro l' i
  unfold pushNew
  split
  · rename_i h
    have := List.mem_of_elem_eq_true (as := m l) (a := rt) h
    constructor
    · exact Or.inl
    · rintro (h | ⟨rfl, rfl⟩)
      · exact h
      · exact this
  · simp only
    split
    · rename_i h; subst h; simp
    · rename_i h; simp [h]

theorem foldl_pushLast (rt : Nat) : ∀ (ss : List Stop) (m : Nat → List Nat) l i,
    i ∈ ss.foldl (fun m s => pushLast m s.loc rt) m l ↔ i ∈ m l ∨ (i = rt ∧ ∃ s ∈ ss, s.loc = l) := by
  intro ss
  induction ss with
  | nil => intro m l i; simp
  | cons s ss ih =>
    intro m l i
    rw [List.foldl_cons, ih, pushLast_spec]
    simp only [List.mem_cons]
    grind

theorem foldl_pushNew (rt : Nat) : ∀ (ls : List Nat) (m : Nat → List Nat) l i,
    i ∈ ls.foldl (fun m l => pushNew m l rt) m l ↔ i ∈ m l ∨ (i = rt ∧ l ∈ ls) := by
  intro ls
  induction ls with
  | nil => intro m l i; simp
  | cons s ss ih =>
    intro m l i
    rw [List.foldl_cons, ih, pushNew_spec]
    simp only [List.mem_cons]
    grind

theorem pushNew_nodup (m : Nat → List Nat) (l rt : Nat) (h : ∀ l, (m l).Nodup) (l' : Nat) :
    (pushNew m l rt l').Nodup := by
  unfold pushNew
  split
  · exact h l'
  · rename_i hc
    simp only
    split
    · rw [List.nodup_append]
      refine ⟨h l, by simp, ?_⟩
      intro a ha b hb
      simp only [List.mem_singleton] at hb
      subst hb
      rintro rfl
      exact hc (by simpa using ha)
    · exact h l'

theorem foldl_pushNew_nodup (rt : Nat) : ∀ (ls : List Nat) (m : Nat → List Nat), (∀ l, (m l).Nodup) →
    ∀ l, (ls.foldl (fun m l => pushNew m l rt) m l).Nodup := by
  intro ls
  induction ls with
  | nil => intro m h l; exact h l
  | cons x xs ih => intro m h l; exact ih _ (pushNew_nodup m x rt h) l

/-- While the entries of one new transport are pushed it is last wherever it occurs. -/
theorem foldl_pushLast_nodup (rt : Nat) : ∀ (ss : List Stop) (m : Nat → List Nat),
    (∀ l, (m l).Nodup ∧ (rt ∈ m l → (m l).getLast? = some rt)) →
    ∀ l, (ss.foldl (fun m s => pushLast m s.loc rt) m l).Nodup := by
  intro ss
  induction ss with
  | nil => intro m h l; exact (h l).1
  | cons s ss ih =>
    intro m h l
    refine ih _ ?_ l
    intro l
    simp only [pushLast]
    split
    · exact h l
    · rename_i hc
      simp only
      split
      · refine ⟨?_, fun _ => by simp⟩
        rw [List.nodup_append]
        refine ⟨(h s.loc).1, by simp, ?_⟩
        intro a ha b hb
        simp only [List.mem_singleton] at hb
        subst hb
        rintro rfl
        exact hc ((h s.loc).2 ha)
      · exact h l

theorem getElem?_snoc {α} {l : List α} {a x : α} {i : Nat} (h : (l ++ [a])[i]? = some x) :
    (i < l.length ∧ l[i]? = some x) ∨ (i = l.length ∧ x = a) := by
  rw [List.getElem?_append] at h
  split at h
  · rename_i h1; exact Or.inl ⟨h1, h⟩
  · rename_i h1
    right
    rcases Nat.eq_zero_or_pos (i - l.length) with h0 | h0
    · rw [h0] at h
      simp only [List.getElem?_cons_zero, Option.some.injEq] at h
      exact ⟨by omega, h.symm⟩
    · rw [List.getElem?_eq_none (by simp; omega)] at h; cases h

/-- Appending a transport and registering it. -/
theorem RegInv.append {tt : Tt} {r r1 : Rtt} (h : RegInv tt r) (x : RtTransport)
    (h1 : r1.transports = r.transports) (h2 : r1.locRt = r.locRt)
    (hx : ∀ t d, x.static = some (t, d) → x.stops = tt.stops t) :
    RegInv tt { r1 with
      transports := r1.transports ++ [x]
      locRt := x.stops.foldl (fun m s => pushLast m s.loc r.transports.length) r1.locRt } := by
  rw [h1, h2]
  have hnot : ∀ l, r.transports.length ∉ r.locRt l := fun l hl => Nat.lt_irrefl _ (h.bound l _ hl)
  refine ⟨?_, ?_, ?_, ?_⟩
  · intro i y hy s hs
    simp only at hy ⊢
    rw [foldl_pushLast]
    rcases getElem?_snoc hy with ⟨_, hy⟩ | ⟨rfl, rfl⟩
    · exact Or.inl (h.reg i y hy s hs)
    · exact Or.inr ⟨rfl, s, hs, rfl⟩
  · intro i y t d hy hyt
    simp only at hy
    rcases getElem?_snoc hy with ⟨_, hy⟩ | ⟨rfl, rfl⟩
    · obtain ⟨a, b, c⟩ := h.stat i y t d hy hyt
      refine ⟨a, ?_, c⟩
      intro s hs
      simp only
      rw [foldl_pushLast]
      exact Or.inl (b s hs)
    · have := hx t d hyt
      rw [this]
      refine ⟨rfl, ?_, ?_⟩
      · intro s hs
        simp only
        rw [foldl_pushLast]
        exact Or.inr ⟨rfl, s, hs, rfl⟩
      · intro j o s ho hs
        rw [ho] at hs; cases hs
        exact ⟨Or.inl rfl, fun h => h, fun h => h, fun h => h, fun h => h⟩
  · intro l i hi
    simp only [foldl_pushLast] at hi
    simp only [List.length_append, List.length_cons, List.length_nil]
    rcases hi with hi | ⟨rfl, _⟩
    · have := h.bound l i hi; omega
    · omega
  · intro l
    exact foldl_pushLast_nodup _ _ _ (fun l => ⟨h.nodup l, fun hh => absurd hh (hnot l)⟩) l

theorem RegInv.add_static {tt : Tt} {r : Rtt} (h : RegInv tt r) (src t d : Nat) :
    RegInv tt (addRtTransport tt r src (some (t, d)) [] [] "").1 := by
  simp only [addRtTransport, if_true, List.isEmpty_nil]
  exact h.append (r1 := { (deactivate tt r t d) with
      byStatic := if (r.byStatic.lookup (t, d)).isSome then r.byStatic else r.byStatic ++ [((t, d), r.transports.length)] })
    ⟨some (t, d), src, copyTimes tt r.base t d (tt.stops t).length, tt.stops t, false⟩ rfl rfl (by
      intro t' d' hh; cases hh; rfl)

theorem RegInv.add_new {tt : Tt} {r : Rtt} (h : RegInv tt r) (src : Nat) (ss : List Stop) (ts : List Int)
    (id : String) : RegInv tt (addRtTransport tt r src none ss ts id).1 := by
  simp only [addRtTransport]
  refine h.append (r1 := { r with
      addIds := fun s => if s = src then ((r.addIds src).store id).1 else r.addIds s
      addTransports := fun s => if s = src then r.addTransports src ++ [r.transports.length] else r.addTransports s })
    ⟨if id = "" then none else none, src, ts, ss, false⟩ rfl rfl (by
      intro t' d' hh; simp at hh)

/-- The places of the stops after an update: known before, scheduled, or newly registered. -/
theorem updateRun_locs (c : Ctx) (us : List StopUpd) (st : St) (P : Nat → Prop)
    (hlen : st.stops.length = c.locSeq.length) (h1 : ∀ s ∈ st.stops, P s.loc) (h2 : ∀ s ∈ c.locSeq, P s.loc) :
    ∀ s ∈ (updateRun c us st).1.stops, P s.loc ∨ s.loc ∈ (updateRun c us st).1.newLocs := by
  simp only [updateRun]
  refine (runLoop_inv c (fun st => st.stops.length = c.locSeq.length ∧
    ∀ s ∈ st.stops, P s.loc ∨ s.loc ∈ st.newLocs) ?_ ?_ _ _ (st, _) ⟨hlen, fun s hs => Or.inl (h1 s hs)⟩).2
  · intro st ts h; exact h
  · intro st stop u st' ⟨hl, h⟩ ha
    obtain ⟨_, hc⟩ := applyStop_cases ha
    have hget : ∀ (l : List Stop) i, i < l.length → l.getD i ⟨0, false, false, false, false⟩ ∈ l := by
      intro l i hi
      rw [List.getD_eq_getElem?_getD, List.getElem?_eq_getElem hi]; exact List.getElem_mem _
    have hset : ∀ a : Stop, ∀ s ∈ st.stops.set stop a, s ∈ st.stops ∨ (stop < st.stops.length ∧ s = a) := by
      intro a s hs
      by_cases hlt : stop < st.stops.length
      · rcases List.mem_or_eq_of_mem_set hs with h | h
        · exact Or.inl h
        · exact Or.inr ⟨hlt, h⟩
      · rw [List.set_eq_of_length_le (by omega)] at hs; exact Or.inl hs
    rcases hc with ⟨_, hn, hs⟩ | ⟨_, l, _, hn, hs⟩ | ⟨_, hn, hs⟩
    · rw [hs, hn]
      refine ⟨by simp [hl], ?_⟩
      intro s hss
      rcases hset _ s hss with h' | ⟨hlt, rfl⟩
      · exact h s h'
      · have := h _ (hget st.stops stop hlt); exact this
    · rw [hs, hn]
      refine ⟨by simp [hl], ?_⟩
      intro s hss
      rcases hset _ s hss with h' | ⟨hlt, rfl⟩
      · rcases h s h' with h' | h'
        · exact Or.inl h'
        · exact Or.inr (by simp [h'])
      · exact Or.inr (by simp)
    · rw [hs, hn]
      refine ⟨by simp [hl], ?_⟩
      intro s hss
      rcases hset _ s hss with h' | ⟨hlt, rfl⟩
      · exact h s h'
      · exact Or.inl (h2 _ (hget c.locSeq stop (by omega)))

theorem updateRun_stops_length (c : Ctx) (us : List StopUpd) (st : St)
    (hlen : st.stops.length = c.locSeq.length) : (updateRun c us st).1.stops.length = c.locSeq.length := by
  simp only [updateRun]
  refine runLoop_inv c (fun st => st.stops.length = c.locSeq.length) (fun _ _ h => h) ?_ _ _ (st, _) hlen
  intro st stop u st' hl ha
  obtain ⟨_, hc⟩ := applyStop_cases ha
  rcases hc with ⟨_, hn, hs⟩ | ⟨_, l, _, hn, hs⟩ | ⟨_, hn, hs⟩ <;> rw [hs] <;> simp [hl]

theorem RegInv.update {tt : Tt} {r : Rtt} (h : RegInv tt r) (src : Nat) (run : Run) (rt : Nat)
    (us : List StopUpd)
    (hst : ∀ k x, run.t = some k → r.transports[rt]? = some x → x.static = some k)
    (hst' : ∀ x, run.t = none → r.transports[rt]? = some x → x.static = none) :
    RegInv tt (updateExisting tt r src run rt us) := by
  unfold updateExisting
  split
  · exact h
  · rename_i x hx
    simp only
    generalize hres : updateRun (ctxOf tt r src run rt) us ⟨x.times, x.stops, []⟩ = res
    have hlt : rt < r.transports.length := (List.getElem?_eq_some_iff.mp hx).1
    -- facts about the context
    have hctx : (x.stops.length = (ctxOf tt r src run rt).locSeq.length) ∧
        ∀ s ∈ (ctxOf tt r src run rt).locSeq, rt ∈ r.locRt s.loc := by
      simp only [ctxOf]
      cases hr : run.t with
      | none =>
        simp only [hx, Option.map_some, Option.getD_some]
        exact ⟨trivial, h.reg rt x hx⟩
      | some k =>
        obtain ⟨t, d⟩ := k
        have := h.stat rt x t d hx (hst _ x hr hx)
        exact ⟨this.1, this.2.1⟩
    have hloc := updateRun_locs (ctxOf tt r src run rt) us ⟨x.times, x.stops, []⟩ (fun l => rt ∈ r.locRt l)
      hctx.1 (h.reg rt x hx) hctx.2
    have hlen := updateRun_stops_length (ctxOf tt r src run rt) us ⟨x.times, x.stops, []⟩ hctx.1
    rw [hres] at hloc hlen
    have main : RegInv tt { r with
        transports := r.transports.set rt { x with times := res.1.times, stops := res.1.stops }
        locRt := res.1.newLocs.foldl (fun m l => pushNew m l rt) r.locRt } := by
      have hset : ∀ (i : Nat) y, (r.transports.set rt { x with times := res.1.times, stops := res.1.stops })[i]? = some y →
          (i = rt ∧ y = { x with times := res.1.times, stops := res.1.stops }) ∨ (i ≠ rt ∧ r.transports[i]? = some y) := by
        intro i y hy
        rcases set_getElem? hy with ⟨rfl, _, h2⟩ | ⟨h1, h2⟩
        · exact Or.inl ⟨rfl, h2⟩
        · exact Or.inr ⟨fun h => h1 h.symm, h2⟩
      refine ⟨?_, ?_, ?_, ?_⟩
      · intro i y hy s hs
        simp only at hy ⊢
        rw [foldl_pushNew]
        rcases hset i y hy with ⟨rfl, rfl⟩ | ⟨_, hy⟩
        · rcases hloc s hs with h' | h'
          · exact Or.inl h'
          · exact Or.inr ⟨rfl, h'⟩
        · exact Or.inl (h.reg i y hy s hs)
      · intro i y t d hy hyt
        simp only at hy
        rcases hset i y hy with ⟨rfl, rfl⟩ | ⟨_, hy⟩
        · have hxs : x.static = some (t, d) := hyt
          obtain ⟨a, b, c⟩ := h.stat _ x t d hx hxs
          have hrun : run.t = some (t, d) := by
            cases hr : run.t with
            | none => rw [hst' x hr hx] at hxs; cases hxs
            | some k => rw [hst k x hr hx] at hxs; exact hxs
          have hseq : (ctxOf tt r src run i).locSeq = tt.stops t := by simp only [ctxOf, hrun]
          refine ⟨by simp only; rw [hlen, hseq], ?_, ?_⟩
          · intro s hs
            simp only
            rw [foldl_pushNew]
            exact Or.inl (b s hs)
          · have hp := C48_stops_permitted (ctxOf tt r src run i) us ⟨x.times, x.stops, []⟩ hctx.1
              (by rw [hseq]; exact c)
            rw [hres, hseq] at hp
            exact hp.2
        · obtain ⟨a, b, c⟩ := h.stat i y t d hy hyt
          refine ⟨a, ?_, c⟩
          intro s hs
          simp only
          rw [foldl_pushNew]
          exact Or.inl (b s hs)
      · intro l i hi
        simp only [foldl_pushNew] at hi
        simp only [List.length_set]
        rcases hi with hi | ⟨rfl, _⟩
        · exact h.bound l i hi
        · exact hlt
      · intro l
        exact foldl_pushNew_nodup _ _ _ h.nodup l
    split
    · exact main.cancel _
    · exact main

theorem modify_static {r : Rtt} {rt i : Nat} {b : Bool} {x : RtTransport}
    (h : (r.transports.modify rt (fun x => { x with cancelled := b }))[i]? = some x) :
    ∃ y, r.transports[i]? = some y ∧ y.static = x.static := by
  rw [List.getElem?_modify] at h
  cases hy : r.transports[i]? with
  | none => rw [hy] at h; cases h
  | some y =>
    rw [hy] at h
    refine ⟨y, rfl, ?_⟩
    have h : (if rt = i then { y with cancelled := b } else y) = x := Option.some.inj h
    split at h <;> (rw [← h])

/-- Last entry of a new transport. -/
theorem add_last {tt : Tt} {r : Rtt} {src : Nat} {k : Option (Nat × Nat)} {ss : List Stop} {ts : List Int} {id : String}
    {x : RtTransport}
    (h : (addRtTransport tt r src k ss ts id).1.transports[(addRtTransport tt r src k ss ts id).2]? = some x) :
    x.static = if id = "" then k else none := by
  have h1 : ∃ y, (addRtTransport tt r src k ss ts id).1.transports = r.transports ++ [y] ∧
      y.static = if id = "" then k else none := by
    simp only [addRtTransport]
    cases k with
    | none => exact ⟨_, rfl, rfl⟩
    | some td =>
      simp only
      split
      · exact ⟨_, rfl, rfl⟩
      · exact ⟨_, rfl, rfl⟩
  obtain ⟨y, hy, hys⟩ := h1
  have h2 : (addRtTransport tt r src k ss ts id).2 = r.transports.length := rfl
  rw [hy, h2, List.getElem?_append_right (Nat.le_refl _), Nat.sub_self] at h
  simp only [List.getElem?_cons_zero, Option.some.injEq] at h
  rw [← h, hys]

theorem RegInv.processRun {tt : Tt} {r : Rtt} (h : RegInv tt r) {A : List (Nat × Nat)} {B : Nat} (hI : Inv tt A B r)
    (src : Nat) (us : List StopUpd) (y : Resolved) : RegInv tt (processRun tt src us r y) := by
  obtain ⟨⟨t, d⟩, f, q⟩ := y
  simp only [Rt.processRun, resolveRt_static]
  cases hl : r.byStatic.lookup (t, d) with
  | some rt =>
    simp only
    refine (h.modify rt false).update src _ rt us ?_ ?_
    · intro k x hk hx
      obtain ⟨z, hz, hzs⟩ := modify_static hx
      obtain ⟨w, hw, hws⟩ := (hI.inst _ _).mp hl
      rw [hz] at hw; cases hw
      rw [← hzs, hws]; exact hk
    · intro x hk; cases hk
  | none =>
    simp only
    refine (h.add_static src t d).update src _ _ us ?_ ?_
    · intro k x hk hx
      have := add_last hx
      rw [this]; exact hk
    · intro x hk; cases hk

theorem reg_foldl {tt : Tt} (f : Rtt → Resolved → Rtt)
    (hf : ∀ (A : List (Nat × Nat)) B r x, Inv tt A B r → B + 1 < 2 ^ 31 → x.t.1 < tt.trafficDays.length →
      Inv tt (x.t :: A) (B + 2) (f r x))
    (J : Rtt → Prop)
    (ho : ∀ (A : List (Nat × Nat)) B r (y : Resolved), Inv tt A B r → J r → J (f r y)) :
    ∀ (runs : List Resolved) A B r, Inv tt A B r → B + 2 * runs.length < 2 ^ 31 →
      (∀ x ∈ runs, x.t.1 < tt.trafficDays.length) → J r → J (runs.foldl f r) := by
  intro runs
  induction runs with
  | nil => intro A B r _ _ _ h; exact h
  | cons y runs ih =>
    intro A B r h hB ht hj
    simp only [List.length_cons] at hB
    simp only [List.foldl_cons]
    exact ih (y.t :: A) (B + 2) _ (hf A B r y h (by omega) (ht y (by simp))) (by omega)
      (fun z hz => ht z (by simp [hz])) (ho A B r y h hj)

theorem RegInv.process {tt : Tt} {r : Rtt} (h : RegInv tt r) {A : List (Nat × Nat)} {B : Nat} (hI : Inv tt A B r)
    (e : Entity) (hB : B + e.cost < 2 ^ 31) (ht : ∀ k ∈ e.addresses, k.1 < tt.trafficDays.length) :
    RegInv tt (process tt r e) := by
  cases e with
  | cancel src runs =>
    simp only [Entity.cost] at hB
    refine reg_foldl (fun r x => cancelRun tt r (resolveRt r x.run "" src)) ?_ (RegInv tt) ?_ runs A B r hI (by omega) ?_ h
    · intro A B r x h hB hx
      exact (inv_cancelRun h (by omega) _ (by rw [resolveRt_static]) hx).mono (by omega)
    · intro A B r y _ h; exact h.cancel _
    · intro y hy; exact ht _ (List.mem_map_of_mem hy)
  | update src runs us =>
    simp only [Entity.cost] at hB
    refine reg_foldl (Rt.processRun tt src us) ?_ (RegInv tt) ?_ runs A B r hI (by omega) ?_ h
    · intro A B r x h hB hx; exact inv_processRun h hB src us x hx
    · intro A B r y hI h; exact h.processRun hI src us y
    · intro y hy; exact ht _ (List.mem_map_of_mem hy)
  | added src id pl io us =>
    simp only [Rt.process]
    have ht0 := resolveRt_added r id src
    split
    · rename_i rt hrt
      refine (h.modify rt false).update src _ rt us ?_ ?_
      · intro k x hk; rw [ht0] at hk; cases hk
      · intro x _ hx
        obtain ⟨z, hz, hzs⟩ := modify_static hx
        simp only [resolveRt] at hrt
        split at hrt
        · obtain ⟨w, hw, hws⟩ := hI.add src _ rt hrt
          rw [hz] at hw; cases hw
          rw [← hzs, hws]
        · cases hrt
    · split
      · exact h
      · rename_i ss _
        refine (h.add_new src ss _ id).update src _ _ us ?_ ?_
        · intro k x hk; rw [ht0] at hk; cases hk
        · intro x _ hx
          have := add_last hx
          simpa using this

theorem regInv_create (tt : Tt) (base : Int) : RegInv tt (create tt base) where
  reg := by intro i x h; simp [create] at h
  stat := by intro i x t d h; simp [create] at h
  bound := by intro l i h; simp [create] at h
  nodup := by intro l; simp [create]

theorem foldl_reg {tt : Tt} : ∀ (es : List Entity) A B r, Inv tt A B r → RegInv tt r →
    B + (es.map Entity.cost).sum < 2 ^ 31 → (∀ e ∈ es, ∀ k ∈ e.addresses, k.1 < tt.trafficDays.length) →
    RegInv tt (es.foldl (process tt) r) := by
  intro es
  induction es with
  | nil => intro A B r _ h _ _; exact h
  | cons e es ih =>
    intro A B r hI h hB ht
    simp only [List.map_cons, List.sum_cons] at hB
    obtain ⟨A', _, hI'⟩ := inv_process hI e (by omega) (ht e (by simp))
    exact ih A' (B + e.cost) _ hI' (h.process hI e (by omega) (ht e (by simp))) (by omega)
      (fun e' he' => ht e' (by simp [he']))

theorem processAll_reg {tt : Tt} (h : tt.Ok) (base : Int) {es : List Entity} (hf : Fits tt es) :
    RegInv tt (processAll tt base es) := by
  have h0 := inv_create tt base (fun i hi => by have := h.2 i hi; have := h.1; omega)
  exact foldl_reg es [] 0 _ h0 (regInv_create tt base) (by have := hf.1; omega) hf.2

/-- **C47.** After any feed history every stop of every real-time run can be found from its location:
the run is listed there (as often as boarded or alighted, also after a track change was announced or
reversed) - exactly once, and only existing runs are listed. -/
theorem C47_findable {tt : Tt} (h : tt.Ok) (base : Int) {es : List Entity} (hf : Fits tt es) :
    (∀ (i : Nat) x, (processAll tt base es).transports[i]? = some x →
      ∀ s ∈ x.stops, ((processAll tt base es).locRt s.loc).count i = 1) ∧
    (∀ l, ∀ i ∈ (processAll tt base es).locRt l, i < (processAll tt base es).transports.length) := by
  have hr := processAll_reg h base hf
  refine ⟨?_, fun l i hi => hr.bound l i hi⟩
  intro i x hx s hs
  have h1 := hr.reg i x hx s hs
  have h2 := List.nodup_iff_count.mp (hr.nodup s.loc) i
  have h3 := List.count_pos_iff.mpr h1
  omega

/-- **C48 (whole histories).** After any feed history a real-time run of a scheduled trip has as many
stops as scheduled, each at the scheduled place or a track of it and with at most the scheduled
boarding and alighting rights. -/
theorem C48_history {tt : Tt} (h : tt.Ok) (base : Int) {es : List Entity} (hf : Fits tt es)
    {i : Nat} {x : RtTransport} {t d : Nat} (hx : (processAll tt base es).transports[i]? = some x)
    (hs : x.static = some (t, d)) :
    x.stops.length = (tt.stops t).length ∧
      ∀ (j : Nat) o s, (tt.stops t)[j]? = some o → x.stops[j]? = some s → Permitted tt.equiv o s := by
  have hr := (processAll_reg h base hf).stat i x t d hx hs
  exact ⟨hr.1, hr.2.2⟩

/-! ### Stop times of all runs stay in order -/

/-- All stop times in order. -/
def TimesOk (r : Rtt) : Prop := ∀ (i : Nat) x, r.transports[i]? = some x → NonDecreasing x.times

theorem TimesOk.cancel {tt : Tt} {r : Rtt} (h : TimesOk r) (run : Run) : TimesOk (cancelRun tt r run) := by
  have hm : ∀ rt, TimesOk { r with transports := r.transports.modify rt (fun x => { x with cancelled := true }) } := by
    intro rt i x hx
    simp only at hx
    rw [List.getElem?_modify] at hx
    cases hy : r.transports[i]? with
    | none => rw [hy] at hx; cases hx
    | some y =>
      rw [hy] at hx
      have hx : (if rt = i then { y with cancelled := true } else y) = x := Option.some.inj hx
      have := h i y hy
      split at hx <;> (rw [← hx]; exact this)
  unfold cancelRun
  cases run.rt with
  | none => cases run.t with
    | none => exact h
    | some _ => exact h
  | some rt => cases run.t with
    | none => exact hm rt
    | some _ => exact hm rt

theorem TimesOk.update {tt : Tt} {r : Rtt} (src : Nat) (run : Run) (rt : Nat) (us : List StopUpd)
    (h : ∀ (i : Nat) x, i ≠ rt → r.transports[i]? = some x → NonDecreasing x.times) :
    TimesOk (updateExisting tt r src run rt us) := by
  unfold updateExisting
  split
  · rename_i hn
    intro i x hx
    exact h i x (by rintro rfl; rw [hn] at hx; cases hx) hx
  · rename_i x hx
    simp only
    have main : TimesOk { r with
        transports := r.transports.set rt { x with
          times := (updateRun (ctxOf tt r src run rt) us ⟨x.times, x.stops, []⟩).1.times
          stops := (updateRun (ctxOf tt r src run rt) us ⟨x.times, x.stops, []⟩).1.stops }
        locRt := (updateRun (ctxOf tt r src run rt) us ⟨x.times, x.stops, []⟩).1.newLocs.foldl
          (fun m l => pushNew m l rt) r.locRt } := by
      intro i y hy
      simp only at hy
      rcases set_getElem? hy with ⟨rfl, _, rfl⟩ | ⟨h1, h2⟩
      · exact (C30_trip_update _ us _)
      · exact h i y (fun h => h1 h.symm) h2
    split
    · exact main.cancel _
    · exact main

theorem modify_times {r : Rtt} (h : TimesOk r) (rt : Nat) (b : Bool) :
    TimesOk { r with transports := r.transports.modify rt (fun x => { x with cancelled := b }) } := by
  intro i x hx
  simp only at hx
  rw [List.getElem?_modify] at hx
  cases hy : r.transports[i]? with
  | none => rw [hy] at hx; cases hx
  | some y =>
    rw [hy] at hx
    have hx : (if rt = i then { y with cancelled := b } else y) = x := Option.some.inj hx
    have := h i y hy
    split at hx <;> (rw [← hx]; exact this)

theorem add_times {tt : Tt} {r : Rtt} (h : TimesOk r) (src : Nat) (k : Option (Nat × Nat)) (ss : List Stop)
    (ts : List Int) (id : String) :
    ∀ (i : Nat) x, i ≠ (addRtTransport tt r src k ss ts id).2 →
      (addRtTransport tt r src k ss ts id).1.transports[i]? = some x → NonDecreasing x.times := by
  intro i x hi hx
  have h1 : ∃ y, (addRtTransport tt r src k ss ts id).1.transports = r.transports ++ [y] := by
    simp only [addRtTransport]
    cases k with
    | none => exact ⟨_, rfl⟩
    | some td =>
      simp only
      split
      · exact ⟨_, rfl⟩
      · exact ⟨_, rfl⟩
  obtain ⟨y, hy⟩ := h1
  have h2 : (addRtTransport tt r src k ss ts id).2 = r.transports.length := rfl
  rw [hy] at hx
  rw [h2] at hi
  rcases getElem?_snoc hx with ⟨_, hx⟩ | ⟨h3, _⟩
  · exact h i x hx
  · exact absurd h3 hi

theorem TimesOk.process {tt : Tt} {r : Rtt} (h : TimesOk r) (e : Entity) : TimesOk (process tt r e) := by
  have hrun : ∀ src us r y, TimesOk r → TimesOk (processRun tt src us r y) := by
    intro src us r y h
    simp only [processRun]
    split
    · exact TimesOk.update src _ _ us (fun i x _ hx => modify_times h _ false i x hx)
    · exact TimesOk.update src _ _ us (add_times h src _ [] [] "")
  have fold : ∀ (f : Rtt → Resolved → Rtt), (∀ r y, TimesOk r → TimesOk (f r y)) →
      ∀ (runs : List Resolved) r, TimesOk r → TimesOk (runs.foldl f r) := by
    intro f hf runs
    induction runs with
    | nil => intro r h; exact h
    | cons y runs ih => intro r h; exact ih _ (hf r y h)
  cases e with
  | cancel src runs => exact fold _ (fun r y h => h.cancel _) runs r h
  | update src runs us => exact fold _ (fun r y h => hrun src us r y h) runs r h
  | added src id pl io us =>
    simp only [Rt.process]
    split
    · exact TimesOk.update src _ _ us (fun i x _ hx => modify_times h _ false i x hx)
    · split
      · exact h
      · exact TimesOk.update src _ _ us (add_times h src _ _ _ id)

/-- **C30 (all runs, whole histories).** Whatever cancellations, updates and added trips were
processed, the stop times of every run with real-time data do not decrease along the run. -/
theorem C30_all_runs (tt : Tt) (base : Int) (es : List Entity) {i : Nat} {x : RtTransport}
    (hx : (processAll tt base es).transports[i]? = some x) : NonDecreasing x.times := by
  have : ∀ (es : List Entity) r, TimesOk r → TimesOk (es.foldl (process tt) r) := by
    intro es
    induction es with
    | nil => intro r h; exact h
    | cons e es ih => intro r h; exact ih _ (h.process e)
  exact this es _ (by intro i x h; simp [create] at h) i x hx

/-! ### A concrete feed -/

namespace FeedDemo

/-- One line with two transports A-B-C (locations 1, 2, 3; 4 is another track of 2), running daily. -/
def tt : Tt where
  bitfields := [fun d => decide (5 ≤ d ∧ d < 12)]
  trafficDays := [0, 0]
  stops := fun _ => [⟨1, true, true, true, true⟩, ⟨2, true, true, true, true⟩, ⟨3, true, true, true, true⟩]
  eventTime := fun t d e => (1440 * d + 480 + 60 * t + 10 * e : Nat)
  locId := fun l => match l with | 1 => "a" | 2 => "b" | 3 => "c" | 4 => "b2" | _ => ""
  lookup := fun _ s => if s = "a" then some 1 else if s = "b" then some 2 else if s = "c" then some 3
    else if s = "b2" then some 4 else none
  equiv := fun l => if l = 2 ∨ l = 4 then [2, 4] else [l]

/-- The first transport on day 6. -/
def run : Resolved := ⟨(0, 6), 0, [1, 2, 3]⟩

/-- Five minutes late at the second stop. -/
def late : StopUpd := ⟨some 2, none, none, false, some ⟨some 300, none⟩, none⟩

/-- The second stop is skipped. -/
def skip : StopUpd := ⟨some 2, none, none, true, none, none⟩

/-- The second stop moves to another track. -/
def track : StopUpd := ⟨some 2, none, some "b2", false, none, none⟩

def feed : List Entity := [.update 0 [run] [late], .update 0 [run] [track], .cancel 0 [⟨(1, 7), 0, [1, 2, 3]⟩]]

theorem ok : tt.Ok := ⟨by decide, by decide⟩

theorem fits : Fits tt feed := ⟨by decide, by decide⟩

/-- The hypotheses of the C29/C47/C48 theorems hold for a feed with an effect. -/
example : isActive tt (processAll tt 6 feed) 0 6 = false ∧ isActive tt (processAll tt 6 feed) 1 7 = false ∧
    isActive tt (processAll tt 6 feed) 0 7 = true ∧
    (processAll tt 6 feed).transports.map (·.times) = [[480, 495, 505, 515]] ∧
    (processAll tt 6 feed).locRt 4 = [0] ∧ (processAll tt 6 feed).locRt 2 = [0] := by decide +kernel

/-- **C29 (limitation).** A run which already had real-time data and is cancelled afterwards is only
flagged: its stops still allow boarding and alighting and it is still listed at its
locations.  Routing (`raptor.h:236`, `1068-1180`) reads exactly these and never the flag, so it
continues to use the cancelled run. -/
theorem C29_cancelled_instance_counterexample :
    ((processAll tt 6 [.update 0 [run] [late], .cancel 0 [run]]).transports.map
        (fun x => (x.cancelled, x.stops == tt.stops 0))) = [(true, true)] ∧
    (processAll tt 6 [.update 0 [run] [late], .cancel 0 [run]]).locRt 1 = [0] := by decide +kernel

/-- **C29 (limitation).** Trips linked by a block are one transport: cancelling a run which covers only
a part of its stops removes the whole transport for this day. -/
theorem C29_block_counterexample :
    isActive tt (processAll tt 6 [.cancel 0 [⟨(0, 6), 1, [1, 2]⟩]]) 0 6 = false ∧
    isActive tt (processAll tt 6 []) 0 6 = true := by decide +kernel

/-- **C48 (limitation).** A stop which was skipped and is then assigned to another track cannot be
boarded: the flags are taken from the skipped stop. -/
theorem C48_reassigned_counterexample :
    (processAll tt 6 [.update 0 [run] [skip], .update 0 [run] [track]]).transports.map
      (fun x => x.stops.map (fun s => (s.loc, s.inA, s.outA))) =
    [[(1, true, true), (4, false, false), (3, true, true)]] := by decide +kernel

end FeedDemo

end Nigiri.Rt
