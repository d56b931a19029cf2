import Verif.Proofs.PongTurn
/-!
# The loop of the ping-pong search (proofs)
-/

namespace Nigiri.Raptor.Pong

theorem Same.trans {a b c : PJ} (h1 : Same a b) (h2 : Same b c) : Same a c := by
  unfold Same at *; omega

section
variable {C : Cfg}

theorem Cfg.Base.pongAll (hB : C.Base) {s : Int} (hs : C.At s) : ∀ (js : List PJ) {K0 : Nat} {done : List Int} {S : State} {res : List PJ} (ds : List Int),
    (∀ y ∈ js, C.Hit s (C.ping s) y) → js.Pairwise (fun a b => b.transfers < a.transfers ∧ a.dest < b.dest) →
    PInv C.P' C.acc' s K0 done S → (∀ y ∈ js, y.transfers + 1 ≤ K0) → (∀ y ∈ js, ∀ A0 ∈ done, A0 ≤ y.dest) → C.Res res →
    ∃ res' ds', C.pongAll s (C.ping s) js S res ds = some (res', ds') ∧ C.Res res' ∧ (∀ z ∈ res, ∃ z' ∈ res', Same z' z) ∧
      (∀ x ∈ ds, x ∈ ds') ∧ (∀ x ∈ ds', x ∈ ds ∨ s ≤ x) ∧ (js ≠ [] → ds' ≠ []) ∧
      ∀ y ∈ js, ∃ z ∈ res', z.transfers = y.transfers ∧ z.start = y.dest ∧ z.dest ∈ ds' := by
  intro js
  induction js with
  | nil =>
    intro K0 done S res ds _ _ _ _ _ hres
    exact ⟨res, ds, rfl, hres, fun z hz => ⟨z, hz, rfl, rfl, rfl⟩, fun x hx => hx, fun x hx => Or.inl hx, by simp, by simp⟩
  | cons y js ih =>
    intro K0 done S res ds hhit hord hS hK0 hdone hres
    rw [List.pairwise_cons] at hord
    obtain ⟨S1, res1, x, h1, h2, h3, h4, ⟨z, h5, h6, h7, h8⟩, h9⟩ := hB.pongOne hs (hhit y (by simp)) hS (hK0 y (by simp)) (hdone y (by simp)) hres
    obtain ⟨res2, ds2, g1, g2, g3, g4, g5, g6, g7⟩ := ih (x :: ds) (fun y' hy' => hhit y' (by simp [hy'])) hord.2 h2
      (fun y' hy' => by have := hord.1 y' hy'; omega)
      (fun y' hy' A0 hA0 => by
        have := hord.1 y' hy'
        rcases List.mem_cons.mp hA0 with rfl | hA0
        · omega
        · exact hdone y' (by simp [hy']) A0 hA0) h3
    refine ⟨res2, ds2, ?_, g2, ?_, fun x' hx' => g4 x' (by simp [hx']), ?_, fun _ => List.ne_nil_of_mem (g4 x (by simp)), ?_⟩
    · show (match C.pongOne s (C.ping s) S res y with
        | none => none
        | some (S', res', d) => C.pongAll s (C.ping s) js S' res' (d :: ds)) = _
      rw [h1]; exact g1
    · intro z hz
      obtain ⟨z1, e1, e2⟩ := h9 z hz
      obtain ⟨z2, e3, e4⟩ := g3 z1 e1
      exact ⟨z2, e3, e4.trans e2⟩
    · intro x' hx'
      rcases g5 x' hx' with g | g
      · rcases List.mem_cons.mp g with rfl | g
        · exact Or.inr h4
        · exact Or.inl g
      · exact Or.inr g
    · intro y' hy'
      rcases List.mem_cons.mp hy' with rfl | hy'
      · obtain ⟨z2, e3, e4⟩ := g3 z h5
        unfold Same at e4
        exact ⟨z2, e3, by omega, by omega, by rw [e4.2.1, h8]; exact g4 x (by simp)⟩
      · exact g7 y' hy'

theorem minOf_le (d : Int) (ds : List Int) : minOf d ds ≤ d ∧ ∀ x ∈ ds, minOf d ds ≤ x := by
  unfold minOf
  induction ds generalizing d with
  | nil => simp
  | cons a ds ih =>
    obtain ⟨h1, h2⟩ := ih (min d a)
    rw [List.foldl_cons]
    refine ⟨by omega, ?_⟩
    intro x hx
    rcases List.mem_cons.mp hx with rfl | hx
    · omega
    · exact h2 x hx

theorem minOf_mem (d : Int) (ds : List Int) : minOf d ds ∈ d :: ds := by
  unfold minOf
  induction ds generalizing d with
  | nil => simp
  | cons a ds ih =>
    rw [List.foldl_cons]
    have := ih (min d a)
    rcases List.mem_cons.mp this with h | h
    · rw [h]
      rcases Int.le_total d a with g | g
      · rw [Int.min_eq_left g]; simp
      · rw [Int.min_eq_right g]; simp
    · simp [h]

/-- One turn of the loop. -/
theorem Cfg.Base.turn (hB : C.Base) {s : Int} (hs : C.At s) {res : List PJ} (hres : C.Res res) :
    (C.turn s res = .ok none ∧ ∀ k A, k ≤ C.N → Feas C.P C.acc k s A → s + C.look < A) ∨
    ∃ next res', C.turn s res = .ok (some (next, res')) ∧ s < next ∧ C.Res res' ∧ (∀ z ∈ res, ∃ z' ∈ res', Same z' z) ∧
      ∀ k A, k ≤ C.N → Feas C.P C.acc k s A → A ≤ s + C.look → ∃ z ∈ res', z.transfers + 1 ≤ k ∧ z.start ≤ A ∧ next ≤ z.dest + 1 := by
  obtain ⟨h1, h2, h3⟩ := hB.hits hs
  have hkeep : (addAll C.dir (C.pingJourneys s (C.ping s)) []).filter (fun x => !ParetoSet.isDominated (dom C.dir) x res) =
      addAll C.dir (C.pingJourneys s (C.ping s)) [] := by
    rw [List.filter_eq_self]
    intro y hy
    rw [Bool.not_eq_true']
    unfold ParetoSet.isDominated
    rw [List.any_eq_false]
    intro x hx
    rw [dom_pong C.dir (hB.order hres x hx), pongLe_iff]
    have hh := h1 y hy
    obtain ⟨k, -, hf⟩ := hh.feas
    have := hB.move _ _ _ hf
    have := hB.order hres x hx
    have := hh.start
    omega
  unfold Cfg.turn
  simp only
  rw [hkeep]
  generalize addAll C.dir (C.pingJourneys s (C.ping s)) [] = found at *
  by_cases he : (sortDesc found).isEmpty = true
  · left
    rw [if_pos he]
    refine ⟨rfl, ?_⟩
    intro k A hk hf
    apply Classical.byContradiction
    intro hc
    obtain ⟨y, hy, -⟩ := h3 k A hk hf (by omega)
    have := mem_sortDesc.mpr hy
    rw [List.isEmpty_iff] at he
    rw [he] at this
    simp at this
  · right
    rw [if_neg he]
    have hhit : ∀ y ∈ sortDesc found, C.Hit s (C.ping s) y := fun y hy => h1 y (mem_sortDesc.mp hy)
    have hord : (sortDesc found).Pairwise (fun a b => b.transfers < a.transfers ∧ a.dest < b.dest) := by
      have hp1 := pairwise_sortDesc found
      have hp2 := sortDesc_anti (R := fun a b => pingLe a b = false ∧ pingLe b a = false) (fun a b h => ⟨h.2, h.1⟩) (l := found) h2
      have := hp1.and hp2
      refine List.Pairwise.imp_of_mem ?_ this
      intro a b ha hb hab
      have e1 := (hhit a ha).start
      have e2 := (hhit b hb).start
      obtain ⟨e3, e4, e5⟩ := hab
      have n1 : ¬ (a.transfers ≤ b.transfers ∧ b.start ≤ a.start ∧ a.dest ≤ b.dest) := by
        rw [← pingLe_iff, e4]; simp
      have n2 : ¬ (b.transfers ≤ a.transfers ∧ a.start ≤ b.start ∧ b.dest ≤ a.dest) := by
        rw [← pingLe_iff, e5]; simp
      omega
    have hlo := hs.lo
    have hhi := hB.pair.dual.hi
    obtain ⟨res', ds', g1, g2, g3, -, g5, g6, g7⟩ := hB.pongAll hs (sortDesc found) (K0 := C.N) (done := []) (S := init C.P') (res := res) [] hhit hord
      (pinv_init hB.pair.tame'.toSane _ _ (by omega)) (fun y hy => (hhit y hy).rounds) (by simp) hres
    rw [g1]
    have hne := g6 (by intro hc; rw [hc] at he; exact he rfl)
    cases ds' with
    | nil => exact absurd rfl hne
    | cons d ds =>
      refine ⟨minOf d ds + 1, res', rfl, ?_, g2, g3, ?_⟩
      · have := g5 _ (minOf_mem d ds)
        simp only [List.not_mem_nil, false_or] at this
        omega
      · intro k A hk hf hA
        obtain ⟨y, hy, e1, e2⟩ := h3 k A hk hf hA
        obtain ⟨z, hz, f1, f2, f3⟩ := g7 y (mem_sortDesc.mpr hy)
        refine ⟨z, hz, by omega, by omega, ?_⟩
        have := minOf_le d ds
        rcases List.mem_cons.mp f3 with f3 | f3
        · omega
        · have := this.2 _ f3; omega

/-- The search jumped over `dep` from `t0`: the journey arrives too late to be seen from `t0`, and all that can be
seen from there is at least as good when one leaves after `dep`. -/
def Cfg.Skipped (C : Cfg) (from' dep A : Int) : Prop :=
  ∃ t0, from' ≤ t0 ∧ t0 ≤ dep ∧ t0 + C.look < A ∧
    ∀ k1 d1 A1, k1 ≤ C.N → Feas C.P C.acc k1 d1 A1 → t0 ≤ d1 → A1 ≤ t0 + C.look →
      ∃ k2 d2 A2, Feas C.P C.acc k2 d2 A2 ∧ k2 ≤ k1 ∧ dep ≤ d2 ∧ A2 ≤ A1

theorem Cfg.loop_ge (C : Cfg) (s : Int) (res : List PJ) : match C.loop s res with
    | .error (e, _) => s ≤ e
    | .ok (e, _) => s ≤ e := by
  fun_induction Cfg.loop C s res with
  | case1 s res hgo e he => exact Int.le_refl _
  | case2 s res hgo he => exact Int.le_refl _
  | case3 s res hgo next res' he hn ih =>
    generalize C.loop next res' = o at ih
    cases o with
    | error e => exact Int.le_trans (by omega) ih
    | ok p => exact Int.le_trans (by omega) ih
  | case4 s res hgo next res' he hn => exact Int.le_refl _
  | case5 s res hgo => exact Int.le_refl _

/-- The whole loop. -/
theorem Cfg.Base.loop (hB : C.Base) {lim : Int} {s : Int} {res : List PJ} (hat : ∀ t, s ≤ t → t < lim → C.At t) (hres : C.Res res) :
    match C.loop s res with
    | .error (e, _) => lim ≤ e
    | .ok (e, res') => s ≤ e ∧ (e ≤ lim → C.Res res' ∧ (∀ z ∈ res, ∃ z' ∈ res', Same z' z) ∧
      ∀ k dep A, k ≤ C.N → Feas C.P C.acc k dep A → s ≤ dep → dep < e →
        (∃ z ∈ res', z.transfers + 1 ≤ k ∧ z.start ≤ A ∧ dep ≤ z.dest) ∨ C.Skipped s dep A) := by
  fun_induction Cfg.loop C s res with
  | case1 s res hgo e he =>
    apply Classical.byContradiction
    intro hc
    rcases hB.turn (hat s (Int.le_refl _) (by omega)) hres with ⟨g, -⟩ | ⟨n, r, g, -⟩ <;> rw [he] at g <;> cases g
  | case2 s res hgo he =>
    refine ⟨Int.le_refl _, fun _ => ⟨hres, fun z hz => ⟨z, hz, rfl, rfl, rfl⟩, ?_⟩⟩
    intro k dep A _ _ h1 h2; omega
  | case3 s res hgo next res' he hn ih =>
    by_cases hl : s < lim
    · rcases hB.turn (hat s (Int.le_refl _) hl) hres with ⟨g, -⟩ | ⟨n, r, g, h1, h2, h3, h4⟩
      · rw [he] at g; cases g
      · rw [he] at g
        have g := Option.some.inj (Except.ok.inj g)
        rw [Prod.mk.injEq] at g
        obtain ⟨rfl, rfl⟩ := g
        have ih := ih (fun t ht htl => hat t (by omega) htl) h2
        generalize C.loop next res' = o at ih
        cases o with
        | error e => exact ih
        | ok p =>
          obtain ⟨e, resE⟩ := p
          obtain ⟨i1, i2⟩ := ih
          refine ⟨by omega, fun hle => ?_⟩
          obtain ⟨i2, i3, i4⟩ := i2 hle
          refine ⟨i2, ?_, ?_⟩
          · intro z hz
            obtain ⟨z1, e1, e2⟩ := h3 z hz
            obtain ⟨z2, e3, e4⟩ := i3 z1 e1
            exact ⟨z2, e3, e4.trans e2⟩
          · intro k dep A hk hf hd1 hd2
            by_cases hnx : next ≤ dep
            · rcases i4 k dep A hk hf hnx hd2 with g | ⟨t0, q1, q2⟩
              · exact Or.inl g
              · exact Or.inr ⟨t0, by omega, q2⟩
            · by_cases hA : A ≤ s + C.look
              · left
                obtain ⟨z, hz, e1, e2, e3⟩ := h4 k A hk (hB.pair.feas_earlier hf hd1) hA
                obtain ⟨z2, f1, f2⟩ := i3 z hz
                unfold Same at f2
                exact ⟨z2, f1, by omega, by omega, by omega⟩
              · right
                refine ⟨s, Int.le_refl _, hd1, by omega, ?_⟩
                intro k1 d1 A1 hk1 hf1 hd3 hA1
                obtain ⟨z, hz, e1, e2, e3⟩ := h4 k1 A1 hk1 (hB.pair.feas_earlier hf1 hd3) hA1
                exact ⟨_, _, _, (h2.opt z hz).1.1, e1, by omega, e2⟩
    · have hge := Cfg.loop_ge C next res'
      generalize C.loop next res' = o at hge
      cases o with
      | error e => exact Int.le_trans (by omega) hge
      | ok p =>
        obtain ⟨e, resE⟩ := p
        have hge : next ≤ e := hge
        exact ⟨by omega, fun hle => by omega⟩
  | case4 s res hgo next res' he hn =>
    apply Classical.byContradiction
    intro hc
    rcases hB.turn (hat s (Int.le_refl _) (by omega)) hres with ⟨g, -⟩ | ⟨n, r, g, g2, -⟩
    · rw [he] at g; cases g
    · rw [he] at g
      have g := Option.some.inj (Except.ok.inj g)
      rw [Prod.mk.injEq] at g
      omega
  | case5 s res hgo =>
    refine ⟨Int.le_refl _, fun _ => ⟨hres, fun z hz => ⟨z, hz, rfl, rfl, rfl⟩, ?_⟩⟩
    intro k dep A _ _ h1 h2; omega

end

end Nigiri.Raptor.Pong
