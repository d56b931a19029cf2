import Verif.Props.HrdParse
/-!
# C140, C141: the services of an HRD file and their names
-/

namespace Nigiri.HrdParse
open Hrd (Event Stop)
open Spec

/-! ## C140: from a file to its services -/

def bStop (l : Line) : Bool := match l with | [] => false | c :: _ => c.isDigit
def bDays (l : Line) : Bool := ['*', 'A', ' ', 'V', 'E'].isPrefixOf l
def bAttr (l : Line) : Bool := ['*', 'A'].isPrefixOf l && !bDays l
def bCat (l : Line) : Bool := ['*', 'G'].isPrefixOf l && !['*', 'G', 'R'].isPrefixOf l
def bLine (l : Line) : Bool := ['*', 'L'].isPrefixOf l
def bDir (l : Line) : Bool := ['*', 'R'].isPrefixOf l

theorem stop_iff (l : Line) : bStop l = true ↔ StopLine l := by
  unfold bStop StopLine
  cases l with
  | nil => simp
  | cons c rest => simp

theorem tagged_iff (tag : List Char) (l : Line) : tag.isPrefixOf l = true ↔ Tagged tag l := by
  unfold Tagged
  rw [List.isPrefixOf_iff_prefix]
  constructor
  · rintro ⟨t, rfl⟩; exact ⟨t, rfl⟩
  · rintro ⟨t, rfl⟩; exact ⟨t, rfl⟩

/-- What has been collected of a service. -/
structure Collected (head : Line) (body : List Line) (s : Specif) : Prop where
  headEq : s.head = some head
  stops : s.stops = body.filter bStop
  days : s.trafficDays = body.filter bDays
  attributes : s.attributes = body.filter bAttr
  categories : s.categories = body.filter bCat
  lineInfos : s.lineInfos = body.filter bLine
  directions : s.directions = body.filter bDir

theorem bool_eq {p q : Line → Bool} (h : ∀ l, p l = true ↔ q l = true) : p = q := by
  funext l
  have := h l
  cases hp : p l <;> cases hq : q l <;> simp_all

theorem lines_of {head : Line} {body : List Line} {s : Specif} (h : Collected head body s) :
    Lines head body s := by
  refine ⟨h.headEq, ?_, ?_, ?_, ?_, ?_, ?_⟩
  · intro p hp
    rw [h.stops, bool_eq fun l => (hp l).trans (stop_iff l).symm]
  · intro p hp
    rw [h.days, bool_eq fun l => (hp l).trans (tagged_iff _ l).symm]; rfl
  · intro p hp
    rw [h.attributes]
    congr 1
    refine bool_eq fun l => ?_
    rw [hp l]
    unfold bAttr bDays
    rw [Bool.and_eq_true, Bool.not_eq_true', ← Bool.not_eq_true, tagged_iff, tagged_iff]
  · intro p hp
    rw [h.categories]
    congr 1
    refine bool_eq fun l => ?_
    rw [hp l]
    unfold bCat
    rw [Bool.and_eq_true, Bool.not_eq_true', ← Bool.not_eq_true, tagged_iff, tagged_iff]
  · intro p hp
    rw [h.lineInfos, bool_eq fun l => (hp l).trans (tagged_iff _ l).symm]; rfl
  · intro p hp
    rw [h.directions, bool_eq fun l => (hp l).trans (tagged_iff _ l).symm]; rfl

theorem collected_snoc {head : Line} {body : List Line} {s s' : Specif} (h : Collected head body s)
    (l : Line) (hl : readLine s l = some (s', false)) : Collected head (body ++ [l]) s' := by
  have hne : s.isEmpty = false := by unfold Specif.isEmpty; rw [h.headEq]; rfl
  have star : ('*').isDigit = false := by decide
  unfold readLine at hl
  split at hl
  · cases hl
    exact ⟨h.headEq, by simp [h.stops, bStop], by simp [h.days, bDays], by simp [h.attributes, bAttr],
      by simp [h.categories, bCat], by simp [h.lineInfos, bLine], by simp [h.directions, bDir]⟩
  · rename_i c0 rest
    split at hl
    · rename_i hd
      cases hl
      have hc : ('*' == c0) = false := by
        apply Bool.eq_false_iff.2
        intro hc
        rw [← (beq_iff_eq.1 hc), star] at hd
        cases hd
      exact ⟨h.headEq, by simp [h.stops, bStop, hd], by simp [h.days, bDays, List.isPrefixOf, hc],
        by simp [h.attributes, bAttr, List.isPrefixOf, hc],
        by simp [h.categories, bCat, List.isPrefixOf, hc],
        by simp [h.lineInfos, bLine, List.isPrefixOf, hc],
        by simp [h.directions, bDir, List.isPrefixOf, hc]⟩
    · rename_i hd
      split at hl
      · cases hl
      · rename_i c1 rest2
        split at hl
        · cases hl
        · rename_i hstar
          have hstar : c0 = '*' := Classical.byContradiction hstar
          subst hstar
          split at hl
          · rename_i hk
            have n1 : ('A' == c1) = false ∧ ('G' == c1) = false ∧ ('L' == c1) = false ∧
                ('R' == c1) = false := by
              rcases hk with rfl | rfl | rfl <;> decide
            split at hl
            · cases hl
              exact ⟨h.headEq, by simp [h.stops, bStop, star], by simp [h.days, bDays, List.isPrefixOf, n1],
                by simp [h.attributes, bAttr, List.isPrefixOf, n1],
                by simp [h.categories, bCat, List.isPrefixOf, n1],
                by simp [h.lineInfos, bLine, List.isPrefixOf, n1],
                by simp [h.directions, bDir, List.isPrefixOf, n1]⟩
            · rw [if_neg (by rw [hne]; decide)] at hl
              cases hl
          · split at hl
            · rename_i hA
              subst hA
              split at hl
              · rename_i hv
                cases hl
                have hv' : bDays ('*' :: 'A' :: rest2) = true := hv
                exact ⟨h.headEq, by simp [h.stops, bStop, star], by simp [h.days, hv'],
                  by simp [h.attributes, bAttr, hv'],
                  by simp [h.categories, bCat, List.isPrefixOf],
                  by simp [h.lineInfos, bLine, List.isPrefixOf],
                  by simp [h.directions, bDir, List.isPrefixOf]⟩
              · rename_i hv
                cases hl
                have hv' : bDays ('*' :: 'A' :: rest2) = false := Bool.eq_false_iff.2 hv
                exact ⟨h.headEq, by simp [h.stops, bStop, star], by simp [h.days, hv'],
                  by simp [h.attributes, bAttr, hv', List.isPrefixOf],
                  by simp [h.categories, bCat, List.isPrefixOf],
                  by simp [h.lineInfos, bLine, List.isPrefixOf],
                  by simp [h.directions, bDir, List.isPrefixOf]⟩
            · rename_i hA
              have hA' : ('A' == c1) = false := by
                apply Bool.eq_false_iff.2; intro hc; exact hA (beq_iff_eq.1 hc).symm
              split at hl
              · rename_i hG
                subst hG
                split at hl
                · rename_i hv
                  cases hl
                  exact ⟨h.headEq, by simp [h.stops, bStop, star], by simp [h.days, bDays, List.isPrefixOf],
                    by simp [h.attributes, bAttr, List.isPrefixOf],
                    by simp [h.categories, bCat, hv],
                    by simp [h.lineInfos, bLine, List.isPrefixOf],
                    by simp [h.directions, bDir, List.isPrefixOf]⟩
                · rename_i hv
                  cases hl
                  have hb : bCat ('*' :: 'G' :: rest2) = true := by
                    unfold bCat
                    rw [Bool.eq_false_iff.2 hv]
                    simp [List.isPrefixOf]
                  exact ⟨h.headEq, by simp [h.stops, bStop, star], by simp [h.days, bDays, List.isPrefixOf],
                    by simp [h.attributes, bAttr, List.isPrefixOf],
                    by simp [h.categories, hb],
                    by simp [h.lineInfos, bLine, List.isPrefixOf],
                    by simp [h.directions, bDir, List.isPrefixOf]⟩
              · rename_i hG
                have hG' : ('G' == c1) = false := by
                  apply Bool.eq_false_iff.2; intro hc; exact hG (beq_iff_eq.1 hc).symm
                split at hl
                · rename_i hL
                  subst hL
                  cases hl
                  exact ⟨h.headEq, by simp [h.stops, bStop, star], by simp [h.days, bDays, List.isPrefixOf],
                    by simp [h.attributes, bAttr, List.isPrefixOf],
                    by simp [h.categories, bCat, List.isPrefixOf],
                    by simp [h.lineInfos, bLine, List.isPrefixOf],
                    by simp [h.directions, bDir, List.isPrefixOf]⟩
                · rename_i hL
                  have hL' : ('L' == c1) = false := by
                    apply Bool.eq_false_iff.2; intro hc; exact hL (beq_iff_eq.1 hc).symm
                  split at hl
                  · rename_i hR
                    subst hR
                    cases hl
                    exact ⟨h.headEq, by simp [h.stops, bStop, star],
                      by simp [h.days, bDays, List.isPrefixOf],
                      by simp [h.attributes, bAttr, List.isPrefixOf],
                      by simp [h.categories, bCat, List.isPrefixOf],
                      by simp [h.lineInfos, bLine, List.isPrefixOf],
                      by simp [h.directions, bDir, List.isPrefixOf]⟩
                  · rename_i hR
                    have hR' : ('R' == c1) = false := by
                      apply Bool.eq_false_iff.2; intro hc; exact hR (beq_iff_eq.1 hc).symm
                    cases hl
                    exact ⟨h.headEq, by simp [h.stops, bStop, star],
                      by simp [h.days, bDays, List.isPrefixOf, hA'],
                      by simp [h.attributes, bAttr, List.isPrefixOf, hA'],
                      by simp [h.categories, bCat, List.isPrefixOf, hG'],
                      by simp [h.lineInfos, bLine, List.isPrefixOf, hL'],
                      by simp [h.directions, bDir, List.isPrefixOf, hR']⟩

theorem collected_comment {head : Line} {body : List Line} {s : Specif} (h : Collected head body s)
    (l : Line) (hl : Comment l) : Collected head (body ++ [l]) s := by
  have pct : ('%').isDigit = false := by decide
  rcases hl with rfl | hl
  · exact ⟨h.headEq, by simp [h.stops, bStop], by simp [h.days, bDays], by simp [h.attributes, bAttr],
      by simp [h.categories, bCat], by simp [h.lineInfos, bLine], by simp [h.directions, bDir]⟩
  · cases l with
    | nil => cases hl
    | cons c rest =>
      cases hl
      exact ⟨h.headEq, by simp [h.stops, bStop, pct], by simp [h.days, bDays, List.isPrefixOf],
        by simp [h.attributes, bAttr, List.isPrefixOf], by simp [h.categories, bCat, List.isPrefixOf],
        by simp [h.lineInfos, bLine, List.isPrefixOf], by simp [h.directions, bDir, List.isPrefixOf]⟩

theorem readLine_head (s : Specif) (l : Line) (h : Head l) :
    readLine s l = if s.isEmpty then some ({ s with head := some l }, false) else some (s, true) := by
  obtain ⟨c, rest, rfl, hc⟩ := h
  have star : ('*').isDigit = false := by decide
  unfold readLine
  simp only [star, Bool.false_eq_true, if_false, ne_eq, not_true]
  rw [if_pos (by rcases hc with rfl | rfl | ⟨rfl, _⟩ <;> simp)]
  rw [if_neg (by
    rintro ⟨h1, h2⟩
    rcases hc with rfl | rfl | ⟨_, h3⟩
    · exact absurd h1 (by decide)
    · exact absurd h1 (by decide)
    · exact h3 h2)]

theorem readLine_body (s : Specif) (l : Line) (hb : Body l) (hnc : ¬ Comment l) :
    ∃ s', readLine s l = some (s', false) := by
  rcases hb with hb | ⟨c, rest, rfl, hd⟩ | ⟨⟨c, rest, rfl⟩, hh⟩
  · exact absurd hb hnc
  · unfold readLine
    simp only [hd, if_true]
    exact ⟨_, rfl⟩
  · have star : ('*').isDigit = false := by decide
    unfold readLine
    simp only [star, Bool.false_eq_true, if_false, ne_eq, not_true]
    split
    · rename_i hc
      rw [if_pos]
      · exact ⟨_, rfl⟩
      · apply Classical.byContradiction
        intro hn
        refine hh ⟨c, rest, rfl, ?_⟩
        rcases hc with rfl | hc | hc
        · exact Or.inr (Or.inr ⟨rfl, fun hz => hn ⟨rfl, hz⟩⟩)
        · exact Or.inl hc
        · exact Or.inr (Or.inl hc)
    · repeat' split
      all_goals exact ⟨_, rfl⟩

theorem loadable_iff (s : Specif) : (s.valid = true ∧ s.ignore = false) ↔ Loadable s := by
  unfold Specif.valid Specif.ignore Specif.isEmpty Loadable
  cases hh : s.head with
  | none => simp
  | some l =>
    cases hz : ['*', 'Z'].isPrefixOf l with
    | false =>
      constructor
      · rintro ⟨_, h⟩; simp only [hz] at h; cases h
      · rintro ⟨⟨q, hq, ht⟩, _⟩
        cases hq
        rw [(tagged_iff _ _).2 ht] at hz
        cases hz
    | true =>
      have ht := (tagged_iff _ _).1 hz
      simp only [hz, Bool.not_true, Bool.false_or, Bool.and_eq_true, Bool.not_eq_true',
        decide_eq_true_eq, Option.isNone_some, and_true]
      rw [List.isEmpty_eq_false_iff, List.isEmpty_eq_false_iff]
      constructor
      · rintro ⟨⟨h1, h2⟩, h3⟩
        exact ⟨⟨l, rfl, ht⟩, h1, h3, h2⟩
      · rintro ⟨_, h1, h3, h2⟩
        exact ⟨⟨h1, h2⟩, h3⟩

section
variable {α : Type} (load : Specif → List α × Bool)

theorem fileLoop_cons (st : FileState α) (l : Line) (ls : List Line) :
    fileLoop load st (l :: ls) = (fileStep load st l).bind fun st' => fileLoop load st' ls := by
  conv => lhs; unfold fileLoop
  cases fileStep load st l <;> rfl

theorem fileStep_comment (st : FileState α) {l : Line} (h : Comment l) : fileStep load st l = some st := by
  unfold fileStep; exact if_pos h

theorem fileStep_go (st : FileState α) {l : Line} (h : ¬ Comment l) {s : Specif}
    (hr : readLine st.spec l = some (s, false)) : fileStep load st l = some { st with spec := s } := by
  unfold fileStep; refine (if_neg h).trans ?_; rw [hr]

theorem fileStep_next (st : FileState α) {l : Line} (h : ¬ Comment l) {s s' : Specif} {x : Bool}
    (hr : readLine st.spec l = some (s, true)) (hr' : readLine {} l = some (s', x)) :
    fileStep load st l = some { spec := s', out := st.out ++ finish load s } := by
  unfold fileStep; refine (if_neg h).trans ?_; rw [hr]; simp only; rw [hr']

theorem fileStep_none (st : FileState α) {l : Line} (h : ¬ Comment l)
    (hr : readLine st.spec l = none) : fileStep load st l = none := by
  unfold fileStep; refine (if_neg h).trans ?_; rw [hr]

theorem fileLoop_append (st : FileState α) (a b : List Line) :
    fileLoop load st (a ++ b) = (fileLoop load st a).bind fun st' => fileLoop load st' b := by
  induction a generalizing st with
  | nil => rfl
  | cons l ls ih =>
    rw [List.cons_append, fileLoop_cons, fileLoop_cons]
    cases fileStep load st l with
    | none => rfl
    | some st' => exact ih st'

theorem fileLoop_comments (st : FileState α) (ls : List Line) (h : ∀ l ∈ ls, Comment l) :
    fileLoop load st ls = some st := by
  induction ls with
  | nil => rfl
  | cons l ls ih =>
    rw [fileLoop_cons, fileStep_comment load st (h l (by simp))]
    exact ih fun q hq => h q (by simp [hq])

theorem fileLoop_body (head : Line) (out : List α) (body : List Line) (hb : ∀ l ∈ body, Body l) :
    ∃ s, fileLoop load ⟨{ head := some head }, out⟩ body = some ⟨s, out⟩ ∧ Collected head body s := by
  induction body using Vdv.snoc_ind with
  | h0 => exact ⟨_, rfl, ⟨rfl, rfl, rfl, rfl, rfl, rfl, rfl⟩⟩
  | h body l ih =>
    obtain ⟨s, hs, hC⟩ := ih fun q hq => hb q (by simp [hq])
    rw [fileLoop_append, hs, Option.bind_some]
    rw [fileLoop_cons]
    by_cases hc : Comment l
    · rw [fileStep_comment load _ hc]
      exact ⟨s, rfl, collected_comment hC l hc⟩
    · obtain ⟨s', hs'⟩ := readLine_body s l (hb l (by simp)) hc
      rw [fileStep_go load ⟨s, out⟩ hc hs']
      exact ⟨s', rfl, collected_snoc hC l hs'⟩

theorem head_not_comment {l : Line} (h : Head l) : ¬ Comment l := by
  obtain ⟨c, rest, rfl, _⟩ := h
  rintro (h | h) <;> cases h

/-- What the services of the groups but the last one add. -/
def outOf (ss : List Specif) : List α := ss.flatMap (finish load)

theorem fileLoop_groups (gs : List (Line × List Line)) (hh : ∀ g ∈ gs, Head g.1)
    (hb : ∀ g ∈ gs, ∀ l ∈ g.2, Body l) (s0 : Specif) (out : List α) (h0 : s0.isEmpty = false) :
    ∃ ss last, fileLoop load ⟨s0, out⟩ (gs.flatMap fun g => g.1 :: g.2) =
        some ⟨last, out ++ outOf load ss⟩ ∧
      ss ++ [last] = s0 :: (ss ++ [last]).drop 1 ∧ (ss ++ [last]).length = gs.length + 1 ∧
      ∀ (i : Nat) (g : Line × List Line) (s : Specif), gs[i]? = some g →
        (ss ++ [last])[i + 1]? = some s → Collected g.1 g.2 s := by
  induction gs generalizing s0 out with
  | nil =>
    refine ⟨[], s0, by simp [fileLoop, outOf], rfl, rfl, ?_⟩
    intro i g s hg
    cases hg
  | cons g gs ih =>
    obtain ⟨s, hs, hC⟩ := fileLoop_body load g.1 (out ++ finish load s0) g.2 (hb g (by simp))
    have hse : s.isEmpty = false := by unfold Specif.isEmpty; rw [hC.headEq]; rfl
    obtain ⟨ss, last, h1, h2, h3, h4⟩ := ih (fun q hq => hh q (by simp [hq]))
      (fun q hq => hb q (by simp [hq])) s (out ++ finish load s0) hse
    have hstep : fileStep load ⟨s0, out⟩ g.1 = some ⟨{ head := some g.1 }, out ++ finish load s0⟩ := by
      have e1 : readLine s0 g.1 = some (s0, true) := by
        rw [readLine_head s0 g.1 (hh g (by simp)), h0]; rfl
      exact fileStep_next load ⟨s0, out⟩ (head_not_comment (hh g (by simp))) e1
        (readLine_head {} g.1 (hh g (by simp)))
    refine ⟨s0 :: ss, last, ?_, by simp, by simpa using h3, ?_⟩
    · rw [List.flatMap_cons, List.cons_append]
      rw [fileLoop_cons, hstep, Option.bind_some, fileLoop_append, hs, Option.bind_some, h1]
      simp [outOf, List.append_assoc]
    · intro i q s' hq hs'
      rw [List.cons_append, List.getElem?_cons_succ] at hs'
      cases i with
      | zero =>
        cases hq
        rw [h2] at hs'
        cases hs'
        exact hC
      | succ i => exact h4 i q s' hq hs'

/-- **C140** (services of a file).  A file of comments and groups, each of a head line and lines that
belong to the service, is read as exactly these services, each with its own lines, in order; what is
loaded are the loadable ones; an exception (the last service is outside of the `try`) leaves the function
iff the last service is loadable and cannot be loaded. -/
theorem C140_services (pre : List Line) (gs : List (Line × List Line)) (hpre : ∀ l ∈ pre, Comment l)
    (hne : gs ≠ []) (hh : ∀ g ∈ gs, Head g.1) (hb : ∀ g ∈ gs, ∀ l ∈ g.2, Body l)
    (p : Specif → Bool) (hp : ∀ s, p s = true ↔ Loadable s) :
    ∃ ss last, (ss ++ [last]).length = gs.length ∧
      (∀ (i : Nat) (g : Line × List Line) (s : Specif), gs[i]? = some g → (ss ++ [last])[i]? = some s →
        Lines g.1 g.2 s) ∧
      parseServices load (pre ++ gs.flatMap fun g => g.1 :: g.2) =
        if p last && (load last).2 then none
        else some ((ss ++ [last]).flatMap fun s => if p s then (load s).1 else []) := by
  have hfin : ∀ s, finish load s = if p s then (load s).1 else [] := by
    intro s
    have hl := (loadable_iff s).trans (hp s).symm
    unfold finish
    cases hv : s.valid <;> cases hi : s.ignore <;> cases hps : p s <;> simp_all
  have hlast : ∀ s : Specif, (!s.isEmpty && s.valid && !s.ignore) = p s := by
    intro s
    have hl := (loadable_iff s).trans (hp s).symm
    have hem : s.isEmpty = true → s.valid = false := by
      intro he
      unfold Specif.valid Specif.ignore
      unfold Specif.isEmpty at he
      have := Option.isNone_iff_eq_none.1 he
      simp [this, Specif.isEmpty]
    cases hs : p s with
    | true =>
      obtain ⟨h1, h2⟩ := hl.2 hs
      have : s.isEmpty = false := by
        cases he : s.isEmpty with
        | false => rfl
        | true => rw [hem he] at h1; cases h1
      rw [h1, h2, this]; rfl
    | false =>
      cases hv : s.valid with
      | false => simp
      | true =>
        cases hi : s.ignore with
        | true => simp
        | false => rw [hl.1 ⟨hv, hi⟩] at hs; cases hs
  cases gs with
  | nil => exact absurd rfl hne
  | cons g gs =>
    obtain ⟨s, hs, hC⟩ := fileLoop_body load g.1 [] g.2 (hb g (by simp))
    have hse : s.isEmpty = false := by unfold Specif.isEmpty; rw [hC.headEq]; rfl
    obtain ⟨ss, last, h1, h2, h3, h4⟩ := fileLoop_groups load gs (fun q hq => hh q (by simp [hq]))
      (fun q hq => hb q (by simp [hq])) s [] hse
    have hstep : fileStep load {} g.1 = some ⟨{ head := some g.1 }, []⟩ := by
      exact fileStep_go load {} (head_not_comment (hh g (by simp)))
        (readLine_head {} g.1 (hh g (by simp)))
    have hfile : fileLoop load {} (pre ++ (g :: gs).flatMap fun g => g.1 :: g.2) =
        some ⟨last, outOf load ss⟩ := by
      rw [fileLoop_append, fileLoop_comments load {} pre hpre, Option.bind_some, List.flatMap_cons,
        List.cons_append]
      rw [fileLoop_cons, hstep, Option.bind_some, fileLoop_append, hs, Option.bind_some, h1, List.nil_append]
    refine ⟨ss, last, by simpa using h3, ?_, ?_⟩
    · intro i q s' hq hs'
      cases i with
      | zero =>
        cases hq
        rw [h2] at hs'
        cases hs'
        exact lines_of hC
      | succ i => exact lines_of (h4 i q s' hq hs')
    · unfold parseServices
      rw [hfile]
      simp only [hlast]
      have hout : outOf load ss = ss.flatMap fun s => if p s then (load s).1 else [] := by
        unfold outOf
        congr 1
        funext s
        exact hfin s
      rw [hout]
      cases hpl : p last with
      | false => simp [hpl]
      | true =>
        simp only [Bool.true_and, if_true]
        split
        · rfl
        · simp [hpl]

/-- **C140** (invalid lines).  A line that is no comment, no stop and does not begin with `*` and another
character makes the whole import fail. -/
theorem C140_invalid_line (lines : List Line) (l : Line) (hl : l ∈ lines) (h1 : ¬ Comment l)
    (h2 : ¬ StopLine l) (h3 : ¬ ∃ c rest, l = '*' :: c :: rest) : parseServices load lines = none := by
  have hstep : ∀ st : FileState α, fileStep load st l = none := by
    intro st
    refine fileStep_none load st h1 ?_
    have : readLine st.spec l = none := by
      unfold readLine
      cases l with
      | nil => exact absurd (Or.inl rfl) h1
      | cons c0 rest =>
        simp only
        rw [if_neg (fun hd => h2 ⟨c0, rest, rfl, hd⟩)]
        cases rest with
        | nil => rfl
        | cons c1 rest =>
          simp only
          rw [if_pos (fun hc => h3 ⟨c1, rest, by rw [hc]⟩)]
    exact this
  have hloop : ∀ (ls : List Line) (st : FileState α), l ∈ ls → fileLoop load st ls = none := by
    intro ls
    induction ls with
    | nil => intro st h; cases h
    | cons a ls ih =>
      intro st h
      rw [fileLoop_cons]
      rcases List.mem_cons.1 h with rfl | h
      · rw [hstep]; rfl
      · cases fileStep load st a with
        | none => rfl
        | some st' => exact ih st' h
  unfold parseServices
  rw [hloop _ _ hl]

end

/-! ## C141: names -/

theorem isRule_bits (c : Category) : isRule c 1 = c.outputRule.testBit 0 ∧
    isRule c 2 = c.outputRule.testBit 1 ∧ isRule c 8 = c.outputRule.testBit 3 ∧
    isRule c 3 = (c.outputRule.testBit 0 && c.outputRule.testBit 1) := by
  have key : ∀ n i : Nat, (n &&& 2 ^ i == 2 ^ i) = n.testBit i := by
    intro n i
    cases h : n.testBit i with
    | true =>
      apply beq_iff_eq.2
      apply Nat.eq_of_testBit_eq
      intro j
      rw [Nat.testBit_and, Nat.testBit_two_pow]
      by_cases hj : i = j
      · subst hj; simp [h]
      · simp [hj]
    | false =>
      apply Bool.eq_false_iff.2
      intro hc
      have h2 := congrArg (fun x => Nat.testBit x i) (beq_iff_eq.1 hc)
      simp [Nat.testBit_and, h] at h2
  refine ⟨key _ 0, key _ 1, key _ 3, ?_⟩
  unfold isRule
  have h3 : c.outputRule &&& 3 = c.outputRule % 4 := Nat.and_two_pow_sub_one_eq_mod c.outputRule 2
  rw [h3, Nat.testBit_zero, Nat.testBit_succ, Nat.testBit_zero]
  have : c.outputRule % 4 = 2 * (c.outputRule / 2 % 2) + c.outputRule % 2 := by omega
  rw [this]
  have a : c.outputRule % 2 = 0 ∨ c.outputRule % 2 = 1 := by omega
  have b : c.outputRule / 2 % 2 = 0 ∨ c.outputRule / 2 % 2 = 1 := by omega
  rcases a with a | a <;> rcases b with b | b <;> rw [a, b] <;> rfl

/-- **C141** (name).  The name of a service whose first section has a known category is the one of the
output rule, unless the rule leaves out the number (or there is neither number nor line): then it ends
with a blank. -/
theorem C141_name_partial (nm : Names) (b : Built) (c : Line) (cat : Category) (a l : Line)
    (hc : Has (·.category) b 0 c) (hcat : nm.category c = some cat) (ha : Has (·.admin) b 0 a)
    (hl : Has (·.line) b 0 l)
    (hrule : cat.outputRule.testBit 1 = true ∨
      (cat.outputRule.testBit 0 = false ∧ (b.initialNum = 0 → l ≠ []))) :
    ∃ name, displayName nm b = some name ∧
      NameSpec cat (nm.provider a) b.initialNum (String.ofList l) name := by
  have hcat' : nameCategory nm b = some cat := by
    unfold nameCategory
    rcases hc with hc | ⟨hc, s, hs, hsc⟩
    · simp only at hc; rw [hc]; exact hcat
    · simp only at hc hsc
      rw [hc, List.head?_eq_getElem?, hs]
      simp only [hsc]
      exact hcat
  have ha' : nameAdmin b = some a := by
    unfold nameAdmin
    rcases ha with ha | ⟨ha, s, hs, hsa⟩
    · simp only at ha; rw [ha]
    · simp only at ha hsa
      rw [ha, List.head?_eq_getElem?, hs]
      exact hsa
  have hl' : nameLine b = l := by
    unfold nameLine
    rcases hl with hl | ⟨hl, s, hs, hsl⟩
    · simp only at hl; rw [hl]
    · simp only at hl hsl
      rw [hl, List.head?_eq_getElem?, hs]
      simp only [Option.bind_some, hsl, Option.getD_some]
  have hd : displayName nm b = some (nameOf cat (nm.provider a) b.initialNum (String.ofList l)) := by
    unfold displayName
    rw [hcat', ha', hl']
  refine ⟨_, hd, ?_⟩
  obtain ⟨r1, r2, r8, r3⟩ := isRule_bits cat
  unfold nameOf NameSpec
  simp only [r1, r2, r8, r3]
  rcases hrule with h1 | ⟨h0, hn⟩
  · refine ⟨_, _, rfl, rfl, ?_⟩
    rw [h1]
    cases h0 : cat.outputRule.testBit 0 with
    | true => exact Or.inl ⟨rfl, rfl⟩
    | false =>
      refine Or.inl ⟨rfl, ?_⟩
      simp
  · refine ⟨_, _, rfl, rfl, ?_⟩
    rw [h0]
    simp only [Bool.false_and, Bool.false_eq_true, if_false]
    generalize hf : (if cat.outputRule.testBit 1 = true then "" else
      if cat.outputRule.testBit 3 = true then nm.provider a else cat.name) = first
    have hsec : (if b.initialNum = 0 then String.ofList l else toString b.initialNum) ≠ "" := by
      split
      · rename_i hz
        intro he
        exact hn hz (by simpa using congrArg String.toList he)
      · intro he
        have := congrArg String.length he
        simp at this
    generalize hg : (if b.initialNum = 0 then String.ofList l else toString b.initialNum) = second at hsec
    unfold Joined
    by_cases hfe : first = ""
    · subst hfe
      exact Or.inl ⟨rfl, by simp⟩
    · have : first.isEmpty = false := by
        simpa using hfe
      rw [this]
      exact Or.inr (Or.inr ⟨hfe, hsec, by simp⟩)

end Nigiri.HrdParse
