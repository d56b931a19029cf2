import Verif.Spec.Importance
/-!
# C144: importance of locations
-/

namespace Nigiri.Importance

theorem weight_prio (c : Nat) (h : c < 16) : prio c = weight c := by
  have : ∀ c, c < 16 → prio c = weight c := by decide
  exact this c h

/-- The sum over the classes below `n`. -/
theorem foldl_classes (f : Nat → Nat) (l : List Nat) (v : Nat) :
    l.foldl (fun v c => v + f c) v = v + (l.map f).sum := by
  induction l generalizing v with
  | nil => simp
  | cons a l ih => rw [List.foldl_cons, ih, List.map_cons, List.sum_cons]; omega

theorem sum_bump (cs : Nat → Nat) (c n : Nat) (m : Nat) :
    ((List.range m).map fun x => prio x * bump cs c n x).sum =
      ((List.range m).map fun x => prio x * cs x).sum + (if c < m then prio c * n else 0) := by
  induction m with
  | zero => simp
  | succ m ih =>
    rw [List.range_succ, List.map_append, List.map_append, List.sum_append, List.sum_append, ih]
    simp only [List.map_cons, List.map_nil, List.sum_cons, List.sum_nil, bump]
    by_cases hm : m = c
    · subst hm
      rw [if_pos rfl, if_neg (Nat.lt_irrefl m), if_pos (Nat.lt_succ_self m), Nat.mul_add]
      omega
    · rw [if_neg hm]
      by_cases hc : c < m
      · rw [if_pos hc, if_pos (by omega)]; omega
      · rw [if_neg hc, if_neg (by omega)]; omega

def total (cs : Nat → Nat) : Nat := ((List.range 16).map fun x => prio x * cs x).sum

theorem total_transports (days : Nat → Nat) (c : Nat) (hc : c < 16) (ts : List Nat) (cs : Nat → Nat) :
    total (ts.foldl (fun cs t => bump cs c (days t)) cs) = total cs + (ts.map fun t => weight c * days t).sum := by
  induction ts generalizing cs with
  | nil => simp
  | cons t ts ih =>
    rw [List.foldl_cons, ih, List.map_cons, List.sum_cons]
    have := sum_bump cs c (days t) 16
    unfold total at *
    rw [this, if_pos hc, weight_prio c hc]
    omega

theorem addClasses_counts (x : Input) (hc : ∀ r, x.clasz r < 16) (l v : Nat) :
    addClasses (counts x l) v = v + own x l := by
  unfold addClasses
  rw [foldl_classes]
  show v + total (counts x l) = _
  have key : ∀ (rs : List Nat) (cs : Nat → Nat),
      total (rs.foldl (fun cs r => (x.transports r).foldl (fun cs t => bump cs (x.clasz r) (x.days t)) cs) cs) =
        total cs + (rs.map fun r => ((x.transports r).map fun t => weight (x.clasz r) * x.days t).sum).sum := by
    intro rs
    induction rs with
    | nil => intro cs; simp
    | cons r rs ih =>
      intro cs
      rw [List.foldl_cons, ih, List.map_cons, List.sum_cons, total_transports x.days _ (hc r)]
      omega
  unfold counts own
  rw [key]
  have h0 : total (fun _ => 0) = 0 := by decide
  rw [h0]
  omega

/-- What holds after the locations `l`. -/
def Inv (x : Input) (ls : List Nat) (st : (Nat → Nat) × Nat) : Prop :=
  (∀ g, st.1 g = ((ls.filter fun l => decide ((x.parent l).getD l = g)).map (own x)).sum) ∧
  (∀ g, st.1 g ≤ st.2) ∧ (st.2 = 0 ∨ ∃ l ∈ ls, st.2 = st.1 ((x.parent l).getD l))

theorem inv_step (x : Input) (hc : ∀ r, x.clasz r < 16) (ls : List Nat) (st : (Nat → Nat) × Nat) (l : Nat)
    (h : Inv x ls st) : Inv x (ls ++ [l]) (step x st l) := by
  obtain ⟨h1, h2, h3⟩ := h
  have hv := addClasses_counts x hc l (st.1 ((x.parent l).getD l))
  unfold step
  simp only [hv]
  refine ⟨?_, ?_, ?_⟩
  · intro g
    simp only [List.filter_append, List.map_append, List.sum_append, ← h1 g]
    by_cases hg : g = (x.parent l).getD l
    · rw [if_pos hg, List.filter_cons_of_pos (by simp [hg]), ← hg]; simp
    · rw [if_neg hg, List.filter_cons_of_neg (by simp; exact fun e => hg e.symm)]; simp
  · intro g
    simp only
    have := h2 g
    split <;> omega
  · simp only
    rcases Nat.le_total st.2 (st.1 ((x.parent l).getD l) + own x l) with hle | hle
    · right
      refine ⟨l, by simp, ?_⟩
      rw [if_pos rfl]
      exact Nat.max_eq_right hle
    · rw [Nat.max_eq_left hle]
      rcases h3 with h3 | ⟨m, hm, h3⟩
      · exact Or.inl h3
      · right
        refine ⟨m, by simp [hm], ?_⟩
        by_cases hg : (x.parent m).getD m = (x.parent l).getD l
        · rw [if_pos hg, h3, hg]
          have := h2 ((x.parent l).getD l)
          rw [h3, hg] at hle
          omega
        · rw [if_neg hg]; exact h3

theorem inv_assign (x : Input) (hc : ∀ r, x.clasz r < 16) : Inv x (List.range x.nLoc) (assign x) := by
  unfold assign
  have key : ∀ (ls pre : List Nat) (st : (Nat → Nat) × Nat), Inv x pre st → Inv x (pre ++ ls) (ls.foldl (step x) st) := by
    intro ls
    induction ls with
    | nil => intro pre st h; simpa using h
    | cons l ls ih =>
      intro pre st h
      rw [List.foldl_cons]
      have := ih (pre ++ [l]) _ (inv_step x hc pre st l h)
      simpa using this
  have := key (List.range x.nLoc) [] (fun _ => 0, 0) ⟨fun g => rfl, fun g => Nat.le_refl _, Or.inl rfl⟩
  simpa using this

theorem countsFor_iff (x : Input) (l g : Nat) : CountsFor x l g ↔ (x.parent l).getD l = g := by
  unfold CountsFor
  cases x.parent l with
  | none => simp [eq_comm]
  | some p => simp

/-- **C144** (importance).  The importance of every location is the sum, over the locations that count for
it, of the weighted numbers of departures: vehicles times traffic days. -/
theorem C144_importance (x : Input) (hc : ∀ r, x.clasz r < 16) (g : Nat) : Importance x g ((assign x).1 g) := by
  intro p hp
  rw [(inv_assign x hc).1 g]
  congr 2
  refine List.filter_congr fun l _ => ?_
  rw [Bool.eq_iff_iff, decide_eq_true_eq, hp, countsFor_iff]

/-- **C144** (maximum).  `max_importance_`, by which importances are divided, is the largest of them: no
location has more, and one has as much. -/
theorem C144_max (x : Input) (hc : ∀ r, x.clasz r < 16) :
    (∀ g, (assign x).1 g ≤ (assign x).2) ∧ ((assign x).2 = 0 ∨ ∃ l, l < x.nLoc ∧ ∃ g, CountsFor x l g ∧ (assign x).2 = (assign x).1 g) := by
  obtain ⟨_, h2, h3⟩ := inv_assign x hc
  refine ⟨h2, h3.imp id ?_⟩
  rintro ⟨l, hl, h⟩
  exact ⟨l, List.mem_range.1 hl, _, (countsFor_iff x l _).2 rfl, h⟩

/-- **C144** (a station without own departures).  A location that has a parent has importance 0, unless
it is itself a parent. -/
theorem C144_child (x : Input) (hc : ∀ r, x.clasz r < 16) (g : Nat) (h : ∀ l, l < x.nLoc → ¬ CountsFor x l g) :
    (assign x).1 g = 0 := by
  rw [(inv_assign x hc).1 g, List.filter_eq_nil_iff.2]
  · rfl
  · intro l hl hd
    exact h l (List.mem_range.1 hl) ((countsFor_iff x l g).2 (of_decide_eq_true hd))

/-! ## Examples -/

/-- Station 0 with the tracks 1 and 2; a train on 365 days stops at track 1, a bus (ten vehicles on 5 days)
at track 2, a cable car (class 13) on 300 days at stop 3. -/
def ex : Input :=
  { nLoc := 4, parent := fun l => if l = 1 ∨ l = 2 then some 0 else none
    routes := fun l => if l = 0 then [] else [l]
    clasz := fun r => if r = 1 then 1 else if r = 2 then 10 else 13
    transports := fun r => if r = 1 then [0] else if r = 2 then [1, 2] else [3]
    days := fun t => if t = 0 then 365 else if t = 3 then 300 else 5 }

theorem ex_clasz : ∀ r, ex.clasz r < 16 := by intro r; simp only [ex]; split; omega; split <;> omega

example : Importance ex 0 ((assign ex).1 0) ∧ (assign ex).1 0 = 7320 := ⟨C144_importance ex ex_clasz 0, by decide +kernel⟩
example : (assign ex).1 1 = 0 := C144_child ex ex_clasz 1 (by
  intro l hl h
  have h := (countsFor_iff ex l 1).1 h
  have : ∀ l, l < 4 → (ex.parent l).getD l ≠ 1 := by decide
  exact this l hl h)
example : (assign ex).2 = 7320 := by decide +kernel

/-- The table of the code has 13 entries, written for a former list of classes ("RegionalFast" at place 5,
"Other" at place 12): a stop at which a vehicle of class kOther or an aerial lift departs on 300 days has no
importance, one where a shared ride is offered on the same days has 4800. -/
theorem C144_other_false : (assign ex).1 3 = 0 ∧
    (assign { ex with clasz := fun _ => 15 }).1 3 = 0 ∧ (assign { ex with clasz := fun _ => 5 }).1 3 = 4800 := by
  decide +kernel

end Nigiri.Importance
