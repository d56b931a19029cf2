import Verif.Model.GpuKernel
/-!
# Reasoning about kernels (proofs)
-/

namespace Nigiri.Gpu

theorem Word.min_t_le_left (a b : Word) : (a.min b).t ≤ a.t := by
  unfold Word.min; split
  · rename_i h; unfold Word.le at h; omega
  · omega

theorem Word.min_t_le_right (a b : Word) : (a.min b).t ≤ b.t := by
  unfold Word.min; split
  · omega
  · rename_i h; unfold Word.le at h; omega

theorem Word.min_cases (a b : Word) : a.min b = a ∨ a.min b = b := by
  unfold Word.min; split <;> simp

/-- `m'` is a later memory: values are lower, marks are kept. -/
structure Later (m m' : Mem) : Prop where
  val : ∀ a, (m'.val a).t ≤ (m.val a).t
  mark : ∀ l, m.mark l = true → m'.mark l = true

theorem Later.refl (m : Mem) : Later m m := ⟨fun _ => Int.le_refl _, fun _ h => h⟩

theorem Later.trans {a b c : Mem} (h1 : Later a b) (h2 : Later b c) : Later a c :=
  ⟨fun x => Int.le_trans (h2.val x) (h1.val x), fun l h => h2.mark l (h1.mark l h)⟩

theorem later_amin (m : Mem) (a : Addr) (w : Word) : Later m (m.amin a w) := by
  refine ⟨?_, fun _ h => h⟩
  intro b
  simp only [Mem.amin]
  split
  · rename_i h; subst h; exact Word.min_t_le_left _ _
  · exact Int.le_refl _

theorem later_mark (m : Mem) (l : Loc) : Later m (m.setMark l) := by
  refine ⟨fun _ => Int.le_refl _, ?_⟩
  intro l' h
  simp only [Mem.setMark]; split
  · rfl
  · exact h

theorem amin_same (m : Mem) (a : Addr) (w : Word) : ((m.amin a w).val a).t ≤ w.t := by
  simp only [Mem.amin, if_true]; exact Word.min_t_le_right _ _

theorem Exec.later {m0 : Mem} {ps : List Prog} {m m' : Mem} (h : Exec m0 ps m m') : Later m m' := by
  induction h with
  | done _ => exact .refl _
  | read _ _ _ _ _ _ ih => exact ih
  | amin _ _ _ ih => exact (later_amin _ _ _).trans ih
  | mark _ _ _ ih => exact (later_mark _ _).trans ih

/-- A property of memories that later memories keep. -/
def Stable (Q : Mem → Prop) : Prop := ∀ m m', Later m m' → Q m → Q m'

/-- Running `p` to its end, together with any other threads, from memory `m` on, establishes `Q`. -/
def Will (m0 : Mem) (Q : Mem → Prop) : Prog → Mem → Prop
  | .ret, m => Q m
  | .read a k, m => ∀ m' v, Later m m' → (m'.val a).t ≤ v → v ≤ (m0.val a).t → Will m0 Q (k v) m'
  | .amin a w k, m => ∀ m', Later m m' → Will m0 Q k (m'.amin a w)
  | .mark l k, m => ∀ m', Later m m' → Will m0 Q k (m'.setMark l)

theorem Will.later {m0 : Mem} {Q : Mem → Prop} (hQ : Stable Q) {p : Prog} {m m' : Mem} (h : Will m0 Q p m) (hl : Later m m') :
    Will m0 Q p m' := by
  cases p with
  | ret => exact hQ _ _ hl h
  | read a k => intro m'' v h1; exact h m'' v (hl.trans h1)
  | amin a w k => intro m'' h1; exact h m'' (hl.trans h1)
  | mark l k => intro m'' h1; exact h m'' (hl.trans h1)

/-- What already holds will hold. -/
theorem will_of {m0 : Mem} {Q : Mem → Prop} (hQ : Stable Q) (p : Prog) : ∀ m, Q m → Will m0 Q p m := by
  induction p with
  | ret => intro m h; exact h
  | read a k ih => intro m h m' v h1 _ _; exact ih v m' (hQ _ _ h1 h)
  | amin a w k ih => intro m h m' h1; exact ih _ (hQ _ _ (h1.trans (later_amin _ _ _)) h)
  | mark l k ih => intro m h m' h1; exact ih _ (hQ _ _ (h1.trans (later_mark _ _)) h)

theorem Will.mono {m0 : Mem} {Q R : Mem → Prop} (hQR : ∀ m, Q m → R m) (p : Prog) : ∀ m, Will m0 Q p m → Will m0 R p m := by
  induction p with
  | ret => intro m h; exact hQR m h
  | read a k ih => intro m h m' v h1 h2 h3; exact ih v m' (h m' v h1 h2 h3)
  | amin a w k ih => intro m h m' h1; exact ih _ (h m' h1)
  | mark l k ih => intro m h m' h1; exact ih _ (h m' h1)

theorem get_set_self {α : Type} {l : List α} {i : Nat} {a b : α} (h : l[i]? = some a) : (l.set i b)[i]? = some b := by
  have : i < l.length := (List.getElem?_eq_some_iff.mp h).1
  simp [this]

theorem get_set_ne {α : Type} {l : List α} {i j : Nat} {b : α} (h : i ≠ j) : (l.set i b)[j]? = l[j]? := by
  rw [List.getElem?_set]; simp [h]

/-- A thread that will establish a stable property does so, whatever the schedule. -/
theorem Exec.will {m0 : Mem} {Q : Mem → Prop} (hQ : Stable Q) {ps : List Prog} {m m' : Mem} (h : Exec m0 ps m m') (j : Nat) (p : Prog)
    (hj : ps[j]? = some p) (hw : Will m0 Q p m) : Q m' := by
  induction h generalizing p with
  | done hret =>
    have := hret p (List.mem_of_getElem? hj)
    subst this; exact hw
  | read i v hi h1 h2 _ ih =>
    by_cases hij : i = j
    · subst hij
      rw [hi] at hj; cases hj
      exact ih _ (get_set_self hi) (hw _ v (.refl _) h1 h2)
    · exact ih _ (by rw [get_set_ne hij]; exact hj) hw
  | amin i hi _ ih =>
    by_cases hij : i = j
    · subst hij
      rw [hi] at hj; cases hj
      exact ih _ (get_set_self hi) (hw _ (.refl _))
    · exact ih _ (by rw [get_set_ne hij]; exact hj) (hw.later hQ (later_amin _ _ _))
  | mark i hi _ ih =>
    by_cases hij : i = j
    · subst hij
      rw [hi] at hj; cases hj
      exact ih _ (get_set_self hi) (hw _ (.refl _))
    · exact ih _ (by rw [get_set_ne hij]; exact hj) (hw.later hQ (later_mark _ _))

/-- Every write of `w` to `a` in `p` will, when the kernel ends, satisfy `W a w`; every mark set, `M`. -/
def Prov (m0 : Mem) (W : Addr → Word → Mem → Prop) (M : Loc → Mem → Prop) : Prog → Mem → Prop
  | .ret, _ => True
  | .read a k, m => ∀ m' v, Later m m' → (m'.val a).t ≤ v → v ≤ (m0.val a).t → Prov m0 W M (k v) m'
  | .amin a w k, m => ∀ m', Later m m' → Will m0 (W a w) k (m'.amin a w) ∧ Prov m0 W M k (m'.amin a w)
  | .mark l k, m => ∀ m', Later m m' → Will m0 (M l) k (m'.setMark l) ∧ Prov m0 W M k (m'.setMark l)

theorem Prov.later {m0 : Mem} {W : Addr → Word → Mem → Prop} {M : Loc → Mem → Prop} {p : Prog} {m m' : Mem} (h : Prov m0 W M p m)
    (hl : Later m m') : Prov m0 W M p m' := by
  cases p with
  | ret => trivial
  | read a k => intro m'' v h1; exact h m'' v (hl.trans h1)
  | amin a w k => intro m'' h1; exact h m'' (hl.trans h1)
  | mark l k => intro m'' h1; exact h m'' (hl.trans h1)

/-- The provenance of final values and marks. -/
theorem Exec.prov_aux {m0 : Mem} {W : Addr → Word → Mem → Prop} {M : Loc → Mem → Prop} (hW : ∀ a w, Stable (W a w)) (hM : ∀ l, Stable (M l))
    {ps : List Prog} {m m' : Mem} (h : Exec m0 ps m m') (c : Addr → Word) (cm : Loc → Bool)
    (hp : ∀ (j : Nat) p, ps[j]? = some p → Prov m0 W M p m)
    (hv : ∀ a, m.val a = c a ∨ ∃ (j : Nat) (p : Prog), ps[j]? = some p ∧ Will m0 (W a (m.val a)) p m)
    (hm : ∀ l, m.mark l = true → cm l = true ∨ ∃ (j : Nat) (p : Prog), ps[j]? = some p ∧ Will m0 (M l) p m) :
    (∀ a, m'.val a = c a ∨ W a (m'.val a) m') ∧ (∀ l, m'.mark l = true → cm l = true ∨ M l m') := by
  induction h with
  | done hret =>
    constructor
    · intro a
      rcases hv a with h | ⟨j, p, hj, hw⟩
      · exact Or.inl h
      · have := hret p (List.mem_of_getElem? hj)
        subst this; exact Or.inr hw
    · intro l hl
      rcases hm l hl with h | ⟨j, p, hj, hw⟩
      · exact Or.inl h
      · have := hret p (List.mem_of_getElem? hj)
        subst this; exact Or.inr hw
  | @read ps m m' i a k v hi h1 h2 _ ih =>
    have keep : ∀ (Q : Mem → Prop), (∃ (j : Nat) (p : Prog), ps[j]? = some p ∧ Will m0 Q p m) →
        ∃ (j : Nat) (p : Prog), (ps.set i (k v))[j]? = some p ∧ Will m0 Q p m := by
      rintro Q ⟨j, p, hj, hw⟩
      by_cases hij : i = j
      · subst hij
        rw [hi] at hj; cases hj
        exact ⟨i, _, get_set_self hi, hw _ v (.refl _) h1 h2⟩
      · exact ⟨j, p, by rw [get_set_ne hij]; exact hj, hw⟩
    apply ih
    · intro j p hj
      by_cases hij : i = j
      · subst hij
        rw [get_set_self hi] at hj; cases hj
        exact hp i _ hi _ v (.refl _) h1 h2
      · rw [get_set_ne hij] at hj; exact hp j p hj
    · intro b
      exact (hv b).imp id (keep _)
    · intro l hl
      exact (hm l hl).imp id (keep _)
  | @amin ps m m' i a w k hi _ ih =>
    have keep : ∀ (Q : Mem → Prop), Stable Q → (∃ (j : Nat) (p : Prog), ps[j]? = some p ∧ Will m0 Q p m) →
        ∃ (j : Nat) (p : Prog), (ps.set i k)[j]? = some p ∧ Will m0 Q p (m.amin a w) := by
      rintro Q hQ ⟨j, p, hj, hw⟩
      by_cases hij : i = j
      · subst hij
        rw [hi] at hj; cases hj
        exact ⟨i, _, get_set_self hi, hw _ (.refl _)⟩
      · exact ⟨j, p, by rw [get_set_ne hij]; exact hj, hw.later hQ (later_amin _ _ _)⟩
    apply ih
    · intro j p hj
      by_cases hij : i = j
      · subst hij
        rw [get_set_self hi] at hj; cases hj
        exact (hp i _ hi _ (.refl _)).2
      · rw [get_set_ne hij] at hj; exact (hp j p hj).later (later_amin _ _ _)
    · intro b
      by_cases hba : b = a
      · subst hba
        have e : (m.amin b w).val b = (m.val b).min w := by simp [Mem.amin]
        rw [e]
        rcases Word.min_cases (m.val b) w with h | h
        · rw [h]; exact (hv b).imp id (keep _ (hW _ _))
        · rw [h]; exact Or.inr ⟨i, _, get_set_self hi, (hp i _ hi _ (.refl _)).1⟩
      · have e : (m.amin a w).val b = m.val b := by simp [Mem.amin, hba]
        rw [e]; exact (hv b).imp id (keep _ (hW _ _))
    · intro l hl
      exact (hm l hl).imp id (keep _ (hM _))
  | @mark ps m m' i l k hi _ ih =>
    have keep : ∀ (Q : Mem → Prop), Stable Q → (∃ (j : Nat) (p : Prog), ps[j]? = some p ∧ Will m0 Q p m) →
        ∃ (j : Nat) (p : Prog), (ps.set i k)[j]? = some p ∧ Will m0 Q p (m.setMark l) := by
      rintro Q hQ ⟨j, p, hj, hw⟩
      by_cases hij : i = j
      · subst hij
        rw [hi] at hj; cases hj
        exact ⟨i, _, get_set_self hi, hw _ (.refl _)⟩
      · exact ⟨j, p, by rw [get_set_ne hij]; exact hj, hw.later hQ (later_mark _ _)⟩
    apply ih
    · intro j p hj
      by_cases hij : i = j
      · subst hij
        rw [get_set_self hi] at hj; cases hj
        exact (hp i _ hi _ (.refl _)).2
      · rw [get_set_ne hij] at hj; exact (hp j p hj).later (later_mark _ _)
    · intro b
      exact (hv b).imp id (keep _ (hW _ _))
    · intro l' hl
      by_cases he : l' = l
      · subst he
        exact Or.inr ⟨i, _, get_set_self hi, (hp i _ hi _ (.refl _)).1⟩
      · have : m.mark l' = true := by simpa [Mem.setMark, he] using hl
        exact (hm l' this).imp id (keep _ (hM _))

/-- Values and marks left by a kernel are the old ones or were written by one of its threads. -/
theorem Kernel.prov {W : Addr → Word → Mem → Prop} {M : Loc → Mem → Prop} (hW : ∀ a w, Stable (W a w)) (hM : ∀ l, Stable (M l))
    {ps : List Prog} {m m' : Mem} (h : Kernel ps m m') (hp : ∀ p ∈ ps, Prov m W M p m) :
    (∀ a, m'.val a = m.val a ∨ W a (m'.val a) m') ∧ (∀ l, m'.mark l = true → m.mark l = true ∨ M l m') :=
  Exec.prov_aux hW hM h m.val m.mark (fun _ _ hj => hp _ (List.mem_of_getElem? hj)) (fun _ => Or.inl rfl) (fun _ h => Or.inl h)

/-- Every thread of a kernel gets done what it will do. -/
theorem Kernel.hit {Q : Mem → Prop} (hQ : Stable Q) {ps : List Prog} {m m' : Mem} (h : Kernel ps m m') {p : Prog} (hp : p ∈ ps)
    (hw : Will m Q p m) : Q m' := by
  obtain ⟨j, hj⟩ := List.getElem?_of_mem hp
  exact Exec.will hQ h j p hj hw

theorem Kernel.later {ps : List Prog} {m m' : Mem} (h : Kernel ps m m') : Later m m' := Exec.later h

/-- Every thread can finish. -/
theorem exec_thread (m0 : Mem) (p : Prog) : ∀ (ps : List Prog) (i : Nat) (m : Mem), ps[i]? = some p → Later m0 m →
    ∃ m1, Later m0 m1 ∧ ∀ m', Exec m0 (ps.set i .ret) m1 m' → Exec m0 ps m m' := by
  induction p with
  | ret =>
    intro ps i m hi hl
    refine ⟨m, hl, ?_⟩
    intro m' h
    rwa [show ps.set i .ret = ps from by
      apply List.ext_getElem?
      intro j
      by_cases hij : i = j
      · subst hij; rw [get_set_self hi, hi]
      · rw [get_set_ne hij]] at h
  | read a k ih =>
    intro ps i m hi hl
    obtain ⟨m1, h1, h2⟩ := ih (m.val a).t (ps.set i (k (m.val a).t)) i m (get_set_self hi) hl
    refine ⟨m1, h1, fun m' h => .read i _ hi (Int.le_refl _) (hl.val a) (h2 m' (by rwa [List.set_set]))⟩
  | amin a w k ih =>
    intro ps i m hi hl
    obtain ⟨m1, h1, h2⟩ := ih (ps.set i k) i (m.amin a w) (get_set_self hi) (hl.trans (later_amin _ _ _))
    exact ⟨m1, h1, fun m' h => .amin i hi (h2 m' (by rwa [List.set_set]))⟩
  | mark l k ih =>
    intro ps i m hi hl
    obtain ⟨m1, h1, h2⟩ := ih (ps.set i k) i (m.setMark l) (get_set_self hi) (hl.trans (later_mark _ _))
    exact ⟨m1, h1, fun m' h => .mark i hi (h2 m' (by rwa [List.set_set]))⟩

/-- Every kernel has an execution. -/
theorem kernel_exists (ps : List Prog) (m : Mem) : ∃ m', Kernel ps m m' := by
  suffices H : ∀ (n : Nat) (qs : List Prog) (m1 : Mem), qs.length = ps.length → n ≤ ps.length → Later m m1 →
      (∀ (j : Nat) (p : Prog), n ≤ j → qs[j]? = some p → p = .ret) → ∃ m', Exec m qs m1 m' by
    exact H ps.length ps m rfl (Nat.le_refl _) (.refl _) (by
      intro j p hj hp
      rw [List.getElem?_eq_none hj] at hp; cases hp)
  intro n
  induction n with
  | zero =>
    intro qs m1 _ _ _ hr
    refine ⟨m1, .done ?_⟩
    intro p hp
    obtain ⟨j, hj⟩ := List.getElem?_of_mem hp
    exact hr j p (Nat.zero_le _) hj
  | succ n ih =>
    intro qs m1 hlen hn hl hr
    have hlt : n < qs.length := by omega
    have hget : qs[n]? = some qs[n] := List.getElem?_eq_getElem hlt
    obtain ⟨m2, h1, h2⟩ := exec_thread m qs[n] qs n m1 hget hl
    obtain ⟨m', h3⟩ := ih (qs.set n .ret) m2 (by simpa using hlen) (by omega) h1 (by
      intro j p hj hp
      by_cases hjn : n = j
      · subst hjn; rw [get_set_self hget] at hp; cases hp; rfl
      · rw [get_set_ne hjn] at hp; exact hr j p (by omega) hp)
    exact ⟨m', h2 m' h3⟩

end Nigiri.Gpu
