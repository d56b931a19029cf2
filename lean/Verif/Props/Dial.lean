import Verif.Proofs.Dial
/-!
# Property C07: the bucket queue is a priority queue
-/

namespace Nigiri.Dial
variable {α : Type}

/-- Specification: `PQ key evs content` - the event sequence `evs` is a legal history of an abstract
priority queue (a bag of elements) that ends with the bag `content` (a list up to permutation). -/
inductive PQ (key : α → Nat) : List (Ev α) → List α → Prop
  | init : PQ key [] []
  | push {evs bag} (x : α) : PQ key evs bag → PQ key (evs ++ [.pushed x]) (x :: bag)
  | take {evs bag bag'} (x : α) : PQ key evs bag → bag.Perm (x :: bag') →
      (∀ y ∈ bag, key x ≤ key y) → PQ key (evs ++ [.taken x]) bag'
  | clear {evs bag} : PQ key evs bag → PQ key (evs ++ [.cleared]) []
  | perm {evs bag bag'} : PQ key evs bag → bag.Perm bag' → PQ key evs bag'

/-- C07: every history of a client (whatever mixture of pushes - also below the cursor -, takes and
clears) that the queue executes is a legal priority-queue history, the final size is the number of
elements in the bag, and the stored elements are exactly the bag. -/
theorem C07_priority_queue (key : α → Nat) (n : Nat) (ops : List (Op α)) (evs : List (Ev α))
    (d : Dial α) (h : run key (ofBuckets n) ops = some (evs, d)) :
    ∃ bag, PQ key evs bag ∧ d.size = bag.length ∧ d.buckets.flatten.Perm bag := by
  have gen : ∀ (ops : List (Op α)) (d₀ : Dial α) (pre : List (Ev α)) (evs : List (Ev α)) (d : Dial α),
      Inv key d₀ → PQ key pre (contents d₀) → run key d₀ ops = some (evs, d) →
      Inv key d ∧ PQ key (pre ++ evs) (contents d) := by
    intro ops
    induction ops with
    | nil =>
      intro d₀ pre evs d hi hp hr
      simp only [run, Option.some.injEq, Prod.mk.injEq] at hr
      obtain ⟨rfl, rfl⟩ := hr
      simpa using ⟨hi, hp⟩
    | cons op ops ih =>
      intro d₀ pre evs d hi hp hr
      simp only [run] at hr
      split at hr
      · simp at hr
      · rename_i e d₁ hstep
        split at hr
        · simp at hr
        · rename_i es d₂ hrun
          simp only [Option.some.injEq, Prod.mk.injEq] at hr
          obtain ⟨rfl, rfl⟩ := hr
          have hmid : Inv key d₁ ∧ PQ key (pre ++ [e]) (contents d₁) := by
            cases op with
            | push el =>
              simp only [step, Option.map_eq_some_iff, Prod.mk.injEq] at hstep
              obtain ⟨d', hd', rfl, rfl⟩ := hstep
              have hlt : key el < d₀.nBuckets := by
                simp only [push] at hd'
                split at hd'
                · assumption
                · simp at hd'
              obtain ⟨d'', h1, h2, -, h4⟩ := push_spec hi el hlt
              rw [hd'] at h1
              obtain rfl := Option.some.inj h1
              exact ⟨h2, (PQ.push el hp).perm h4.symm⟩
            | take =>
              simp only [step, Option.map_eq_some_iff, Prod.mk.injEq] at hstep
              obtain ⟨⟨x, d'⟩, hd', rfl, rfl⟩ := hstep
              by_cases hne : contents d₀ = []
              · rw [take_empty hi hne] at hd'; simp at hd'
              · obtain ⟨x', d'', h1, h2, -, h4, h5⟩ := take_spec hi hne
                rw [hd'] at h1
                simp only [Option.some.injEq, Prod.mk.injEq] at h1
                obtain ⟨rfl, rfl⟩ := h1
                exact ⟨h2, PQ.take x hp h4 h5⟩
            | clear =>
              simp only [step, Option.some.injEq, Prod.mk.injEq] at hstep
              obtain ⟨rfl, rfl⟩ := hstep
              obtain ⟨h1, h2, -⟩ := clear_spec (bucketOf := key) (d := d₀)
              exact ⟨h1, by rw [h2]; exact PQ.clear hp⟩
          have := ih d₁ (pre ++ [e]) es d₂ hmid.1 hmid.2 hrun
          simpa using this
  obtain ⟨h1, h2⟩ := gen ops (ofBuckets n) [] evs d (inv_ofBuckets n)
    (by rw [contents_ofBuckets]; exact PQ.init) h
  exact ⟨contents d, by simpa using h2, h1.size_eq, List.Perm.refl _⟩

/-- C07: the queue never gets stuck: in every reachable state, a push to an existing bucket is
defined, and taking is defined iff the queue is not empty (`size() != 0`). -/
theorem C07_defined (key : α → Nat) (n : Nat) (ops : List (Op α)) (evs : List (Ev α))
    (d : Dial α) (h : run key (ofBuckets n) ops = some (evs, d)) :
    (∀ x, key x < n → (d.push key x).isSome = true) ∧ (d.take.isSome = true ↔ d.size ≠ 0) ∧
    (d.empty = true ↔ d.size = 0) := by
  have gen : ∀ (ops : List (Op α)) (d₀ : Dial α) (evs : List (Ev α)) (d : Dial α),
      Inv key d₀ → d₀.nBuckets = n → run key d₀ ops = some (evs, d) → Inv key d ∧ d.nBuckets = n := by
    intro ops
    induction ops with
    | nil =>
      intro d₀ evs d hi hn hr
      simp only [run, Option.some.injEq, Prod.mk.injEq] at hr
      obtain ⟨rfl, rfl⟩ := hr
      exact ⟨hi, hn⟩
    | cons op ops ih =>
      intro d₀ evs d hi hn hr
      simp only [run] at hr
      split at hr
      · simp at hr
      · rename_i e d₁ hstep
        split at hr
        · simp at hr
        · rename_i es d₂ hrun
          simp only [Option.some.injEq, Prod.mk.injEq] at hr
          obtain ⟨rfl, rfl⟩ := hr
          have hmid : Inv key d₁ ∧ d₁.nBuckets = n := by
            cases op with
            | push el =>
              simp only [step, Option.map_eq_some_iff, Prod.mk.injEq] at hstep
              obtain ⟨d', hd', rfl, rfl⟩ := hstep
              have hlt : key el < d₀.nBuckets := by
                simp only [push] at hd'
                split at hd'
                · assumption
                · simp at hd'
              obtain ⟨d'', h1, h2, h3, -⟩ := push_spec hi el hlt
              rw [hd'] at h1
              obtain rfl := Option.some.inj h1
              exact ⟨h2, h3.trans hn⟩
            | take =>
              simp only [step, Option.map_eq_some_iff, Prod.mk.injEq] at hstep
              obtain ⟨⟨x, d'⟩, hd', rfl, rfl⟩ := hstep
              by_cases hne : contents d₀ = []
              · rw [take_empty hi hne] at hd'; simp at hd'
              · obtain ⟨x', d'', h1, h2, h3, -, -⟩ := take_spec hi hne
                rw [hd'] at h1
                simp only [Option.some.injEq, Prod.mk.injEq] at h1
                obtain ⟨rfl, rfl⟩ := h1
                exact ⟨h2, h3.trans hn⟩
            | clear =>
              simp only [step, Option.some.injEq, Prod.mk.injEq] at hstep
              obtain ⟨rfl, rfl⟩ := hstep
              obtain ⟨h1, -, h3⟩ := clear_spec (bucketOf := key) (d := d₀)
              exact ⟨h1, h3.trans hn⟩
          exact ih d₁ es d₂ hmid.1 hmid.2 hrun
  obtain ⟨hi, hn⟩ := gen ops (ofBuckets n) evs d (inv_ofBuckets n) (by simp [ofBuckets, nBuckets]) h
  refine ⟨?_, ?_, by simp [empty]⟩
  · intro x hx
    obtain ⟨d', h1, -⟩ := push_spec hi x (by omega)
    rw [h1]; rfl
  · by_cases hne : contents d = []
    · rw [take_empty hi hne]
      have := hi.size_eq
      rw [hne] at this
      simp [this]
    · obtain ⟨x, d', h1, -⟩ := take_spec hi hne
      rw [h1]
      have := hi.size_eq
      have h0 : (contents d).length ≠ 0 := fun h => hne (List.length_eq_zero_iff.mp h)
      simp only [Option.isSome_some, true_iff]
      omega

/-- Non-vacuity: a history with a push below the cursor. -/
example : (run (fun x : Nat => x) (ofBuckets 10)
      [.push 7, .push 5, .take, .push 2, .push 7, .take, .take]).map (fun r => (r.1.filterMap (fun
        | .taken x => some x | _ => none), r.2.size)) = some ([5, 2, 7], 1) := by decide

end Nigiri.Dial
