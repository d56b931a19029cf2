import Verif.Props.Seated
/-!
# Properties C83 to C85: stay-seated transfers

Every run is covered, whoever may stay seated can do so, the call ends, times are sorted — for feeds whose
rules make sense (`Consistent`); what happens with others.
-/

namespace Nigiri.Seated
open Nigiri.Raptor (Adj adj_cons adj_append adj_map)

/-! ### The call ends -/

theorem le_sum : ∀ (l : List Nat) (x : Nat), x ∈ l → x ≤ l.sum
  | a :: l, x, h => by
    rw [List.sum_cons]
    rcases List.mem_cons.1 h with rfl | h
    · omega
    · have := le_sum l x h; omega

theorem sum_le {α : Type} {f : α → Nat} {b : Nat} : ∀ (l : List α), (∀ x ∈ l, f x ≤ b) → (l.map f).sum ≤ l.length * b
  | [], _ => by simp
  | a :: l, h => by
    have h1 := h a (by simp)
    have h2 := sum_le l (fun x hx => h x (List.mem_cons_of_mem _ hx))
    rw [List.map_cons, List.sum_cons, List.length_cons, Nat.add_mul]
    omega

theorem sum_lt {α : Type} {f g : α → Nat} : ∀ (l : List α), (∀ x ∈ l, f x ≤ g x) → (∃ x ∈ l, f x < g x) → (l.map f).sum < (l.map g).sum
  | [], _, h => by simp at h
  | a :: l, h, ⟨x, hx, hlt⟩ => by
    have h1 := h a (by simp)
    rw [List.map_cons, List.map_cons, List.sum_cons, List.sum_cons]
    rcases List.mem_cons.1 hx with rfl | hx
    · have : (l.map f).sum ≤ (l.map g).sum := by
        clear hlt hx h1
        induction l with
        | nil => simp
        | cons b l ih =>
          have h2 := h b (by simp)
          have := ih (fun y hy => h y (by
            rcases List.mem_cons.1 hy with hy | hy
            · simp [hy]
            · simp [hy]))
          simp only [List.map_cons, List.sum_cons]; omega
      omega
    · have := sum_lt l (fun y hy => h y (List.mem_cons_of_mem _ hy)) ⟨x, hx, hlt⟩
      omega

theorem countP_lt {p q : Nat → Bool} : ∀ (l : List Nat), (∀ x ∈ l, p x = true → q x = true) → (∃ x ∈ l, q x = true ∧ p x = false) →
    l.countP p < l.countP q
  | [], _, h => by simp at h
  | a :: l, h, ⟨x, hx, hq, hp⟩ => by
    rcases List.mem_cons.1 hx with rfl | hx
    · have := List.countP_mono_left (l := l) (p := p) (q := q) (fun y hy => h y (List.mem_cons_of_mem _ hy))
      rw [List.countP_cons_of_pos hq, List.countP_cons_of_neg (by simp [hp])]
      omega
    · have := countP_lt l (fun y hy => h y (List.mem_cons_of_mem _ hy)) ⟨x, hx, hq, hp⟩
      have h1 := h a (by simp)
      rw [List.countP_cons, List.countP_cons]
      by_cases hpa : p a = true
      · rw [if_pos hpa, if_pos (h1 hpa)]; omega
      · rw [if_neg hpa]; omega

/-- Upper bounds of rank and number of successors. -/
def maxRank (inp : Input) (rank : Nat → Nat) : Nat := ((List.range inp.vs.length).map fun i => rank (inp.var i).rule).sum
def maxOut (inp : Input) : Nat := ((List.range inp.vs.length).map fun i => (inp.sOut (inp.var i).rule).length).sum

theorem rank_le (inp : Input) (rank : Nat → Nat) {i : Nat} (hi : i < inp.vs.length) : rank (inp.var i).rule ≤ maxRank inp rank :=
  le_sum _ _ (List.mem_map.2 ⟨i, List.mem_range.2 hi, rfl⟩)

theorem out_le (inp : Input) {i : Nat} (hi : i < inp.vs.length) : (inp.sOut (inp.var i).rule).length ≤ maxOut inp :=
  le_sum _ _ (List.mem_map.2 ⟨i, List.mem_range.2 hi, rfl⟩)

/-- Bound of the work for one entry. -/
def size (inp : Input) (rank : Nat → Nat) (e : Entry) : Nat := (maxOut inp + 1) ^ (maxRank inp rank - rank e.last + 1)

theorem size_pos (inp : Input) (rank : Nat → Nat) (e : Entry) : 1 ≤ size inp rank e := Nat.pow_pos (by omega)

theorem next_size {inp : Input} {rank : Nat → Nat} (hac : ∀ i j, inp.Rule i j → rank (inp.var i).rule < rank (inp.var j).rule)
    {comp : List (Nat × Int)} (hlt : ∀ x ∈ comp, x.1 < inp.vs.length) {days : Bitfield} {e : Entry} {chain : List (Nat × Int)}
    (h : EOk inp comp days e chain) : ((e.next inp comp).map (size inp rank)).sum + 1 ≤ size inp rank e := by
  have hl := h.last
  obtain ⟨z, hz, hzr⟩ := Option.map_eq_some_iff.1 hl
  have hzm := hlt z (h.mem z (List.mem_of_getLast? hz))
  have hrk := rank_le inp rank hzm
  have hout := out_le inp hzm
  rw [hzr] at hrk hout
  have hlen : (e.next inp comp).length ≤ maxOut inp := by
    unfold Entry.next
    exact Nat.le_trans (List.length_filterMap_le _ _) hout
  have hkid : ∀ e' ∈ e.next inp comp, size inp rank e' ≤ (maxOut inp + 1) ^ (maxRank inp rank - rank e.last) := by
    intro e' he'
    obtain ⟨r, hr, x, hx, rfl⟩ := mem_next.1 he'
    obtain ⟨hxm, hxr⟩ := rep_mem hx
    have hrule := hac z.1 x.1 (rule_iff.2 ⟨hzm, hlt x hxm, by rw [hzr, hxr]; exact hr⟩)
    have := rank_le inp rank (hlt x hxm)
    rw [hzr] at hrule
    unfold size
    show (maxOut inp + 1) ^ (maxRank inp rank - rank (inp.var x.1).rule + 1) ≤ _
    exact Nat.pow_le_pow_right (by omega) (by omega)
  have h1 := sum_le _ hkid
  have h2 : (e.next inp comp).length * (maxOut inp + 1) ^ (maxRank inp rank - rank e.last) ≤
      maxOut inp * (maxOut inp + 1) ^ (maxRank inp rank - rank e.last) := Nat.mul_le_mul_right _ hlen
  have h3 : 1 ≤ (maxOut inp + 1) ^ (maxRank inp rank - rank e.last) := Nat.pow_pos (by omega)
  unfold size at *
  rw [Nat.pow_succ, Nat.mul_add, Nat.mul_one, Nat.mul_comm _ (maxOut inp)]
  omega

theorem dfs_ends {inp : Input} {rank : Nat → Nat} (hac : ∀ i j, inp.Rule i j → rank (inp.var i).rule < rank (inp.var j).rule)
    {comp : List (Nat × Int)} (hlt : ∀ x ∈ comp, x.1 < inp.vs.length) {days : Bitfield} : ∀ (n : Nat) (stack : List Entry),
    (∀ e ∈ stack, ∃ chain, EOk inp comp days e chain) → (stack.map (size inp rank)).sum ≤ n → ∃ out, dfs inp comp n stack = some out
  | n, [], _, _ => ⟨[], by cases n <;> rfl⟩
  | 0, e :: rest, _, h => by
    have := size_pos inp rank e
    simp only [List.map_cons, List.sum_cons] at h
    omega
  | n + 1, e :: rest, hok, h => by
    obtain ⟨chain, he⟩ := hok e (by simp)
    have hsz := next_size hac hlt he
    simp only [List.map_cons, List.sum_cons] at h
    unfold dfs
    by_cases hk : (e.next inp comp).isEmpty = true
    · rw [if_pos hk]
      obtain ⟨out, ho⟩ := dfs_ends (days := days) hac hlt n rest (fun x hx => hok x (List.mem_cons_of_mem _ hx)) (by omega)
      exact ⟨_, by rw [ho]; rfl⟩
    · rw [if_neg hk]
      refine dfs_ends (days := days) hac hlt n _ ?_ ?_
      · intro x hx
        rcases List.mem_append.1 hx with hx | hx
        · obtain ⟨r, hr, y, hy, rfl⟩ := mem_next.1 (List.mem_reverse.1 hx)
          exact ⟨_, eok_extend hlt he hr hy⟩
        · exact hok x (List.mem_cons_of_mem _ hx)
      · rw [List.map_append, List.sum_append, List.map_reverse, List.sum_reverse]
        omega

/-- Days left. -/
def left (inp : Input) (rem : Nat → Bitfield) : Nat :=
  ((List.range inp.vs.length).map fun i => (List.range kMaxDays).countP (rem i)).sum

theorem left_step {inp : Input} (hok : inp.Ok) {i : Nat} {st : St} (h : MInv inp (some i) st) (ch : Nat → Nat) {comp : List (Nat × Int)}
    (hp : comp.Perm (component inp st.rem ch i).comp) :
    left inp (comp.foldl (clear (component inp st.rem ch i).days) st).rem < left inp st.rem := by
  obtain ⟨hit, hroot⟩ := minv_iter hok h ch hp
  generalize (component inp st.rem ch i).days = days at *
  obtain ⟨d, hd⟩ := hit.some_day
  have hi := hit.lt _ hroot
  refine sum_lt _ ?_ ⟨i, List.mem_range.2 hi, ?_⟩
  · intro k _
    exact List.countP_mono_left fun d _ hd => ((clear_rem days comp st k d).1 hd).1
  · refine countP_lt _ (fun d _ hd => ((clear_rem days comp st i d).1 hd).1) ⟨d, List.mem_range.2 (hit.bounded d hd), ?_, ?_⟩
    · obtain ⟨e, he, hr⟩ := hit.runs _ hroot d hd
      have : e = d := by dsimp only at he; omega
      subst this; exact hr
    · refine Bool.eq_false_iff.2 fun hn => ?_
      have := ((clear_rem days comp st i d).1 hn).2 _ hroot rfl
      have hs : shift days (0 : Int) d = true := (shift_iff hit.bounded _ _).2 ⟨hit.bounded d hd, d, by omega, hd⟩
      rw [hs] at this; cases this

set_option maxRecDepth 8000 in
theorem mainLoop_ends {inp : Input} (hok : inp.Ok) {off : Nat → Int} {rank : Nat → Nat} (hcon : inp.Consistent off rank) {c : Nat → Choice}
    (hc : Fair c) : ∀ (n : Nat) (nxt : Option Nat) (st : St), MInv inp nxt st →
    left inp st.rem + inp.vs.length * (maxOut inp + 1) ^ (maxRank inp rank + 1) ≤ n → ∃ out, mainLoop inp c n nxt st = some out
  | n, none, _, _, _ => ⟨[], by cases n <;> rfl⟩
  | 0, some i, st, hI, h => by
    have := left_step hok hI id (List.Perm.refl (component inp st.rem id i).comp)
    omega
  | n + 1, some i, st, hI, h => by
    have hp := hc n (component inp st.rem (c n).ch i).comp
    have hms := minv_step hI (component inp st.rem (c n).ch i).days ((c n).ord (component inp st.rem (c n).ch i).comp)
    obtain ⟨hit, -⟩ := minv_iter hok hI (c n).ch hp
    have hdec := left_step hok hI (c n).ch hp
    unfold mainLoop
    dsimp only
    generalize hgc : (c n).ord (component inp st.rem (c n).ch i).comp = comp at *
    generalize hgd : (component inp st.rem (c n).ch i).days = days at *
    have hcl : comp.length ≤ inp.vs.length := by
      have := nodup_length (n := inp.vs.length) hit.nodup (by
        intro x hx; obtain ⟨y, hy, rfl⟩ := List.mem_map.1 hx; exact hit.lt y hy)
      simpa using this
    have hsl : (starts inp comp days).length ≤ inp.vs.length := by
      unfold starts; exact Nat.le_trans (List.length_filterMap_le _ _) hcl
    have hsum : ((starts inp comp days).reverse.map (size inp rank)).sum ≤ inp.vs.length * (maxOut inp + 1) ^ (maxRank inp rank + 1) := by
      rw [List.map_reverse, List.sum_reverse]
      refine Nat.le_trans (sum_le (b := (maxOut inp + 1) ^ (maxRank inp rank + 1)) _ ?_) (Nat.mul_le_mul_right _ hsl)
      intro e _
      exact Nat.pow_le_pow_right (by omega) (by omega)
    obtain ⟨o, ho⟩ := dfs_ends hcon.acyclic hit.lt n (starts inp comp days).reverse (fun e he => by
      obtain ⟨x, -, -, hx⟩ := eok_start (List.mem_reverse.1 he); exact ⟨_, hx⟩) (by omega)
    rw [ho]
    dsimp only
    obtain ⟨rest, hrest⟩ := mainLoop_ends hok hcon hc n _ _ hms (by omega)
    rw [hrest]
    exact ⟨_, rfl⟩

/-! ### The properties -/

/-- **C83 (ends).** For rules without circles the call ends. Missing in full generality: `C83_endless`. -/
theorem C83_ends_partial (inp : Input) (hok : inp.Ok) (off : Nat → Int) (rank : Nat → Nat) (hcon : inp.Consistent off rank) :
    ∃ bound, ∀ c, Fair c → ∀ fuel, bound ≤ fuel → ∃ out, build inp c fuel = some out :=
  ⟨_, fun _ hc fuel hf => mainLoop_ends hok hcon hc fuel _ _ (minv_init hok) hf⟩

theorem runs_var {inp : Input} {i : Nat} {d : Int} (h : inp.Runs i d) : i < inp.vs.length ∧ ∃ e : Nat, (e : Int) = d ∧ (inp.var i).days e = true := by
  obtain ⟨v, h1, e, h2, h3⟩ := h
  exact ⟨(List.getElem?_eq_some_iff.1 h1).1, e, h2, by rw [var_eq h1]; exact h3⟩

/-- **C83 (nothing is lost).** Every run of every trip is part of a transport. Missing in full generality:
`C83_circle_lost`, `C83_frequency`. -/
theorem C83_covered_partial (inp : Input) (hok : inp.Ok) (off : Nat → Int) (rank : Nat → Nat) (hcon : inp.Consistent off rank)
    (c : Nat → Choice) (hc : Fair c) (fuel : Nat) (out : List Transport) (h : build inp c fuel = some out) (i : Nat) (d : Int) (hr : inp.Runs i d) :
    ∃ t ∈ out, ∃ chain, Describes inp t chain ∧ ∃ o, (i, o) ∈ chain ∧ ∃ e : Nat, (e : Int) = d - o ∧ t.days e = true := by
  obtain ⟨hi, e, rfl, he⟩ := runs_var hr
  exact mainLoop_covered hok hcon hc fuel _ _ out (minv_init hok) h i e hi he

/-- **C83 (staying seated).** If trip `i` runs on day `d`, trip `j` `o` days later, there is a rule from `i` to
`j` and `j` starts within two hours after the end of `i`, a transport runs through `i` and then `j` on this
day. -/
theorem C83_joined_partial (inp : Input) (hok : inp.Ok) (off : Nat → Int) (rank : Nat → Nat) (hcon : inp.Consistent off rank)
    (c : Nat → Choice) (hc : Fair c) (fuel : Nat) (out : List Transport) (h : build inp c fuel = some out) (i j : Nat) (o d : Int)
    (hs : inp.Stay i j o) (hi : inp.Runs i d) (hj : inp.Runs j (d + o)) :
    ∃ t ∈ out, ∃ chain, Describes inp t chain ∧ ∃ pre post o', chain = pre ++ (i, o') :: (j, o' + o) :: post ∧
      ∃ e : Nat, (e : Int) = d - o' ∧ t.days e = true := by
  obtain ⟨-, e, rfl, he⟩ := runs_var hi
  obtain ⟨-, e', he', he''⟩ := runs_var hj
  exact mainLoop_joined hok hcon hc fuel _ _ out (minv_init hok) h i j o e e' hs he he' he''

/-- **C84.** The times of every transport are sorted, and the vehicle waits less than two hours between the
trips. Missing in full generality: `C84_unsorted`, `C83_frequency`. -/
theorem C84_times_partial (inp : Input) (hok : inp.Ok) (off : Nat → Int) (rank : Nat → Nat) (hcon : inp.Consistent off rank)
    (c : Nat → Choice) (hc : Fair c) (fuel : Nat) (out : List Transport) (h : build inp c fuel = some out) :
    ∀ t ∈ out, ∃ chain, Describes inp t chain ∧ Adj (fun x y => inp.Stay x.1 y.1 (y.2 - x.2)) chain ∧ t.times.Pairwise (· ≤ ·) :=
  mainLoop_times hok hcon hc fuel _ _ out (minv_init hok) h

/-! ### Stops -/

theorem joinStops_get (s : List Stop) (post : List (List Stop)) : ∀ (pre : List (List Stop)), (∀ x ∈ pre, x ≠ []) → s ≠ [] →
    ∀ k, (0 < k ∨ pre = []) → k < s.length →
    (joinStops (pre ++ s :: post))[(pre.map fun x => x.length - 1).sum + k]? = s[k]? := by
  intro pre hne hs k hk hks
  have key : ∀ (pre : List (List Stop)), (∀ x ∈ pre, x ≠ []) → ∀ k, 0 < k → k < s.length →
      (((pre ++ s :: post).map (·.drop 1)).flatten)[(pre.map fun x => x.length - 1).sum + k - 1]? = s[k]? := by
    intro pre
    induction pre with
    | nil =>
      intro _ k h1 h2
      simp only [List.nil_append, List.map_cons, List.flatten_cons, List.map_nil, List.sum_nil]
      rw [List.getElem?_append_left (by simp; omega), List.getElem?_drop]
      congr 1; omega
    | cons a pre ih =>
      intro hne k h1 h2
      have := ih (fun x hx => hne x (List.mem_cons_of_mem _ hx)) k h1 h2
      simp only [List.cons_append, List.map_cons, List.flatten_cons, List.sum_cons]
      rw [List.getElem?_append_right (by simp; omega), ← this]
      congr 1
      simp; omega
  cases pre with
  | nil =>
    simp only [List.nil_append, joinStops, List.map_nil, List.sum_nil]
    rw [List.getElem?_append_left (by omega)]
    congr 1; omega
  | cons a pre =>
    rcases hk with hk | hk
    · have hane : a ≠ [] := hne a (by simp)
      have hal : 0 < a.length := List.length_pos_iff.2 hane
      have := key pre (fun x hx => hne x (List.mem_cons_of_mem _ hx)) k hk hks
      simp only [List.cons_append, joinStops, List.map_cons, List.sum_cons]
      rw [List.getElem?_append_right (by omega), ← this]
      congr 1
      omega
    · cases hk

/-- **C85 (partial).** Every stop of a trip other than its first one — also the one where the next trip is
joined — is in the sequence of the transport with the trip's own location and permissions, behind the stops
of the trips before. What is missing: boarding at the first stop of a joined trip, see
`C85_boarding_lost`. -/
theorem C85_stops_partial (inp : Input) (hok : inp.Ok) (hst : ∀ v ∈ inp.vs, v.stops ≠ []) (c : Nat → Choice) (hc : Fair c) (fuel : Nat)
    (out : List Transport) (h : build inp c fuel = some out) :
    ∀ t ∈ out, ∃ chain, Describes inp t chain ∧ ∀ pre x post, chain = pre ++ x :: post → ∀ k, (0 < k ∨ pre = []) →
      k < (inp.var x.1).stops.length →
      t.stops[(pre.map fun y => (inp.var y.1).stops.length - 1).sum + k]? = (inp.var x.1).stops[k]? := by
  intro t ht
  obtain ⟨chain, hd⟩ := C82_sound inp hok c hc fuel out h t ht
  refine ⟨chain, hd, ?_⟩
  rintro pre x post rfl k hk hks
  obtain ⟨d, hday⟩ := hd.some_day
  have hlt : ∀ y ∈ pre ++ x :: post, y.1 < inp.vs.length := fun y hy => (runs_var (hd.days d hday y hy)).1
  have hv : ∀ y ∈ pre ++ x :: post, (inp.var y.1).stops ≠ [] := fun y hy => hst _ (List.mem_of_getElem? (var_get (hlt y hy)))
  rw [hd.stops, List.map_append, List.map_cons]
  have := joinStops_get (inp.var x.1).stops (post.map fun y => (inp.var y.1).stops) (pre.map fun y => (inp.var y.1).stops) (by
    intro z hz; obtain ⟨y, hy, rfl⟩ := List.mem_map.1 hz; exact hv y (by simp [hy])) (hv x (by simp)) k (by
    rcases hk with hk | hk
    · exact .inl hk
    · right; rw [hk]; rfl) hks
  rw [List.map_map] at this
  exact this

end Nigiri.Seated
