import Verif.Props.SeatedEnd
/-!
# Stay-seated transfers: a feed that meets the hypotheses, and feeds that show what is missing
-/

namespace Nigiri.Seated

/-- First element first, order of insertion. -/
def plain : Nat → Choice := fun _ => ⟨fun _ => 0, id⟩

theorem plain_fair : Fair plain := fun _ _ => List.Perm.refl _

def on (ds : List Nat) : Bitfield := fun d => decide (d ∈ ds)

/-- Rules given as pairs. -/
def outOf (rules : List (Nat × Nat)) (a : Nat) : List Nat := (rules.filter fun r => decide (r.1 = a)).map (·.2)
def into (rules : List (Nat × Nat)) (b : Nat) : List Nat := (rules.filter fun r => decide (r.2 = b)).map (·.1)

theorem outOf_into (rules : List (Nat × Nat)) (a b : Nat) : b ∈ outOf rules a ↔ a ∈ into rules b := by
  unfold outOf into
  simp only [List.mem_map, List.mem_filter, decide_eq_true_eq]
  constructor
  · rintro ⟨⟨x, y⟩, ⟨h, h1⟩, h2⟩; exact ⟨(x, y), ⟨h, h2⟩, h1⟩
  · rintro ⟨⟨x, y⟩, ⟨h, h1⟩, h2⟩; exact ⟨(x, y), ⟨h, h2⟩, h1⟩

def feed (rules : List (Nat × Nat)) (vs : List Variant) : Input := ⟨into rules, outOf rules, vs⟩

/-- `A` 22:00–23:50 on days 1 and 2, then `B` 00:10–01:00 or `C` 00:20–01:30 on the next day; `B` runs on day
2, `C` on days 2 and 3. -/
def demo : Input := feed [(0, 1), (0, 2)]
  [⟨0, 100, [1320, 1430], [⟨1, true, true⟩, ⟨2, true, true⟩], on [1, 2]⟩,
   ⟨1, 101, [10, 60], [⟨2, true, true⟩, ⟨3, true, true⟩], on [2]⟩,
   ⟨2, 102, [20, 90], [⟨2, true, true⟩, ⟨4, true, true⟩], on [2, 3]⟩]

def demoOff : Nat → Int := fun i => if i = 0 then 0 else 1

theorem get3 {α : Type} {a b c v : α} {i : Nat} (h : [a, b, c][i]? = some v) : (i = 0 ∧ v = a) ∨ (i = 1 ∧ v = b) ∨ (i = 2 ∧ v = c) := by
  match i, h with
  | 0, h => left; exact ⟨rfl, (Option.some.inj h).symm⟩
  | 1, h => right; left; exact ⟨rfl, (Option.some.inj h).symm⟩
  | 2, h => right; right; exact ⟨rfl, (Option.some.inj h).symm⟩

theorem on_iff {ds : List Nat} {d : Nat} : on ds d = true ↔ d ∈ ds := by simp [on]

theorem C83_demo_ok : demo.Ok where
  mirror := fun a b => outOf_into _ a b
  bounded := by
    intro v hv d hd
    simp only [demo, feed, List.mem_cons, List.not_mem_nil, or_false] at hv
    rcases hv with rfl | rfl | rfl <;> simp only [on_iff, List.mem_cons, List.not_mem_nil, or_false] at hd <;> unfold kMaxDays <;> omega
  nonempty := by
    intro v hv
    simp only [demo, feed, List.mem_cons, List.not_mem_nil, or_false] at hv
    rcases hv with rfl | rfl | rfl
    · exact ⟨1, rfl⟩
    · exact ⟨2, rfl⟩
    · exact ⟨2, rfl⟩
  times := by
    intro v hv
    simp only [demo, feed, List.mem_cons, List.not_mem_nil, or_false] at hv
    rcases hv with rfl | rfl | rfl <;> decide

theorem demo_rule {i j : Nat} (h : demo.Rule i j) : i = 0 ∧ (j = 1 ∨ j = 2) := by
  obtain ⟨v, w, hv, hw, hr⟩ := h
  rcases get3 hv with ⟨rfl, rfl⟩ | ⟨rfl, rfl⟩ | ⟨rfl, rfl⟩ <;> rcases get3 hw with ⟨rfl, rfl⟩ | ⟨rfl, rfl⟩ | ⟨rfl, rfl⟩ <;>
    revert hr <;> decide

theorem C83_demo_consistent : demo.Consistent demoOff (fun r => if r = 0 then 0 else 1) where
  acyclic := by
    intro i j h
    obtain ⟨rfl, rfl | rfl⟩ := demo_rule h <;> decide
  same_day := by
    rintro i j o ⟨h, h1, h2⟩
    obtain ⟨rfl, rfl | rfl⟩ := demo_rule h
    · have : demo.wait 0 1 o = 10 + o * 1440 - 1430 := rfl
      show (1 : Int) = 0 + o; omega
    · have : demo.wait 0 2 o = 20 + o * 1440 - 1430 := rfl
      show (1 : Int) = 0 + o; omega
  stays := by
    intro i j h _ _ _
    refine ⟨h, ?_⟩
    obtain ⟨rfl, rfl | rfl⟩ := demo_rule h <;> decide
  once := by
    intro i j hi hj h hne
    have hi : i < 3 := hi
    have hj : j < 3 := hj
    exfalso
    have key : ∀ i < 3, ∀ j < 3, (demo.var i).rule = (demo.var j).rule → i = j := by decide
    exact hne (key i hi j hj h)

/-- On day 1 the vehicle goes on as `B` and as `C`, on day 2 only as `C`. -/
theorem C83_demo_result : ((build demo plain 10).map fun out => out.map fun t => (t.trips, t.times, (List.range kMaxDays).filter t.days)) =
    some [([100, 102], [1320, 1430, 1460, 1530], [1]), ([100, 101], [1320, 1430, 1450, 1500], [1]),
      ([100, 102], [1320, 1430, 1460, 1530], [2])] := by decide +kernel

/-! ### Circles -/

/-- `A` 8:00–8:30 and `B` 8:40–9:10 on day 1, with rules from `A` to `B` and from `B` to `A` (although nobody
can stay seated from `B` to `A`). -/
def circle : Input := feed [(0, 1), (1, 0)]
  [⟨0, 100, [480, 510], [⟨1, true, true⟩, ⟨2, true, true⟩], on [1]⟩,
   ⟨1, 101, [520, 550], [⟨2, true, true⟩, ⟨1, true, true⟩], on [1]⟩]

theorem get2 {α : Type} {a b v : α} {i : Nat} (h : [a, b][i]? = some v) : (i = 0 ∧ v = a) ∨ (i = 1 ∧ v = b) := by
  match i, h with
  | 0, h => left; exact ⟨rfl, (Option.some.inj h).symm⟩
  | 1, h => right; exact ⟨rfl, (Option.some.inj h).symm⟩

theorem circle_ok : circle.Ok where
  mirror := fun a b => outOf_into _ a b
  bounded := by
    intro v hv d hd
    simp only [circle, feed, List.mem_cons, List.not_mem_nil, or_false] at hv
    rcases hv with rfl | rfl <;> simp only [on_iff, List.mem_cons, List.not_mem_nil, or_false] at hd <;> unfold kMaxDays <;> omega
  nonempty := by
    intro v hv
    simp only [circle, feed, List.mem_cons, List.not_mem_nil, or_false] at hv
    rcases hv with rfl | rfl <;> exact ⟨1, rfl⟩
  times := by
    intro v hv
    simp only [circle, feed, List.mem_cons, List.not_mem_nil, or_false] at hv
    rcases hv with rfl | rfl <;> decide

/-- With rules in a circle no trip is an entry and all the trips disappear. -/
theorem C83_circle_lost : circle.Ok ∧ circle.Runs 0 1 ∧ circle.Runs 1 1 ∧ (build circle plain 10).map List.length = some 0 :=
  ⟨circle_ok, ⟨_, rfl, 1, rfl, rfl⟩, ⟨_, rfl, 1, rfl, rfl⟩, by decide +kernel⟩

/-- `E` leads into the circle. -/
def endless : Input := feed [(2, 0), (0, 1), (1, 0)]
  [⟨0, 100, [480, 510], [⟨1, true, true⟩, ⟨2, true, true⟩], on [1]⟩,
   ⟨1, 101, [520, 550], [⟨2, true, true⟩, ⟨1, true, true⟩], on [1]⟩,
   ⟨2, 102, [400, 470], [⟨5, true, true⟩, ⟨1, true, true⟩], on [1]⟩]

theorem dfs_endless {inp : Input} {comp : List (Nat × Int)} {P : Nat → Prop}
    (h : ∀ e : Entry, P e.last → ∃ e' : Entry, e.next inp comp = [e'] ∧ P e'.last) : ∀ (n : Nat) (e : Entry), P e.last →
    dfs inp comp n [e] = none
  | 0, _, _ => rfl
  | n + 1, e, he => by
    obtain ⟨e', h1, h2⟩ := h e he
    unfold dfs
    rw [h1, if_neg (by simp)]
    exact dfs_endless h n e' h2

theorem endless_comp : (component endless (fun i => (endless.var i).days) (fun _ => 0) 0).comp = [(0, 0), (1, 0), (2, 0)] := by
  decide +kernel

theorem endless_next (e : Entry) (h : e.last < 3) : ∃ e' : Entry, e.next endless [(0, 0), (1, 0), (2, 0)] = [e'] ∧ e'.last < 3 := by
  obtain ⟨t, l, o⟩ := e
  have h : l < 3 := h
  match l, h with
  | 0, _ => exact ⟨_, rfl, show (1 : Nat) < 3 by decide⟩
  | 1, _ => exact ⟨_, rfl, show (0 : Nat) < 3 by decide⟩
  | 2, _ => exact ⟨_, rfl, show (0 : Nat) < 3 by decide⟩

/-- Walking into a circle never ends: after any number of iterations the call has not returned (the program
runs until memory is used up, as the joined trip grows with every iteration). -/
theorem C83_endless (fuel : Nat) : build endless plain fuel = none := by
  unfold build
  rw [show nextSet endless.vs.length (fun _ => true) 0 = some 0 from rfl]
  cases fuel with
  | zero => rfl
  | succ n =>
    unfold mainLoop
    dsimp only [plain]
    rw [endless_comp]
    simp only [id]
    have hs : ∀ days, ∃ e : Entry, (starts endless [(0, 0), (1, 0), (2, 0)] days).reverse = [e] ∧ e.last < 3 := fun days =>
      ⟨_, rfl, show (2 : Nat) < 3 by decide⟩
    obtain ⟨e, he, hl⟩ := hs (component endless (fun i => (endless.var i).days) (fun _ => 0) 0).days
    rw [he, dfs_endless (P := (· < 3)) endless_next n e hl]

/-! ### Two runs of a trip -/

/-- frequencies.txt: `A` 8:00–8:30 and 8:40–9:10, `B` 8:30–9:00 and 9:10–9:40 on day 1, and a rule from `A` to
`B`. -/
def freq : Input := feed [(0, 1)]
  [⟨0, 100, [480, 510], [⟨1, true, true⟩, ⟨2, true, true⟩], on [1]⟩,
   ⟨0, 100, [520, 550], [⟨1, true, true⟩, ⟨2, true, true⟩], on [1]⟩,
   ⟨1, 101, [510, 540], [⟨2, true, true⟩, ⟨3, true, true⟩], on [1]⟩,
   ⟨1, 101, [550, 580], [⟨2, true, true⟩, ⟨3, true, true⟩], on [1]⟩]

/-- The second run of `B` is lost, and the second run of `A` is joined with the first of `B`, which has left
before: the times are not sorted. -/
theorem C83_frequency : freq.Runs 3 1 ∧ ((build freq plain 20).map fun out => out.map fun t => (t.trips, t.times)) =
    some [([100, 101], [520, 550, 510, 540]), ([100, 101], [480, 510, 510, 540])] :=
  ⟨⟨_, rfl, 1, rfl, rfl⟩, by decide +kernel⟩

/-! ### Joined without a look at the time -/

/-- `A` 8:00–8:30, then `B` 8:40–9:00 or `C` 8:40–9:30, and both with a rule to `D` 9:10–9:40. -/
def unsorted : Input := feed [(0, 1), (0, 2), (1, 3), (2, 3)]
  [⟨0, 100, [480, 510], [⟨1, true, true⟩, ⟨2, true, true⟩], on [1]⟩,
   ⟨1, 101, [520, 540], [⟨2, true, true⟩, ⟨3, true, true⟩], on [1]⟩,
   ⟨2, 102, [520, 570], [⟨2, true, true⟩, ⟨3, true, true⟩], on [1]⟩,
   ⟨3, 103, [550, 580], [⟨3, true, true⟩, ⟨4, true, true⟩], on [1]⟩]

/-- `D` has left when `C` arrives, and is joined nevertheless: the vehicle travels back in time. -/
theorem C84_unsorted : ((build unsorted plain 20).map fun out => out.map fun t => (t.trips, t.times)) =
    some [([100, 102, 103], [480, 510, 520, 570, 550, 580]), ([100, 101, 103], [480, 510, 520, 540, 550, 580])] := by
  decide +kernel

/-! ### Boarding where trips are joined -/

/-- Nobody may board at the last stop of `A`; everybody may board at the first stop of `B`, at a different
track (location 3). -/
def boarding : Input := feed [(0, 1)]
  [⟨0, 100, [480, 510], [⟨1, true, false⟩, ⟨2, false, true⟩], on [1]⟩,
   ⟨1, 101, [520, 550], [⟨3, true, false⟩, ⟨4, false, true⟩], on [1]⟩]

/-- In the joined sequence nobody can board at the first stop of `B`, and its location is not served at all
(a block with the same trips allows boarding, `blockStops`). -/
theorem C85_boarding_lost :
    ((build boarding plain 20).map fun out => out.map (·.stops)) = some [[⟨1, true, false⟩, ⟨2, false, true⟩, ⟨4, false, true⟩]] ∧
    blockStops [⟨1, true, false⟩, ⟨2, false, true⟩] [[⟨3, true, false⟩, ⟨4, false, true⟩]] =
      [⟨1, true, false⟩, ⟨2, true, true⟩, ⟨4, false, true⟩] :=
  ⟨by decide +kernel, by decide⟩

/-! ### Reading the rules -/

theorem mem_pushUnique {l : List Nat} {x y : Nat} : y ∈ pushUnique l x ↔ y ∈ l ∨ y = x := by
  unfold pushUnique
  split
  · rename_i h
    constructor
    · exact .inl
    · rintro (h' | rfl)
      · exact h'
      · exact h
  · simp

/-- The lists of the trips have exactly the rows of transfers.txt, and they mirror each other (`Input.Ok`). -/
theorem C82_rules (rows : List (Nat × Nat)) (a b : Nat) :
    (b ∈ (resolve rows).2 a ↔ (a, b) ∈ rows) ∧ (a ∈ (resolve rows).1 b ↔ (a, b) ∈ rows) := by
  induction rows with
  | nil => simp [resolve]
  | cons r rows ih =>
    obtain ⟨x, y⟩ := r
    obtain ⟨ih1, ih2⟩ := ih
    simp only [resolve, List.mem_cons, Prod.mk.injEq]
    constructor
    · split
      · rename_i h; subst h; rw [mem_pushUnique, ih1]; constructor
        · rintro (h | h)
          · exact .inr h
          · exact .inl ⟨rfl, h⟩
        · rintro (h | h)
          · exact .inr h.2
          · exact .inl h
      · rename_i h; rw [ih1]; simp [h]
    · split
      · rename_i h; subst h; rw [mem_pushUnique, ih2]; constructor
        · rintro (h | h)
          · exact .inr h
          · exact .inl ⟨h, rfl⟩
        · rintro (h | h)
          · exact .inr h.1
          · exact .inl h
      · rename_i h; rw [ih2]; simp [h]

end Nigiri.Seated
