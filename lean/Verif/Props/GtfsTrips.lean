import Verif.Model.GtfsTrips
import Verif.Props.GtfsRoutes

/-! # C130: trips of a GTFS feed -/

namespace Nigiri.GtfsTrips

open GtfsRoutes (emplace emplace_new lookup_snoc Attrs RouteEntry)

/-! ## Specification -/

/-- The positions of the elements with a property, in order. -/
def positions {α : Type} (p : α → Bool) (l : List α) : List Nat :=
  ((l.mapIdx fun i a => (i, a)).filter fun x => p x.2).map fun x => x.1

theorem positions_snoc {α : Type} (p : α → Bool) (l : List α) (a : α) :
    positions p (l ++ [a]) = positions p l ++ if p a then [l.length] else [] := by
  unfold positions
  rw [List.mapIdx_concat, List.filter_append, List.map_append]
  congr 1
  by_cases h : p a = true
  · simp [h]
  · simp [h]

/-- `positions` is what it says. -/
theorem mem_positions {α : Type} (p : α → Bool) (l : List α) (i : Nat) :
    i ∈ positions p l ↔ ∃ a, l[i]? = some a ∧ p a = true := by
  induction l using Vdv.snoc_ind with
  | h0 => simp [positions]
  | h l a ih =>
    rw [positions_snoc, List.mem_append, ih]
    constructor
    · rintro (⟨b, h1, h2⟩ | h)
      · exact ⟨b, by rw [List.getElem?_append_left (GtfsRoutes.getElem?_lt h1)]; exact h1, h2⟩
      · split at h
        · next hp => rw [List.mem_singleton.mp h]; exact ⟨a, by simp, hp⟩
        · exact absurd h List.not_mem_nil
    · rintro ⟨b, h1, h2⟩
      rcases Rt.getElem?_snoc h1 with ⟨_, h⟩ | ⟨rfl, rfl⟩
      · exact Or.inl ⟨b, h, h2⟩
      · right; rw [if_pos h2]; simp

theorem positions_lt {α : Type} (p : α → Bool) (l : List α) (i : Nat) (h : i ∈ positions p l) : i < l.length := by
  obtain ⟨a, h1, _⟩ := (mem_positions p l i).mp h
  exact GtfsRoutes.getElem?_lt h1

/-- They are in order, each once. -/
theorem positions_sorted {α : Type} (p : α → Bool) (l : List α) : (positions p l).Pairwise (· < ·) := by
  induction l using Vdv.snoc_ind with
  | h0 => simp [positions]
  | h l a ih =>
    rw [positions_snoc, List.pairwise_append]
    refine ⟨ih, ?_, fun x hx y hy => ?_⟩
    · split <;> simp
    · split at hy
      · rw [List.mem_singleton.mp hy]; exact positions_lt p l x hx
      · exact absurd hy List.not_mem_nil

/-- What the row says about the trip, for route number `k` with the attributes `a`. -/
structure Describes (e : Env) (a : Attrs) (k : Nat) (r : TripRow) (o : Obj) : Prop where
  id : o.id = r.id
  route : o.route = k
  headsign : o.headsign = r.headsign
  shortName : o.shortName = r.shortName
  name1 : a.shortName ≠ "" → o.displayName = a.shortName
  name2 : a.shortName = "" → r.shortName ≠ "" → o.displayName = r.shortName
  name3 : a.shortName = "" → r.shortName = "" → o.displayName = a.longName
  direction : o.direction = true ↔ r.direction = "1"
  bikesYes : r.bikes = 1 → o.flags.bikes = true
  bikesNo : r.bikes = 2 → o.flags.bikes = false
  bikesUnknown : r.bikes ≠ 1 → r.bikes ≠ 2 → o.flags.bikes = e.bikes (claszOf a r)
  carsYes : r.cars = 1 → o.flags.cars = true
  carsNo : r.cars = 2 → o.flags.cars = false
  carsUnknown : r.cars ≠ 1 → r.cars ≠ 2 → o.flags.cars = e.cars (claszOf a r)
  wheelchair : o.flags.wheelchair = true ↔ r.wheelchair = 1
  reservation : r.pickup = 2 ∨ 3 < r.pickup → o.flags.reservationNotRequired = false
  noReservation : r.pickup ≠ 2 → r.pickup ≤ 3 →
    o.flags.reservationNotRequired = e.reservationNotRequired (claszOf a r)

/-- A row that is kept: its service and route are known and the script does not reject it. -/
structure Kept (e : Env) (script : Script) (r : TripRow) (svc : Nat) (o : Obj) : Prop where
  service : e.services r.service = some svc
  obj : ∃ k a o', e.routes r.route = some k ∧ e.attrs[k.idx]? = some a ∧ Describes e a k.idx r o' ∧
    script.run o' = some o

/-- The same as a function. -/
def kept (e : Env) (script : Script) (r : TripRow) : Option (TripRow × Nat × Obj) :=
  match e.services r.service, e.routes r.route with
  | some svc, some k =>
    match e.attrs[k.idx]? with
    | none => none
    | some a => (script.run (objOf e a k.idx r)).map fun o => (r, svc, o)
  | _, _ => none

/-- **C130 (rows)**: the object made from a row is the one the row describes. -/
theorem C130_row (e : Env) (a : Attrs) (k : Nat) (r : TripRow) : Describes e a k r (objOf e a k r) := by
  constructor
  · rfl
  · rfl
  · rfl
  · rfl
  · intro h
    show displayName a r = _
    unfold displayName
    rw [List.find?_cons_of_pos (by simpa using h)]
  · intro h1 h2
    show displayName a r = _
    unfold displayName
    rw [List.find?_cons_of_neg (by simpa using h1), List.find?_cons_of_pos (by simpa using h2)]
  · intro h1 h2
    show displayName a r = _
    unfold displayName
    rw [List.find?_cons_of_neg (by simpa using h1), List.find?_cons_of_neg (by simpa using h2)]
    by_cases h3 : a.longName = ""
    · rw [List.find?_cons_of_neg (by simpa using h3), h3]; rfl
    · rw [List.find?_cons_of_pos (by simpa using h3)]
  · show decide (r.direction = "1") = true ↔ _
    rw [decide_eq_true_iff]
  · intro h; show allowed _ _ = _; unfold allowed; rw [if_pos h]
  · intro h; show allowed _ _ = _; unfold allowed; rw [if_neg (by omega), if_pos h]
  · intro h1 h2; show allowed _ _ = _; unfold allowed; rw [if_neg h1, if_neg h2]
  · intro h; show allowed _ _ = _; unfold allowed; rw [if_pos h]
  · intro h; show allowed _ _ = _; unfold allowed; rw [if_neg (by omega), if_pos h]
  · intro h1 h2; show allowed _ _ = _; unfold allowed; rw [if_neg h1, if_neg h2]
  · show decide (r.wheelchair = 1) = true ↔ _
    rw [decide_eq_true_iff]
  · intro h
    show (if r.pickup = 2 ∨ r.pickup > 3 then false else _) = _
    rw [if_pos h]
  · intro h1 h2
    show (if r.pickup = 2 ∨ r.pickup > 3 then false else _) = _
    rw [if_neg (by omega)]

/-- `trip_route_type` overrides the type of the route. -/
theorem C130_class (a : Attrs) (r : TripRow) :
    (∀ t, r.routeType = some t → claszOf a r = GtfsRoutes.clasz t) ∧
    (r.routeType = none → claszOf a r = GtfsRoutes.clasz a.typ) := by
  unfold claszOf
  exact ⟨fun t h => by rw [h], fun h => by rw [h]⟩

theorem describes_unique {e : Env} {a : Attrs} {k : Nat} {r : TripRow} {o o' : Obj} (h : Describes e a k r o)
    (h' : Describes e a k r o') : o = o' := by
  obtain ⟨i1, i2, i3, i4, n1, n2, n3, d, b1, b2, b3, c1, c2, c3, w, r1, r2⟩ := h
  obtain ⟨i1', i2', i3', i4', n1', n2', n3', d', b1', b2', b3', c1', c2', c3', w', r1', r2'⟩ := h'
  obtain ⟨x1, x2, x3, x4, x5, x6, ⟨f1, f2, f3, f4⟩⟩ := o
  obtain ⟨y1, y2, y3, y4, y5, y6, ⟨g1, g2, g3, g4⟩⟩ := o'
  dsimp only at *
  have en : x4 = y4 := by
    by_cases h1 : a.shortName = ""
    · by_cases h2 : r.shortName = ""
      · rw [n3 h1 h2, n3' h1 h2]
      · rw [n2 h1 h2, n2' h1 h2]
    · rw [n1 h1, n1' h1]
  have ed : x5 = y5 := by
    rw [Bool.eq_iff_iff, d, d']
  have ew : f3 = g3 := by
    rw [Bool.eq_iff_iff, w, w']
  have eb : f1 = g1 := by
    by_cases h1 : r.bikes = 1
    · rw [b1 h1, b1' h1]
    · by_cases h2 : r.bikes = 2
      · rw [b2 h2, b2' h2]
      · rw [b3 h1 h2, b3' h1 h2]
  have ec : f2 = g2 := by
    by_cases h1 : r.cars = 1
    · rw [c1 h1, c1' h1]
    · by_cases h2 : r.cars = 2
      · rw [c2 h2, c2' h2]
      · rw [c3 h1 h2, c3' h1 h2]
  have er : f4 = g4 := by
    by_cases h1 : r.pickup = 2 ∨ 3 < r.pickup
    · rw [r1 h1, r1' h1]
    · rw [r2 (by omega) (by omega), r2' (by omega) (by omega)]
  subst i1 i2 i3 i4 en ed ew eb ec er
  simp [i1', i2', i3', i4']

theorem kept_iff (e : Env) (script : Script) (r : TripRow) (x : TripRow × Nat × Obj) :
    kept e script r = some x ↔ x.1 = r ∧ Kept e script r x.2.1 x.2.2 := by
  obtain ⟨r', svc, o⟩ := x
  constructor
  · intro h
    unfold kept at h
    split at h
    · next svc' k h1 h2 =>
      split at h
      · cases h
      · next a h3 =>
        cases ho : script.run (objOf e a k.idx r) with
        | none => rw [ho] at h; cases h
        | some o' =>
          rw [ho] at h
          cases h
          exact ⟨rfl, h1, k, a, _, h2, h3, C130_row e a k.idx r, ho⟩
    · cases h
  · rintro ⟨rfl, h1, k, a, o', h2, h3, h4, h5⟩
    unfold kept
    dsimp only at h1 h2 h5 ⊢
    rw [h1, h2]
    dsimp only
    rw [h3]
    dsimp only
    rw [describes_unique (C130_row e a k.idx r') h4, h5]
    rfl

/-! ## Proofs -/

theorem tripStep_eq (e : Env) (script : Script) (s : State) (r : TripRow) :
    tripStep e script s r = match kept e script r with
      | some x => addTrip e s x.1 x.2.1 x.2.2
      | none => s := by
  unfold tripStep kept
  cases e.services r.service with
  | none => rfl
  | some svc =>
    cases e.routes r.route with
    | none => rfl
    | some k =>
      dsimp only
      cases e.attrs[k.idx]? with
      | none => rfl
      | some a =>
        dsimp only
        cases script.run (objOf e a k.idx r) <;> rfl

/-- The trip of a kept row at position `i`, `n` trips before the feed. -/
def tripOf (e : Env) (n i : Nat) (x : TripRow × Nat × Obj) : Trip :=
  ⟨x.2.2.route, x.2.1, blockOf x.1, x.1.id, x.2.2.headsign, x.1.shortName, x.2.2.direction, e.shapes x.1.shape,
    x.2.2.flags, n + i, x.1.routeType.map GtfsRoutes.clasz, none⟩

/-- Everything about the state after a list of kept rows. -/
structure TInv (e : Env) (tt : Tt) (ks : List (TripRow × Nat × Obj)) (s : State) : Prop where
  data : s.data = ks.mapIdx (fun i x => tripOf e tt.ids.length i x)
  tripRoute : s.tt.tripRoute = tt.tripRoute ++ ks.map (fun x => x.2.2.route)
  idStrings : s.tt.idStrings = tt.idStrings ++ ks.map (fun x => x.2.2.id)
  shortNames : s.tt.shortNames = tt.shortNames ++ ks.map (fun x => x.2.2.shortName)
  displayNames : s.tt.displayNames = tt.displayNames ++ ks.map (fun x => x.2.2.displayName)
  ids : s.tt.ids = tt.ids ++ ks.mapIdx (fun i _ => [tt.idStrings.length + i])
  idToIdx : s.tt.idToIdx = tt.idToIdx ++ ks.mapIdx (fun i _ => (tt.idStrings.length + i, tt.ids.length + i))
  direction : ∀ (i : Nat) (x : TripRow × Nat × Obj), ks[i]? = some x →
    s.tt.direction (tt.ids.length + i) = x.2.2.direction
  directionOld : ∀ t, t < tt.ids.length → s.tt.direction t = tt.direction t
  routeTrips : ∀ k : Nat, s.tt.routeTrips[k]? =
    (tt.routeTrips[k]?).map (fun l => l ++ (positions (fun x => decide (x.2.2.route = k)) ks).map (tt.ids.length + ·))
  trips : ∀ id, s.trips.lookup id = (positions (fun x => decide (x.1.id = id)) ks).head?
  blocks : ∀ b, s.blocks.lookup b =
    if positions (fun x => decide (blockOf x.1 = some b)) ks = [] then none
    else some (positions (fun x => decide (blockOf x.1 = some b)) ks)

theorem lookup_addToBlock (m : List (String × List Nat)) (key : String) (t : Nat) (b : String) :
    (addToBlock m key t).lookup b = if b = key then some ((m.lookup key).getD [] ++ [t]) else m.lookup b := by
  unfold addToBlock
  split
  · next h =>
    induction m with
    | nil => simp [List.lookup] at h
    | cons x m ih =>
      obtain ⟨x1, x2⟩ := x
      rw [List.map_cons]
      unfold List.lookup at h ⊢
      dsimp only
      by_cases h1 : key = x1
      · subst h1
        rw [if_pos rfl]
        dsimp only
        by_cases h2 : b = key
        · subst h2; simp
        · have h3 : (b == key) = false := by simpa using h2
          rw [h3, if_neg h2]
          dsimp only
          have : ∀ l : List (String × List Nat),
              (l.map fun c => if c.1 = key then (c.1, c.2 ++ [t]) else c).lookup b = l.lookup b := by
            intro l
            induction l with
            | nil => rfl
            | cons y l ih =>
              obtain ⟨y1, y2⟩ := y
              rw [List.map_cons]
              dsimp only
              by_cases h4 : y1 = key
              · subst h4
                rw [if_pos rfl]
                unfold List.lookup
                rw [h3]
                exact ih
              · rw [if_neg h4]
                unfold List.lookup
                rw [ih]
          exact this m
      · have h2 : (key == x1) = false := by simpa using h1
        rw [h2] at h
        dsimp only at h
        rw [if_neg (Ne.symm h1), h2]
        dsimp only
        by_cases h3 : b = x1
        · subst h3
          simp [Ne.symm h1]
        · have h4 : (b == x1) = false := by simpa using h3
          rw [h4]
          exact ih h
  · next h =>
    rw [lookup_snoc]
    have h' : m.lookup key = none := by
      cases hm : m.lookup key with
      | none => rfl
      | some _ => rw [hm] at h; simp at h
    by_cases h1 : b = key
    · subst h1; simp [h']
    · rw [if_neg h1, if_neg h1]
      cases m.lookup b <;> rfl

theorem lookup_emplace {β : Type} (m : List (String × β)) (k : String) (v : β) (x : String) :
    (emplace m k v).lookup x = (m.lookup x).or (if x = k then some v else none) := by
  unfold emplace
  split
  · next h =>
    cases hx : m.lookup x with
    | some w => rfl
    | none =>
      by_cases e : x = k
      · subst e; rw [hx] at h; simp at h
      · simp [e]
  · exact lookup_snoc m k v x

theorem TInv.add {e : Env} {tt : Tt} {ks : List (TripRow × Nat × Obj)} {s : State} (h : TInv e tt ks s)
    (x : TripRow × Nat × Obj) : TInv e tt (ks ++ [x]) (addTrip e s x.1 x.2.1 x.2.2) := by
  have hlen : s.data.length = ks.length := by rw [h.data, List.length_mapIdx]
  have hids : s.tt.ids.length = tt.ids.length + ks.length := by
    rw [h.ids, List.length_append, List.length_mapIdx]
  have hstr : s.tt.idStrings.length = tt.idStrings.length + ks.length := by
    rw [h.idStrings, List.length_append, List.length_map]
  unfold addTrip
  dsimp only [registerTrip]
  refine ⟨?_, ?_, ?_, ?_, ?_, ?_, ?_, ?_, ?_, ?_, ?_, ?_⟩
  · dsimp only
    rw [List.mapIdx_concat, h.data, hids]
    rfl
  · simp [h.tripRoute]
  · simp [h.idStrings]
  · simp [h.shortNames]
  · simp [h.displayNames]
  · dsimp only
    rw [List.mapIdx_concat, h.ids, hstr, List.append_assoc]
  · dsimp only
    rw [List.mapIdx_concat, h.idToIdx, hstr, hids, List.append_assoc]
  · intro i y hy
    dsimp only
    rcases Rt.getElem?_snoc hy with ⟨h1, h2⟩ | ⟨rfl, rfl⟩
    · rw [if_neg (by omega)]
      exact h.direction i y h2
    · rw [if_pos hids.symm]
  · intro t ht
    dsimp only
    rw [if_neg (by omega)]
    exact h.directionOld t ht
  · intro k
    dsimp only
    rw [positions_snoc, List.getElem?_modify, h.routeTrips k, hids]
    cases tt.routeTrips[k]? with
    | none => rfl
    | some l =>
      by_cases hk : x.2.2.route = k
      · subst hk; simp
      · simp [hk]
  · intro id
    dsimp only
    rw [positions_snoc, lookup_emplace, h.trips id, hlen]
    by_cases hk : x.1.id = id
    · subst hk
      rw [if_pos rfl]
      cases positions (fun y : TripRow × Nat × Obj => decide (y.1.id = x.1.id)) ks <;> simp
    · rw [if_neg (Ne.symm hk)]
      cases positions (fun y : TripRow × Nat × Obj => decide (y.1.id = id)) ks <;> simp [hk]
  · intro b
    dsimp only
    rw [positions_snoc]
    have hb := h.blocks b
    cases hbo : blockOf x.1 with
    | none =>
      dsimp only
      simpa using hb
    | some c =>
      dsimp only
      rw [lookup_addToBlock]
      by_cases hc : b = c
      · subst hc
        rw [if_pos rfl, hb, hlen]
        split
        · next he => simp [he]
        · simp
      · rw [if_neg hc, hb]
        simp [Ne.symm hc]

theorem readTrips_inv (e : Env) (script : Script) (tt : Tt) (rows : List TripRow) :
    TInv e tt (rows.filterMap (kept e script)) (readTrips e script tt rows) := by
  induction rows using Vdv.snoc_ind with
  | h0 =>
    exact ⟨rfl, by simp [readTrips], by simp [readTrips], by simp [readTrips], by simp [readTrips],
      by simp [readTrips], by simp [readTrips], by simp, fun _ _ => rfl,
      fun k => by simp [readTrips, positions], fun _ => rfl, fun _ => rfl⟩
  | h rows r ih =>
    have hstep : readTrips e script tt (rows ++ [r]) = tripStep e script (readTrips e script tt rows) r := by
      unfold readTrips; rw [List.foldl_append]; rfl
    rw [hstep, tripStep_eq, List.filterMap_append]
    cases hk : kept e script r with
    | none => simpa [hk] using ih
    | some x => simpa [hk] using ih.add x

/-- **C130**: for all files, scripts and timetables, the trips of the feed are those of the rows which are kept
(service and route known, not rejected by the script), in the order of the file; trip number, route, id and names of
each are those of its row as changed by the script; a trip is listed at its route and nowhere else, and an id refers to
its first row. The trips before the feed stay as they are. -/
theorem C130_trips (e : Env) (script : Script) (tt : Tt) (rows : List TripRow) :
    ∃ ks : List (TripRow × Nat × Obj),
      ks.map (fun x => x.1) = rows.filter (fun r => (kept e script r).isSome) ∧
      (∀ x ∈ ks, Kept e script x.1 x.2.1 x.2.2) ∧
      (∀ r ∈ rows, ∀ svc o, Kept e script r svc o → (r, svc, o) ∈ ks) ∧
      TInv e tt ks (readTrips e script tt rows) := by
  refine ⟨rows.filterMap (kept e script), ?_, ?_, ?_, readTrips_inv e script tt rows⟩
  · induction rows with
    | nil => rfl
    | cons r rows ih =>
      rw [List.filterMap_cons, List.filter_cons]
      cases hk : kept e script r with
      | none => simpa using ih
      | some x =>
        have := ((kept_iff e script r x).mp hk).1
        simp [this, ih]
  · intro x hx
    obtain ⟨r, -, hk⟩ := List.mem_filterMap.mp hx
    obtain ⟨h1, h2⟩ := (kept_iff e script r x).mp hk
    rw [h1]
    exact h2
  · intro r hr svc o hk
    exact List.mem_filterMap.mpr ⟨r, hr, (kept_iff e script r (r, svc, o)).mpr ⟨rfl, hk⟩⟩

/-- A trip is in the block its row names, and in no other. -/
theorem C130_blocks (e : Env) (script : Script) (tt : Tt) (rows : List TripRow) (i : Nat) (t : Trip) (b : String)
    (ht : (readTrips e script tt rows).data[i]? = some t) :
    (∃ l, (readTrips e script tt rows).blocks.lookup b = some l ∧ i ∈ l) ↔ t.block = some b := by
  have h := readTrips_inv e script tt rows
  rw [h.data, List.getElem?_mapIdx] at ht
  cases hx : (rows.filterMap (kept e script))[i]? with
  | none => rw [hx] at ht; cases ht
  | some x =>
    rw [hx] at ht
    cases ht
    rw [h.blocks b]
    show _ ↔ blockOf x.1 = some b
    constructor
    · rintro ⟨l, h1, h2⟩
      split at h1
      · cases h1
      · cases h1
        obtain ⟨y, h3, h4⟩ := (mem_positions _ _ i).mp h2
        rw [hx] at h3
        cases h3
        exact of_decide_eq_true h4
    · intro hb
      have hm : i ∈ positions (fun y : TripRow × Nat × Obj => decide (blockOf y.1 = some b))
          (rows.filterMap (kept e script)) := (mem_positions _ _ i).mpr ⟨x, hx, decide_eq_true hb⟩
      refine ⟨_, ?_, hm⟩
      rw [if_neg]
      intro he
      rw [he] at hm
      exact absurd hm List.not_mem_nil

/-! ## Frequencies -/

/-- The rows of `frequencies.txt` for trip number `i`. -/
def rowsOf (trips : List (String × Nat)) (i : Nat) (rows : List FreqRow) : List FreqRow :=
  rows.filter fun r => decide (trips.lookup (trim r.trip) = some i ∧ r.headway ≠ -1)

/-- **C130 (frequencies)**: a trip gets exactly the windows of the readable rows with its id, in order; trips without
rows stay scheduled trips; nothing else of a trip changes. -/
theorem C130_frequencies (trips : List (String × Nat)) (data : List Trip) (rows : List FreqRow) (i : Nat) :
    (readFrequencies trips data rows)[i]? = (data[i]?).map fun t =>
      if rowsOf trips i rows = [] then t
      else { t with frequency := some (t.frequency.getD [] ++ (rowsOf trips i rows).map freqOf) } := by
  induction rows using Vdv.snoc_ind with
  | h0 =>
    show data[i]? = _
    simp [rowsOf]
  | h rows r ih =>
    have hstep : readFrequencies trips data (rows ++ [r]) = freqStep trips (readFrequencies trips data rows) r := by
      unfold readFrequencies; rw [List.foldl_append]; rfl
    have hrows : rowsOf trips i (rows ++ [r]) = rowsOf trips i rows ++
        if trips.lookup (trim r.trip) = some i ∧ r.headway ≠ -1 then [r] else [] := by
      unfold rowsOf
      rw [List.filter_append]
      congr 1
      by_cases h : trips.lookup (trim r.trip) = some i ∧ r.headway ≠ -1
      · rw [if_pos h]; simp [h]
      · rw [if_neg h]
        rw [List.filter_cons_of_neg (by simpa using h)]
        rfl
    rw [hstep, hrows]
    unfold freqStep
    cases hl : trips.lookup (trim r.trip) with
    | none => simpa using ih
    | some j =>
      dsimp only
      by_cases hh : r.headway = -1
      · simpa [hh] using ih
      · rw [if_neg hh, List.getElem?_modify, ih]
        by_cases hj : j = i
        · subst hj
          rw [if_pos ⟨rfl, hh⟩]
          cases data[j]? with
          | none => simp
          | some t =>
            by_cases he : rowsOf trips j rows = []
            · simp [he, addFreq]
            · simp [he, addFreq]
        · rw [if_neg (fun h => hj (Option.some.inj h.1))]
          cases data[i]? with
          | none => simp
          | some t => simp [hj]

/-- A window is the one of its row; the headway is rounded to minutes (property C14). -/
theorem C130_window (r : FreqRow) : (freqOf r).1.startTime = r.start ∧ (freqOf r).1.endTime = r.stop ∧
    (freqOf r).1.headway = Frequency.headwayMinutes r.headway ∧ ((freqOf r).2 = true ↔ r.exact = "1") :=
  ⟨rfl, rfl, rfl, decide_eq_true_iff⟩

/-- A row with nothing but spaces in `block_id` is in no block. -/
theorem C130_no_block (r : TripRow) : blockOf r = none ↔ ∀ c ∈ r.block.toList, c = ' ' := by
  have h0 : ∀ l : List Char, l.dropWhile (fun c => c == ' ') = [] ↔ ∀ c ∈ l, c = ' ' := by
    intro l
    induction l with
    | nil => simp
    | cons a l ih =>
      by_cases h : a = ' '
      · subst h; simp [ih]
      · simp [h]
  have h1 : trim r.block = "" ↔ ∀ c ∈ r.block.toList, c = ' ' := by
    have h2 : trim r.block = "" ↔
        ((r.block.toList.dropWhile (fun c => c == ' ')).reverse.dropWhile (fun c => c == ' ')).reverse = [] := by
      unfold trim
      constructor
      · intro h
        have := congrArg String.toList h
        simpa using this
      · intro h; rw [h]
    rw [h2, List.reverse_eq_nil_iff, h0]
    constructor
    · intro h
      rw [← h0]
      cases hd : r.block.toList.dropWhile (fun c => c == ' ') with
      | nil => rfl
      | cons a l =>
        have ha : a = ' ' := h a (by rw [hd]; simp)
        have := List.head?_dropWhile_not (fun c => c == ' ') r.block.toList
        rw [hd] at this
        simp [ha] at this
    · intro h c hc
      rw [(h0 _).mpr h] at hc
      exact absurd hc (by simp)
  unfold blockOf
  constructor
  · intro h
    split at h
    · next hb => exact h1.mp hb
    · cases h
  · intro h
    rw [if_pos (h1.mpr h)]

/-- What a setter is to do. -/
def SetTrip.expected (o b : Obj) : SetTrip → Prop
  | .headsign x => b = { o with headsign := x }
  | .shortName x => b = { o with shortName := x }
  | .displayName x => b = { o with displayName := x }
  | .bikes x => b = { o with flags := ⟨x, o.flags.cars, o.flags.wheelchair, o.flags.reservationNotRequired⟩ }
  | .cars x => b = { o with flags := ⟨o.flags.bikes, x, o.flags.wheelchair, o.flags.reservationNotRequired⟩ }
  | .wheelchair x => b = { o with flags := ⟨o.flags.bikes, o.flags.cars, x, o.flags.reservationNotRequired⟩ }
  | .compulsoryReservation x => b = { o with flags := ⟨o.flags.bikes, o.flags.cars, o.flags.wheelchair, !x⟩ }

/-- Every setter of a trip changes exactly what it names. -/
theorem C130_setters (o : Obj) (s : SetTrip) : s.expected o (s.apply o) := by
  cases s <;> rfl

/-- A script which returns `false` removes the trip, and any other keeps the number of its route and its id. -/
theorem C130_script (s : Script) (o : Obj) :
    (s.rejects o = true → s.run o = none) ∧
    (∀ b, s.run o = some b → s.rejects o = false ∧ b.route = o.route ∧ b.id = o.id ∧ b.direction = o.direction) := by
  have : ∀ (l : List SetTrip) (b : Obj), (l.foldl SetTrip.apply b).route = b.route ∧
      (l.foldl SetTrip.apply b).id = b.id ∧ (l.foldl SetTrip.apply b).direction = b.direction := by
    intro l
    induction l with
    | nil => exact fun _ => ⟨rfl, rfl, rfl⟩
    | cons e l ih =>
      intro b
      rw [List.foldl_cons, (ih _).1, (ih _).2.1, (ih _).2.2]
      cases e <;> exact ⟨rfl, rfl, rfl⟩
  unfold Script.run
  refine ⟨fun h => by rw [if_pos h], fun b h => ?_⟩
  split at h
  · cases h
  · next hr => cases h; exact ⟨by simpa using hr, this _ _⟩

/-! ### Examples -/

def demoEnv : Env where
  services := fun s => if s = "wd" then some 0 else none
  routes := fun r => if r = "r1" then some ⟨0, "", ""⟩ else if r = "r2" then some ⟨1, "", ""⟩ else none
  shapes := fun _ => none
  attrs := [⟨"", "Line one", "", 2, 0, 0, 0⟩, ⟨"B2", "", "", 3, 0, 0, 0⟩]
  bikes := fun c => decide (c = 6)
  cars := fun _ => false
  reservationNotRequired := fun _ => true

def demoTt : Tt := ⟨[[], []], fun _ => false, [9], ["old"], [(0, 0)], ["o"], ["O"], [[0]]⟩

/-- Rejects trips to "Depot", names all others. -/
def demoScript : Script := ⟨fun _ => [.headsign "Town"], fun o => decide (o.headsign = "Depot")⟩

def demoRows : List TripRow :=
  [⟨"t1", "r1", "wd", "", "", "1", " b ", "", 0, 0, 1, 0, none⟩,
   ⟨"t2", "r1", "we", "", "", "0", "", "", 0, 0, 0, 0, none⟩,
   ⟨"t3", "r2", "wd", "Depot", "", "0", "b", "", 0, 0, 0, 0, none⟩,
   ⟨"t4", "r2", "wd", "", "X", "0", "b", "", 2, 0, 0, 2, some 2⟩]

theorem C130_example :
    let s := readTrips demoEnv demoScript demoTt demoRows
    s.data.map (fun t : Trip => (t.id, t.tripIdx, t.route, t.headsign)) = [("t1", 1, 0, "Town"), ("t4", 2, 1, "Town")] ∧
    s.data.map (fun t : Trip => t.flags) = [⟨true, false, true, true⟩, ⟨false, false, false, false⟩] ∧
    s.tt.routeTrips = [[1], [2]] ∧ s.tt.displayNames = ["O", "Line one", "B2"] ∧
    s.tt.idToIdx = [(0, 0), (1, 1), (2, 2)] ∧ s.trips = [("t1", 0), ("t4", 1)] ∧ s.blocks = [("b", [0, 1])] := by
  decide +kernel

/-- A headway below zero is read as one minute; only −1 counts as unreadable. -/
theorem C130_headway_counterexample :
    (freqOf ⟨"t1", 300, 360, -5, ""⟩).1.headway = 1 := by decide

end Nigiri.GtfsTrips
