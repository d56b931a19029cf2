import Verif.Model.Translations
/-!
# C123: texts of a feed in the language of the reader
-/

namespace Nigiri.Translations

/-- The rows of translations.txt the standard relates to a field of a record: those which name the record, else those
which name the original text. -/
def NamesRecord (c : Call) (r : Row) : Prop :=
  r.table = c.table ∧ r.field = c.field ∧ r.recordId = some c.recordId ∧ r.recordSubId.getD "" = c.recordSubId

def NamesValue (c : Call) (r : Row) : Prop :=
  r.table = c.table ∧ r.field = c.field ∧ r.recordId = none ∧ r.fieldValue = some c.value

def Related (rows : List Row) (c : Call) (r : Row) : Prop :=
  r ∈ rows ∧ (NamesRecord c r ∨ ((∀ r' ∈ rows, ¬ NamesRecord c r') ∧ NamesValue c r))

/-- The text `text` is one of the field in language `l`: a translation, or the original text, which is in the
language `dl` of the feed, if there is no translation into this language. -/
def InLang (rows : List Row) (dl : String) (c : Call) (l text : String) : Prop :=
  (∃ r, Related rows c r ∧ r.lang = l ∧ r.text = text) ∨
  ((∀ r, Related rows c r → r.lang ≠ l) ∧ l = dl ∧ c.value ≠ "" ∧ text = c.value)

/-- What a reader without (available) preference sees: the text in the language of the feed, else (only if there is no
original text) some translation. -/
def DefaultText (rows : List Row) (dl : String) (c : Call) (text : String) : Prop :=
  InLang rows dl c dl text ∨
  ((∀ t, ¬ InLang rows dl c dl t) ∧ ∃ r, Related rows c r ∧ r.text = text)

/-- What a reader with the preferred languages `langs` (best first) sees. -/
def Sees (rows : List Row) (dl : String) (c : Call) (langs : List String) (text : String) : Prop :=
  ((∃ r, Related rows c r) →
    (∃ pre l post, langs = pre ++ l :: post ∧ InLang rows dl c l text ∧ ∀ l' ∈ pre, ∀ t, ¬ InLang rows dl c l' t) ∨
    ((∀ l ∈ langs, ∀ t, ¬ InLang rows dl c l t) ∧ DefaultText rows dl c text)) ∧
  ((¬ ∃ r, Related rows c r) → text = c.value)

/-- The order after sorting: a rearrangement with the texts in the language of the feed first. -/
def Sorts (dl : String) (srt : List Tr → List Tr) : Prop :=
  ∀ l, (srt l).Perm l ∧ ∃ a b, srt l = a ++ b ∧ (∀ t ∈ a, t.lang = dl) ∧ ∀ t ∈ b, t.lang ≠ dl

/-! ### Reading -/

theorem find_cons (k' : Key) (e : Entry) (m : Map) (k : Key) : find ((k', e) :: m) k = if k' = k then some e else find m k := by
  unfold find
  rw [List.find?_cons]
  by_cases h : k' = k <;> simp [h]

theorem find_addTr (k k' : Key) (tr : Tr) (m : Map) : find (addTr k tr m) k' =
    if k = k' then some (match find m k with | some e => { e with translations := e.translations ++ [tr] } | none => ⟨[tr], none⟩)
    else find m k' := by
  induction m with
  | nil =>
    rw [addTr, find_cons]
    by_cases h : k = k' <;> simp [h, find]
  | cons x m ih =>
    obtain ⟨k2, e⟩ := x
    rw [addTr]
    by_cases h2 : k2 = k
    · subst h2
      rw [if_pos rfl, find_cons, find_cons, find_cons, if_pos rfl]
      by_cases h : k2 = k'
      · rw [if_pos h, if_pos h]
      · rw [if_neg h, if_neg h, if_neg h]
    · rw [if_neg h2, find_cons, find_cons, find_cons, if_neg h2, ih]
      by_cases h : k2 = k'
      · subst h
        rw [if_pos rfl, if_neg (fun h => h2 h.symm), if_pos rfl]
      · rw [if_neg h, if_neg h]

/-- The translations of a key after reading. -/
def texts (rows : List Row) (k : Key) : List Tr := (rows.filter fun r => r.key = some k).map fun r => ⟨r.lang, r.text⟩

theorem find_read (rows : List Row) (k : Key) :
    find (read rows) k = if texts rows k = [] then none else some ⟨texts rows k, none⟩ := by
  have hgen : ∀ (rows : List Row) (m : Map) (done : List Row),
      (∀ k, find m k = if texts done k = [] then none else some ⟨texts done k, none⟩) →
      ∀ k, find (rows.foldl readRow m) k = if texts (done ++ rows) k = [] then none else some ⟨texts (done ++ rows) k, none⟩ := by
    intro rows
    induction rows with
    | nil => intro m done h k; simpa using h k
    | cons r rows ih =>
      intro m done h k
      rw [List.foldl_cons, ih (readRow m r) (done ++ [r]) ?_ k]
      · simp
      · intro k
        have ht : texts (done ++ [r]) k = texts done k ++ (if r.key = some k then [⟨r.lang, r.text⟩] else []) := by
          simp only [texts, List.filter_append, List.map_append, List.filter_cons, List.filter_nil]
          by_cases hk : r.key = some k <;> simp [hk]
        rw [ht]
        unfold readRow
        cases hk : r.key with
        | none => simpa using h k
        | some k' =>
          simp only
          rw [find_addTr]
          by_cases hkk : k' = k
          · subst hkk
            rw [if_pos rfl, h k']
            by_cases he : texts done k' = []
            · simp [he]
            · simp [he]
          · rw [if_neg hkk, h k]
            have : ¬ some k' = some k := by simpa using hkk
            rw [if_neg this, List.append_nil]
  have := hgen rows [] [] (by intro k; simp [find, texts]) k
  simpa [read] using this

theorem key_record (r : Row) (c : Call) (ht : c.table ∈ tables) (hf : c.field ∈ fields) :
    r.key = some ⟨.record c.recordId c.recordSubId, c.table, c.field⟩ ↔ NamesRecord c r := by
  unfold Row.key NamesRecord
  constructor
  · intro h
    split at h
    · split at h
      · cases hr : r.recordId with
        | none => rw [hr] at h; cases hv : r.fieldValue with
          | none => rw [hv] at h; cases h
          | some v => rw [hv] at h; simp at h
        | some id => rw [hr] at h; simp at h; obtain ⟨⟨h1, h2⟩, h3, h4⟩ := h; exact ⟨h3, h4, by rw [h1], h2⟩
      · cases h
    · cases h
  · rintro ⟨h1, h2, h3, h4⟩
    rw [if_pos (by rw [h1]; exact ht), if_pos (by rw [h2]; exact hf), h3]
    simp [h1, h2, h4]

theorem key_value (r : Row) (c : Call) (ht : c.table ∈ tables) (hf : c.field ∈ fields) :
    r.key = some ⟨.value c.value, c.table, c.field⟩ ↔ NamesValue c r := by
  unfold Row.key NamesValue
  constructor
  · intro h
    split at h
    · split at h
      · cases hr : r.recordId with
        | none => rw [hr] at h; cases hv : r.fieldValue with
          | none => rw [hv] at h; cases h
          | some v => rw [hv] at h; simp at h; obtain ⟨h1, h2, h3⟩ := h; exact ⟨h2, h3, rfl, by rw [h1]⟩
        | some id => rw [hr] at h; simp at h
      · cases h
    · cases h
  · rintro ⟨h1, h2, h3, h4⟩
    rw [if_pos (by rw [h1]; exact ht), if_pos (by rw [h2]; exact hf), h3, h4]
    simp [h1, h2]

/-! ### Calls -/

/-- What is stored for a key, whose field has the text `v`. -/
def Stored (srt : List Tr → List Tr) (dl : String) (rows : List Row) (store : List (List Tr)) (k : Key) (v : String) (i : Nat) : Prop :=
  store[i]? = some (srt (withDefault dl v (texts rows k)))

/-- Invariant of the calls; `V` = the text of each field of each record. -/
structure Inv (srt : List Tr → List Tr) (dl : String) (rows : List Row) (V : String → String → String → String → String) (s : State) : Prop where
  zero : s.store[0]? = some [⟨"", ""⟩]
  keys : ∀ k, find s.i18n k = none ↔ texts rows k = []
  trs : ∀ k e, find s.i18n k = some e → e.translations = texts rows k
  plain : ∀ v i, (v, i) ∈ s.untranslated → s.store[i]? = some [⟨"", v⟩]
  byRec : ∀ id sub t f e i, find s.i18n ⟨.record id sub, t, f⟩ = some e → e.idx = some i → Stored srt dl rows s.store ⟨.record id sub, t, f⟩ (V t f id sub) i
  val : ∀ v t f e i, find s.i18n ⟨.value v, t, f⟩ = some e → e.idx = some i → Stored srt dl rows s.store ⟨.value v, t, f⟩ v i

theorem find_setIdx (k k' : Key) (i : Nat) (m : Map) :
    find (setIdx k i m) k' = (find m k').map fun e => if k = k' then { e with idx := some i } else e := by
  induction m with
  | nil => simp [find, setIdx]
  | cons x m ih =>
    obtain ⟨k2, e⟩ := x
    have hc : setIdx k i ((k2, e) :: m) = (if k2 = k then (k2, { e with idx := some i }) else (k2, e)) :: setIdx k i m := by
      simp [setIdx]
    rw [hc]
    by_cases h : k2 = k
    · rw [if_pos h, find_cons, find_cons, ih]
      by_cases h' : k2 = k'
      · rw [if_pos h', if_pos h']; subst h; simp [h']
      · rw [if_neg h', if_neg h']
    · rw [if_neg h, find_cons, find_cons, ih]
      by_cases h' : k2 = k'
      · rw [if_pos h', if_pos h']; subst h'; rw [Option.map_some, if_neg (fun h' => h (Eq.symm h'))]
      · rw [if_neg h', if_neg h']

theorem snoc_keep {α : Type} {l : List α} {i : Nat} {x y : α} (h : l[i]? = some x) : (l ++ [y])[i]? = some x := by
  rw [List.getElem?_append_left (List.getElem?_eq_some_iff.mp h).1]
  exact h

/-- What the result of a call is. -/
def Result (srt : List Tr → List Tr) (dl : String) (rows : List Row) (store : List (List Tr)) (c : Call) (i : Nat) : Prop :=
  if texts rows ⟨.record c.recordId c.recordSubId, c.table, c.field⟩ ≠ [] then
    Stored srt dl rows store ⟨.record c.recordId c.recordSubId, c.table, c.field⟩ c.value i
  else if texts rows ⟨.value c.value, c.table, c.field⟩ ≠ [] then
    Stored srt dl rows store ⟨.value c.value, c.table, c.field⟩ c.value i
  else ∃ l, store[i]? = some [⟨l, c.value⟩]

theorem build_inv (srt : List Tr → List Tr) (dl : String) (rows : List Row) (V : String → String → String → String → String) (s : State)
    (h : Inv srt dl rows V s) (k : Key) (e : Entry) (he : find s.i18n k = some e) (v : String)
    (hv : match k.record with | .value w => v = w | .record id sub => v = V k.table k.field id sub) :
    let r := build srt dl v s k e
    Inv srt dl rows V r.2 ∧ Stored srt dl rows r.2.store k v r.1 ∧ ∀ (i : Nat) (x : List Tr), s.store[i]? = some x → r.2.store[i]? = some x := by
  unfold build
  cases hi : e.idx with
  | some i =>
    refine ⟨h, ?_, fun _ _ h => h⟩
    obtain ⟨kr, kt, kf⟩ := k
    cases kr with
    | value w => dsimp only at hv; subst hv; exact h.val _ _ _ e i he hi
    | record id sub => dsimp only at hv; subst hv; exact h.byRec _ _ _ _ e i he hi
  | none =>
    have hst : Stored srt dl rows (s.store ++ [srt (withDefault dl v e.translations)]) k v s.store.length := by
      unfold Stored
      rw [List.getElem?_append_right (Nat.le_refl _), h.trs k e he]
      simp
    refine ⟨⟨snoc_keep h.zero, ?_, ?_, fun v i hm => snoc_keep (h.plain v i hm), ?_, ?_⟩, hst, fun i x h => snoc_keep h⟩
    · intro k'
      dsimp only
      rw [find_setIdx]
      simpa using h.keys k'
    · intro k' e' hf
      dsimp only at hf
      rw [find_setIdx] at hf
      cases hk : find s.i18n k' with
      | none => rw [hk] at hf; cases hf
      | some e2 =>
        rw [hk] at hf
        simp only [Option.map_some, Option.some.injEq] at hf
        rw [← h.trs k' e2 hk, ← hf]
        split <;> rfl
    · intro id sub t f e' i hf hi'
      dsimp only at hf
      rw [find_setIdx] at hf
      cases hk : find s.i18n ⟨.record id sub, t, f⟩ with
      | none => rw [hk] at hf; cases hf
      | some e2 =>
        rw [hk] at hf
        simp only [Option.map_some, Option.some.injEq] at hf
        by_cases hkk : k = ⟨.record id sub, t, f⟩
        · rw [if_pos hkk] at hf
          subst hf
          simp only [Option.some.injEq] at hi'
          subst hi'
          subst hkk
          dsimp only at hv
          subst hv
          exact hst
        · rw [if_neg hkk] at hf
          subst hf
          exact snoc_keep (h.byRec _ _ _ _ e2 i hk hi')
    · intro w t f e' i hf hi'
      dsimp only at hf
      rw [find_setIdx] at hf
      cases hk : find s.i18n ⟨.value w, t, f⟩ with
      | none => rw [hk] at hf; cases hf
      | some e2 =>
        rw [hk] at hf
        simp only [Option.map_some, Option.some.injEq] at hf
        by_cases hkk : k = ⟨.value w, t, f⟩
        · rw [if_pos hkk] at hf
          subst hf
          simp only [Option.some.injEq] at hi'
          subst hi'
          subst hkk
          dsimp only at hv
          subst hv
          exact hst
        · rw [if_neg hkk] at hf
          subst hf
          exact snoc_keep (h.val _ _ _ e2 i hk hi')

theorem get_inv (srt : List Tr → List Tr) (dl : String) (rows : List Row) (V : String → String → String → String → String) (s : State)
    (h : Inv srt dl rows V s) (c : Call) (hc : c.value = V c.table c.field c.recordId c.recordSubId) :
    let r := get srt dl s c
    Inv srt dl rows V r.2 ∧ Result srt dl rows r.2.store c r.1 ∧ ∀ (i : Nat) (x : List Tr), s.store[i]? = some x → r.2.store[i]? = some x := by
  unfold get Result
  cases h1 : find s.i18n ⟨.record c.recordId c.recordSubId, c.table, c.field⟩ with
  | some e =>
    have hne : texts rows ⟨.record c.recordId c.recordSubId, c.table, c.field⟩ ≠ [] := by
      intro hh
      rw [(h.keys _).mpr hh] at h1
      cases h1
    simp only [if_pos hne]
    exact build_inv srt dl rows V s h _ e h1 c.value hc
  | none =>
    have he : texts rows ⟨.record c.recordId c.recordSubId, c.table, c.field⟩ = [] := (h.keys _).mp h1
    simp only [he, ne_eq, not_true_eq_false, if_false]
    cases h2 : find s.i18n ⟨.value c.value, c.table, c.field⟩ with
    | some e =>
      have hne : texts rows ⟨.value c.value, c.table, c.field⟩ ≠ [] := by
        intro hh
        rw [(h.keys _).mpr hh] at h2
        cases h2
      rw [if_pos hne]
      exact build_inv srt dl rows V s h _ e h2 c.value rfl
    | none =>
      have he2 : texts rows ⟨.value c.value, c.table, c.field⟩ = [] := (h.keys _).mp h2
      simp only [he2, not_true_eq_false, if_false]
      unfold plain
      by_cases hv : c.value = ""
      · rw [if_pos hv]
        exact ⟨h, ⟨"", by rw [hv]; exact h.zero⟩, fun _ _ h => h⟩
      · rw [if_neg hv]
        cases hu : s.untranslated.find? (fun x => x.1 = c.value) with
        | some x =>
          have hm := List.mem_of_find?_eq_some hu
          have hx : x.1 = c.value := by simpa using List.find?_some hu
          exact ⟨h, ⟨"", by rw [← hx]; exact h.plain x.1 x.2 hm⟩, fun _ _ h => h⟩
        | none =>
          refine ⟨⟨snoc_keep h.zero, h.keys, h.trs, ?_, fun id sub t f e i a b => snoc_keep (h.byRec id sub t f e i a b),
            fun v t f e i a b => snoc_keep (h.val v t f e i a b)⟩, ⟨"", by simp⟩, fun _ _ h => snoc_keep h⟩
          intro v i hm
          rcases List.mem_append.mp hm with hm | hm
          · exact snoc_keep (h.plain v i hm)
          · simp at hm
            obtain ⟨rfl, rfl⟩ := hm
            simp

theorem result_mono {srt : List Tr → List Tr} {dl : String} {rows : List Row} {st st' : List (List Tr)} {c : Call} {i : Nat}
    (hm : ∀ (i : Nat) (x : List Tr), st[i]? = some x → st'[i]? = some x) (h : Result srt dl rows st c i) : Result srt dl rows st' c i := by
  unfold Result at *
  split
  · rename_i hn; rw [if_pos hn] at h; exact hm _ _ h
  · rename_i hn
    rw [if_neg hn] at h
    split
    · rename_i hn'; rw [if_pos hn'] at h; exact hm _ _ h
    · rename_i hn'
      rw [if_neg hn'] at h
      obtain ⟨l, hl⟩ := h
      exact ⟨l, hm _ _ hl⟩

theorem run_inv (srt : List Tr → List Tr) (dl : String) (rows : List Row) (V : String → String → String → String → String) :
    ∀ (cs : List Call) (s : State), Inv srt dl rows V s → (∀ c ∈ cs, c.value = V c.table c.field c.recordId c.recordSubId) →
      (∀ x ∈ (run srt dl s cs).2, Result srt dl rows (run srt dl s cs).1.store x.1 x.2) ∧
      (∀ (i : Nat) (x : List Tr), s.store[i]? = some x → (run srt dl s cs).1.store[i]? = some x) := by
  intro cs
  induction cs with
  | nil => intro s _ _; exact ⟨fun x hx => absurd hx List.not_mem_nil, fun _ _ h => h⟩
  | cons c cs ih =>
    intro s h hc
    obtain ⟨h1, h2, h3⟩ := get_inv srt dl rows V s h c (hc c (by simp))
    obtain ⟨h4, h5⟩ := ih _ h1 (fun c hm => hc c (by simp [hm]))
    simp only [run]
    refine ⟨?_, fun i x hx => h5 i x (h3 i x hx)⟩
    intro x hx
    rcases List.mem_cons.mp hx with rfl | hx
    · exact result_mono h5 h2
    · exact h4 x hx

theorem start_inv (srt : List Tr → List Tr) (dl : String) (rows : List Row) (V : String → String → String → String → String)
    (store : List (List Tr)) (h0 : store[0]? = some [⟨"", ""⟩]) : Inv srt dl rows V (start rows store) := by
  refine ⟨h0, ?_, ?_, ?_, ?_, ?_⟩
  · intro k
    show find (read rows) k = none ↔ _
    rw [find_read]
    split <;> simp_all
  · intro k e he
    have he : find (read rows) k = some e := he
    rw [find_read] at he
    split at he
    · cases he
    · cases he; rfl
  · intro v i hm; exact absurd hm List.not_mem_nil
  · intro id sub t f e i he hi
    have he : find (read rows) _ = some e := he
    rw [find_read] at he
    split at he
    · cases he
    · cases he; cases hi
  · intro v t f e i he hi
    have he : find (read rows) _ = some e := he
    rw [find_read] at he
    split at he
    · cases he
    · cases he; cases hi

/-! ### Reading texts -/

theorem mem_withDefault (dl v : String) (ts : List Tr) (t : Tr) : t ∈ withDefault dl v ts ↔
    t ∈ ts ∨ ((∀ t' ∈ ts, t'.lang ≠ dl) ∧ v ≠ "" ∧ t = ⟨dl, v⟩) := by
  unfold withDefault
  by_cases h : ts.any (fun t => t.lang == dl) = true
  · rw [if_pos h]
    obtain ⟨t', h1, h2⟩ := List.any_eq_true.mp h
    have h2 : t'.lang = dl := by simpa using h2
    constructor
    · exact Or.inl
    · rintro (h | ⟨h, -⟩)
      · exact h
      · exact absurd h2 (h t' h1)
  · rw [if_neg h]
    have hall : ∀ t' ∈ ts, t'.lang ≠ dl := by
      intro t' ht' heq
      exact h (List.any_eq_true.mpr ⟨t', ht', by simpa using heq⟩)
    by_cases hv : v = ""
    · simp [hv]
    · rw [if_neg hv]
      simp only [List.mem_append, List.mem_singleton]
      constructor
      · rintro (h | h)
        · exact Or.inl h
        · exact Or.inr ⟨hall, hv, h⟩
      · rintro (h | ⟨-, -, h⟩)
        · exact Or.inl h
        · exact Or.inr h

/-- Texts for which the rows `R` are related. -/
theorem mem_stored (rows : List Row) (dl : String) (c : Call) (k : Key) (hk : ∀ r ∈ rows, r.key = some k ↔ Related rows c r) (t : Tr) :
    t ∈ withDefault dl c.value (texts rows k) ↔ (InLang rows dl c t.lang t.text) := by
  rw [mem_withDefault]
  have htx : ∀ t, t ∈ texts rows k ↔ ∃ r, Related rows c r ∧ r.lang = t.lang ∧ r.text = t.text := by
    intro t
    simp only [texts, List.mem_map, List.mem_filter, decide_eq_true_eq]
    constructor
    · rintro ⟨r, ⟨h1, h2⟩, rfl⟩
      exact ⟨r, (hk r h1).mp h2, rfl, rfl⟩
    · rintro ⟨r, h1, h2, h3⟩
      exact ⟨r, ⟨h1.1, (hk r h1.1).mpr h1⟩, by rw [h2, h3]⟩
  unfold InLang
  constructor
  · rintro (h | ⟨h1, h2, rfl⟩)
    · exact Or.inl ((htx t).mp h)
    · exact Or.inr ⟨fun r hr he => h1 ⟨r.lang, r.text⟩ ((htx _).mpr ⟨r, hr, rfl, rfl⟩) he, rfl, h2, rfl⟩
  · rintro (h | ⟨h1, h2, h3, h4⟩)
    · exact Or.inl ((htx t).mpr h)
    · refine Or.inr ⟨?_, h3, by obtain ⟨a, b⟩ := t; simp at h2 h4; rw [h2, h4]⟩
      intro t' ht' he
      obtain ⟨r, hr, h5, -⟩ := (htx t').mp ht'
      exact h1 r hr (by rw [h5, he, h2])

theorem sees_stored (srt : List Tr → List Tr) (dl : String) (hsrt : Sorts dl srt) (rows : List Row) (c : Call) (k : Key)
    (hk : ∀ r ∈ rows, r.key = some k ↔ Related rows c r) (hne : texts rows k ≠ []) (store : List (List Tr)) (i : Nat)
    (hst : Stored srt dl rows store k c.value i) :
    (∃ r, Related rows c r) ∧ (∀ ls text, translate store (some ls) i = text → Sees rows dl c ls text) ∧
      DefaultText rows dl c (translate store none i) := by
  have hrel : ∃ r, Related rows c r := by
    obtain ⟨t, ht⟩ := List.exists_mem_of_ne_nil _ hne
    simp only [texts, List.mem_map, List.mem_filter, decide_eq_true_eq] at ht
    obtain ⟨r, ⟨h1, h2⟩, -⟩ := ht
    exact ⟨r, (hk r h1).mp h2⟩
  obtain ⟨hperm, a, b, hab, ha, hb⟩ := hsrt (withDefault dl c.value (texts rows k))
  have hmem : ∀ t, t ∈ srt (withDefault dl c.value (texts rows k)) ↔ InLang rows dl c t.lang t.text := by
    intro t
    rw [hperm.mem_iff]
    exact mem_stored rows dl c k hk t
  have hdef : DefaultText rows dl c (translate store none i) := by
    unfold translate defaultText
    simp only
    rw [hst]
    cases hl : srt (withDefault dl c.value (texts rows k)) with
    | nil =>
      exfalso
      obtain ⟨t, ht⟩ := List.exists_mem_of_ne_nil _ hne
      have : t ∈ srt (withDefault dl c.value (texts rows k)) := by
        rw [hperm.mem_iff, mem_withDefault]; exact Or.inl ht
      rw [hl] at this
      exact absurd this List.not_mem_nil
    | cons t r =>
      simp only
      have htm : InLang rows dl c t.lang t.text := (hmem t).mp (by rw [hl]; simp)
      cases a with
      | cons x a =>
        rw [hl] at hab
        simp at hab
        have := ha x (by simp)
        rw [← hab.1] at this
        rw [this] at htm
        exact Or.inl htm
      | nil =>
        have hnone : ∀ t', ¬ InLang rows dl c dl t' := by
          intro t' h
          have := (hmem ⟨dl, t'⟩).mpr h
          rw [hab] at this
          exact hb _ this rfl
        refine Or.inr ⟨hnone, ?_⟩
        rcases htm with ⟨r, h1, -, h3⟩ | ⟨-, h2, h3, h4⟩
        · exact ⟨r, h1, h3⟩
        · exfalso
          exact hb t (by rw [List.nil_append] at hab; rw [← hab, hl]; simp) h2
  refine ⟨hrel, ?_, hdef⟩
  intro ls text htext
  have htin : ∀ l, (∀ t, textIn store i l = some t → InLang rows dl c l t) ∧ (textIn store i l = none → ∀ t, ¬ InLang rows dl c l t) := by
    intro l
    have hg : store.getD i [] = srt (withDefault dl c.value (texts rows k)) := by
      rw [List.getD_eq_getElem?_getD, hst]; rfl
    unfold textIn
    rw [hg]
    constructor
    · intro t ht
      obtain ⟨x, hx, rfl⟩ := Option.map_eq_some_iff.mp ht
      have h1 : x.lang = l := by simpa using List.find?_some hx
      rw [← h1]
      exact (hmem x).mp (List.mem_of_find?_eq_some hx)
    · intro hn t ht
      have hn := Option.map_eq_none_iff.mp hn
      have := List.find?_eq_none.mp hn ⟨l, t⟩ ((hmem ⟨l, t⟩).mpr ht)
      simp at this
  refine ⟨fun _ => ?_, fun h => absurd hrel h⟩
  unfold translate at htext
  simp only at htext
  cases hfs : ls.findSome? (textIn store i) with
  | some t =>
    rw [hfs] at htext
    subst htext
    left
    obtain ⟨pre, l, post, h1, h2, h3⟩ := List.findSome?_eq_some_iff.mp hfs
    exact ⟨pre, l, post, h1, (htin l).1 _ h2, fun l' hl' => (htin l').2 (h3 l' hl')⟩
  | none =>
    rw [hfs] at htext
    subst htext
    right
    refine ⟨fun l hl => (htin l).2 ?_, hdef⟩
    exact List.findSome?_eq_none_iff.mp hfs l hl

/-- C123 (partial: fields of the tables and fields which the reader of translations.txt knows): for every
translations.txt, every sequence of calls made by the loader (the same field of the same record always with the same text) and
every sort: in the timetable at the end, a reader sees each field in the first of their preferred languages in which
there is a text, else in the language of the feed. -/
theorem C123_texts_partial (srt : List Tr → List Tr) (dl : String) (hsrt : Sorts dl srt) (rows : List Row)
    (store : List (List Tr)) (h0 : store[0]? = some [⟨"", ""⟩]) (V : String → String → String → String → String)
    (calls : List Call) (hV : ∀ c ∈ calls, c.value = V c.table c.field c.recordId c.recordSubId)
    (c : Call) (i : Nat) (hc : (c, i) ∈ (run srt dl (start rows store) calls).2) (ht : c.table ∈ tables) (hf : c.field ∈ fields)
    (langs : List String) :
    Sees rows dl c langs (translate (run srt dl (start rows store) calls).1.store (some langs) i) ∧
    ((∃ r, Related rows c r) → DefaultText rows dl c (translate (run srt dl (start rows store) calls).1.store none i)) ∧
    ((¬ ∃ r, Related rows c r) → translate (run srt dl (start rows store) calls).1.store none i = c.value) := by
  obtain ⟨h1, -⟩ := run_inv srt dl rows V calls _ (start_inv srt dl rows V store h0) hV
  have hres := h1 _ hc
  generalize (run srt dl (start rows store) calls).1.store = st at hres ⊢
  unfold Result at hres
  have hR : texts rows ⟨.record c.recordId c.recordSubId, c.table, c.field⟩ = [] ↔ ∀ r ∈ rows, ¬ NamesRecord c r := by
    simp only [texts, List.map_eq_nil_iff, List.filter_eq_nil_iff, decide_eq_true_eq]
    exact forall_congr' fun r => imp_congr_right fun _ => not_congr (key_record r c ht hf)
  have hVv : texts rows ⟨.value c.value, c.table, c.field⟩ = [] ↔ ∀ r ∈ rows, ¬ NamesValue c r := by
    simp only [texts, List.map_eq_nil_iff, List.filter_eq_nil_iff, decide_eq_true_eq]
    exact forall_congr' fun r => imp_congr_right fun _ => not_congr (key_value r c ht hf)
  split at hres
  · rename_i hne
    have hex : ¬ ∀ r ∈ rows, ¬ NamesRecord c r := fun h => hne (hR.mpr h)
    have hk : ∀ r ∈ rows, r.key = some ⟨.record c.recordId c.recordSubId, c.table, c.field⟩ ↔ Related rows c r := by
      intro r hr
      rw [key_record r c ht hf]
      constructor
      · intro h; exact ⟨hr, Or.inl h⟩
      · rintro ⟨-, h | ⟨h, -⟩⟩
        · exact h
        · exact absurd h hex
    obtain ⟨a, b, d⟩ := sees_stored srt dl hsrt rows c _ hk hne st i hres
    exact ⟨b langs _ rfl, fun _ => d, fun h => absurd a h⟩
  · rename_i hne
    have hex : ∀ r ∈ rows, ¬ NamesRecord c r := by
      apply hR.mp
      exact Classical.byContradiction fun h => hne h
    split at hres
    · rename_i hne2
      have hk : ∀ r ∈ rows, r.key = some ⟨.value c.value, c.table, c.field⟩ ↔ Related rows c r := by
        intro r hr
        rw [key_value r c ht hf]
        constructor
        · intro h; exact ⟨hr, Or.inr ⟨hex, h⟩⟩
        · rintro ⟨-, h | ⟨-, h⟩⟩
          · exact absurd h (hex r hr)
          · exact h
      obtain ⟨a, b, d⟩ := sees_stored srt dl hsrt rows c _ hk hne2 st i hres
      exact ⟨b langs _ rfl, fun _ => d, fun h => absurd a h⟩
    · rename_i hne2
      have hex2 : ∀ r ∈ rows, ¬ NamesValue c r := by
        apply hVv.mp
        exact Classical.byContradiction fun h => hne2 h
      have hno : ¬ ∃ r, Related rows c r := by
        rintro ⟨r, hr, h | ⟨-, h⟩⟩
        · exact hex r hr h
        · exact hex2 r hr h
      obtain ⟨l, hl⟩ := hres
      have hd : defaultText st i = c.value := by unfold defaultText; rw [hl]
      refine ⟨?_, fun h => absurd h hno, fun _ => hd⟩
      refine ⟨fun h => absurd h hno, fun _ => ?_⟩
      unfold translate
      simp only
      cases hfs : langs.findSome? (textIn st i) with
      | none => exact hd
      | some t =>
        obtain ⟨l', -, ht'⟩ := List.exists_of_findSome?_eq_some hfs
        unfold textIn at ht'
        rw [List.getD_eq_getElem?_getD, hl] at ht'
        obtain ⟨x, hx, rfl⟩ := Option.map_eq_some_iff.mp ht'
        have := List.mem_of_find?_eq_some hx
        simp at this
        rw [this]

/-- Texts registered earlier (by other sources, by earlier calls) are not changed. -/
theorem C123_stable (srt : List Tr → List Tr) (dl : String) (rows : List Row) (store : List (List Tr)) (h0 : store[0]? = some [⟨"", ""⟩])
    (V : String → String → String → String → String) (calls : List Call)
    (hV : ∀ c ∈ calls, c.value = V c.table c.field c.recordId c.recordSubId) (i : Nat) (hi : i < store.length) (langs : Option (List String)) :
    translate (run srt dl (start rows store) calls).1.store langs i = translate store langs i := by
  have h := (run_inv srt dl rows V calls _ (start_inv srt dl rows V store h0) hV).2 i _ (List.getElem?_eq_getElem hi)
  have h2 : store[i]? = some store[i] := List.getElem?_eq_getElem hi
  unfold translate
  have hd : defaultText (run srt dl (start rows store) calls).1.store i = defaultText store i := by
    unfold defaultText; rw [h, h2]
  have ht : textIn (run srt dl (start rows store) calls).1.store i = textIn store i := by
    funext l; unfold textIn; rw [List.getD_eq_getElem?_getD, List.getD_eq_getElem?_getD, h, h2]
  rw [hd, ht]

/-- A sort which moves the texts of the default language to the front. -/
def moveFront (dl : String) (l : List Tr) : List Tr := l.filter (fun t => t.lang = dl) ++ l.filter (fun t => ¬ t.lang = dl)

theorem moveFront_sorts (dl : String) : Sorts dl (moveFront dl) := by
  intro l
  refine ⟨?_, _, _, rfl, by simp, by simp⟩
  have := List.filter_append_perm (fun t : Tr => decide (t.lang = dl)) l
  simpa [moveFront] using this

/-- Finding: translations of booking rules (and location groups, fares, areas, ...) are not read: the table is not
known to the reader although the loader asks for it. -/
theorem C123_table_counterexample :
    let rows : List Row := [⟨"booking_rules", "message", "fr", "Bonjour", some "b1", none, none⟩]
    let c : Call := ⟨"booking_rules", "message", "Hello", "b1", ""⟩
    (run (moveFront "en") "en" (start rows [[⟨"", ""⟩]]) [c]).2 = [(c, 1)] ∧
    translate (run (moveFront "en") "en" (start rows [[⟨"", ""⟩]]) [c]).1.store (some ["fr"]) 1 = "Hello" ∧
    InLang rows "en" c "fr" "Bonjour" := by
  refine ⟨by decide, by decide, Or.inl ⟨_, ⟨List.mem_cons_self, Or.inl ⟨rfl, rfl, rfl, rfl⟩⟩, rfl, rfl⟩⟩

/-- Finding: when a record occurs twice with different texts, the second one gets the text of the first. -/
theorem C123_repeated_counterexample :
    let rows : List Row := [⟨"agency", "agency_name", "fr", "Chemins de fer", some "", none, none⟩]
    let c : Call := ⟨"agency", "agency_name", "Railways", "", ""⟩
    let d : Call := ⟨"agency", "agency_name", "Buses", "", ""⟩
    (run (moveFront "en") "en" (start rows [[⟨"", ""⟩]]) [c, d]).2 = [(c, 1), (d, 1)] ∧
    translate (run (moveFront "en") "en" (start rows [[⟨"", ""⟩]]) [c, d]).1.store (some ["en"]) 1 = "Railways" := by
  decide

/-- A stop with two translations (one by record), a route name by value, and an untranslated text. -/
def demoRows : List Row :=
  [⟨"stops", "stop_name", "fr", "Gare", some "s1", none, none⟩, ⟨"stops", "stop_name", "de", "Bahnhof", some "s1", none, none⟩,
   ⟨"routes", "route_long_name", "fr", "Ligne", none, none, some "Line"⟩]

def demoCalls : List Call :=
  [⟨"stops", "stop_name", "Station", "s1", ""⟩, ⟨"routes", "route_long_name", "Line", "r1", ""⟩, ⟨"stops", "stop_name", "Park", "s2", ""⟩]

example : (run (moveFront "en") "en" (start demoRows [[⟨"", ""⟩]]) demoCalls).2.map (·.2) = [1, 2, 3] ∧
    [1, 2, 3].map (translate (run (moveFront "en") "en" (start demoRows [[⟨"", ""⟩]]) demoCalls).1.store (some ["it", "fr", "de"])) =
      ["Gare", "Ligne", "Park"] ∧
    [1, 2, 3].map (translate (run (moveFront "en") "en" (start demoRows [[⟨"", ""⟩]]) demoCalls).1.store (some ["it", "en", "de"])) =
      ["Station", "Line", "Park"] := by decide

example : ∃ V : String → String → String → String → String, ∀ c ∈ demoCalls, c.value = V c.table c.field c.recordId c.recordSubId :=
  ⟨fun _ _ id _ => if id = "s1" then "Station" else if id = "r1" then "Line" else "Park", by decide⟩

end Nigiri.Translations
