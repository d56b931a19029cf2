/-!
# Translations of GTFS feeds

Model of `src/loader/gtfs/translations.cc`, and of `register_translation` and `translate` of
`src/timetable.cc`.  Names of tables and fields are strings (the enums `t`, `f` are in one-to-one correspondence with
the GTFS names); collisions of string hashes are ignored.  Languages are strings; the interning of languages
(`languages_.store`, C32) is left out.  The hash maps are association lists.
-/

namespace Nigiri.Translations

/-- `translation`: language and text. -/
structure Tr where
  lang : String
  text : String
deriving DecidableEq, Repr

/-- A row of translations.txt, `translations.cc:133-143`. -/
structure Row where
  table : String
  field : String
  lang : String
  text : String
  recordId : Option String
  recordSubId : Option String
  fieldValue : Option String
deriving DecidableEq, Repr

/-- `parse_table`, `translations.cc:68-82`. -/
def tables : List String :=
  ["agency", "stops", "routes", "trips", "stop_times", "pathways", "levels", "feed_info", "attributions"]

/-- `parse_field_name`, `translations.cc:84-129`. -/
def fields : List String :=
  ["agency_name", "agency_url", "agency_phone", "agency_fare_url", "agency_email", "stop_code", "stop_name", "tts_stop_name",
   "stop_desc", "stop_url", "platform_code", "route_short_name", "route_long_name", "route_desc", "route_type", "route_url",
   "trip_headsign", "trip_short_name", "stop_headsign", "rider_category_name", "eligibility_url", "fare_media_name",
   "fare_media_type", "fare_product_name", "area_name", "network_name", "level_name", "location_group_name",
   "location_stop_name", "location_stop_desc", "message", "pickup_message", "drop_off_message", "phone_number", "info_url",
   "booking_url", "feed_publisher_name", "organization_name", "attribution_url", "attribution_email", "attribution_phone"]

/-- `translation_key::record_t`, `translations.h`. -/
inductive Rec
  | value (v : String)
  | record (id sub : String)
deriving DecidableEq, Repr

/-- `translation_key`, `translations.h`. -/
structure Key where
  record : Rec
  table : String
  field : String
deriving DecidableEq, Repr

/-- `translator::entry`, `translations.h`; `idx = none` is `translation_idx_t::invalid()`. -/
structure Entry where
  translations : List Tr
  idx : Option Nat
deriving Repr

/-- `i18n_`. -/
abbrev Map := List (Key × Entry)

/-- The key of a row, `translations.cc:146-176`; `none`: the row is skipped. -/
def Row.key (r : Row) : Option Key :=
  if r.table ∈ tables then
    if r.field ∈ fields then
      match r.recordId, r.fieldValue with
      | some id, _ => some ⟨.record id (r.recordSubId.getD ""), r.table, r.field⟩
      | none, some v => some ⟨.value v, r.table, r.field⟩
      | none, none => none
    else none
  else none

/-- `i18n_[key].translations_.emplace_back()`, `translations.cc:178-180`. -/
def addTr (k : Key) (tr : Tr) : Map → Map
  | [] => [(k, ⟨[tr], none⟩)]
  | (k', e) :: m => if k' = k then (k', { e with translations := e.translations ++ [tr] }) :: m else (k', e) :: addTr k tr m

/-- One row of `read_translations`, `translations.cc:145-181`. -/
def readRow (m : Map) (r : Row) : Map := match r.key with
  | some k => addTr k ⟨r.lang, r.text⟩ m
  | none => m

/-- `read_translations`, `translations.cc:131-184`. -/
def read (rows : List Row) : Map := rows.foldl readRow []

/-- `translator` and the members of the timetable it writes: `translations_`, `translation_language_`. -/
structure State where
  i18n : Map
  untranslated : List (String × Nat)
  store : List (List Tr)

/-- `i18n_.find`. -/
def find (m : Map) (k : Key) : Option Entry := (m.find? fun x => x.1 = k).map (·.2)

/-- `e.idx_ = ...` for an entry of the map. -/
def setIdx (k : Key) (i : Nat) (m : Map) : Map := m.map fun x => if x.1 = k then (x.1, { x.2 with idx := some i }) else x

/-- The translations to register, before sorting, `translations.cc:20-30`. -/
def withDefault (lang value : String) (ts : List Tr) : List Tr :=
  if ts.any (fun t => t.lang == lang) then ts
  else if value = "" then ts else ts ++ [⟨lang, value⟩]

/-- `build`, `translations.cc:18-37`; `srt` is `utl::sort` with the comparison of lines 31-34 (not stable). -/
def build (srt : List Tr → List Tr) (lang value : String) (s : State) (k : Key) (e : Entry) : Nat × State :=
  match e.idx with
  | some i => (i, s)
  | none => (s.store.length, { s with i18n := setIdx k s.store.length s.i18n, store := s.store ++ [srt (withDefault lang value e.translations)] })

/-- The arguments of `translator::get`. -/
structure Call where
  table : String
  field : String
  value : String
  recordId : String
  recordSubId : String
deriving DecidableEq, Repr

/-- The part after the lookups, `translations.cc:58-66`: `kEmptyTranslation` is index 0. -/
def plain (s : State) (value : String) : Nat × State :=
  if value = "" then (0, s)
  else match s.untranslated.find? (fun x => x.1 = value) with
  | some x => (x.2, s)
  | none => (s.store.length, { s with untranslated := s.untranslated ++ [(value, s.store.length)], store := s.store ++ [[⟨"", value⟩]] })

/-- `translator::get`, `translations.cc:13-66`. -/
def get (srt : List Tr → List Tr) (lang : String) (s : State) (c : Call) : Nat × State :=
  match find s.i18n ⟨.record c.recordId c.recordSubId, c.table, c.field⟩ with
  | some e => build srt lang c.value s ⟨.record c.recordId c.recordSubId, c.table, c.field⟩ e
  | none => match find s.i18n ⟨.value c.value, c.table, c.field⟩ with
    | some e => build srt lang c.value s ⟨.value c.value, c.table, c.field⟩ e
    | none => plain s c.value

/-- The calls of a loader, in order, with the results. -/
def run (srt : List Tr → List Tr) (lang : String) (s : State) : List Call → State × List (Call × Nat)
  | [] => (s, [])
  | c :: cs =>
    let r := get srt lang s c
    let r' := run srt lang r.2 cs
    (r'.1, (c, r.1) :: r'.2)

/-- The state before the first call of the loader of a source: `store` = the translations registered so far (the first one is
`kEmptyTranslation`, `init_finish.cc:19-20`). -/
def start (rows : List Row) (store : List (List Tr)) : State := ⟨read rows, [], store⟩

/-- `get_default_translation`, `timetable.cc:73-76`. -/
def defaultText (store : List (List Tr)) (i : Nat) : String := match store[i]? with
  | some (t :: _) => t.text
  | _ => ""

/-- The text of the first entry in a language, `timetable.cc:91-95`. -/
def textIn (store : List (List Tr)) (i : Nat) (l : String) : Option String :=
  ((store.getD i []).find? fun t => t.lang = l).map (·.text)

/-- `timetable::translate`, `timetable.cc:78-99`. -/
def translate (store : List (List Tr)) (langs : Option (List String)) (i : Nat) : String := match langs with
  | none => defaultText store i
  | some ls => match ls.findSome? (textIn store i) with
    | some t => t
    | none => defaultText store i

end Nigiri.Translations
