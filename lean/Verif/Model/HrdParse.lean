import Verif.Model.Hrd
/-!
# Reading the services of an HRD file

Model of `src/loader/hrd/service/service.cc` and of `parse_services`
(`include/nigiri/loader/hrd/service/read_services.h`).  The columns of a line
(`parser_config.h`) and the conversion of their text to numbers are parameters (`Cols`).
-/

namespace Nigiri.HrdParse
open Hrd (Event Stop)

/-- A line of the file (`utl::cstr`). -/
abbrev Line := List Char

/-! ## The lines of a service -/

/-- `specification`, `service.h:23-40`; `head`: `internal_service_` (`none`: null pointer).  File name
and line numbers are not modelled. -/
structure Specif where
  head : Option Line := none
  trafficDays : List Line := []
  categories : List Line := []
  lineInfos : List Line := []
  attributes : List Line := []
  directions : List Line := []
  stops : List Line := []
deriving Repr, DecidableEq

/-- `specification::is_empty`, `service.cc:214`. -/
def Specif.isEmpty (s : Specif) : Bool := s.head.isNone

/-- `specification::ignore`, `service.cc:221-223`. -/
def Specif.ignore (s : Specif) : Bool :=
  match s.head with
  | none => false
  | some l => !['*', 'Z'].isPrefixOf l

/-- `specification::valid`, `service.cc:216-219`. -/
def Specif.valid (s : Specif) : Bool :=
  s.ignore || (!s.categories.isEmpty && decide (2 ≤ s.stops.length) && !s.trafficDays.isEmpty &&
    !s.isEmpty)

/-- `specification::read_line`, `service.cc:235-285`; `none`: exception, `true`: the line begins the
next service. -/
def readLine (s : Specif) (line : Line) : Option (Specif × Bool) :=
  match line with
  | [] => some (s, false)
  | c0 :: rest =>
    if c0.isDigit then some ({ s with stops := s.stops ++ [line] }, false)
    else
      match rest with
      | [] => none
      | c1 :: rest2 =>
        if c0 ≠ '*' then none
        else if c1 = 'K' ∨ c1 = 'Z' ∨ c1 = 'T' then
          if c1 = 'K' ∧ rest2[1]? = some 'Z' then some (s, false)
          else if s.isEmpty then some ({ s with head := some line }, false)
          else some (s, true)
        else if c1 = 'A' then
          if ['*', 'A', ' ', 'V', 'E'].isPrefixOf line then
            some ({ s with trafficDays := s.trafficDays ++ [line] }, false)
          else some ({ s with attributes := s.attributes ++ [line] }, false)
        else if c1 = 'G' then
          if ['*', 'G', 'R'].isPrefixOf line then some (s, false)
          else some ({ s with categories := s.categories ++ [line] }, false)
        else if c1 = 'L' then some ({ s with lineInfos := s.lineInfos ++ [line] }, false)
        else if c1 = 'R' then some ({ s with directions := s.directions ++ [line] }, false)
        else some (s, false)

/-- State of `parse_services`: the lines of the current service and what was loaded. -/
structure FileState (α : Type) where
  spec : Specif := {}
  out : List α := []

/-- What a finished service adds, `read_services.h:57-69`; `load` gives what reaches the consumer and
whether an exception was thrown (which is caught here, `:62-68`). -/
def finish {α : Type} (load : Specif → List α × Bool) (s : Specif) : List α :=
  if !s.valid then [] else if s.ignore then [] else (load s).1

/-- One line of the file, `read_services.h:37-74`; `none`: exception. -/
def fileStep {α : Type} (load : Specif → List α × Bool) (st : FileState α) (line : Line) :
    Option (FileState α) :=
  if line = [] ∨ line.head? = some '%' then some st
  else
    match readLine st.spec line with
    | none => none
    | some (s, false) => some { st with spec := s }
    | some (s, true) =>
      match readLine {} line with
      | none => none
      | some (s', _) => some { spec := s', out := st.out ++ finish load s }

/-- The loop over the lines, `read_services.h:37-74`. -/
def fileLoop {α : Type} (load : Specif → List α × Bool) : FileState α → List Line → Option (FileState α)
  | st, [] => some st
  | st, l :: ls =>
    match fileStep load st l with
    | none => none
    | some st' => fileLoop load st' ls

/-- `parse_services`, `read_services.h:16-80`: everything handed to the consumer; `none`: an exception
leaves the function (invalid line, or in the last service, which is outside of the `try`). -/
def parseServices {α : Type} (load : Specif → List α × Bool) (lines : List Line) : Option (List α) :=
  match fileLoop load {} lines with
  | none => none
  | some st =>
    if !st.spec.isEmpty && st.spec.valid && !st.spec.ignore then
      if (load st.spec).2 then none else some (st.out ++ (load st.spec).1)
    else some st.out

/-! ## Ranges -/

/-- A column that names a stop or a time: blank, `#` and an index, or a number. -/
inductive Tok
  | blank
  | index (i : Nat)
  | num (n : Nat)
deriving Repr, DecidableEq

/-- `parse<unsigned>` of a column that is not an index (a blank column gives 0). -/
def Tok.number : Tok → Nat
  | .num n => n
  | _ => 0

/-- The four columns of a range, `parser_config.h:16-21`. -/
structure RangeSpec where
  fromEva : Tok := .blank
  toEva : Tok := .blank
  fromTime : Tok := .blank
  toTime : Tok := .blank
deriving Repr, DecidableEq

/-- `hhmm_to_min`, `util.h:8-14`, for numbers that are not negative. -/
def hhmmToMin (n : Nat) : Int := ((n / 100 * 60 + n % 100 : Nat) : Int)

/-- `find_nth`, `service.cc:24-37`, as an index; `pos`: index of the head of the list, `n ≥ 1`. -/
def findNth {α : Type} (p : α → Bool) : List α → Nat → Nat → Option Nat
  | [], _, _ => none
  | a :: l, pos, n =>
    if p a then
      if n = 1 then some pos else findNth p l (pos + 1) (n - 1)
    else findNth p l (pos + 1) n

/-- `get_index`, `service.cc:68-117`; `none`: exception. -/
def getIndex (stops : List Stop) (eva time : Tok) (isDep : Bool) : Option Nat :=
  match eva with
  | .index i => some i
  | _ =>
    match time with
    | .blank => findNth (fun s : Stop => decide (s.eva = eva.number)) stops 0 1
    | .index k => findNth (fun s : Stop => decide (s.eva = eva.number)) stops 0 (k + 1)
    | .num t =>
      if isDep then
        stops.findIdx? fun s => decide (s.eva = eva.number) && decide (s.dep.time = hhmmToMin t)
      else
        (stops.reverse.findIdx? fun s =>
          decide (s.eva = eva.number) && decide (s.arr.time = hhmmToMin t)).map
            fun i => stops.length - 1 - i

/-- `range::range`, `service.cc:39-56`; `none`: exception. -/
def rangeOf (stops : List Stop) (r : RangeSpec) : Option (Nat × Nat) :=
  if r.fromEva = .blank ∧ r.toEva = .blank ∧ r.fromTime = .blank ∧ r.toTime = .blank then
    some (0, stops.length - 1)
  else
    match getIndex stops r.fromEva r.fromTime true, getIndex stops r.toEva r.toTime false with
    | some f, some t => some (f, t)
    | _, _ => none

/-! ## Sections -/

/-- Argument of `resolve_direction`, `service.cc:363-371`: the text of the line, or the station at the
end of the range. -/
inductive Dir
  | code (c : Line)
  | station (eva : Nat)
deriving Repr, DecidableEq

/-- `service::section`, `service.h:65-77`, before the codes are looked up in `stamm`. -/
structure Sec where
  trainNum : Option Nat := none
  admin : Option Line := none
  attributes : Option (List (Nat × Line)) := none
  category : Option Line := none
  line : Option Line := none
  direction : Option Dir := none
  trafficDays : Option Nat := none
deriving Repr, DecidableEq

/-- A pointer to a member of `section`. -/
structure Member (α : Type) where
  get : Sec → Option α
  set : Option α → Sec → Sec

def attributesM : Member (List (Nat × Line)) := ⟨(·.attributes), fun v s => { s with attributes := v }⟩
def categoryM : Member Line := ⟨(·.category), fun v s => { s with category := v }⟩
def lineM : Member Line := ⟨(·.line), fun v s => { s with line := v }⟩
def directionM : Member Dir := ⟨(·.direction), fun v s => { s with direction := v }⟩
def trafficDaysM : Member Nat := ⟨(·.trafficDays), fun v s => { s with trafficDays := v }⟩

/-- `sections_` and `begin_to_end_info_`; `oob`: memory outside of a vector was read or written (an
index of the file that is too large is not checked). -/
structure SecState where
  sections : List Sec := []
  whole : Sec := {}
  oob : Bool := false
deriving Repr, DecidableEq

/-- `sections.resize(n)`. -/
def resize (l : List Sec) (n : Nat) : List Sec := l.take n ++ List.replicate (n - l.length) ({} : Sec)

/-- The update of one line, `service.cc:147-154` and `:172-183`; `n` = number of stops, `f` = new value
of the member (the assigned value, or the old vector with a new element). -/
def applyRange {α : Type} (m : Member α) (n : Nat) (f : Option α → Option α) (r : Nat × Nat)
    (st : SecState) : SecState :=
  if r.1 = 0 ∧ r.2 = n - 1 then { st with whole := m.set (f (m.get st.whole)) st.whole }
  else
    { st with
      sections := (resize st.sections (n - 1)).mapIdx fun i s =>
        if r.1 ≤ i ∧ i < r.2 then m.set (f (m.get s)) s else s
      oob := st.oob || (decide (r.1 < r.2) && decide (n - 1 < r.2)) }

/-- `compute_ranges` and `parse_range`, `service.cc:122-185`: `upd` gives the new value of the member and whether the
conversion read outside of the stops; `none`: exception. -/
def parseRange {α : Type} (m : Member α) (stops : List Stop) (rng : Line → RangeSpec)
    (upd : Line → Nat × Nat → Option α → Option α) (bad : Line → Nat × Nat → Bool) :
    SecState → List Line → Option SecState
  | st, [] => some st
  | st, l :: ls =>
    match rangeOf stops (rng l) with
    | none => none
    | some r =>
      let st' := applyRange m stops.length (upd l r) r st
      parseRange m stops rng upd bad { st' with oob := st'.oob || bad l r } ls

/-- The columns of the file format, `parser_config.h`, and the conversion of their text.
`stop`: `parse_stop`, `service.cc:187-195`, `none`: exception; `stopNum`, `stopAdmin`: `:206-212`,
`none`: blank; `dirCode`: `none` if column 5 is blank, `:366`. -/
structure Cols where
  headNum : Line → Nat
  headAdmin : Line → Line
  repetitions : Line → Nat
  interval : Line → Nat
  stop : Line → Option Stop
  stopNum : Line → Option Nat
  stopAdmin : Line → Option Line
  attrRange : Line → RangeSpec
  attr : Line → Nat × Line
  catRange : Line → RangeSpec
  cat : Line → Line
  lineRange : Line → RangeSpec
  lineOf : Line → Line
  daysRange : Line → RangeSpec
  days : Line → Nat
  dirRange : Line → RangeSpec
  dirCode : Line → Option Line

/-- The loop of `parse_sections`, `service.cc:303-314`, over the stops without the last one. -/
def sectionLoop (c : Cols) : Nat → Line → List Line → List Sec
  | _, _, [] => []
  | num, admin, l :: ls =>
    let num' := (c.stopNum l).getD num
    let admin' := (c.stopAdmin l).getD admin
    { trainNum := some num', admin := some admin' } :: sectionLoop c num' admin' ls

/-- `parse_sections`, `service.cc:287-316`. -/
def parseSections (c : Cols) (head : Line) (stops : List Line) : SecState :=
  if stops.all fun l => (c.stopNum l).isNone && (c.stopAdmin l).isNone then
    { whole := { trainNum := some (c.headNum head), admin := some (c.headAdmin head) } }
  else { sections := sectionLoop c (c.headNum head) (c.headAdmin head) stops.dropLast }

/-- `service`, `service.h:79-92`. -/
structure Built where
  numRepetitions : Nat
  interval : Nat
  stops : List Stop
  secs : SecState
  initialAdmin : Line
  initialNum : Nat

/-- The conversion of a direction line, `service.cc:365-371`. -/
def dirOf (c : Cols) (stops : List Stop) (l : Line) (r : Nat × Nat) : Dir :=
  match c.dirCode l with
  | some d => .code d
  | none => .station (((stops[r.2]?).map (·.eva)).getD 0)

/-- `service::service`, `service.cc:318-372`; `none`: exception. -/
def build (c : Cols) (s : Specif) : Option Built :=
  match s.head, s.stops.mapM c.stop with
  | some head, some stops =>
    if stops.length < 2 then none
    else
      match parseRange attributesM stops c.attrRange (fun l _ o => some (o.getD [] ++ [c.attr l]))
          (fun _ _ => false) (parseSections c head s.stops) s.attributes with
      | none => none
      | some s1 =>
        match parseRange categoryM stops c.catRange (fun l _ _ => some (c.cat l))
            (fun _ _ => false) s1 s.categories with
        | none => none
        | some s2 =>
          match parseRange lineM stops c.lineRange (fun l _ _ => some (c.lineOf l))
              (fun _ _ => false) s2 s.lineInfos with
          | none => none
          | some s3 =>
            match parseRange trafficDaysM stops c.daysRange (fun l _ _ => some (c.days l))
                (fun _ _ => false) s3 s.trafficDays with
            | none => none
            | some s4 =>
              match parseRange directionM stops c.dirRange (fun l r _ => some (dirOf c stops l r))
                  (fun l r => (c.dirCode l).isNone && decide (stops.length ≤ r.2)) s4 s.directions with
              | none => none
              | some s5 => some ⟨c.repetitions head, c.interval head, stops, s5, c.headAdmin head,
                  c.headNum head⟩
  | _, _ => none

/-! ## Names -/

/-- `category`, `stamm/category.h` (the long name is not used). -/
structure Category where
  name : String
  outputRule : Nat
  clasz : Nat
deriving Repr, DecidableEq

/-- What names are made from: `stamm::resolve_category` (`none`: null pointer) and the id of a
provider. -/
structure Names where
  category : Line → Option Category
  provider : Line → String

/-- `cat.output_rule_ & flag == flag`, `service.cc:392-394`. -/
def isRule (c : Category) (flag : Nat) : Bool := c.outputRule &&& flag == flag

/-- The name from a category, a provider, the line and the train number, `service.cc:396-414`. -/
def nameOf (cat : Category) (provider : String) (num : Nat) (line : String) : String :=
  if isRule cat 3 then ""
  else
    let first := if isRule cat 2 then "" else if isRule cat 8 then provider else cat.name
    let second := if isRule cat 1 then "" else if num = 0 then line else toString num
    first ++ (if first.isEmpty then "" else " ") ++ second

/-- The category of the name, `service.cc:385-388`; `none`: a null pointer, or the first element of an
empty vector, is read. -/
def nameCategory (nm : Names) (b : Built) : Option Category :=
  match b.secs.whole.category with
  | some c => nm.category c
  | none =>
    match b.secs.sections.head? with
    | none => none
    | some s =>
      match s.category with
      | some c => nm.category c
      | none => some ⟨"UKN", 0, 15⟩

/-- The administration of the name, `service.cc:389-391`. -/
def nameAdmin (b : Built) : Option Line :=
  match b.secs.whole.admin with
  | some a => some a
  | none => b.secs.sections.head?.bind (·.admin)

/-- The line of the name, `service.cc:400-404`. -/
def nameLine (b : Built) : Line :=
  match b.secs.whole.line with
  | some l => l
  | none => (b.secs.sections.head?.bind (·.line)).getD []

/-- `service::display_name`, `service.cc:374-415`; `none`: undefined behaviour. -/
def displayName (nm : Names) (b : Built) : Option String :=
  match nameCategory nm b, nameAdmin b with
  | some c, some a => some (nameOf c (nm.provider a) b.initialNum (String.ofList (nameLine b)))
  | _, _ => none

/-- The transport class of section `k`, `service_builder.cc:17-32`: a category that is not known gives
`clasz::kOther`.  `none`: no category (an assertion). -/
def sectionClasz (nm : Names) (b : Built) (k : Nat) : Option Nat :=
  match b.secs.whole.category with
  | some c => some (match nm.category c with | none => 15 | some x => x.clasz)
  | none =>
    match (b.secs.sections[k]?).bind (·.category) with
    | none => none
    | some c => some (match nm.category c with | none => 15 | some x => x.clasz)

/-- `ref_service::line_info`, `ref_service.h:95-106`, for the part that begins at section `k`. -/
def lineInfo (b : Built) (k : Nat) : Line :=
  match b.secs.whole.line with
  | some l => l
  | none => ((b.secs.sections[k]?).bind (·.line)).getD []

/-- The service as the rest of the loader sees it: only the members that `Hrd.Service` has; the codes
of administrations and categories are numbered by `num`. -/
def Built.toService (num : Line → Nat) (b : Built) : Hrd.Service :=
  { numRepetitions := b.numRepetitions
    interval := b.interval
    stops := b.stops
    sections := b.secs.sections.map fun s =>
      { trainNum := s.trainNum, admin := s.admin.map num, category := s.category.map num,
        trafficDays := s.trafficDays }
    beginToEnd :=
      { trainNum := b.secs.whole.trainNum, admin := b.secs.whole.admin.map num,
        category := b.secs.whole.category.map num, trafficDays := b.secs.whole.trafficDays } }

end Nigiri.HrdParse
