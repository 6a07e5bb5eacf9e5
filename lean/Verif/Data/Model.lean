import Verif.Common
import Mathlib.Computability.RegularExpressions
import Mathlib.Data.List.Basic

/-!
# Model of the data loaders

`mml/tools/data_loader/{DataLoaderTypes,DataLoaderParsing,DataLoaderCSV,DataLoaderJSON}.h`.

Representation decisions (all of them simplifications of the C++ types):
* a `std::string` is a list of characters; character classification is that of the C locale;
* `Real` is an arbitrary type `R`; `std::stod` is a parameter `stod : Str → Option R` (`none`: it
  throws), and NaN is the `none` of `Option R`;
* `std::regex_match` against a pattern is membership in the language of the corresponding
  `RegularExpression`, decided by Mathlib's `rmatch`;
* `DataError` is `Exn.mml "DataError"`; the text of the message is not modelled.
-/

set_option autoImplicit false

namespace Verif.Data

/-- `std::string`. -/
abbrev Str := List Char

/-- `DataError`, thrown by every loader (`mml/MMLExceptions.h`, used in DataLoaderCSV.h:47,75,103,307
and DataLoaderJSON.h:58-195). -/
def dataError {α : Type} : Outcome α := .exn (.mml "DataError")

/-- `v[i] = x` on a `std::vector` or `Vector` through `operator[]`: undefined out of range. -/
def setAt {α : Type} (v : List α) (i : Nat) (x : α) : Outcome (List α) :=
  if i < v.length then .ret (v.set i x) else .ub

/-- `std::vector::resize(n)`: new elements are value-initialised to `d`. -/
def resize {α : Type} (v : List α) (n : Nat) (d : α) : List α :=
  v.take n ++ List.replicate (n - v.length) d

/-! ## DataLoaderTypes.h -/

/-- `enum class ColumnType` (DataLoaderTypes.h:46-55). -/
inductive ColumnType where
  | REAL | INT | BOOL | STRING | DATE | TIME | DATETIME | MISSING
  deriving DecidableEq, Repr

/-- `std::transform(.., ::tolower)` (DataLoaderTypes.h:84, DataLoaderParsing.h:69,148). -/
def lower (s : Str) : Str := s.map Char.toLower

/-- The sentinels of `IsMissingValue` (DataLoaderTypes.h:85-87), besides the empty string. -/
def missingWords : List Str :=
  ["na".toList, "n/a".toList, "nan".toList, "null".toList, "none".toList, ".".toList,
    "?".toList, "-".toList]

/-- `IsMissingValue` (DataLoaderTypes.h:81-88). -/
def isMissingValue (s : Str) : Bool := s.isEmpty || missingWords.contains (lower s)

/-- `struct DataColumn` (DataLoaderTypes.h:94-105).  `realData` holds `Option R`, `none` being NaN. -/
structure DataColumn (R : Type) where
  name : Str := []
  type : ColumnType := .STRING
  realData : List (Option R) := []
  intData : List Int := []
  boolData : List Bool := []
  stringData : List Str := []
  dateData : List Str := []
  timeData : List Str := []
  missingMask : List Bool := []

variable {R : Type}

/-- `DataColumn::Size` (DataLoaderTypes.h:108-119). -/
def DataColumn.size (c : DataColumn R) : Nat :=
  match c.type with
  | .REAL => c.realData.length
  | .INT => c.intData.length
  | .BOOL => c.boolData.length
  | .STRING => c.stringData.length
  | .DATE => c.dateData.length
  | .TIME => c.timeData.length
  | .DATETIME => c.dateData.length
  | .MISSING => c.missingMask.length

/-- `DataColumn::IsMissing` (DataLoaderTypes.h:122-125). -/
def DataColumn.isMissing (c : DataColumn R) (i : Nat) : Bool :=
  if i ≥ c.missingMask.length then false else c.missingMask.getD i false

/-- `DataColumn::CountMissing` (DataLoaderTypes.h:128-134). -/
def DataColumn.countMissing (c : DataColumn R) : Nat :=
  c.missingMask.foldl (fun n m => if m then n + 1 else n) 0

/-- `DataColumn::GetAsString` (DataLoaderTypes.h:137-162).  Printing a `Real` with six digits is the
parameter `showReal`. -/
def DataColumn.getAsString (showReal : Option R → Str) (c : DataColumn R) (i : Nat) : Outcome Str :=
  if i ≥ c.size then .ret []
  else if c.isMissing i then .ret "NA".toList
  else
    match c.type with
    | .REAL => do return showReal (← Outcome.index c.realData i)
    | .INT => do return (toString (← Outcome.index c.intData i)).toList
    | .BOOL => do return if (← Outcome.index c.boolData i) then "true".toList else "false".toList
    | .STRING => Outcome.index c.stringData i
    | .DATE => Outcome.index c.dateData i
    | .TIME => Outcome.index c.timeData i
    | .DATETIME => do
        let d ← Outcome.index c.dateData i
        let t ← Outcome.index c.timeData i
        return d ++ " ".toList ++ t
    | .MISSING => .ret "NA".toList

/-- `DataColumn::GetReal` (DataLoaderTypes.h:165-179); `none` is NaN.  `ofInt` is the conversion
`static_cast<Real>`. -/
def DataColumn.getReal [Zero R] [One R] (ofInt : Int → R) (c : DataColumn R) (i : Nat) :
    Outcome (Option R) :=
  if i ≥ c.size || c.isMissing i then .ret none
  else
    match c.type with
    | .REAL => Outcome.index c.realData i
    | .INT => do return some (ofInt (← Outcome.index c.intData i))
    | .BOOL => do return if (← Outcome.index c.boolData i) then some 1 else some 0
    | _ => .ret none

/-- `struct Dataset` (DataLoaderTypes.h:186-191). -/
structure Dataset (R : Type) where
  name : Str := []
  columns : List (DataColumn R) := []
  rowCount : Nat := 0

/-- `Dataset::operator[](size_t)` (DataLoaderTypes.h:200-210). -/
def Dataset.at (d : Dataset R) (i : Nat) : Outcome (DataColumn R) :=
  match d.columns[i]? with
  | some c => .ret c
  | none => dataError

/-- `Dataset::operator[](const std::string&)` (DataLoaderTypes.h:213-225). -/
def Dataset.byName (d : Dataset R) (n : Str) : Outcome (DataColumn R) :=
  match d.columns.find? (fun c => c.name = n) with
  | some c => .ret c
  | none => dataError

/-- `Dataset::HasColumn` (DataLoaderTypes.h:228-233). -/
def Dataset.hasColumn (d : Dataset R) (n : Str) : Bool := d.columns.any (fun c => c.name = n)

/-- `Dataset::GetRealColumn` (DataLoaderTypes.h:247-260). -/
def Dataset.getRealColumn (ofInt : Int → R) (d : Dataset R) (n : Str) : Outcome (List (Option R)) := do
  let c ← d.byName n
  if c.type ≠ .REAL ∧ c.type ≠ .INT then dataError
  else if c.type = .REAL then .ret c.realData
  else .ret (c.intData.map (fun i => some (ofInt i)))

/-- The loops `for (idx : keepIndices) new.push_back(src[idx])` of `FilterRows`
(DataLoaderTypes.h:443-478). -/
def gather {α : Type} (src : List α) : List Nat → Outcome (List α)
  | [] => .ret []
  | i :: is => do
    let x ← Outcome.index src i
    let xs ← gather src is
    return x :: xs

/-- The per-column body of `FilterRows` (DataLoaderTypes.h:432-484). -/
def filterColumn (keep : List Nat) (src : DataColumn R) : Outcome (DataColumn R) := do
  let new : DataColumn R :=
    { name := src.name, type := src.type, missingMask := keep.map src.isMissing }
  match src.type with
  | .REAL => do return { new with realData := ← gather src.realData keep }
  | .INT => do return { new with intData := ← gather src.intData keep }
  | .BOOL => do return { new with boolData := ← gather src.boolData keep }
  | .STRING => do return { new with stringData := ← gather src.stringData keep }
  | .DATE => do return { new with dateData := ← gather src.dateData keep }
  | .DATETIME => do
      let d ← gather src.dateData keep
      let t ← gather src.timeData keep
      return { new with dateData := d, timeData := t }
  | .TIME => do return { new with timeData := ← gather src.timeData keep }
  | .MISSING => .ret new

/-- First loop of `FilterRows` (DataLoaderTypes.h:420-424): the indices of the rows whose text in the
filter column satisfies the predicate, in order. -/
def keepIndices (showReal : Option R → Str) (col : DataColumn R) (p : Str → Bool) :
    List Nat → Outcome (List Nat)
  | [] => .ret []
  | i :: is => do
    let s ← col.getAsString showReal i
    let rest ← keepIndices showReal col p is
    return if p s then i :: rest else rest

/-- Sequencing of a loop body over a list, collecting the results. -/
def mapOutcome {α β : Type} (f : α → Outcome β) : List α → Outcome (List β)
  | [] => .ret []
  | a :: as => do
    let b ← f a
    let bs ← mapOutcome f as
    return b :: bs

/-- `Dataset::FilterRows` (DataLoaderTypes.h:415-487). -/
def Dataset.filterRows (showReal : Option R → Str) (d : Dataset R) (colName : Str) (p : Str → Bool) :
    Outcome (Dataset R) := do
  let col ← d.byName colName
  let keep ← keepIndices showReal col p (List.range d.rowCount)
  let cols ← mapOutcome (filterColumn keep) d.columns
  return { name := d.name ++ "_filtered".toList, columns := cols, rowCount := keep.length }

/-- `Dataset::SelectColumns` (DataLoaderTypes.h:490-501). -/
def Dataset.selectColumns (d : Dataset R) (names : List Str) : Outcome (Dataset R) := do
  let cols ← mapOutcome d.byName names
  return { name := d.name ++ "_selected".toList, columns := cols, rowCount := d.rowCount }

/-! ## DataLoaderParsing.h -/

/-- The character set `" \t\r\n"` (DataLoaderParsing.h:49-50,129-131,215-217). -/
def isBlank (c : Char) : Bool := c = ' ' || c = '\t' || c = '\r' || c = '\n'

/-- `Trim` (DataLoaderParsing.h:214-219) and the two `erase` calls of `InferColumnType` and
`ParseValue` (DataLoaderParsing.h:47-50,128-131), which compute the same string. -/
def trim (s : Str) : Str := ((s.dropWhile isBlank).reverse.dropWhile isBlank).reverse

/-- `RemoveBOM` (DataLoaderParsing.h:222-230). -/
def removeBOM (s : Str) : Str :=
  match s with
  | a :: b :: c :: rest => if a.toNat = 0xEF ∧ b.toNat = 0xBB ∧ c.toNat = 0xBF then rest else s
  | _ => s

open RegularExpression in
/-- `[...]`: a character class, as the sum of its members. -/
def cls (cs : List Char) : RegularExpression Char := (cs.map char).foldr (· + ·) 0

/-- `\d` in the C locale. -/
def digit : RegularExpression Char := cls ['0', '1', '2', '3', '4', '5', '6', '7', '8', '9']

/-- `r?` -/
def opt (r : RegularExpression Char) : RegularExpression Char := 1 + r

/-- `[-+]?` -/
def signRx : RegularExpression Char := opt (cls ['-', '+'])

/-- `^[-+]?\d+$` (DataLoaderParsing.h:40). -/
def intPattern : RegularExpression Char := signRx * (digit * digit.star)

/-- `^[-+]?(\d+\.?\d*|\.\d+)([eE][-+]?\d+)?$` (DataLoaderParsing.h:41). -/
def realPattern : RegularExpression Char :=
  signRx * ((digit * digit.star * opt (cls ['.']) * digit.star + cls ['.'] * (digit * digit.star)) *
    opt (cls ['e', 'E'] * (signRx * (digit * digit.star))))

/-- `\d{1,2}` -/
def digit12 : RegularExpression Char := digit * opt digit

/-- `^\d{4}[-\/]\d{1,2}[-\/]\d{1,2}$` (DataLoaderParsing.h:42). -/
def datePattern : RegularExpression Char :=
  digit * (digit * (digit * (digit * (cls ['-', '/'] * (digit12 * (cls ['-', '/'] * digit12))))))

/-- `^\d{1,2}:\d{2}(:\d{2})?(\.\d+)?$` (DataLoaderParsing.h:43). -/
def timePattern : RegularExpression Char :=
  digit12 * (cls [':'] * (digit * (digit * (opt (cls [':'] * (digit * digit)) *
    opt (cls ['.'] * (digit * digit.star))))))

/-- `^\d{4}[-\/]\d{1,2}[-\/]\d{1,2}[T ]\d{1,2}:\d{2}(:\d{2})?$` (DataLoaderParsing.h:44). -/
def dateTimePattern : RegularExpression Char :=
  datePattern * (cls ['T', ' '] * (digit12 * (cls [':'] * (digit * (digit *
    opt (cls [':'] * (digit * digit)))))))

/-- The words of the bool test of `InferColumnType` (DataLoaderParsing.h:70-71). -/
def boolWords : List Str :=
  ["true".toList, "false".toList, "yes".toList, "no".toList, "t".toList, "f".toList, "y".toList,
    "n".toList]

/-- The counter a value increments in the loop of `InferColumnType` (DataLoaderParsing.h:46-89). -/
inductive Kind where
  | missing | int | real | bool | dateTime | date | time | other
  deriving DecidableEq, Repr

/-- The chain of tests of the loop body (DataLoaderParsing.h:47-88). -/
def classify (val : Str) : Kind :=
  let trimmed := trim val
  if isMissingValue trimmed then .missing
  else if intPattern.rmatch trimmed then .int
  else if realPattern.rmatch trimmed then .real
  else if boolWords.contains (lower trimmed) then .bool
  else if dateTimePattern.rmatch trimmed then .dateTime
  else if datePattern.rmatch trimmed then .date
  else if timePattern.rmatch trimmed then .time
  else .other

/-- `InferColumnType` (DataLoaderParsing.h:31-105).  The comparison `count >= 0.9 * total` is made in
exact arithmetic (`10 * count ≥ 9 * total`); the code makes it in `double`. -/
def inferColumnType (values : List Str) : ColumnType :=
  if values.isEmpty then .STRING
  else
    let count := fun k => values.countP (fun v => classify v = k)
    let total := values.length - count .missing
    if total = 0 then .STRING
    else if 10 * count .dateTime ≥ 9 * total then .DATETIME
    else if 10 * count .date ≥ 9 * total then .DATE
    else if 10 * count .time ≥ 9 * total then .TIME
    else if 10 * count .bool ≥ 9 * total then .BOOL
    else if 10 * count .int ≥ 9 * total then .INT
    else if 10 * (count .int + count .real) ≥ 9 * total then .REAL
    else .STRING

/-- `std::isspace` in the C locale (used by `std::stoi` and DataLoaderJSON.h:43). -/
def isSpace (c : Char) : Bool :=
  c = ' ' || c = '\t' || c = '\n' || c = '\r' || c.toNat = 11 || c.toNat = 12

/-- Value of a digit character. -/
def digitVal (c : Char) : Nat := c.toNat - '0'.toNat

/-- The digits of the longest numeral at the front, most significant first, accumulated as `strtol`
does. -/
def scanDigits : Nat → Str → Nat
  | acc, [] => acc
  | acc, c :: cs => if c.isDigit then scanDigits (acc * 10 + digitVal c) cs else acc

/-- The optional sign `strtol` accepts. -/
def takeSign : Str → Bool × Str
  | [] => (false, [])
  | c :: r => if c = '-' then (true, r) else if c = '+' then (false, r) else (false, c :: r)

/-- `std::stoi` (called at DataLoaderParsing.h:143): white space, an optional sign and the longest
run of digits; whatever follows is ignored.  `none`: `invalid_argument` (no digits) or
`out_of_range` (does not fit a 32-bit `int`). -/
def stoi (s : Str) : Option Int :=
  let (neg, body) := takeSign (s.dropWhile isSpace)
  match body with
  | [] => none
  | c :: _ =>
    if c.isDigit then
      let v : Int := if neg then - (scanDigits 0 body : Int) else scanDigits 0 body
      if -2147483648 ≤ v ∧ v ≤ 2147483647 then some v else none
    else none

/-- What `ParseValue` delivers: `ParseResult` together with the out parameter it wrote
(DataLoaderParsing.h:112-127). -/
inductive Parsed (R : Type) where
  | missing
  | invalid
  | real (x : R)
  | int (i : Int)
  | bool (b : Bool)
  | str (s : Str)
  deriving DecidableEq

/-- `ParseValue` (DataLoaderParsing.h:126-172). -/
def parseValue (stod : Str → Option R) (value : Str) (t : ColumnType) : Parsed R :=
  let trimmed := trim value
  if isMissingValue trimmed then .missing
  else
    match t with
    | .REAL => match stod trimmed with
      | some x => .real x
      | none => .invalid
    | .INT => match stoi trimmed with
      | some i => .int i
      | none => .invalid
    | .BOOL =>
      let l := lower trimmed
      if l = "true".toList ∨ l = "yes".toList ∨ l = "t".toList ∨ l = "y".toList ∨ l = "1".toList then
        .bool true
      else if l = "false".toList ∨ l = "no".toList ∨ l = "f".toList ∨ l = "n".toList ∨
          l = "0".toList then .bool false
      else .invalid
    | .STRING | .DATE | .TIME | .DATETIME => .str trimmed
    | .MISSING => .invalid

/-- The loop of `SplitLine` (DataLoaderParsing.h:184-208): `field` and `inQuotes` are the loop's
variables, the result is what is pushed from here on.  `prevWasQuote` is written and never read in
the code and is left out. -/
def splitGo (delimiter : Char) : (field : Str) → (inQuotes : Bool) → Str → List Str
  | field, _, [] => [field]
  | field, inQuotes, c :: cs =>
    if c = '"' then
      match cs with
      | d :: ds =>
        if inQuotes ∧ d = '"' then splitGo delimiter (field ++ ['"']) inQuotes ds
        else splitGo delimiter field (!inQuotes) (d :: ds)
      | [] => splitGo delimiter field (!inQuotes) []
    else if c = delimiter ∧ inQuotes = false then field :: splitGo delimiter [] inQuotes cs
    else splitGo delimiter (field ++ [c]) inQuotes cs
  termination_by _ _ l => l.length

/-- `SplitLine` (DataLoaderParsing.h:178-211). -/
def splitLine (line : Str) (delimiter : Char) : List Str := splitGo delimiter [] false line

/-! ## DataLoaderCSV.h -/

/-- The lines delivered by repeated `std::getline` (DataLoaderCSV.h:56,299): a final piece without
newline counts when it is not empty. -/
def getlines : (cur : Str) → Str → List Str
  | cur, [] => if cur.isEmpty then [] else [cur]
  | cur, c :: cs => if c = '\n' then cur :: getlines [] cs else getlines (cur ++ [c]) cs

/-- `if (!line.empty() && line.back() == '\r') line.pop_back()` (DataLoaderCSV.h:67-68,301-302). -/
def chomp (line : Str) : Str :=
  if line.getLast? = some '\r' then line.dropLast else line

/-- The reading loop over the lines (DataLoaderCSV.h:63-71,300-303). -/
def readRows (delimiter : Char) (lines : List Str) : List (List Str) :=
  (lines.filter (fun l => !(trim l).isEmpty)).map (fun l => splitLine (chomp l) delimiter)

/-- Column names (DataLoaderCSV.h:84-93,315-322). -/
def columnName (hasHeader : Bool) (first : List Str) (c : Nat) : Str :=
  let dflt := "Column".toList ++ (toString c).toList
  if hasHeader then
    let n := trim (first.getD c [])
    if n.isEmpty then dflt else n
  else dflt

/-- `(c < row.size()) ? row[c] : ""` (DataLoaderCSV.h:167,373). -/
def fieldAt (row : List Str) (c : Nat) : Str := row.getD c []

/-- The pre-allocation of a column (DataLoaderCSV.h:133-158,337-364).  The `default` case cannot be
reached because no column has type `MISSING`; the two loaders differ there. -/
def prealloc [Zero R] (rowCount : Nat) (col : DataColumn R) : DataColumn R :=
  let col := { col with missingMask := resize col.missingMask rowCount false }
  match col.type with
  | .REAL => { col with realData := List.replicate rowCount (some 0) }
  | .INT => { col with intData := List.replicate rowCount 0 }
  | .BOOL => { col with boolData := resize col.boolData rowCount false }
  | .STRING | .DATE | .TIME => { col with stringData := resize col.stringData rowCount [] }
  | .DATETIME =>
    { col with dateData := resize col.dateData rowCount [], timeData := resize col.timeData rowCount [] }
  | .MISSING => col

/-- `find_first_of("T ")` and the two `substr` calls (DataLoaderCSV.h:202-210,407-415). -/
def splitDateTime (s : Str) : Str × Str :=
  let d := s.takeWhile (fun c => !(c = 'T' || c = ' '))
  match s.dropWhile (fun c => !(c = 'T' || c = ' ')) with
  | [] => (s, [])
  | _ :: t => (d, t)

/-- The body of the inner parsing loop (DataLoaderCSV.h:166-215,372-421; the same statements at
DataLoaderJSON.h:216-266 except for the place of the pre-allocation): parse one field and store it. -/
def writeCell (stod : Str → Option R) (rowCount : Nat) (col : DataColumn R) (rowIdx : Nat)
    (value : Str) : Outcome (DataColumn R) := do
  let result := parseValue stod value col.type
  let parsed : Bool := match result with
    | .missing | .invalid => false
    | _ => true
  let mask ← setAt col.missingMask rowIdx (!parsed)
  let col := { col with missingMask := mask }
  match col.type with
  | .REAL => do
      let v ← setAt col.realData rowIdx (match result with | .real x => some x | _ => none)
      return { col with realData := v }
  | .INT => do
      let v ← setAt col.intData rowIdx (match result with | .int i => i | _ => 0)
      return { col with intData := v }
  | .BOOL => do
      let v ← setAt col.boolData rowIdx (match result with | .bool b => b | _ => false)
      return { col with boolData := v }
  | .STRING => do
      let v ← setAt col.stringData rowIdx (match result with | .str s => s | _ => [])
      return { col with stringData := v }
  | .DATE => do
      let v ← setAt (resize col.dateData rowCount []) rowIdx (match result with | .str s => s | _ => [])
      return { col with dateData := v }
  | .TIME => do
      let v ← setAt (resize col.timeData rowCount []) rowIdx (match result with | .str s => s | _ => [])
      return { col with timeData := v }
  | .DATETIME =>
      match result with
      | .str s =>
        if s.isEmpty then .ret col
        else do
          let d ← setAt col.dateData rowIdx (splitDateTime s).1
          let t ← setAt col.timeData rowIdx (splitDateTime s).2
          return { col with dateData := d, timeData := t }
      | _ => .ret col
  | .MISSING => .ret col

/-- The inner loop over the columns (DataLoaderCSV.h:165-216,371-422), `c` counting upwards. -/
def fillRow (stod : Str → Option R) (rowCount rowIdx : Nat) (row : List Str) :
    (c : Nat) → List (DataColumn R) → Outcome (List (DataColumn R))
  | _, [] => .ret []
  | c, col :: cols => do
    let col' ← writeCell stod rowCount col rowIdx (fieldAt row c)
    let cols' ← fillRow stod rowCount rowIdx row (c + 1) cols
    return col' :: cols'

/-- The outer loop over the data rows (DataLoaderCSV.h:161-217,367-423), `rowIdx` counting upwards. -/
def fillRows (stod : Str → Option R) (rowCount : Nat) :
    (rowIdx : Nat) → List (List Str) → List (DataColumn R) → Outcome (List (DataColumn R))
  | _, [], cols => .ret cols
  | rowIdx, row :: rows, cols => do
    let cols' ← fillRow stod rowCount rowIdx row 0 cols
    fillRows stod rowCount (rowIdx + 1) rows cols'

/-- `struct CSVLoadOptions` (DataLoaderCSV.h:28-34); `warnings` says whether the pointer is set. -/
structure CSVLoadOptions where
  hasHeader : Bool := true
  delimiter : Char := ','
  inferTypes : Bool := true
  strictSchema : Bool := false
  warnings : Bool := false

/-- A width warning (DataLoaderCSV.h:99-101): the numbers that appear in its text. -/
structure Warning where
  rowNumber : Nat
  fields : Nat
  expected : Nat
  deriving DecidableEq, Repr

/-- The schema check (DataLoaderCSV.h:96-108): the warnings, in row order. -/
def widthWarnings (numCols : Nat) : (r : Nat) → List (List Str) → List Warning
  | _, [] => []
  | r, row :: rows =>
    if row.length ≠ numCols then ⟨r + 1, row.length, numCols⟩ :: widthWarnings numCols (r + 1) rows
    else widthWarnings numCols (r + 1) rows

/-- The byte order mark is removed from the first line (DataLoaderCSV.h:57-61). -/
def stripFirst : List Str → List Str
  | [] => []
  | l :: ls => removeBOM l :: ls

/-- `LoadCSV(filename, opts)` (DataLoaderCSV.h:44-220).  `file` is the content of the file, `none`
when it cannot be opened.  Returns the dataset and the warnings pushed. -/
def loadCSV [Zero R] (stod : Str → Option R) (filename : Str) (file : Option Str)
    (opts : CSVLoadOptions) : Outcome (Dataset R × List Warning) :=
  match file with
  | none => dataError
  | some content =>
    let allData := readRows opts.delimiter (stripFirst (getlines [] content))
    match allData with
    | [] => dataError
    | first :: _ =>
      let numCols := first.length
      let dataStartRow := if opts.hasHeader then 1 else 0
      let dataRows := allData.drop dataStartRow
      let bad := widthWarnings numCols dataStartRow dataRows
      if opts.strictSchema ∧ bad ≠ [] then dataError
      else do
        let typed := (List.range numCols).map (fun c =>
          ({ name := columnName opts.hasHeader first c
             type := if opts.inferTypes then inferColumnType (dataRows.map (fun row => fieldAt row c))
                     else .STRING } : DataColumn R))
        let rowCount := allData.length - dataStartRow
        let cols ← fillRows stod rowCount 0 dataRows (typed.map (prealloc rowCount))
        return ({ name := filename, columns := cols, rowCount := rowCount },
          if opts.warnings then bad else [])

/-- `LoadFromCSVString` (DataLoaderCSV.h:290-426).  Unlike `LoadCSV` it infers the type of a column
from the fields that are present only. -/
def loadFromCSVString [Zero R] (stod : Str → Option R) (content : Str) (delimiter : Char := ',')
    (hasHeader : Bool := true) : Outcome (Dataset R) :=
  let allData := readRows delimiter (getlines [] (removeBOM content))
  match allData with
  | [] => dataError
  | first :: _ => do
    let numCols := first.length
    let dataStartRow := if hasHeader then 1 else 0
    let dataRows := allData.drop dataStartRow
    let typed := (List.range numCols).map (fun c =>
      ({ name := columnName hasHeader first c
         type := inferColumnType (dataRows.filterMap (fun row => row[c]?)) } : DataColumn R))
    let rowCount := allData.length - dataStartRow
    let cols ← fillRows stod rowCount 0 dataRows (typed.map (prealloc rowCount))
    return { columns := cols, rowCount := rowCount }

end Verif.Data
