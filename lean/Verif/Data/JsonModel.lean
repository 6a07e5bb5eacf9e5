import Verif.Data.Model

/-!
# Model of the JSON loader

`mml/tools/data_loader/DataLoaderJSON.h`.  The parser's position `pos` is represented by the text
that remains, `json.substr(pos)`.
-/

set_option autoImplicit false

namespace Verif.Data

/-- `enum class JsonType` (DataLoaderJSON.h:33). -/
inductive JsonType where
  | null | bool | number | string | array | object
  deriving DecidableEq, Repr

/-- `SkipWhitespace` (DataLoaderJSON.h:42-44).  `std::isspace` of a negative `char` is undefined in
C++; here such a character is simply not a space. -/
def skipWs (s : Str) : Str := s.dropWhile isSpace

/-- `Peek` (DataLoaderJSON.h:46-49): the character and the text that remains. -/
def peek (s : Str) : Char × Str :=
  match skipWs s with
  | [] => ('\x00', [])
  | c :: cs => (c, c :: cs)

/-- `Get` (DataLoaderJSON.h:51-54). -/
def get (s : Str) : Char × Str :=
  match skipWs s with
  | [] => ('\x00', [])
  | c :: cs => (c, cs)

/-- The escape table (DataLoaderJSON.h:66-74). -/
def unescape (esc : Char) : Char :=
  if esc = 'n' then '\n'
  else if esc = 't' then '\t'
  else if esc = 'r' then '\r'
  else if esc = '"' then '"'
  else if esc = '\\' then '\\'
  else if esc = '/' then '/'
  else esc

/-- The loop of `ParseString` (DataLoaderJSON.h:60-80). -/
def parseStringBody : (result : Str) → Str → Outcome (Str × Str)
  | _, [] => dataError
  | result, c :: cs =>
    if c = '"' then .ret (result, cs)
    else if c = '\\' then
      match cs with
      | esc :: rest => parseStringBody (result ++ [unescape esc]) rest
      | [] => parseStringBody (result ++ [c]) []
    else parseStringBody (result ++ [c]) cs
  termination_by _ s => s.length

/-- `ParseString` (DataLoaderJSON.h:56-81). -/
def parseString (s : Str) : Outcome (Str × Str) :=
  let (c, rest) := get s
  if c ≠ '"' then dataError else parseStringBody [] rest

/-- The characters accepted by the loop of `ParseNumber` (DataLoaderJSON.h:87-88). -/
def isNumChar (c : Char) : Bool :=
  c.isDigit || c = '.' || c = 'e' || c = 'E' || c = '+' || c = '-'

/-- `ParseNumber` (DataLoaderJSON.h:83-92).  (Reading `json[pos]` at the end of the text yields the
terminating zero, which is not a `-`.) -/
def parseNumber (s : Str) : Str × Str :=
  let s := skipWs s
  match s with
  | '-' :: cs => ('-' :: cs.takeWhile isNumChar, cs.dropWhile isNumChar)
  | cs => (cs.takeWhile isNumChar, cs.dropWhile isNumChar)

/-- `ParseBool` (DataLoaderJSON.h:94-105). -/
def parseBool (s : Str) : Outcome (Bool × Str) :=
  let s := skipWs s
  if s.take 4 = "true".toList then .ret (true, s.drop 4)
  else if s.take 5 = "false".toList then .ret (false, s.drop 5)
  else dataError

/-- `ParseNull` (DataLoaderJSON.h:107-114). -/
def parseNull (s : Str) : Outcome Str :=
  let s := skipWs s
  if s.take 4 = "null".toList then .ret (s.drop 4) else dataError

/-- `PeekType` (DataLoaderJSON.h:116-125). -/
def peekType (s : Str) : Outcome JsonType :=
  let c := (peek s).1
  if c = '"' then .ret .string
  else if c = '[' then .ret .array
  else if c = '{' then .ret .object
  else if c = 't' ∨ c = 'f' then .ret .bool
  else if c = 'n' then .ret .null
  else if c = '-' ∨ c.isDigit then .ret .number
  else dataError

/-- The `switch` that reads a value as text (DataLoaderJSON.h:158-175). -/
def parseJsonValue (s : Str) : Outcome (Str × Str) := do
  let t ← peekType s
  match t with
  | .string => parseString s
  | .number => .ret (parseNumber s)
  | .bool => do
      let (b, rest) ← parseBool s
      return (if b then "true".toList else "false".toList, rest)
  | .null => do
      let rest ← parseNull s
      return ([], rest)
  | _ => dataError

/-- `columnData` and `columnOrder` (DataLoaderJSON.h:134-135) as one association list: the keys in
the order of `columnOrder`, each with its vector. -/
abbrev Columns := List (Str × List Str)

/-- Lines 152-155 and 177 of DataLoaderJSON.h: append a value to the column of a key, which becomes
the last column when it is new. -/
def pushValue (cols : Columns) (key value : Str) : Columns :=
  match cols with
  | [] => [(key, [value])]
  | (k, vs) :: rest =>
    if k = key then (k, vs ++ [value]) :: rest else (k, vs) :: pushValue rest key value

/-- `maxRows` (DataLoaderJSON.h:184-187). -/
def maxRows (cols : Columns) : Nat := cols.foldl (fun m c => max m c.2.length) 0

/-- The padding loop at the end of an object (DataLoaderJSON.h:188-191). -/
def padColumns (cols : Columns) : Columns :=
  cols.map (fun c => (c.1, c.2 ++ List.replicate (maxRows cols - c.2.length) []))

/-- The loop over the pairs of an object (DataLoaderJSON.h:145-178).  `fuel` bounds the number of
iterations; running out of it is reported as `ub`, and `parse_total` shows that this never happens
with the fuel given. -/
def parsePairs : (fuel : Nat) → Columns → Str → Outcome (Columns × Str)
  | 0, _, _ => .ub
  | fuel + 1, cols, s =>
    let (c, s) := peek s
    if c = '}' then .ret (cols, s)
    else do
      let s := if (peek s).1 = ',' then (get s).2 else s
      let (key, s) ← parseString s
      let (colon, s) := get s
      if colon ≠ ':' then dataError
      else do
        let (value, s) ← parseJsonValue s
        parsePairs fuel (pushValue cols key value) s

/-- The loop over the objects (DataLoaderJSON.h:138-192); `fuel` as for `parsePairs`. -/
def parseObjects : (fuel : Nat) → Columns → Str → Outcome (Columns × Str)
  | 0, _, _ => .ub
  | fuel + 1, cols, s =>
    let (c, s) := peek s
    if c = ']' then .ret (cols, s)
    else do
      let s := if (peek s).1 = ',' then (get s).2 else s
      let (brace, s) := get s
      if brace ≠ '{' then dataError
      else do
        let (cols, s) ← parsePairs (s.length + 1) cols s
        let (brace, s) := get s
        if brace ≠ '}' then dataError
        else parseObjects fuel (padColumns cols) s

/-- The text part of `ParseArrayOfObjects` (DataLoaderJSON.h:128-195). -/
def parseArray (s : Str) : Outcome Columns := do
  let (c, s) := get s
  if c ≠ '[' then dataError
  else do
    let (cols, s) ← parseObjects (s.length + 1) [] s
    let (c, _) := get s
    if c ≠ ']' then dataError else return cols

variable {R : Type}

/-- The loop over the values of a column (DataLoaderJSON.h:210-267). -/
def fillColumn (stod : Str → Option R) (n : Nat) : (i : Nat) → List Str → DataColumn R →
    Outcome (DataColumn R)
  | _, [], col => .ret col
  | i, v :: vs, col => do
    let col' ← writeCell stod n col i v
    fillColumn stod n (i + 1) vs col'

/-- The pre-allocation done at `i == 0` (DataLoaderJSON.h:206,222-249,263): nothing is allocated for
a column without values. -/
def preallocJson [Zero R] (n : Nat) (col : DataColumn R) : DataColumn R :=
  if n = 0 then col
  else
    match col.type with
    | .REAL => { col with realData := List.replicate n (some 0) }
    | .INT => { col with intData := List.replicate n 0 }
    | .BOOL => { col with boolData := resize col.boolData n false }
    | .STRING => { col with stringData := resize col.stringData n [] }
    | .DATE => { col with dateData := resize col.dateData n [] }
    | .TIME => { col with timeData := resize col.timeData n [] }
    | .DATETIME => { col with dateData := resize col.dateData n [], timeData := resize col.timeData n [] }
    | .MISSING => { col with stringData := resize col.stringData n [] }

/-- One column of the dataset (DataLoaderJSON.h:203-269). -/
def buildColumn [Zero R] (stod : Str → Option R) (rowCount : Nat) (c : Str × List Str) :
    Outcome (DataColumn R) :=
  let col : DataColumn R :=
    { name := c.1, type := inferColumnType c.2, missingMask := List.replicate rowCount false }
  fillColumn stod c.2.length 0 c.2 (preallocJson c.2.length col)

/-- `ParseArrayOfObjects` (DataLoaderJSON.h:128-274). -/
def parseArrayOfObjects [Zero R] (stod : Str → Option R) (s : Str) : Outcome (Dataset R) := do
  let cols ← parseArray s
  match cols with
  | [] => return {}
  | c :: _ => do
    let built ← mapOutcome (buildColumn stod c.2.length) cols
    return { columns := built, rowCount := c.2.length }

/-- `LoadFromJSONString` (DataLoaderJSON.h:325-329). -/
def loadFromJSONString [Zero R] (stod : Str → Option R) (content : Str) : Outcome (Dataset R) :=
  parseArrayOfObjects stod (removeBOM content)

/-- `LoadJSON` (DataLoaderJSON.h:281-298); `file` is the content of the file, `none` when it cannot
be opened. -/
def loadJSON [Zero R] (stod : Str → Option R) (filename : Str) (file : Option Str) :
    Outcome (Dataset R) :=
  match file with
  | none => dataError
  | some content => do
    let d ← parseArrayOfObjects stod (removeBOM content)
    return { d with name := filename }

end Verif.Data
