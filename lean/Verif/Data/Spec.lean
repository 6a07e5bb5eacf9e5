import Verif.Data.JsonModel
import Mathlib.Data.List.Forall2

/-!
# Specification vocabulary for the data loaders

What a CSV writer does, what a JSON text is, and what a user reads off a loaded dataset.  Nothing
here is used by the model.
-/

set_option autoImplicit false

namespace Verif.Data

/-! ## Reading a dataset -/

/-- What a user finds at one place of a dataset. -/
inductive Cell (R : Type) where
  | real (x : Option R)
  | int (i : Int)
  | bool (b : Bool)
  | str (s : Str)
  | date (s : Str)
  | time (s : Str)
  | dateTime (d t : Str)
  deriving DecidableEq

variable {R : Type}

/-- The entry of a column at row `i`; `none` when it is marked as missing. -/
def DataColumn.cell (c : DataColumn R) (i : Nat) : Option (Cell R) :=
  if c.missingMask.getD i false then none
  else
    match c.type with
    | .REAL => some (.real (c.realData.getD i none))
    | .INT => some (.int (c.intData.getD i 0))
    | .BOOL => some (.bool (c.boolData.getD i false))
    | .STRING => some (.str (c.stringData.getD i []))
    | .DATE => some (.date (c.dateData.getD i []))
    | .TIME => some (.time (c.timeData.getD i []))
    | .DATETIME => some (.dateTime (c.dateData.getD i []) (c.timeData.getD i []))
    | .MISSING => none

/-- Every vector of the column that belongs to its type, and the mask, has exactly `n` entries. -/
def DataColumn.HasRows (c : DataColumn R) (n : Nat) : Prop :=
  c.missingMask.length = n ∧ c.size = n ∧ (c.type = .DATETIME → c.timeData.length = n) ∧
    c.type ≠ .MISSING

/-- A rectangular dataset: every column has exactly as many entries as the dataset has rows. -/
def Dataset.Rectangular (d : Dataset R) : Prop := ∀ c ∈ d.columns, c.HasRows d.rowCount

/-- The text without the blanks around it. -/
def IsTrimmed (s t : Str) : Prop :=
  (∃ l r, s = l ++ t ++ r ∧ (∀ c ∈ l, isBlank c) ∧ (∀ c ∈ r, isBlank c)) ∧
    (∀ c, t.head? = some c → isBlank c = false) ∧ (∀ c, t.getLast? = some c → isBlank c = false)

/-- What the text of one field means in a column of the given type; `none` is "missing".  A field
with no text, with one of the sentinels, or with a text the type does not accept is missing. -/
def meaning (stod : Str → Option R) (t : ColumnType) (field : Str) : Option (Cell R) :=
  let s := trim field
  if s = [] ∨ lower s ∈ missingWords then none
  else
    match t with
    | .REAL => (stod s).map (fun x => .real (some x))
    | .INT => (stoi s).map .int
    | .BOOL =>
      if lower s ∈ ["true".toList, "yes".toList, "t".toList, "y".toList, "1".toList] then
        some (.bool true)
      else if lower s ∈ ["false".toList, "no".toList, "f".toList, "n".toList, "0".toList] then
        some (.bool false)
      else none
    | .STRING => some (.str s)
    | .DATE => some (.date s)
    | .TIME => some (.time s)
    | .DATETIME => some (.dateTime (splitDateTime s).1 (splitDateTime s).2)
    | .MISSING => none

/-! ## Writing CSV (RFC 4180) -/

/-- Embedded quotes are doubled. -/
def doubled : Str → Str
  | [] => []
  | c :: cs => if c = '"' then '"' :: '"' :: doubled cs else c :: doubled cs

/-- A field written in quotes. -/
def quoted (f : Str) : Str := '"' :: (doubled f ++ ['"'])

/-- The texts that may stand for a field: the quoted field, or the field itself when it contains
neither quote nor delimiter. -/
def FieldText (delim : Char) (f txt : Str) : Prop :=
  txt = quoted f ∨ (txt = f ∧ '"' ∉ f ∧ delim ∉ f)

/-- Field texts joined by the delimiter. -/
def joinFields (delim : Char) : List Str → Str
  | [] => []
  | [t] => t
  | t :: ts => t ++ delim :: joinFields delim ts

/-- One line of a CSV text: texts of at least one field, joined; no line break inside, not all blank. -/
def RowLine (delim : Char) (row : List Str) (line : Str) : Prop :=
  row ≠ [] ∧ (∃ txts, List.Forall₂ (FieldText delim) row txts ∧ line = joinFields delim txts) ∧
    '\n' ∉ line ∧ ∃ c ∈ line, isBlank c = false

/-- The CSV texts of a table: one line per row ended by LF or CR LF, the last end of line being
optional, with blank lines anywhere. -/
inductive CsvText (delim : Char) : List (List Str) → Str → Prop
  | nil : CsvText delim [] []
  | blank {t : List (List Str)} {w rest : Str} : (∀ c ∈ w, isBlank c ∧ c ≠ '\n') →
      CsvText delim t rest → CsvText delim t (w ++ '\n' :: rest)
  | lastBlank {w : Str} : (∀ c ∈ w, isBlank c ∧ c ≠ '\n') → CsvText delim [] w
  | lf {row : List Str} {t : List (List Str)} {line rest : Str} : RowLine delim row line →
      line.getLast? ≠ some '\r' → CsvText delim t rest → CsvText delim (row :: t) (line ++ '\n' :: rest)
  | crlf {row : List Str} {t : List (List Str)} {line rest : Str} : RowLine delim row line →
      CsvText delim t rest → CsvText delim (row :: t) (line ++ '\r' :: '\n' :: rest)
  | last {row : List Str} {line : Str} : RowLine delim row line →
      line.getLast? ≠ some '\r' → CsvText delim [row] line

/-- The UTF-8 byte order mark. -/
def bom : Str := [Char.ofNat 0xEF, Char.ofNat 0xBB, Char.ofNat 0xBF]

/-- The field of a table at a row and column; absent fields are empty. -/
def tableField (t : List (List Str)) (r c : Nat) : Str := ((t[r]?).bind (·[c]?)).getD []

/-! ## JSON texts (RFC 8259) -/

/-- Hexadecimal digits. -/
def IsHex (c : Char) : Prop := c.isDigit ∨ ('a' ≤ c ∧ c ≤ 'f') ∨ ('A' ≤ c ∧ c ≤ 'F')

/-- Value of a hexadecimal digit. -/
def hexVal (c : Char) : Nat :=
  if c.isDigit then c.toNat - 48 else if c.toNat ≥ 97 then c.toNat - 87 else c.toNat - 55

/-- The ways RFC 8259 allows one character of a string to be written. -/
inductive CharText : Char → Str → Prop
  | plain (c : Char) : c ≠ '"' → c ≠ '\\' → 32 ≤ c.toNat → CharText c [c]
  | quote : CharText '"' ['\\', '"']
  | backslash : CharText '\\' ['\\', '\\']
  | slash : CharText '/' ['\\', '/']
  | newline : CharText '\n' ['\\', 'n']
  | tab : CharText '\t' ['\\', 't']
  | cr : CharText '\r' ['\\', 'r']
  | backspace : CharText (Char.ofNat 8) ['\\', 'b']
  | formFeed : CharText (Char.ofNat 12) ['\\', 'f']
  | unicode (a b c d : Char) : IsHex a → IsHex b → IsHex c → IsHex d →
      CharText (Char.ofNat (((hexVal a * 16 + hexVal b) * 16 + hexVal c) * 16 + hexVal d))
        ['\\', 'u', a, b, c, d]

/-- The ways of writing a character that the loader decodes: all of RFC 8259 except `\b`, `\f` and
`\uXXXX`.  (It also accepts a control character written as it is.) -/
inductive PlainCharText : Char → Str → Prop
  | plain (c : Char) : c ≠ '"' → c ≠ '\\' → PlainCharText c [c]
  | quote : PlainCharText '"' ['\\', '"']
  | backslash : PlainCharText '\\' ['\\', '\\']
  | slash : PlainCharText '/' ['\\', '/']
  | newline : PlainCharText '\n' ['\\', 'n']
  | tab : PlainCharText '\t' ['\\', 't']
  | cr : PlainCharText '\r' ['\\', 'r']

/-- The inside of a string literal, character by character. -/
inductive StringText (P : Char → Str → Prop) : Str → Str → Prop
  | nil : StringText P [] []
  | cons {c : Char} {t s txt : Str} : P c t → StringText P s txt → StringText P (c :: s) (t ++ txt)

/-- A flat JSON value. -/
inductive JVal where
  | str (s : Str)
  | num (lit : Str)
  | bool (b : Bool)
  | null
  deriving DecidableEq

/-- The text the loader keeps for a value (strings decoded, numbers as written, `null` empty). -/
def JVal.text : JVal → Str
  | .str s => s
  | .num l => l
  | .bool b => if b then "true".toList else "false".toList
  | .null => []

/-- Number literals: they start with a digit or a minus sign and consist of digits, signs, points and
exponent markers.  (RFC 8259 numbers are among them.) -/
def NumLit (l : Str) : Prop :=
  ∃ c cs, l = c :: cs ∧ (c = '-' ∨ c.isDigit) ∧
    ∀ d ∈ cs, d.isDigit ∨ d = '.' ∨ d = 'e' ∨ d = 'E' ∨ d = '+' ∨ d = '-'

/-- White space. -/
def Ws (w : Str) : Prop := ∀ c ∈ w, c = ' ' ∨ c = '\t' ∨ c = '\n' ∨ c = '\r'

/-- A string literal. -/
def StrLit (s txt : Str) : Prop := ∃ body, StringText PlainCharText s body ∧ txt = '"' :: body ++ ['"']

/-- The texts of a value. -/
inductive ValText : JVal → Str → Prop
  | str {s txt : Str} : StrLit s txt → ValText (.str s) txt
  | num {l : Str} : NumLit l → ValText (.num l) l
  | true : ValText (.bool true) "true".toList
  | false : ValText (.bool false) "false".toList
  | null : ValText .null "null".toList

/-- The texts of `"key" : value`, with any white space before each token and after the value. -/
inductive PairText : Str × JVal → Str → Prop
  | mk {k kt vt w1 w2 w3 w4 : Str} {v : JVal} : StrLit k kt → ValText v vt → Ws w1 → Ws w2 → Ws w3 →
      Ws w4 → PairText (k, v) (w1 ++ kt ++ w2 ++ ':' :: (w3 ++ vt ++ w4))

/-- The texts of a comma separated list. -/
inductive ListText {α : Type} (P : α → Str → Prop) : List α → Str → Prop
  | nil {w : Str} : Ws w → ListText P [] w
  | one {a : α} {t : Str} : P a t → ListText P [a] t
  | cons {a : α} {as : List α} {t ts : Str} : P a t → as ≠ [] → ListText P as ts →
      ListText P (a :: as) (t ++ ',' :: ts)

/-- A flat object: its pairs in the order written. -/
abbrev JObj := List (Str × JVal)

/-- The texts of an object, with any white space around it. -/
inductive ObjText : JObj → Str → Prop
  | mk {o : JObj} {t w1 w2 : Str} : ListText PairText o t → Ws w1 → Ws w2 →
      ObjText o (w1 ++ '{' :: (t ++ '}' :: w2))

/-- The texts of an array of flat objects; anything may follow it. -/
inductive ArrayText : List JObj → Str → Prop
  | mk {os : List JObj} {t w rest : Str} : ListText ObjText os t → Ws w →
      ArrayText os (w ++ '[' :: (t ++ ']' :: rest))

/-- The value of a key in an object. -/
def JObj.value (o : JObj) (k : Str) : Option JVal := (o.find? (fun p => p.1 = k)).map (·.2)

/-- The keys of an object in the order written. -/
def JObj.keys (o : JObj) : List Str := o.map (·.1)

end Verif.Data
