import Verif.Data.CsvLemmas
import Mathlib.Data.Rat.Defs

/-!
# Properties of the CSV loaders (C25, C26, C57)
-/

set_option autoImplicit false

namespace Verif.Data

variable {R : Type}

/-! ## C25: splitting inverts quoting -/

/-- **C25.**  However the fields of a row are written (in quotes with embedded quotes doubled, or as
they are when they contain neither quote nor delimiter), `SplitLine` of the joined line returns
exactly the fields. -/
theorem splitLine_inverts_quoting {d : Char} (hd : d ≠ '"') {fields texts : List Str}
    (h : List.Forall₂ (FieldText d) fields texts) (hne : fields ≠ []) :
    splitLine (joinFields d texts) d = fields := splitLine_join hd h hne

/-- Mixed quoting, an embedded delimiter, an embedded quote and empty fields. -/
example : splitLine (joinFields ',' ["a".toList, quoted "x,\"y\"".toList, [], quoted []]) ',' =
    ["a".toList, "x,\"y\"".toList, [], []] :=
  splitLine_inverts_quoting (by decide)
    (.cons (.inr ⟨rfl, by decide, by decide⟩) (.cons (.inl rfl)
      (.cons (.inr ⟨rfl, by decide, by decide⟩) (.cons (.inl rfl) .nil)))) (by simp)

/-! ## C26: rows and columns of a loaded table -/

/-- `ds` is the dataset of a table: it has one row per data row, as many columns as the first line
has fields, every column has exactly that many entries, the names come from the header, the types
from `ty`, and the entry of row `r` and column `c` is the meaning of field `c` of data row `r` (which
is missing when the row is too short). -/
def IsDatasetOf (stod : Str → Option R) (ty : List Str → ColumnType) (hasHeader : Bool)
    (table : List (List Str)) (ds : Dataset R) : Prop :=
  let data := if hasHeader then table.tail else table
  ds.rowCount = data.length ∧ ds.columns.length = (table.headD []).length ∧ ds.Rectangular ∧
    ∀ c, c < ds.columns.length → ∃ col, ds.columns[c]? = some col ∧
      (col.name = if hasHeader ∧ trim (tableField table 0 c) ≠ [] then trim (tableField table 0 c)
        else "Column".toList ++ (toString c).toList) ∧
      col.type = ty ((List.range data.length).map (fun r => tableField data r c)) ∧
      ∀ r, r < ds.rowCount → col.cell r = meaning stod col.type (tableField data r c)

theorem trim_isEmpty (s : Str) : (trim s).isEmpty = true ↔ ∀ c ∈ s, isBlank c = true := by
  constructor
  · intro h
    obtain ⟨⟨l, r, hs, hl, hr⟩, _, _⟩ := trim_spec s
    rw [List.isEmpty_iff.mp h] at hs
    intro c hc
    rw [hs] at hc
    simp only [List.append_nil, List.mem_append] at hc
    rcases hc with hc | hc
    · exact hl c hc
    · exact hr c hc
  · intro h
    rw [List.isEmpty_iff]
    exact isTrimmed_unique ⟨⟨s, [], by simp, h, by simp⟩, by simp, by simp⟩

theorem trim_nonempty {s : Str} (h : ∃ c ∈ s, isBlank c = false) : (!(trim s).isEmpty) = true := by
  rw [Bool.not_eq_true', ← Bool.not_eq_true, trim_isEmpty]
  intro hall
  obtain ⟨c, hc, hb⟩ := h
  rw [hall c hc] at hb; cases hb

theorem getlines_noNl : ∀ (l cur : Str), '\n' ∉ l →
    getlines cur l = if (cur ++ l).isEmpty then [] else [cur ++ l] := by
  intro l
  induction l with
  | nil => intro cur _; simp [getlines]
  | cons c cs ih =>
    intro cur h
    simp only [List.mem_cons, not_or] at h
    rw [getlines, if_neg (fun e => h.1 e.symm), ih _ h.2]
    simp

theorem readRows_cons_blank (d : Char) (l : Str) (ls : List Str) (h : ∀ c ∈ l, isBlank c = true) :
    readRows d (l :: ls) = readRows d ls := by
  have : (!(trim l).isEmpty) = false := by simp [(trim_isEmpty l).mpr h]
  simp [readRows, List.filter_cons, this]

theorem readRows_cons_row (d : Char) (l : Str) (ls : List Str) (h : ∃ c ∈ l, isBlank c = false) :
    readRows d (l :: ls) = splitLine (chomp l) d :: readRows d ls := by
  simp only [readRows, List.filter_cons, trim_nonempty h, if_true, List.map_cons]

theorem readRows_csvText {d : Char} (hd : d ≠ '"') {t : List (List Str)} {s : Str}
    (h : CsvText d t s) : readRows d (getlines [] s) = t := by
  have hsplit : ∀ {row : List Str} {line : Str}, RowLine d row line → splitLine line d = row := by
    rintro row line ⟨hne, ⟨txts, h1, rfl⟩, _⟩
    exact splitLine_join hd h1 hne
  induction h with
  | nil => rfl
  | blank hw _ ih =>
    rw [getlines_append _ _ (fun hm => (hw _ hm).2 rfl), List.nil_append,
      readRows_cons_blank _ _ _ (fun c hc => (hw c hc).1), ih]
  | @lastBlank w hw =>
    rw [getlines_noNl _ _ (fun hm => (hw _ hm).2 rfl), List.nil_append]
    split
    · rfl
    · rw [readRows_cons_blank _ _ _ (fun c hc => (hw c hc).1)]; rfl
  | lf hrow hcr _ ih =>
    rw [getlines_append _ _ hrow.2.2.1, List.nil_append, readRows_cons_row _ _ _ hrow.2.2.2, ih,
      chomp, if_neg hcr, hsplit hrow]
  | @crlf row t line rest hrow _ ih =>
    have e : line ++ '\r' :: '\n' :: rest = (line ++ ['\r']) ++ '\n' :: rest := by simp
    rw [e, getlines_append _ _ (by simpa using hrow.2.2.1), List.nil_append,
      readRows_cons_row _ _ _ (by
        obtain ⟨c, hc, hb⟩ := hrow.2.2.2
        exact ⟨c, by simp [hc], hb⟩), ih, chomp, if_pos (by simp), List.dropLast_concat, hsplit hrow]
  | @last row line hrow hcr =>
    obtain ⟨c, hc, _⟩ := hrow.2.2.2
    rw [getlines_noNl _ _ hrow.2.2.1, List.nil_append, if_neg (by
      rw [List.isEmpty_iff]; rintro rfl; simp at hc), readRows_cons_row _ _ _ hrow.2.2.2,
      chomp, if_neg hcr, hsplit hrow]
    rfl

theorem removeBOM_bom (s : Str) : removeBOM (bom ++ s) = s := by
  simp only [bom, List.cons_append, List.nil_append, removeBOM]
  rw [if_pos (by decide)]

theorem toNat_ofNat_inj {a : Char} {n : Nat} (hn : (Char.ofNat n).toNat = n) (h : a.toNat = n) :
    a = Char.ofNat n := by
  apply Char.ext
  apply UInt32.toNat_inj.mp
  change a.toNat = (Char.ofNat n).toNat
  rw [hn, h]

theorem removeBOM_of_not {s : Str} (h : ¬ bom <+: s) : removeBOM s = s := by
  unfold removeBOM
  split
  · split
    · rename_i a b c rest hb
      exfalso; apply h
      rw [toNat_ofNat_inj (by decide) hb.1, toNat_ofNat_inj (by decide) hb.2.1,
        toNat_ofNat_inj (by decide) hb.2.2]
      exact ⟨rest, rfl⟩
    · rfl
  · rfl

/-- `LoadCSV` strips the mark from the first line, `LoadFromCSVString` from the content: the rows are
the same. -/
theorem readRows_bom (d : Char) (content : Str) :
    readRows d (stripFirst (getlines [] content)) = readRows d (getlines [] (removeBOM content)) := by
  by_cases h : bom <+: content
  · obtain ⟨s, rfl⟩ := h
    rw [removeBOM_bom]
    by_cases hn : '\n' ∈ s
    · obtain ⟨a, b, rfl, ha⟩ := List.eq_append_cons_of_mem hn
      have e : bom ++ (a ++ '\n' :: b) = (bom ++ a) ++ '\n' :: b := by simp
      rw [e, getlines_append _ _ (by
        simp only [List.mem_append, not_or]; exact ⟨by decide, ha⟩), getlines_append _ _ ha]
      simp only [List.nil_append, removeBOM_bom, stripFirst]
    · rw [getlines_noNl _ _ (by simp only [List.mem_append, not_or]; exact ⟨by decide, hn⟩),
        getlines_noNl _ _ hn, List.nil_append, if_neg (by simp [bom])]
      simp only [removeBOM_bom, List.nil_append, stripFirst]
      split
      · next he =>
        rw [List.isEmpty_iff.mp he]
        rw [readRows_cons_blank _ _ _ (by simp)]
      · rfl
  · rw [removeBOM_of_not h]
    cases hl : getlines [] content with
    | nil => rfl
    | cons l ls =>
      dsimp only [stripFirst]
      rw [removeBOM_of_not]
      rintro ⟨s, rfl⟩
      apply h
      by_cases hn : '\n' ∈ content
      · obtain ⟨a, b, rfl, ha⟩ := List.eq_append_cons_of_mem hn
        rw [getlines_append _ _ ha, List.nil_append] at hl
        simp only [List.cons.injEq] at hl
        exact ⟨s ++ '\n' :: b, by rw [hl.1]; simp⟩
      · rw [getlines_noNl _ _ hn, List.nil_append] at hl
        split at hl
        · cases hl
        · simp only [List.cons.injEq] at hl
          exact ⟨s, hl.1.symm⟩

/-- Only the values that are not missing decide the type of a column. -/
theorem inferColumnType_congr {vs ws : List Str}
    (h : ∀ k, k ≠ .missing → vs.countP (fun v => classify v = k) = ws.countP (fun v => classify v = k))
    (ht : vs.length - vs.countP (fun v => classify v = .missing) =
      ws.length - ws.countP (fun v => classify v = .missing)) :
    inferColumnType vs = inferColumnType ws := by
  have key : ∀ us : List Str, us.isEmpty = true →
      us.length - us.countP (fun v => classify v = .missing) = 0 := by
    intro us hu; rw [List.isEmpty_iff.mp hu]; rfl
  unfold inferColumnType
  dsimp only
  simp only [h .dateTime (by simp), h .date (by simp), h .time (by simp), h .bool (by simp),
    h .int (by simp), h .real (by simp), ht]
  by_cases h1 : vs.isEmpty = true <;> by_cases h2 : ws.isEmpty = true
  · simp only [h1, h2, if_true]
  · have := key vs h1; rw [ht] at this; simp [h1, this]
  · have := key ws h2; simp [h2, this]
  · simp only [h1, h2]

theorem classify_nil : classify [] = .missing := by
  simp [classify, trim, isMissingValue]

theorem infer_present (rows : List (List Str)) (c : Nat) :
    inferColumnType (rows.filterMap (fun row => row[c]?)) =
      inferColumnType (rows.map (fun row => fieldAt row c)) := by
  have hcount : ∀ (us : List Str), us.countP (fun v => classify v = .missing) ≤ us.length :=
    fun us => List.countP_le_length
  apply inferColumnType_congr
  · intro k hk
    induction rows with
    | nil => rfl
    | cons row rows ih =>
      simp only [List.filterMap_cons, List.map_cons, List.countP_cons]
      cases hr : row[c]? with
      | none =>
        have : fieldAt row c = [] := by simp [fieldAt, List.getD_eq_getElem?_getD, hr]
        simp only [this, classify_nil, decide_eq_true_eq, if_neg (Ne.symm hk), ih, Nat.add_zero]
      | some v =>
        have : fieldAt row c = v := by simp [fieldAt, List.getD_eq_getElem?_getD, hr]
        simp only [this, List.countP_cons, ih]
  · induction rows with
    | nil => rfl
    | cons row rows ih =>
      simp only [List.filterMap_cons, List.map_cons, List.countP_cons, List.length_cons]
      have h1 := hcount (rows.filterMap (fun row => row[c]?))
      have h2 := hcount (rows.map (fun row => fieldAt row c))
      cases hr : row[c]? with
      | none =>
        have : fieldAt row c = [] := by simp [fieldAt, List.getD_eq_getElem?_getD, hr]
        simp only [this, classify_nil, decide_true, if_true]
        omega
      | some v =>
        have : fieldAt row c = v := by simp [fieldAt, List.getD_eq_getElem?_getD, hr]
        simp only [this, List.countP_cons, List.length_cons]
        split <;> omega

theorem tableField_eq {rows : List (List Str)} {r : Nat} {row : List Str} (h : rows[r]? = some row)
    (c : Nat) : tableField rows r c = fieldAt row c := by
  simp [tableField, h, fieldAt, List.getD_eq_getElem?_getD]

theorem map_tableField (rows : List (List Str)) (c : Nat) :
    (List.range rows.length).map (fun r => tableField rows r c) = rows.map (fun row => fieldAt row c) := by
  apply List.ext_getElem (by simp)
  intro i h1 h2
  simp only [List.length_map, List.length_range] at h1
  simp [tableField_eq (List.getElem?_eq_getElem h1)]

/-- The shared part of the loaders delivers the dataset of the rows. -/
theorem fill_isDatasetOf [Zero R] (stod : Str → Option R) (ty : List Str → ColumnType)
    (hty : ∀ vs, ty vs ≠ .MISSING) (hasHeader : Bool) (first : List Str) (rest : List (List Str))
    (ty' : Nat → ColumnType)
    (hty' : ∀ c, ty' c = ty (((first :: rest).drop (if hasHeader then 1 else 0)).map
      (fun row => fieldAt row c))) (name : Str) :
    ∃ cols, fillRows stod ((first :: rest).length - if hasHeader then 1 else 0) 0
        ((first :: rest).drop (if hasHeader then 1 else 0))
        (((List.range first.length).map (fun c =>
          ({ name := columnName hasHeader first c, type := ty' c } : DataColumn R))).map
            (prealloc ((first :: rest).length - if hasHeader then 1 else 0))) = .ret cols ∧
      IsDatasetOf stod ty hasHeader (first :: rest)
        { name := name, columns := cols, rowCount := (first :: rest).length - if hasHeader then 1 else 0 } := by
  set rows := (first :: rest).drop (if hasHeader then 1 else 0) with hrows
  have hdata : (if hasHeader then (first :: rest).tail else first :: rest) = rows := by
    rw [hrows]; cases hasHeader <;> rfl
  have hlen : (first :: rest).length - (if hasHeader then 1 else 0) = rows.length := by
    rw [hrows, List.length_drop]
  rw [hlen]
  obtain ⟨cols, h1, h2, h3⟩ := fill_prealloc stod rows first.length (columnName hasHeader first) ty'
    (fun c => by rw [hty' c]; exact hty _)
  refine ⟨cols, h1, ?_⟩
  unfold IsDatasetOf
  simp only [hdata]
  refine ⟨trivial, by simpa using h2, ?_, ?_⟩
  · intro col hc
    obtain ⟨k, hk⟩ := List.mem_iff_getElem?.mp hc
    have hlt : k < first.length := by
      rw [← h2]; exact (List.getElem?_eq_some_iff.mp hk).1
    obtain ⟨y, y1, _, _, y4, _⟩ := h3 k hlt
    rw [hk] at y1; cases y1; exact y4
  · intro c hc
    obtain ⟨col, a1, a2, a3, a4, a5⟩ := h3 c (by omega)
    refine ⟨col, a1, ?_, ?_, ?_⟩
    · rw [a2]
      have : tableField (first :: rest) 0 c = first.getD c [] := by
        simp [tableField, List.getD_eq_getElem?_getD]
      rw [this]
      cases hasHeader
      · simp [columnName]
      · by_cases he : trim (first.getD c []) = []
        · simp [columnName, he]
        · simp only [columnName, if_true, List.isEmpty_iff, if_neg he, true_and, ne_eq, he,
            not_false_eq_true, if_false]
    · rw [a3, hty' c, map_tableField]
    · intro r hr
      have := a5 r rows[r] (List.getElem?_eq_getElem hr)
      rw [this, a3, tableField_eq (List.getElem?_eq_getElem hr)]

theorem loadFromCSVString_rows [Zero R] (stod : Str → Option R) (content : Str) (d : Char) (hh : Bool)
    (table : List (List Str)) (ht : readRows d (getlines [] (removeBOM content)) = table)
    (hne : table ≠ []) :
    ∃ ds, loadFromCSVString stod content d hh = .ret ds ∧ ds.name = [] ∧
      IsDatasetOf stod inferColumnType hh table ds := by
  cases table with
  | nil => exact absurd rfl hne
  | cons first rest =>
    obtain ⟨cols, h1, h2⟩ := fill_isDatasetOf stod inferColumnType inferColumnType_ne_missing hh first
      rest (fun c => inferColumnType (((first :: rest).drop (if hh then 1 else 0)).filterMap
        (fun row => row[c]?))) (fun c => infer_present _ c) []
    refine ⟨_, ?_, rfl, h2⟩
    simp only [loadFromCSVString, ht]
    simp only [h1, Outcome.bind_ret, Outcome.pure_eq]

/-- **C26, `LoadFromCSVString`.**  For every way of writing a nonempty table as CSV (any quoting, LF
or CR LF, blank lines, optional byte order mark), loading the text succeeds and yields the dataset of
the table. -/
theorem loadFromCSVString_correct [Zero R] (stod : Str → Option R) {d : Char} (hd : d ≠ '"')
    (hasHeader : Bool) {table : List (List Str)} {text content : Str} (ht : CsvText d table text)
    (hne : table ≠ [])
    (hc : content = bom ++ text ∨ (content = text ∧ ¬ bom <+: text)) :
    ∃ ds, loadFromCSVString stod content d hasHeader = .ret ds ∧
      IsDatasetOf stod inferColumnType hasHeader table ds := by
  have hrem : removeBOM content = text := by
    rcases hc with rfl | ⟨rfl, h⟩
    · exact removeBOM_bom _
    · exact removeBOM_of_not h
  obtain ⟨ds, h1, _, h2⟩ := loadFromCSVString_rows stod content d hasHeader table
    (by rw [hrem]; exact readRows_csvText hd ht) hne
  exact ⟨ds, h1, h2⟩

/-- **C26, every text.**  `LoadFromCSVString` either reports that there is nothing to load, exactly
when the text has only blanks, or returns a rectangular dataset with at least one column. -/
theorem loadFromCSVString_total [Zero R] (stod : Str → Option R) (content : Str) (d : Char)
    (hasHeader : Bool) :
    (loadFromCSVString stod content d hasHeader = dataError ∧ ∀ c ∈ removeBOM content, isBlank c) ∨
    ((∃ c ∈ removeBOM content, isBlank c = false) ∧
      ∃ ds, loadFromCSVString stod content d hasHeader = .ret ds ∧ ds.Rectangular ∧
        ds.columns ≠ []) := by
  have hblank : ∀ (n : Nat) (s : Str), s.length ≤ n →
      ((readRows d (getlines [] s) = [] ↔ ∀ c ∈ s, isBlank c = true)) := by
    intro n
    induction n with
    | zero =>
      intro s hs
      have : s = [] := List.length_eq_zero_iff.mp (by omega)
      subst this; simp [getlines, readRows]
    | succ n ih =>
      intro s hs
      by_cases hn : '\n' ∈ s
      · obtain ⟨a, b, rfl, ha⟩ := List.eq_append_cons_of_mem hn
        simp only [List.length_append, List.length_cons] at hs
        rw [getlines_append _ _ ha, List.nil_append]
        by_cases hb : ∀ c ∈ a, isBlank c = true
        · rw [readRows_cons_blank _ _ _ hb, ih b (by omega)]
          simp only [List.mem_append, List.mem_cons]
          constructor
          · intro h c hc
            rcases hc with hc | rfl | hc
            · exact hb c hc
            · rfl
            · exact h c hc
          · intro h c hc; exact h c (by simp [hc])
        · rw [readRows_cons_row _ _ _ (by simpa using hb)]
          simp only [reduceCtorEq, false_iff]
          intro h; exact hb (fun c hc => h c (by simp [hc]))
      · rw [getlines_noNl _ _ hn, List.nil_append]
        split
        · next he => rw [List.isEmpty_iff.mp he]; simp [readRows]
        · by_cases hb : ∀ c ∈ s, isBlank c = true
          · rw [readRows_cons_blank _ _ _ hb]
            simp only [iff_true_intro hb, iff_true]; rfl
          · rw [readRows_cons_row _ _ _ (by simpa using hb)]
            simp [hb]
  have h0 := hblank _ (removeBOM content) le_rfl
  cases hr : readRows d (getlines [] (removeBOM content)) with
  | nil =>
    refine .inl ⟨?_, h0.mp hr⟩
    simp [loadFromCSVString, hr]
  | cons first rest =>
    right
    refine ⟨?_, ?_⟩
    · by_contra hcon
      have : ∀ c ∈ removeBOM content, isBlank c = true := by simpa using hcon
      rw [← h0, hr] at this; cases this
    · obtain ⟨ds, h1, _, h2⟩ := loadFromCSVString_rows stod content d hasHeader _ hr (by simp)
      refine ⟨ds, h1, h2.2.2.1, ?_⟩
      have hfirst : first ≠ [] := by
        have hm : first ∈ readRows d (getlines [] (removeBOM content)) := by rw [hr]; simp
        simp only [readRows, List.mem_map] at hm
        obtain ⟨l, _, rfl⟩ := hm
        exact splitGo_ne_nil d _ _ _ _ le_rfl
      have := h2.2.1
      intro he
      rw [he] at this
      simp only [List.length_nil, List.headD_cons] at this
      exact hfirst (List.length_eq_zero_iff.mp this.symm)

theorem widthWarnings_eq_nil (n : Nat) : ∀ (rows : List (List Str)) (r : Nat),
    widthWarnings n r rows = [] ↔ ∀ row ∈ rows, row.length = n := by
  intro rows
  induction rows with
  | nil => simp [widthWarnings]
  | cons row rows ih =>
    intro r
    by_cases h : row.length = n
    · simp [widthWarnings, h, ih]
    · simp [widthWarnings, h]

theorem mem_widthWarnings (n : Nat) (w : Warning) : ∀ (rows : List (List Str)) (r : Nat),
    w ∈ widthWarnings n r rows ↔ ∃ i row, rows[i]? = some row ∧ row.length ≠ n ∧
      w = ⟨r + i + 1, row.length, n⟩ := by
  intro rows
  induction rows with
  | nil => simp [widthWarnings]
  | cons row rows ih =>
    intro r
    have split : (∃ i row', (row :: rows)[i]? = some row' ∧ row'.length ≠ n ∧
        w = ⟨r + i + 1, row'.length, n⟩) ↔ (row.length ≠ n ∧ w = ⟨r + 1, row.length, n⟩) ∨
        ∃ i row', rows[i]? = some row' ∧ row'.length ≠ n ∧ w = ⟨r + 1 + i + 1, row'.length, n⟩ := by
      constructor
      · rintro ⟨i, row', h1, h2, h3⟩
        cases i with
        | zero => simp at h1; subst h1; exact .inl ⟨h2, h3⟩
        | succ i =>
          refine .inr ⟨i, row', by simpa using h1, h2, ?_⟩
          rw [h3]; congr 1; omega
      · rintro (⟨h2, h3⟩ | ⟨i, row', h1, h2, h3⟩)
        · exact ⟨0, row, by simp, h2, h3⟩
        · refine ⟨i + 1, row', by simpa using h1, h2, ?_⟩
          rw [h3]; congr 1; omega
    rw [split, ← ih (r + 1)]
    by_cases h : row.length = n
    · simp [widthWarnings, h]
    · simp [widthWarnings, h]

/-- **C26, `LoadCSV`.**  Loading a file with any text of a nonempty table succeeds, unless strict
checking is on and some data row has another number of fields than the first line; it then fails.
On success it yields the dataset of the table (all columns being text when inference is off), and,
when asked for, exactly one warning for each data row of another width. -/
theorem loadCSV_correct [Zero R] (stod : Str → Option R) (filename : Str) (opts : CSVLoadOptions)
    (hd : opts.delimiter ≠ '"') {table : List (List Str)} {text content : Str}
    (ht : CsvText opts.delimiter table text) (hne : table ≠ [])
    (hc : content = bom ++ text ∨ (content = text ∧ ¬ bom <+: text)) :
    let data := if opts.hasHeader then table.tail else table
    let width := (table.headD []).length
    (opts.strictSchema = true → (∃ row ∈ data, row.length ≠ width) →
      loadCSV stod filename (some content) opts = dataError) ∧
    (opts.strictSchema = false ∨ (∀ row ∈ data, row.length = width) →
      ∃ ds ws, loadCSV stod filename (some content) opts = .ret (ds, ws) ∧ ds.name = filename ∧
        IsDatasetOf stod (if opts.inferTypes then inferColumnType else fun _ => .STRING)
          opts.hasHeader table ds ∧
        (opts.warnings = false → ws = []) ∧
        (opts.warnings = true → ∀ w, w ∈ ws ↔ ∃ r row, data[r]? = some row ∧ row.length ≠ width ∧
          w.rowNumber = r + (if opts.hasHeader then 2 else 1) ∧ w.fields = row.length ∧
          w.expected = width)) := by
  have hrem : removeBOM content = text := by
    rcases hc with rfl | ⟨rfl, h⟩
    · exact removeBOM_bom _
    · exact removeBOM_of_not h
  have hrows := readRows_bom opts.delimiter content
  rw [hrem, readRows_csvText hd ht] at hrows
  cases table with
  | nil => exact absurd rfl hne
  | cons first rest =>
    have hdata : (if opts.hasHeader then (first :: rest).tail else first :: rest) =
        (first :: rest).drop (if opts.hasHeader then 1 else 0) := by
      cases opts.hasHeader <;> rfl
    simp only [hdata, List.headD_cons]
    constructor
    · intro hs hw
      have : widthWarnings first.length (if opts.hasHeader then 1 else 0)
          ((first :: rest).drop (if opts.hasHeader then 1 else 0)) ≠ [] := by
        rw [Ne, widthWarnings_eq_nil]
        intro h; obtain ⟨row, h1, h2⟩ := hw; exact h2 (h row h1)
      unfold loadCSV
      dsimp only
      rw [hrows]
      dsimp only
      rw [if_pos ⟨hs, this⟩]
    · intro hok
      have hno : ¬ (opts.strictSchema = true ∧ widthWarnings first.length
          (if opts.hasHeader then 1 else 0)
          ((first :: rest).drop (if opts.hasHeader then 1 else 0)) ≠ []) := by
        rintro ⟨h1, h2⟩
        rcases hok with h | h
        · rw [h1] at h; cases h
        · exact h2 ((widthWarnings_eq_nil _ _ _).mpr h)
      obtain ⟨cols, h1, h2⟩ := fill_isDatasetOf stod
        (if opts.inferTypes then inferColumnType else fun _ => .STRING)
        (by intro vs; cases opts.inferTypes <;> simp [inferColumnType_ne_missing]) opts.hasHeader first
        rest (fun c => if opts.inferTypes then
          inferColumnType (((first :: rest).drop (if opts.hasHeader then 1 else 0)).map
            (fun row => fieldAt row c)) else .STRING)
        (by intro c; cases opts.inferTypes <;> rfl) filename
      refine ⟨_, if opts.warnings then widthWarnings first.length (if opts.hasHeader then 1 else 0)
          ((first :: rest).drop (if opts.hasHeader then 1 else 0)) else [], ?_, ?_, h2, ?_, ?_⟩
      · unfold loadCSV
        dsimp only
        rw [hrows]
        dsimp only
        rw [if_neg hno]
        simp only [h1, Outcome.bind_ret, Outcome.pure_eq]
      · rfl
      · intro h; simp [h]
      · intro h w
        rw [if_pos h, mem_widthWarnings]
        constructor
        · rintro ⟨i, row, a1, a2, rfl⟩
          refine ⟨i, row, a1, a2, ?_, rfl, rfl⟩
          cases opts.hasHeader <;> simp <;> omega
        · rintro ⟨i, row, a1, a2, a3, a4, a5⟩
          refine ⟨i, row, a1, a2, ?_⟩
          obtain ⟨w1, w2, w3⟩ := w
          simp only at a3 a4 a5
          rw [a3, a4, a5]
          congr 1
          cases opts.hasHeader <;> simp <;> omega

/-- **C57 (loaders agree).**  With the default options the file loader and the string loader return
the same dataset for the same content, except for its name, and fail on the same contents. -/
theorem loadCSV_eq_loadFromCSVString [Zero R] (stod : Str → Option R) (filename content : Str)
    (d : Char) (hasHeader : Bool) :
    loadCSV stod filename (some content) { hasHeader := hasHeader, delimiter := d } =
      (do let ds ← loadFromCSVString stod content d hasHeader
          return ({ ds with name := filename }, [])) := by
  have hrows := readRows_bom d content
  unfold loadCSV loadFromCSVString
  dsimp only
  rw [hrows]
  cases readRows d (getlines [] (removeBOM content)) with
  | nil => rfl
  | cons first rest =>
    dsimp only
    rw [if_neg (by simp)]
    simp only [if_true, infer_present]
    cases fillRows stod _ 0 _ _ <;> simp

/-! ### A case that meets the hypotheses of the loading theorems -/

/-- A header, a row with a quoted field holding the delimiter and a quote, and a short row. -/
private def sampleTable : List (List Str) :=
  [["id".toList, "b".toList], ["1".toList, "x,\"y".toList], ["2".toList]]

private def sampleCsv : Str := "id,b\r\n \n1,\"x,\"\"y\"\n2".toList

private theorem sampleCsv_text : CsvText ',' sampleTable sampleCsv := by
  have r1 : RowLine ',' ["id".toList, "b".toList] "id,b".toList :=
    ⟨by simp, ⟨["id".toList, "b".toList], .cons (.inr ⟨rfl, by decide, by decide⟩)
      (.cons (.inr ⟨rfl, by decide, by decide⟩) .nil), rfl⟩, by decide, 'i', by decide, by decide⟩
  have r2 : RowLine ',' ["1".toList, "x,\"y".toList] "1,\"x,\"\"y\"".toList :=
    ⟨by simp, ⟨["1".toList, quoted "x,\"y".toList], .cons (.inr ⟨rfl, by decide, by decide⟩)
      (.cons (.inl rfl) .nil), rfl⟩, by decide, '1', by decide, by decide⟩
  have r3 : RowLine ',' ["2".toList] "2".toList :=
    ⟨by simp, ⟨["2".toList], .cons (.inr ⟨rfl, by decide, by decide⟩) .nil, rfl⟩, by decide, '2',
      by decide, by decide⟩
  exact .crlf r1 (.blank (w := " ".toList) (by decide) (.lf r2 (by decide) (.last r3 (by decide))))

example : ∃ ds : Dataset ℚ, loadFromCSVString (fun _ => none) (bom ++ sampleCsv) ',' true = .ret ds ∧
    IsDatasetOf (fun _ => none) inferColumnType true sampleTable ds :=
  loadFromCSVString_correct _ (by decide) true sampleCsv_text (by decide) (.inl rfl)

/-- Under strict checking the short row makes the load fail. -/
example : loadCSV (R := ℚ) (fun _ => none) [] (some (bom ++ sampleCsv)) { strictSchema := true } = dataError :=
  (loadCSV_correct _ _ _ (by decide) sampleCsv_text (by decide) (.inl rfl)).1 rfl
    ⟨["2".toList], by decide, by decide⟩

end Verif.Data
