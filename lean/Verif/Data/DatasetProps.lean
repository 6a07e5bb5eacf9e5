import Verif.Data.CsvProps

/-!
# Properties of dataset operations (C60)
-/

set_option autoImplicit false

namespace Verif.Data

variable {R : Type}

theorem gather_spec {α : Type} (src : List α) : ∀ (keep : List Nat), (∀ i ∈ keep, i < src.length) →
    ∃ out, gather src keep = .ret out ∧ out.length = keep.length ∧
      ∀ (k i : Nat) (d : α), keep[k]? = some i → out.getD k d = src.getD i d := by
  intro keep
  induction keep with
  | nil => intro _; exact ⟨[], rfl, rfl, by simp⟩
  | cons i is ih =>
    intro h
    obtain ⟨out, h1, h2, h3⟩ := ih (fun j hj => h j (by simp [hj]))
    have hi := h i (by simp)
    refine ⟨src[i] :: out, ?_, by simp [h2], ?_⟩
    · simp [gather, Outcome.index, hi, h1]
    · intro k j d hk
      cases k with
      | zero =>
        simp only [List.getElem?_cons_zero, Option.some.injEq] at hk
        subst hk; simp [hi]
      | succ k =>
        simp only [List.getElem?_cons_succ] at hk
        simpa using h3 k j d hk

theorem filterColumn_spec {n : Nat} {c : DataColumn R} (hc : c.HasRows n) (keep : List Nat)
    (hk : ∀ i ∈ keep, i < n) :
    ∃ c', filterColumn keep c = .ret c' ∧ c'.name = c.name ∧ c'.type = c.type ∧
      c'.HasRows keep.length ∧ ∀ k i, keep[k]? = some i → c'.cell k = c.cell i := by
  obtain ⟨hm, hs, hd, hty⟩ := hc
  have hmask : ∀ k i, keep[k]? = some i →
      (keep.map c.isMissing).getD k false = c.missingMask.getD i false := by
    intro k i h
    have hi := hk i (List.mem_of_getElem? h)
    simp [List.getD_eq_getElem?_getD, h, DataColumn.isMissing, show ¬ n ≤ i by omega, hm]
  unfold DataColumn.size at hs
  unfold filterColumn
  cases ht : c.type
  case MISSING => exact absurd ht hty
  case DATETIME =>
    simp only [ht] at hs hd ⊢
    obtain ⟨out, h1, h2, h3⟩ := gather_spec c.dateData keep (by rw [hs]; exact hk)
    obtain ⟨out', g1, g2, g3⟩ := gather_spec c.timeData keep (by rw [hd trivial]; exact hk)
    simp only [h1, g1, Outcome.bind_ret, Outcome.pure_eq]
    refine ⟨_, rfl, rfl, rfl, ?_, ?_⟩
    · simp [DataColumn.HasRows, DataColumn.size, h2, g2]
    · intro k i h
      simp only [DataColumn.cell, ht, hmask k i h, h3 k i [] h, g3 k i [] h]
  case REAL =>
    simp only [ht] at hs ⊢
    obtain ⟨out, h1, h2, h3⟩ := gather_spec c.realData keep (by rw [hs]; exact hk)
    simp only [h1, Outcome.bind_ret, Outcome.pure_eq]
    refine ⟨_, rfl, rfl, rfl, ?_, ?_⟩
    · simp [DataColumn.HasRows, DataColumn.size, h2]
    · intro k i h; simp only [DataColumn.cell, ht, hmask k i h, h3 k i _ h]
  case INT =>
    simp only [ht] at hs ⊢
    obtain ⟨out, h1, h2, h3⟩ := gather_spec c.intData keep (by rw [hs]; exact hk)
    simp only [h1, Outcome.bind_ret, Outcome.pure_eq]
    refine ⟨_, rfl, rfl, rfl, ?_, ?_⟩
    · simp [DataColumn.HasRows, DataColumn.size, h2]
    · intro k i h; simp only [DataColumn.cell, ht, hmask k i h, h3 k i _ h]
  case BOOL =>
    simp only [ht] at hs ⊢
    obtain ⟨out, h1, h2, h3⟩ := gather_spec c.boolData keep (by rw [hs]; exact hk)
    simp only [h1, Outcome.bind_ret, Outcome.pure_eq]
    refine ⟨_, rfl, rfl, rfl, ?_, ?_⟩
    · simp [DataColumn.HasRows, DataColumn.size, h2]
    · intro k i h; simp only [DataColumn.cell, ht, hmask k i h, h3 k i _ h]
  case STRING =>
    simp only [ht] at hs ⊢
    obtain ⟨out, h1, h2, h3⟩ := gather_spec c.stringData keep (by rw [hs]; exact hk)
    simp only [h1, Outcome.bind_ret, Outcome.pure_eq]
    refine ⟨_, rfl, rfl, rfl, ?_, ?_⟩
    · simp [DataColumn.HasRows, DataColumn.size, h2]
    · intro k i h; simp only [DataColumn.cell, ht, hmask k i h, h3 k i _ h]
  case DATE =>
    simp only [ht] at hs ⊢
    obtain ⟨out, h1, h2, h3⟩ := gather_spec c.dateData keep (by rw [hs]; exact hk)
    simp only [h1, Outcome.bind_ret, Outcome.pure_eq]
    refine ⟨_, rfl, rfl, rfl, ?_, ?_⟩
    · simp [DataColumn.HasRows, DataColumn.size, h2]
    · intro k i h; simp only [DataColumn.cell, ht, hmask k i h, h3 k i _ h]
  case TIME =>
    simp only [ht] at hs ⊢
    obtain ⟨out, h1, h2, h3⟩ := gather_spec c.timeData keep (by rw [hs]; exact hk)
    simp only [h1, Outcome.bind_ret, Outcome.pure_eq]
    refine ⟨_, rfl, rfl, rfl, ?_, ?_⟩
    · simp [DataColumn.HasRows, DataColumn.size, h2]
    · intro k i h; simp only [DataColumn.cell, ht, hmask k i h, h3 k i _ h]

/-- The text a user sees for an entry: `NA` when missing. -/
def cellText (showReal : Option R → Str) : Option (Cell R) → Str
  | none => "NA".toList
  | some (.real x) => showReal x
  | some (.int i) => (toString i).toList
  | some (.bool b) => if b then "true".toList else "false".toList
  | some (.str s) => s
  | some (.date s) => s
  | some (.time s) => s
  | some (.dateTime d t) => d ++ " ".toList ++ t

theorem index_getD {α : Type} {v : List α} {i : Nat} (h : i < v.length) (d : α) :
    Outcome.index v i = .ret (v.getD i d) := by
  simp [Outcome.index, h]

theorem getAsString_spec (showReal : Option R → Str) {n i : Nat} {c : DataColumn R} (hc : c.HasRows n)
    (hi : i < n) : c.getAsString showReal i = .ret (cellText showReal (c.cell i)) := by
  obtain ⟨hm, hs, hd, hty⟩ := hc
  unfold DataColumn.getAsString
  rw [if_neg (by omega)]
  have hmask : c.isMissing i = c.missingMask.getD i false := by
    simp [DataColumn.isMissing, show ¬ n ≤ i by omega, hm]
  rw [hmask]
  unfold DataColumn.cell
  by_cases hb : c.missingMask.getD i false = true
  · simp only [hb, if_true]; rfl
  · simp only [hb, if_false, Bool.false_eq_true]
    unfold DataColumn.size at hs
    cases ht : c.type
    case MISSING => exact absurd ht hty
    all_goals simp only [ht] at hs hd ⊢
    case REAL => rw [index_getD (by omega) none]; rfl
    case INT => rw [index_getD (by omega) 0]; rfl
    case BOOL => rw [index_getD (by omega) false]; rfl
    case STRING => rw [index_getD (by omega) []]; rfl
    case DATE => rw [index_getD (by omega) []]; rfl
    case TIME => rw [index_getD (by omega) []]; rfl
    case DATETIME =>
      rw [index_getD (by omega) [], Outcome.bind_ret, index_getD (by rw [hd trivial]; omega) []]; rfl

theorem keepIndices_spec (showReal : Option R → Str) {n : Nat} {c : DataColumn R} (hc : c.HasRows n)
    (p : Str → Bool) : ∀ is : List Nat, (∀ i ∈ is, i < n) →
    keepIndices showReal c p is = .ret (is.filter (fun i => p (cellText showReal (c.cell i)))) := by
  intro is
  induction is with
  | nil => intro _; rfl
  | cons i is ih =>
    intro h
    rw [keepIndices, getAsString_spec showReal hc (h i (by simp)), Outcome.bind_ret,
      ih (fun j hj => h j (by simp [hj])), Outcome.bind_ret, Outcome.pure_eq, List.filter_cons]

theorem mapOutcome_spec {α β : Type} (f : α → Outcome β) (P : α → β → Prop) :
    ∀ l : List α, (∀ a ∈ l, ∃ b, f a = .ret b ∧ P a b) →
    ∃ l', mapOutcome f l = .ret l' ∧ List.Forall₂ P l l' := by
  intro l
  induction l with
  | nil => intro _; exact ⟨[], rfl, .nil⟩
  | cons a as ih =>
    intro h
    obtain ⟨b, h1, h2⟩ := h a (by simp)
    obtain ⟨bs, h3, h4⟩ := ih (fun x hx => h x (by simp [hx]))
    exact ⟨b :: bs, by simp [mapOutcome, h1, h3], .cons h2 h4⟩

/-- **C60, `FilterRows`.**  On a rectangular dataset with the named column, `FilterRows` returns a
rectangular dataset with the same columns in the same order, whose rows are exactly the rows whose
text in that column satisfies the predicate, in their order; it never reads out of range. -/
theorem filterRows_correct (showReal : Option R → Str) (d : Dataset R) (hd : d.Rectangular)
    (colName : Str) (p : Str → Bool) (col : DataColumn R) (hcol : d.byName colName = .ret col) :
    let kept := (List.range d.rowCount).filter (fun i => p (cellText showReal (col.cell i)))
    ∃ d', d.filterRows showReal colName p = .ret d' ∧ d'.Rectangular ∧ d'.rowCount = kept.length ∧
      d'.name = d.name ++ "_filtered".toList ∧
      List.Forall₂ (fun c c' => c'.name = c.name ∧ c'.type = c.type ∧
        ∀ k i, kept[k]? = some i → c'.cell k = c.cell i) d.columns d'.columns := by
  intro kept
  have hmem : col ∈ d.columns := by
    unfold Dataset.byName at hcol
    split at hcol
    · next c h => cases hcol; exact List.mem_of_find?_eq_some h
    · cases hcol
  have hk := keepIndices_spec showReal (hd col hmem) p (List.range d.rowCount)
    (fun i hi => List.mem_range.mp hi)
  have hlt : ∀ i ∈ kept, i < d.rowCount :=
    fun i hi => List.mem_range.mp (List.mem_of_mem_filter hi)
  obtain ⟨cols, h1, h2⟩ := mapOutcome_spec (filterColumn kept)
    (fun c c' => c'.HasRows kept.length ∧ c'.name = c.name ∧ c'.type = c.type ∧
        ∀ k i, kept[k]? = some i → c'.cell k = c.cell i) d.columns (by
      intro c hc
      obtain ⟨c', a1, a2, a3, a4, a5⟩ := filterColumn_spec (hd c hc) kept hlt
      exact ⟨c', a1, a4, a2, a3, a5⟩)
  refine ⟨{ name := d.name ++ "_filtered".toList, columns := cols, rowCount := kept.length }, ?_, ?_,
    rfl, rfl, h2.imp (fun _ _ h => h.2)⟩
  · simp only [Dataset.filterRows, hcol, Outcome.bind_ret, hk]
    change (mapOutcome (filterColumn kept) d.columns >>= _) = _
    rw [h1]; rfl
  · intro c' hc'
    obtain ⟨hl, hg⟩ := List.forall₂_iff_get.mp h2
    change c' ∈ cols at hc'
    obtain ⟨k, hk', rfl⟩ := List.mem_iff_getElem.mp hc'
    exact (hg k (by omega) hk').1

/-- **C60, `SelectColumns`.**  Selecting existing columns of a rectangular dataset gives a
rectangular dataset with the same rows, whose columns are the named ones in the order asked for; a
name that does not exist is reported. -/
theorem selectColumns_correct (d : Dataset R) (hd : d.Rectangular) (names : List Str) :
    (∀ n ∈ names, d.hasColumn n = true) →
    ∃ d', d.selectColumns names = .ret d' ∧ d'.Rectangular ∧ d'.rowCount = d.rowCount ∧
      List.Forall₂ (fun n c => c.name = n ∧ c ∈ d.columns) names d'.columns := by
  intro h
  obtain ⟨cols, h1, h2⟩ := mapOutcome_spec d.byName (fun n c => c.name = n ∧ c ∈ d.columns) names (by
    intro n hn
    have := h n hn
    unfold Dataset.hasColumn at this
    rw [List.any_eq_true] at this
    obtain ⟨c, hc, hcn⟩ := this
    unfold Dataset.byName
    cases hf : d.columns.find? (fun c => c.name = n) with
    | none => exact absurd hcn (by simpa using List.find?_eq_none.mp hf c hc)
    | some c' =>
      exact ⟨c', rfl, by simpa using List.find?_some hf, List.mem_of_find?_eq_some hf⟩)
  refine ⟨{ name := d.name ++ "_selected".toList, columns := cols, rowCount := d.rowCount }, ?_, ?_,
    rfl, h2⟩
  · simp only [Dataset.selectColumns, h1, Outcome.bind_ret, Outcome.pure_eq]
  · intro c' hc'
    change c' ∈ cols at hc'
    obtain ⟨k, hk', rfl⟩ := List.mem_iff_getElem.mp hc'
    obtain ⟨hl, hg⟩ := List.forall₂_iff_get.mp h2
    exact hd _ (hg k (by omega) hk').2

/-- A missing name is reported by both. -/
theorem unknown_column (showReal : Option R → Str) (d : Dataset R) (n : Str) (p : Str → Bool)
    (h : ∀ c ∈ d.columns, c.name ≠ n) :
    d.byName n = dataError ∧ d.filterRows showReal n p = dataError ∧ d.selectColumns [n] = dataError := by
  have : d.byName n = dataError := by
    unfold Dataset.byName
    rw [List.find?_eq_none.mpr (by intro c hc; simpa using h c hc)]
  refine ⟨this, ?_, ?_⟩
  · simp [Dataset.filterRows, this, dataError]
  · simp [Dataset.selectColumns, mapOutcome, this, dataError]

/-- A rectangular dataset with two columns and three rows, one entry missing. -/
def sampleData : Dataset Unit :=
  { columns := [{ name := "a".toList, type := .INT, intData := [1, 0, 3], missingMask := [false, true, false] },
      { name := "b".toList, type := .STRING, stringData := ["x".toList, "y".toList, "x".toList],
        missingMask := [false, false, false] }], rowCount := 3 }

/-- The hypotheses of the two theorems are met, and the result is what one expects. -/
example : sampleData.Rectangular ∧ (∃ c, sampleData.byName "b".toList = .ret c) ∧
    sampleData.hasColumn "a".toList = true ∧
    (∃ d, sampleData.filterRows (fun _ => []) "b".toList (fun s => s = "x".toList) = .ret d ∧
      d.rowCount = 2 ∧ (d.columns.map (fun c => (c.cell 0, c.cell 1))) =
        [(some (.int 1), some (.int 3)), (some (.str "x".toList), some (.str "x".toList))]) := by
  refine ⟨?_, ⟨_, rfl⟩, rfl, ⟨_, rfl, rfl, by decide⟩⟩
  intro c hc
  simp only [sampleData, List.mem_cons, List.not_mem_nil, or_false] at hc
  rcases hc with rfl | rfl <;> simp [DataColumn.HasRows, DataColumn.size, sampleData]

end Verif.Data
