import Verif.Data.Spec

/-! # Lemmas about CSV splitting, lines and column filling -/

set_option autoImplicit false

namespace Verif.Data

variable {R : Type}

/-! ## SplitLine -/

theorem splitGo_ne (d c : Char) (hc : c ≠ '"') (acc cs : Str) (q : Bool) :
    splitGo d acc q (c :: cs) =
      if c = d ∧ q = false then acc :: splitGo d [] q cs else splitGo d (acc ++ [c]) q cs := by
  rw [splitGo.eq_def]; simp [hc]

theorem splitGo_plain (d : Char) (rest : Str) : ∀ (f acc : Str), '"' ∉ f → d ∉ f →
    splitGo d acc false (f ++ rest) = splitGo d (acc ++ f) false rest := by
  intro f
  induction f with
  | nil => intro acc _ _; simp
  | cons c cs ih =>
    intro acc hq hd
    simp only [List.mem_cons, not_or] at hq hd
    rw [List.cons_append, splitGo_ne _ _ (fun h => hq.1 h.symm), if_neg (fun h => hd.1 h.1.symm),
      ih _ hq.2 hd.2]
    simp

theorem splitGo_doubled (d : Char) (rest : Str) (hrest : rest.head? ≠ some '"') :
    ∀ (f acc : Str),
    splitGo d acc true (doubled f ++ '"' :: rest) = splitGo d (acc ++ f) false rest := by
  intro f
  induction f with
  | nil =>
    intro acc
    simp only [doubled, List.nil_append]
    cases rest with
    | nil => simp [splitGo]
    | cons e es =>
      have : e ≠ '"' := by simpa using hrest
      rw [splitGo]
      simp [this]
  | cons c cs ih =>
    intro acc
    by_cases hc : c = '"'
    · subst hc
      simp only [doubled, if_true, List.cons_append]
      rw [splitGo]
      simp only [if_true, and_self]
      rw [ih]; simp
    · simp only [doubled, if_neg hc, List.cons_append]
      rw [splitGo_ne _ _ hc, if_neg (by simp), ih]; simp

theorem splitGo_field {d : Char} (hd : d ≠ '"') {f txt : Str} (h : FieldText d f txt) (rest : Str)
    (hrest : rest.head? ≠ some '"') :
    splitGo d [] false (txt ++ rest) = splitGo d f false rest := by
  rcases h with rfl | ⟨rfl, h1, h2⟩
  · have : quoted f ++ rest = '"' :: (doubled f ++ '"' :: rest) := by simp [quoted]
    rw [this]
    cases hx : doubled f ++ '"' :: rest with
    | nil => simp at hx
    | cons e es =>
      rw [splitGo]
      simp only [if_true, Bool.false_eq_true, false_and, if_false, Bool.not_false]
      rw [← hx, splitGo_doubled d rest hrest]; simp
  · rw [splitGo_plain d rest _ _ h1 h2]; simp

theorem splitLine_join {d : Char} (hd : d ≠ '"') : ∀ {fs txts : List Str},
    List.Forall₂ (FieldText d) fs txts → fs ≠ [] → splitLine (joinFields d txts) d = fs := by
  intro fs txts h
  unfold splitLine
  induction h with
  | nil => intro h; exact absurd rfl h
  | @cons f t fs ts h1 h2 ih =>
    intro _
    cases h2 with
    | nil =>
      have := splitGo_field hd h1 [] (by simp)
      simp only [List.append_nil] at this
      simp [joinFields, this, splitGo]
    | @cons f' t' fs' ts' h3 h4 =>
      have := splitGo_field hd h1 (d :: joinFields d (t' :: ts')) (by simpa using hd)
      simp only [joinFields, this]
      rw [splitGo_ne _ _ hd, if_pos ⟨rfl, rfl⟩]
      simp only [ne_eq, reduceCtorEq, not_false_eq_true, forall_const] at ih
      simp only [ih]

/-- Every line has at least one field. -/
theorem splitGo_ne_nil (d : Char) : ∀ (n : Nat) (s acc : Str) (q : Bool), s.length ≤ n →
    splitGo d acc q s ≠ [] := by
  intro n
  induction n with
  | zero =>
    intro s acc q h
    have : s = [] := List.length_eq_zero_iff.mp (by omega)
    subst this; simp [splitGo]
  | succ n ih =>
    intro s acc q h
    cases s with
    | nil => simp [splitGo]
    | cons c cs =>
      simp only [List.length_cons] at h
      rw [splitGo.eq_def]
      dsimp only
      split
      · cases cs with
        | nil => exact ih _ _ _ (by simp)
        | cons e es =>
          simp only [List.length_cons] at h
          dsimp only
          split
          · exact ih _ _ _ (by omega)
          · exact ih _ _ _ (by simp only [List.length_cons]; omega)
      · split
        · simp
        · exact ih _ _ _ (by omega)

/-! ## Lines -/

theorem getlines_append (l rest : Str) (h : '\n' ∉ l) : ∀ cur : Str,
    getlines cur (l ++ '\n' :: rest) = (cur ++ l) :: getlines [] rest := by
  induction l with
  | nil => intro cur; simp [getlines]
  | cons c cs ih =>
    intro cur
    simp only [List.mem_cons, not_or] at h
    rw [List.cons_append, getlines, if_neg (fun e => h.1 e.symm), ih h.2]; simp

theorem trim_spec (s : Str) : IsTrimmed s (trim s) := by
  have hall : ∀ l : Str, ∀ c ∈ l.takeWhile isBlank, isBlank c = true :=
    fun l c hc => by
      have := List.all_takeWhile (l := l) (p := isBlank)
      exact List.all_eq_true.mp this c hc
  have hhead : ∀ (l : Str) c, (l.dropWhile isBlank).head? = some c → isBlank c = false := by
    intro l c hc
    have := List.head?_dropWhile_not isBlank l
    rw [hc] at this
    simpa using this
  set a := s.dropWhile isBlank with ha
  have hs : s = s.takeWhile isBlank ++ a := List.takeWhile_append_dropWhile.symm
  have ht : trim s = (a.reverse.dropWhile isBlank).reverse := rfl
  have har : a = (a.reverse.dropWhile isBlank).reverse ++ (a.reverse.takeWhile isBlank).reverse := by
    rw [← List.reverse_append, List.takeWhile_append_dropWhile, List.reverse_reverse]
  refine ⟨⟨s.takeWhile isBlank, (a.reverse.takeWhile isBlank).reverse, ?_, hall s, ?_⟩, ?_, ?_⟩
  · rw [ht, List.append_assoc, ← har]; exact hs
  · intro c hc; exact hall _ c (by simpa using hc)
  · intro c hc
    refine hhead s c ?_
    rw [← ha, har, ← ht]
    rw [List.head?_append, hc]; rfl
  · intro c hc
    rw [ht, List.getLast?_reverse] at hc
    exact hhead _ c hc

/-- Trimming is determined by its specification. -/
theorem isTrimmed_unique {s t : Str} (h : IsTrimmed s t) : trim s = t := by
  obtain ⟨⟨l, r, rfl, hl, hr⟩, h1, h2⟩ := h
  have dropAll : ∀ (l m : Str), (∀ c ∈ l, isBlank c = true) →
      (l ++ m).dropWhile isBlank = m.dropWhile isBlank := by
    intro l m h
    induction l with
    | nil => rfl
    | cons c cs ih =>
      simp only [List.cons_append, List.dropWhile_cons, h c (by simp), if_true]
      exact ih (fun c hc => h c (by simp [hc]))
  have dropNone : ∀ m : Str, (∀ c, m.head? = some c → isBlank c = false) → m.dropWhile isBlank = m := by
    intro m h
    cases m with
    | nil => rfl
    | cons c cs => simp [List.dropWhile_cons, h c (by simp)]
  unfold trim
  rw [List.append_assoc, dropAll l _ hl]
  cases ht : t with
  | nil =>
    simp only [List.nil_append]
    rw [show r.dropWhile isBlank = [] by
      have := dropAll r [] hr
      simpa using this]
    rfl
  | cons c cs =>
    rw [← ht, dropNone (t ++ r) (by
      intro d hd; rw [ht] at hd; exact h1 d (by rw [ht]; simpa using hd)),
      List.reverse_append, dropAll r.reverse _ (by simpa using hr),
      dropNone t.reverse (by
        intro d hd; rw [List.head?_reverse] at hd; exact h2 d hd), List.reverse_reverse]

/-! ## Storing cells -/

theorem getD_set_self {α : Type} (v : List α) (i : Nat) (x d : α) (h : i < v.length) :
    (v.set i x).getD i d = x := by
  simp [List.getD_eq_getElem?_getD, h]

theorem getD_set_ne {α : Type} (v : List α) (i j : Nat) (x d : α) (h : j ≠ i) :
    (v.set i x).getD j d = v.getD j d := by
  simp [List.getD_eq_getElem?_getD, List.getElem?_set_ne (Ne.symm h)]

theorem resize_length {α : Type} (v : List α) (n : Nat) (d : α) : (resize v n d).length = n := by
  simp [resize]; omega

theorem resize_getD {α : Type} (v : List α) (n j : Nat) (d : α) (h : v.length ≤ n) :
    (resize v n d).getD j d = v.getD j d := by
  unfold resize
  rw [List.take_of_length_le h]
  by_cases hj : j < v.length
  · simp [List.getD_eq_getElem?_getD, List.getElem?_append_left hj]
  · simp only [List.getD_eq_getElem?_getD]
    rw [List.getElem?_append_right (by omega), List.getElem?_eq_none (by omega : v.length ≤ j),
      List.getElem?_replicate]
    split <;> rfl

/-- A column ready to receive `n` rows: everything that is not (re)sized when a cell is stored has
`n` entries. -/
def Ready (n : Nat) (c : DataColumn R) : Prop :=
  c.missingMask.length = n ∧ c.type ≠ .MISSING ∧
    match c.type with
    | .DATE => c.dateData.length ≤ n
    | .TIME => c.timeData.length ≤ n
    | .DATETIME => c.dateData.length = n ∧ c.timeData.length = n
    | _ => c.size = n

theorem Ready.of_hasRows {n : Nat} {c : DataColumn R} (h : c.HasRows n) : Ready n c := by
  obtain ⟨h1, h2, h3, h4⟩ := h
  refine ⟨h1, h4, ?_⟩
  unfold DataColumn.size at h2
  cases ht : c.type <;> simp_all [DataColumn.size]

theorem prealloc_ready [Zero R] (n : Nat) (c : DataColumn R) (h : c.type ≠ .MISSING)
    (hd : c.dateData = []) (ht : c.timeData = []) : Ready n (prealloc n c) := by
  unfold prealloc
  cases hc : c.type <;>
    simp_all [Ready, DataColumn.size, resize_length]

theorem prealloc_name [Zero R] (n : Nat) (c : DataColumn R) :
    (prealloc n c).name = c.name ∧ (prealloc n c).type = c.type := by
  unfold prealloc
  cases hc : c.type <;> simp [hc]

theorem parsed_meaning (stod : Str → Option R) (t : ColumnType) (v : Str) :
    meaning stod t v =
      match t, parseValue stod v t with
      | .REAL, .real x => some (.real (some x))
      | .INT, .int i => some (.int i)
      | .BOOL, .bool b => some (.bool b)
      | .STRING, .str s => some (.str s)
      | .DATE, .str s => some (.date s)
      | .TIME, .str s => some (.time s)
      | .DATETIME, .str s => some (.dateTime (splitDateTime s).1 (splitDateTime s).2)
      | _, _ => none := by
  have hmiss : isMissingValue (trim v) = true ↔ trim v = [] ∨ lower (trim v) ∈ missingWords := by
    simp [isMissingValue]
  unfold meaning parseValue
  by_cases hm : isMissingValue (trim v) = true
  · simp only [hm, if_true, if_pos (hmiss.mp hm)]
  · simp only [hm, if_neg (fun h => hm (hmiss.mpr h))]
    cases t
    · dsimp only; cases stod (trim v) <;> rfl
    · dsimp only; cases stoi (trim v) <;> rfl
    · dsimp only
      simp only [List.mem_cons, List.not_mem_nil, or_false]
      split_ifs <;> simp_all
    all_goals simp

theorem parseValue_real (stod : Str → Option R) (v : Str) :
    (∃ x, parseValue stod v .REAL = .real x) ∨ parseValue stod v .REAL = .missing ∨
      parseValue stod v .REAL = .invalid := by
  unfold parseValue; dsimp only; split_ifs <;> (try split) <;> simp

theorem parseValue_int (stod : Str → Option R) (v : Str) :
    (∃ x, parseValue stod v .INT = .int x) ∨ parseValue stod v .INT = .missing ∨
      parseValue stod v .INT = .invalid := by
  unfold parseValue; dsimp only; split_ifs <;> (try split) <;> simp

theorem parseValue_bool (stod : Str → Option R) (v : Str) :
    (∃ x, parseValue stod v .BOOL = .bool x) ∨ parseValue stod v .BOOL = .missing ∨
      parseValue stod v .BOOL = .invalid := by
  unfold parseValue; dsimp only; split_ifs <;> simp

theorem parseValue_str (stod : Str → Option R) (v : Str) (t : ColumnType)
    (ht : t = .STRING ∨ t = .DATE ∨ t = .TIME ∨ t = .DATETIME) :
    (∃ x, parseValue stod v t = .str x ∧ x ≠ []) ∨ parseValue stod v t = .missing := by
  unfold parseValue
  by_cases hm : isMissingValue (trim v) = true
  · simp [hm]
  · have : trim v ≠ [] := by intro h; apply hm; simp [h, isMissingValue]
    rcases ht with rfl | rfl | rfl | rfl <;> simp [hm, this]

theorem writeCell_spec (stod : Str → Option R) {n i : Nat} {c : DataColumn R} (hr : Ready n c)
    (hi : i < n) (v : Str) :
    ∃ c', writeCell stod n c i v = .ret c' ∧ c'.name = c.name ∧ c'.type = c.type ∧ c'.HasRows n ∧
      c'.cell i = meaning stod c.type v ∧ ∀ j, j ≠ i → c'.cell j = c.cell j := by
  obtain ⟨hm, hty, hs⟩ := hr
  have hi' : i < c.missingMask.length := by omega
  rw [parsed_meaning stod c.type v]
  unfold writeCell
  simp only [setAt, if_pos hi', Outcome.bind_ret, Outcome.pure_eq]
  cases hc : c.type
  case MISSING => exact absurd hc hty
  all_goals simp only [hc, DataColumn.size] at hs ⊢
  case REAL =>
    rw [if_pos (by omega)]
    refine ⟨_, rfl, rfl, rfl, ?_, ?_, ?_⟩
    · simp [DataColumn.HasRows, DataColumn.size, hm, hs, hc]
    · simp only [DataColumn.cell, hc, getD_set_self _ _ _ _ hi',
        getD_set_self _ _ _ _ (show i < c.realData.length by omega)]
      rcases parseValue_real stod v with ⟨x, h⟩ | h | h <;> simp [h]
    · intro j hj; simp only [DataColumn.cell, hc, getD_set_ne _ _ _ _ _ hj]
  case INT =>
    rw [if_pos (by omega)]
    refine ⟨_, rfl, rfl, rfl, ?_, ?_, ?_⟩
    · simp [DataColumn.HasRows, DataColumn.size, hm, hs, hc]
    · simp only [DataColumn.cell, hc, getD_set_self _ _ _ _ hi',
        getD_set_self _ _ _ _ (show i < c.intData.length by omega)]
      rcases parseValue_int stod v with ⟨x, h⟩ | h | h <;> simp [h]
    · intro j hj; simp only [DataColumn.cell, hc, getD_set_ne _ _ _ _ _ hj]
  case BOOL =>
    rw [if_pos (by omega)]
    refine ⟨_, rfl, rfl, rfl, ?_, ?_, ?_⟩
    · simp [DataColumn.HasRows, DataColumn.size, hm, hs, hc]
    · simp only [DataColumn.cell, hc, getD_set_self _ _ _ _ hi',
        getD_set_self _ _ _ _ (show i < c.boolData.length by omega)]
      rcases parseValue_bool stod v with ⟨x, h⟩ | h | h <;> simp [h]
    · intro j hj; simp only [DataColumn.cell, hc, getD_set_ne _ _ _ _ _ hj]
  case STRING =>
    rw [if_pos (by omega)]
    refine ⟨_, rfl, rfl, rfl, ?_, ?_, ?_⟩
    · simp [DataColumn.HasRows, DataColumn.size, hm, hs, hc]
    · simp only [DataColumn.cell, hc, getD_set_self _ _ _ _ hi',
        getD_set_self _ _ _ _ (show i < c.stringData.length by omega)]
      rcases parseValue_str stod v .STRING (by simp) with ⟨x, h, _⟩ | h <;> simp [h]
    · intro j hj; simp only [DataColumn.cell, hc, getD_set_ne _ _ _ _ _ hj]
  case DATE =>
    rw [if_pos (by rw [resize_length]; omega)]
    refine ⟨_, rfl, rfl, rfl, ?_, ?_, ?_⟩
    · simp [DataColumn.HasRows, DataColumn.size, hm, hc, resize_length]
    · simp only [DataColumn.cell, hc, getD_set_self _ _ _ _ hi',
        getD_set_self _ _ _ _ (show i < (resize c.dateData n []).length by rw [resize_length]; omega)]
      rcases parseValue_str stod v .DATE (by simp) with ⟨x, h, _⟩ | h <;> simp [h]
    · intro j hj; simp only [DataColumn.cell, hc, getD_set_ne _ _ _ _ _ hj, resize_getD _ _ _ _ hs]
  case TIME =>
    rw [if_pos (by rw [resize_length]; omega)]
    refine ⟨_, rfl, rfl, rfl, ?_, ?_, ?_⟩
    · simp [DataColumn.HasRows, DataColumn.size, hm, hc, resize_length]
    · simp only [DataColumn.cell, hc, getD_set_self _ _ _ _ hi',
        getD_set_self _ _ _ _ (show i < (resize c.timeData n []).length by rw [resize_length]; omega)]
      rcases parseValue_str stod v .TIME (by simp) with ⟨x, h, _⟩ | h <;> simp [h]
    · intro j hj; simp only [DataColumn.cell, hc, getD_set_ne _ _ _ _ _ hj, resize_getD _ _ _ _ hs]
  case DATETIME =>
    rcases parseValue_str stod v .DATETIME (by simp) with ⟨x, h, hx⟩ | h
    · simp only [h, List.isEmpty_iff, hx, if_false]
      rw [if_pos (by omega)]
      simp only [Outcome.bind_ret]
      rw [if_pos (by omega)]
      refine ⟨_, rfl, rfl, rfl, ?_, ?_, ?_⟩
      · simp [DataColumn.HasRows, DataColumn.size, hm, hc, hs]
      · simp [DataColumn.cell, hc, hi', show i < c.dateData.length by omega,
          show i < c.timeData.length by omega]
      · intro j hj; simp only [DataColumn.cell, hc, getD_set_ne _ _ _ _ _ hj]
    · simp only [h]
      refine ⟨_, rfl, rfl, rfl, ?_, ?_, ?_⟩
      · simp [DataColumn.HasRows, DataColumn.size, hm, hc, hs]
      · simp [DataColumn.cell, hi']
      · intro j hj; simp only [DataColumn.cell, hc, getD_set_ne _ _ _ _ _ hj]

/-! ## Filling the columns -/

theorem fillRow_spec (stod : Str → Option R) {n i : Nat} (hi : i < n) (row : List Str) :
    ∀ (cols : List (DataColumn R)) (c : Nat), (∀ col ∈ cols, Ready n col) →
    ∃ cols', fillRow stod n i row c cols = .ret cols' ∧ cols'.length = cols.length ∧
      ∀ k col, cols[k]? = some col → ∃ col', cols'[k]? = some col' ∧ col'.name = col.name ∧
        col'.type = col.type ∧ col'.HasRows n ∧
        col'.cell i = meaning stod col.type (fieldAt row (c + k)) ∧
        ∀ j, j ≠ i → col'.cell j = col.cell j := by
  intro cols
  induction cols with
  | nil => intro c _; exact ⟨[], rfl, rfl, by simp⟩
  | cons col cols ih =>
    intro c h
    obtain ⟨col', h1, h2, h3, h4, h5, h6⟩ :=
      writeCell_spec stod (h col (by simp)) hi (fieldAt row c)
    obtain ⟨cols', g1, g2, g3⟩ := ih (c + 1) (fun x hx => h x (by simp [hx]))
    refine ⟨col' :: cols', ?_, by simp [g2], ?_⟩
    · simp only [fillRow, h1, Outcome.bind_ret, g1, Outcome.pure_eq]
    · intro k x hk
      cases k with
      | zero =>
        simp only [List.getElem?_cons_zero, Option.some.injEq] at hk
        subst hk
        exact ⟨col', rfl, h2, h3, h4, h5, h6⟩
      | succ k =>
        simp only [List.getElem?_cons_succ] at hk ⊢
        obtain ⟨y, y1, y2, y3, y4, y5, y6⟩ := g3 k x hk
        exact ⟨y, y1, y2, y3, y4, by rw [y5]; congr 2; omega, y6⟩

theorem fillRows_spec (stod : Str → Option R) {n : Nat} :
    ∀ (rows : List (List Str)) (i : Nat) (cols : List (DataColumn R)), i + rows.length = n →
    (∀ col ∈ cols, Ready n col) → (rows = [] → ∀ col ∈ cols, col.HasRows n) →
    ∃ cols', fillRows stod n i rows cols = .ret cols' ∧ cols'.length = cols.length ∧
      ∀ k col, cols[k]? = some col → ∃ col', cols'[k]? = some col' ∧ col'.name = col.name ∧
        col'.type = col.type ∧ col'.HasRows n ∧
        (∀ r row, rows[r]? = some row → col'.cell (i + r) = meaning stod col.type (fieldAt row k)) ∧
        ∀ j, j < i → col'.cell j = col.cell j := by
  intro rows
  induction rows with
  | nil =>
    intro i cols _ _ h
    refine ⟨cols, rfl, rfl, ?_⟩
    intro k col hk
    exact ⟨col, hk, rfl, rfl, h rfl col (List.mem_of_getElem? hk), by simp, fun _ _ => rfl⟩
  | cons row rows ih =>
    intro i cols hn hr _
    simp only [List.length_cons] at hn
    obtain ⟨c1, a1, a2, a3⟩ := fillRow_spec stod (show i < n by omega) row cols 0 hr
    have hall : ∀ col ∈ c1, col.HasRows n := by
      intro col hc
      obtain ⟨k, hk⟩ := List.mem_iff_getElem?.mp hc
      have hlt : k < cols.length := by
        rw [← a2]; exact (List.getElem?_eq_some_iff.mp hk).1
      obtain ⟨y, y1, _, _, y4, _⟩ := a3 k cols[k] (List.getElem?_eq_getElem hlt)
      rw [hk] at y1; cases y1; exact y4
    obtain ⟨c2, b1, b2, b3⟩ := ih (i + 1) c1 (by omega) (fun c hc => .of_hasRows (hall c hc))
      (fun _ => hall)
    refine ⟨c2, ?_, by rw [b2, a2], ?_⟩
    · simp only [fillRows, a1, Outcome.bind_ret, b1]
    · intro k col hk
      obtain ⟨y, y1, y2, y3, y4, y5, y6⟩ := a3 k col hk
      obtain ⟨z, z1, z2, z3, z4, z5, z6⟩ := b3 k y y1
      refine ⟨z, z1, z2.trans y2, z3.trans y3, z4, ?_, ?_⟩
      · intro r row' hrow
        cases r with
        | zero =>
          simp only [List.getElem?_cons_zero, Option.some.injEq] at hrow
          subst hrow
          rw [Nat.add_zero, z6 i (by omega), y5, Nat.zero_add]
        | succ r =>
          simp only [List.getElem?_cons_succ] at hrow
          have := z5 r row' hrow
          rw [y3] at this
          rw [← this]; congr 1; omega
      · intro j hj
        rw [z6 j (by omega), y6 j (by omega)]

theorem inferColumnType_ne_missing (vs : List Str) : inferColumnType vs ≠ .MISSING := by
  unfold inferColumnType
  dsimp only
  split_ifs <;> simp

/-- The part shared by the loaders: fill preallocated columns from the data rows. -/
theorem fill_prealloc [Zero R] (stod : Str → Option R) (rows : List (List Str)) (m : Nat)
    (nm : Nat → Str) (ty : Nat → ColumnType) (hty : ∀ c, ty c ≠ .MISSING) :
    ∃ cols, fillRows stod rows.length 0 rows
        (((List.range m).map (fun c => ({ name := nm c, type := ty c } : DataColumn R))).map
          (prealloc rows.length)) = .ret cols ∧ cols.length = m ∧
      ∀ k, k < m → ∃ col, cols[k]? = some col ∧ col.name = nm k ∧ col.type = ty k ∧
        col.HasRows rows.length ∧
        ∀ r row, rows[r]? = some row → col.cell r = meaning stod (ty k) (fieldAt row k) := by
  have hready : ∀ col ∈ ((List.range m).map (fun c => ({ name := nm c, type := ty c } : DataColumn R))).map
          (prealloc rows.length), Ready rows.length col := by
    intro col hc
    simp only [List.mem_map, List.mem_range] at hc
    obtain ⟨_, ⟨c, _, rfl⟩, rfl⟩ := hc
    exact prealloc_ready _ _ (hty c) rfl rfl
  have hempty : rows = [] → ∀ col ∈ ((List.range m).map (fun c => ({ name := nm c, type := ty c } : DataColumn R))).map
          (prealloc rows.length), col.HasRows rows.length := by
    intro hr col hc
    obtain ⟨h1, h2, h3⟩ := hready col hc
    subst hr
    simp only [List.length_nil] at *
    refine ⟨h1, ?_, ?_, h2⟩
    · unfold DataColumn.size
      cases ht : col.type <;> simp_all [DataColumn.size]
    · intro ht; simp_all
  obtain ⟨cols, h1, h2, h3⟩ := fillRows_spec stod rows 0 _ (by simp) hready hempty
  refine ⟨cols, h1, by simpa using h2, ?_⟩
  intro k hk
  obtain ⟨col, a1, a2, a3, a4, a5, _⟩ := h3 k
    (prealloc rows.length ({ name := nm k, type := ty k } : DataColumn R)) (by simp [hk])
  obtain ⟨p1, p2⟩ := prealloc_name rows.length ({ name := nm k, type := ty k } : DataColumn R)
  refine ⟨col, a1, a2.trans p1, a3.trans p2, a4, ?_⟩
  intro r row hr
  have := a5 r row hr
  rw [Nat.zero_add, p2] at this
  exact this

end Verif.Data
