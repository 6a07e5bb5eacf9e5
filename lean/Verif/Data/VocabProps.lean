import Verif.Data.TypeProps

/-!
# The vocabulary of the loaders, spelled out (C26, C58)

The words, blanks and literals that the statements about the loaders speak of, in elementary terms.
-/

set_option autoImplicit false

namespace Verif.Data

variable {R : Type}

/-- **C26/C58.**  The blanks that are trimmed are space, tab, carriage return and line feed. -/
theorem isBlank_iff (c : Char) : isBlank c = true ↔ c = ' ' ∨ c = '\t' ∨ c = '\r' ∨ c = '\n' := by
  simp [isBlank, or_assoc]

/-- A field counts as missing when nothing is left after trimming, or one of the sentinels, in any
mixture of cases. -/
def MissingText (t : Str) : Prop :=
  t = [] ∨ t.map Char.toLower ∈ ["na".toList, "n/a".toList, "nan".toList, "null".toList, "none".toList,
    ".".toList, "?".toList, "-".toList]

theorem isMissingValue_iff (t : Str) : isMissingValue t = true ↔ MissingText t := by
  simp [isMissingValue, MissingText, missingWords, lower]

/-- **C26.**  A field is read as missing in every type of column when what is left of it after
trimming is empty or a sentinel. -/
theorem meaning_missing (stod : Str → Option R) (ty : ColumnType) (field t : Str)
    (ht : IsTrimmed field t) (h : MissingText t) : meaning stod ty field = none := by
  have e := isTrimmed_unique ht
  unfold meaning
  rw [e]
  dsimp only
  rw [if_pos]
  rcases h with h | h
  · exact .inl h
  · exact .inr h

example (stod : Str → Option R) : meaning stod .REAL "\t N/a ".toList = none :=
  meaning_missing stod _ _ "N/a".toList ⟨⟨"\t ".toList, " ".toList, by decide, by decide, by decide⟩,
    by decide, by decide⟩ (by unfold MissingText; decide)

/-- **C26.**  Other fields of a text column are read as the trimmed text; those of a date-time column
as the part before the first `T` or blank and the part after it. -/
theorem meaning_text (stod : Str → Option R) (field t : Str) (ht : IsTrimmed field t)
    (h : ¬ MissingText t) :
    meaning stod .STRING field = some (.str t) ∧ meaning stod .DATE field = some (.date t) ∧
    meaning stod .TIME field = some (.time t) ∧
    ∀ d sep u, t = d ++ sep :: u → (sep = 'T' ∨ sep = ' ') → 'T' ∉ d → ' ' ∉ d →
      meaning stod .DATETIME field = some (.dateTime d u) := by
  have e := isTrimmed_unique ht
  have hn : ¬ (t = [] ∨ lower t ∈ missingWords) := h
  refine ⟨?_, ?_, ?_, ?_⟩
  · simp only [meaning, e, if_neg hn]
  · simp only [meaning, e, if_neg hn]
  · simp only [meaning, e, if_neg hn]
  · intro d sep u htd hsep h1 h2
    simp only [meaning, e, if_neg hn]
    have hall : ∀ c ∈ d, (!(c = 'T' || c = ' ')) = true := by
      intro c hc
      have a1 : c ≠ 'T' := by rintro rfl; exact h1 hc
      have a2 : c ≠ ' ' := by rintro rfl; exact h2 hc
      simp [a1, a2]
    have hsep' : (!(decide (sep = 'T') || decide (sep = ' '))) = false := by
      rcases hsep with rfl | rfl <;> decide
    have : splitDateTime t = (d, u) := by
      rw [htd, splitDateTime, List.takeWhile_append_of_pos hall, List.dropWhile_append_of_pos hall,
        List.takeWhile_cons, List.dropWhile_cons]
      simp only [hsep']
      simp
    rw [this]

example (stod : Str → Option R) :
    meaning stod .DATETIME " 2024-01-02T10:30".toList = some (.dateTime "2024-01-02".toList "10:30".toList) :=
  (meaning_text stod _ "2024-01-02T10:30".toList
    ⟨⟨" ".toList, [], by decide, by decide, by decide⟩, by decide, by decide⟩
    (by unfold MissingText; decide)).2.2.2 _ 'T' _ rfl (.inl rfl) (by decide) (by decide)

/-- **C59.**  The digits have their usual values. -/
theorem digitVal_digits : ['0', '1', '2', '3', '4', '5', '6', '7', '8', '9'].map digitVal =
    List.range 10 := by decide

/-! ## Literals -/

/-- Exactly `n` digits. -/
def NDigits (n : Nat) (s : Str) : Prop := s.length = n ∧ ∀ c ∈ s, c.isDigit

/-- One or two digits. -/
def Digits12 (s : Str) : Prop := NDigits 1 s ∨ NDigits 2 s

/-- `YYYY-MM-DD` or `YYYY/MM/DD`, month and day of one or two digits. -/
def IsDateLit (s : Str) : Prop :=
  ∃ y a m b d, s = y ++ a :: (m ++ b :: d) ∧ NDigits 4 y ∧ (a = '-' ∨ a = '/') ∧ Digits12 m ∧
    (b = '-' ∨ b = '/') ∧ Digits12 d

/-- `HH:MM` or `HH:MM:SS`, the hour of one or two digits. -/
def IsClock (s : Str) : Prop :=
  ∃ h m x, s = h ++ ':' :: (m ++ x) ∧ Digits12 h ∧ NDigits 2 m ∧
    (x = [] ∨ ∃ sec, x = ':' :: sec ∧ NDigits 2 sec)

/-- A clock time with an optional fraction. -/
def IsTimeLit (s : Str) : Prop :=
  ∃ c f, s = c ++ f ∧ IsClock c ∧ (f = [] ∨ ∃ ds, f = '.' :: ds ∧ IsDigits ds)

/-- A date and a clock time joined by `T` or a blank. -/
def IsDateTimeLit (s : Str) : Prop :=
  ∃ d a c, s = d ++ a :: c ∧ IsDateLit d ∧ (a = 'T' ∨ a = ' ') ∧ IsClock c

open RegularExpression

theorem mem_cls_mul (cs : List Char) (q : RegularExpression Char) (s : Str) :
    s ∈ (cls cs * q).matches' ↔ ∃ c ∈ cs, ∃ t, t ∈ q.matches' ∧ s = c :: t := by
  rw [mem_mul']
  simp only [mem_cls]
  constructor
  · rintro ⟨_, ⟨c, hc, rfl⟩, t, ht, rfl⟩; exact ⟨c, hc, t, ht, rfl⟩
  · rintro ⟨c, hc, t, ht, rfl⟩; exact ⟨[c], ⟨c, hc, rfl⟩, t, ht, rfl⟩

theorem mem_digit_mul (q : RegularExpression Char) (s : Str) :
    s ∈ (digit * q).matches' ↔ ∃ c, c.isDigit = true ∧ ∃ t, t ∈ q.matches' ∧ s = c :: t := by
  rw [mem_mul']
  simp only [mem_digit]
  constructor
  · rintro ⟨_, ⟨c, hc, rfl⟩, t, ht, rfl⟩; exact ⟨c, hc, t, ht, rfl⟩
  · rintro ⟨c, hc, t, ht, rfl⟩; exact ⟨[c], ⟨c, hc, rfl⟩, t, ht, rfl⟩

theorem nDigits_cons (n : Nat) (s : Str) :
    NDigits (n + 1) s ↔ ∃ c t, s = c :: t ∧ c.isDigit = true ∧ NDigits n t := by
  constructor
  · rintro ⟨hl, h⟩
    cases s with
    | nil => simp at hl
    | cons c t => exact ⟨c, t, rfl, h c (by simp), by simpa using hl, fun d hd => h d (by simp [hd])⟩
  · rintro ⟨c, t, rfl, hc, hl, ht⟩
    exact ⟨by simp [hl], by intro d hd; rcases List.mem_cons.mp hd with rfl | hd; exacts [hc, ht d hd]⟩

theorem nDigits_zero (s : Str) : NDigits 0 s ↔ s = [] := by
  constructor
  · rintro ⟨h, _⟩; exact List.length_eq_zero_iff.mp h
  · rintro rfl; exact ⟨rfl, by simp⟩

theorem mem_digit12 (s : Str) : s ∈ digit12.matches' ↔ Digits12 s := by
  rw [digit12, mem_digit_mul]
  simp only [mem_opt, mem_digit, Digits12, nDigits_cons, nDigits_zero]
  constructor
  · rintro ⟨c, hc, t, rfl | ⟨d, hd, rfl⟩, rfl⟩
    · exact .inl ⟨c, [], rfl, hc, rfl⟩
    · exact .inr ⟨c, [d], rfl, hc, d, [], rfl, hd, rfl⟩
  · rintro (⟨c, _, rfl, hc, rfl⟩ | ⟨c, _, rfl, hc, d, _, rfl, hd, rfl⟩)
    · exact ⟨c, hc, [], .inl rfl, rfl⟩
    · exact ⟨c, hc, [d], .inr ⟨d, hd, rfl⟩, rfl⟩

theorem mem_digit2 (q : RegularExpression Char) (s : Str) :
    s ∈ (digit * (digit * q)).matches' ↔ ∃ m x, NDigits 2 m ∧ x ∈ q.matches' ∧ s = m ++ x := by
  rw [mem_digit_mul]
  simp only [mem_digit_mul, nDigits_cons, nDigits_zero]
  constructor
  · rintro ⟨c, hc, _, ⟨d, hd, t, ht, rfl⟩, rfl⟩
    exact ⟨[c, d], t, ⟨c, [d], rfl, hc, d, [], rfl, hd, rfl⟩, ht, rfl⟩
  · rintro ⟨_, t, ⟨c, _, rfl, hc, d, _, rfl, hd, rfl⟩, ht, rfl⟩
    exact ⟨c, hc, _, ⟨d, hd, t, ht, rfl⟩, rfl⟩

theorem mem_two (s : Str) : s ∈ (digit * digit).matches' ↔ NDigits 2 s := by
  rw [mem_digit_mul]
  simp only [mem_digit, nDigits_cons, nDigits_zero]
  constructor
  · rintro ⟨c, hc, _, ⟨d, hd, rfl⟩, rfl⟩; exact ⟨c, [d], rfl, hc, d, [], rfl, hd, rfl⟩
  · rintro ⟨c, _, rfl, hc, d, _, rfl, hd, rfl⟩; exact ⟨c, hc, [d], ⟨d, hd, rfl⟩, rfl⟩

/-- **C58.**  The date pattern accepts exactly the dates. -/
theorem datePattern_iff (s : Str) : datePattern.rmatch s = true ↔ IsDateLit s := by
  rw [rmatch_iff_matches', datePattern, mem_digit2]
  simp only [mem_digit2, mem_cls_mul, mem_mul' digit12, mem_digit12, List.mem_cons, List.not_mem_nil, or_false]
  constructor
  · rintro ⟨y1, _, hy1, ⟨y2, _, hy2, ⟨a, ha, _, ⟨m, hm, _, ⟨b, hb, d, hd, rfl⟩, rfl⟩, rfl⟩, rfl⟩, rfl⟩
    refine ⟨y1 ++ y2, a, m, b, d, by simp, ⟨by simp [hy1.1, hy2.1], ?_⟩, ha, hm, hb, hd⟩
    intro c hc
    rcases List.mem_append.mp hc with h | h
    · exact hy1.2 c h
    · exact hy2.2 c h
  · rintro ⟨y, a, m, b, d, rfl, hy, ha, hm, hb, hd⟩
    refine ⟨y.take 2, y.drop 2 ++ a :: (m ++ b :: d), ⟨by simp [hy.1], fun c hc => hy.2 c (List.mem_of_mem_take hc)⟩,
      ⟨y.drop 2, _, ⟨by simp [hy.1], fun c hc => hy.2 c (List.mem_of_mem_drop hc)⟩,
        ⟨a, ha, _, ⟨m, hm, _, ⟨b, hb, d, hd, rfl⟩, rfl⟩, rfl⟩, rfl⟩, by rw [← List.append_assoc, List.take_append_drop]⟩

theorem mem_clockTail (s : Str) : s ∈ (opt (cls [':'] * (digit * digit))).matches' ↔
    (s = [] ∨ ∃ sec, s = ':' :: sec ∧ NDigits 2 sec) := by
  rw [mem_opt, mem_cls_mul]
  simp only [mem_two, List.mem_singleton, exists_eq_left]
  constructor
  · rintro (h | ⟨t, h1, rfl⟩)
    · exact .inl h
    · exact .inr ⟨t, rfl, h1⟩
  · rintro (h | ⟨t, rfl, h1⟩)
    · exact .inl h
    · exact .inr ⟨t, h1, rfl⟩

theorem mem_clock (s : Str) : s ∈ (digit12 * (cls [':'] * (digit * (digit *
    opt (cls [':'] * (digit * digit)))))).matches' ↔ IsClock s := by
  simp only [mem_mul' digit12, mem_cls_mul [':'] (digit * (digit * _)), mem_digit2, mem_digit12, mem_clockTail]
  simp only [List.mem_singleton, exists_eq_left]
  constructor
  · rintro ⟨h, hh, _, ⟨_, ⟨m, x, hm, hx, rfl⟩, rfl⟩, rfl⟩
    exact ⟨h, m, x, rfl, hh, hm, hx⟩
  · rintro ⟨h, m, x, rfl, hh, hm, hx⟩
    exact ⟨h, hh, _, ⟨_, ⟨m, x, hm, hx, rfl⟩, rfl⟩, rfl⟩

/-- **C58.**  The date-time pattern accepts exactly the date-times. -/
theorem dateTimePattern_iff (s : Str) : dateTimePattern.rmatch s = true ↔ IsDateTimeLit s := by
  rw [rmatch_iff_matches', dateTimePattern, mem_mul']
  have hd : ∀ d, d ∈ datePattern.matches' ↔ IsDateLit d := fun d => by
    rw [← rmatch_iff_matches', datePattern_iff]
  simp only [mem_cls_mul ['T', ' '], mem_clock, hd]
  constructor
  · rintro ⟨d, hd, _, ⟨a, ha, c, hc, rfl⟩, rfl⟩
    exact ⟨d, a, c, rfl, hd, by simpa using ha, hc⟩
  · rintro ⟨d, a, c, rfl, hd, ha, hc⟩
    exact ⟨d, hd, _, ⟨a, by simpa using ha, c, hc, rfl⟩, rfl⟩

/-- **C58.**  The time pattern accepts exactly the times. -/
theorem timePattern_iff (s : Str) : timePattern.rmatch s = true ↔ IsTimeLit s := by
  rw [rmatch_iff_matches', timePattern]
  simp only [mem_mul' digit12, mem_cls_mul [':'] (digit * (digit * (_ * _))), mem_digit2, mem_digit12,
    mem_mul' (opt (cls [':'] * (digit * digit))), mem_clockTail]
  simp only [mem_opt, mem_cls_mul ['.'], mem_digits]
  simp only [List.mem_singleton, exists_eq_left]
  constructor
  · rintro ⟨h, hh, _, ⟨_, ⟨m, _, hm, ⟨x, hx, f, hf, rfl⟩, rfl⟩, rfl⟩, rfl⟩
    refine ⟨h ++ ':' :: (m ++ x), f, by simp, ⟨h, m, x, rfl, hh, hm, hx⟩, ?_⟩
    rcases hf with rfl | ⟨ds, hds, rfl⟩
    · exact .inl rfl
    · exact .inr ⟨ds, rfl, hds⟩
  · rintro ⟨_, f, rfl, ⟨h, m, x, rfl, hh, hm, hx⟩, hf⟩
    refine ⟨h, hh, _, ⟨_, ⟨m, _, hm, ⟨x, hx, f, ?_, rfl⟩, rfl⟩, rfl⟩, by simp⟩
    rcases hf with rfl | ⟨ds, rfl, hds⟩
    · exact .inl rfl
    · exact .inr ⟨ds, hds, rfl⟩

/-- The kinds in the order in which a trimmed field is tried against them. -/
def kindTests : List (Kind × (Str → Prop)) :=
  [(.missing, MissingText), (.int, IsIntLit), (.real, IsRealLit),
    (.bool, fun t => t.map Char.toLower ∈ ["true".toList, "false".toList, "yes".toList, "no".toList,
      "t".toList, "f".toList, "y".toList, "n".toList]),
    (.dateTime, IsDateTimeLit), (.date, IsDateLit), (.time, IsTimeLit), (.other, fun _ => True)]

/-- **C58 (what is counted).**  A field is counted under the first kind, in the order missing, integer,
real, bool, date-time, date, time, other, whose literals include the field without the blanks around
it. -/
theorem classify_spec (field t : Str) (ht : IsTrimmed field t) :
    ∃ pre k P post, kindTests = pre ++ (k, P) :: post ∧ classify field = k ∧ P t ∧
      ∀ p ∈ pre, ¬ p.2 t := by
  have e := isTrimmed_unique ht
  have hm := isMissingValue_iff t
  have hi := intPattern_iff t
  have hr := realPattern_iff t
  have hdt := dateTimePattern_iff t
  have hd := datePattern_iff t
  have hti := timePattern_iff t
  have hb : boolWords.contains (lower t) = true ↔ t.map Char.toLower ∈ ["true".toList, "false".toList,
      "yes".toList, "no".toList, "t".toList, "f".toList, "y".toList, "n".toList] := by
    simp [boolWords, lower]
  by_cases h1 : MissingText t
  · refine ⟨[], _, _, _, rfl, ?_, h1, by simp⟩
    simp only [classify, e, hm.mpr h1, if_true]
  have h1' : isMissingValue t = false := Bool.eq_false_iff.mpr (fun h => h1 (hm.mp h))
  by_cases h2 : IsIntLit t
  · refine ⟨kindTests.take 1, _, _, _, rfl, ?_, h2, by simp [kindTests, h1]⟩
    simp [classify, e, h1', hi.mpr h2]
  have h2' : intPattern.rmatch t = false := Bool.eq_false_iff.mpr (fun h => h2 (hi.mp h))
  by_cases h3 : IsRealLit t
  · refine ⟨kindTests.take 2, _, _, _, rfl, ?_, h3, by simp [kindTests, h1, h2]⟩
    simp [classify, e, h1', h2', hr.mpr h3]
  have h3' : realPattern.rmatch t = false := Bool.eq_false_iff.mpr (fun h => h3 (hr.mp h))
  by_cases h4 : boolWords.contains (lower t) = true
  · refine ⟨kindTests.take 3, _, _, _, rfl, ?_, hb.mp h4, by simp [kindTests, h1, h2, h3]⟩
    simp only [classify, e, h1', h2', h3', h4, if_true]
    rfl
  have h4' : boolWords.contains (lower t) = false := by simpa using h4
  have h4'' := fun h => h4 (hb.mpr h)
  have h4s : ¬ _ := fun h => h4'' ((by simp : (List.map Char.toLower t = "true".toList ∨
    List.map Char.toLower t = "false".toList ∨ List.map Char.toLower t = "yes".toList ∨
    List.map Char.toLower t = "no".toList ∨ List.map Char.toLower t = "t".toList ∨
    List.map Char.toLower t = "f".toList ∨ List.map Char.toLower t = "y".toList ∨
    List.map Char.toLower t = "n".toList) → _ ∈ ["true".toList, "false".toList, "yes".toList,
    "no".toList, "t".toList, "f".toList, "y".toList, "n".toList]) h)
  by_cases h5 : IsDateTimeLit t
  · refine ⟨kindTests.take 4, _, _, _, rfl, ?_, h5, ?_⟩
    · simp only [classify, e, h1', h2', h3', h4', hdt.mpr h5]; rfl
    · intro p hp
      simp only [kindTests, List.take_succ_cons, List.take_zero, List.mem_cons, List.not_mem_nil, or_false] at hp
      rcases hp with rfl | rfl | rfl | rfl
      exacts [h1, h2, h3, h4s]
  have h5' : dateTimePattern.rmatch t = false := Bool.eq_false_iff.mpr (fun h => h5 (hdt.mp h))
  by_cases h6 : IsDateLit t
  · refine ⟨kindTests.take 5, _, _, _, rfl, ?_, h6, ?_⟩
    · simp only [classify, e, h1', h2', h3', h4', h5', hd.mpr h6]; rfl
    · intro p hp
      simp only [kindTests, List.take_succ_cons, List.take_zero, List.mem_cons, List.not_mem_nil, or_false] at hp
      rcases hp with rfl | rfl | rfl | rfl | rfl
      exacts [h1, h2, h3, h4s, h5]
  have h6' : datePattern.rmatch t = false := Bool.eq_false_iff.mpr (fun h => h6 (hd.mp h))
  by_cases h7 : IsTimeLit t
  · refine ⟨kindTests.take 6, _, _, _, rfl, ?_, h7, ?_⟩
    · simp only [classify, e, h1', h2', h3', h4', h5', h6', hti.mpr h7]; rfl
    · intro p hp
      simp only [kindTests, List.take_succ_cons, List.take_zero, List.mem_cons, List.not_mem_nil, or_false] at hp
      rcases hp with rfl | rfl | rfl | rfl | rfl | rfl
      exacts [h1, h2, h3, h4s, h5, h6]
  have h7' : timePattern.rmatch t = false := Bool.eq_false_iff.mpr (fun h => h7 (hti.mp h))
  refine ⟨kindTests.take 7, _, _, _, rfl, ?_, trivial, ?_⟩
  · simp only [classify, e, h1', h2', h3', h4', h5', h6', h7']; rfl
  · intro p hp
    simp only [kindTests, List.take_succ_cons, List.take_zero, List.mem_cons, List.not_mem_nil, or_false] at hp
    rcases hp with rfl | rfl | rfl | rfl | rfl | rfl | rfl
    exacts [h1, h2, h3, h4s, h5, h6, h7]

example : IsTrimmed " 2024/3/15 ".toList "2024/3/15".toList ∧ IsDateLit "2024/3/15".toList :=
  ⟨⟨⟨" ".toList, " ".toList, by decide, by decide, by decide⟩, by decide, by decide⟩,
    "2024".toList, '/', "3".toList, '/', "15".toList, rfl, ⟨rfl, by decide⟩, .inr rfl,
    .inl ⟨rfl, by decide⟩, .inr rfl, .inr ⟨rfl, by decide⟩⟩

end Verif.Data
