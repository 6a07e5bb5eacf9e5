import Verif.Data.CsvProps
import Mathlib.Data.Nat.Digits.Defs

/-!
# Properties of type inference and of the values stored (C58, C59)
-/

set_option autoImplicit false

namespace Verif.Data

variable {R : Type}

/-! ## The numeric patterns -/

/-- An optional sign. -/
def IsSign (s : Str) : Prop := s = [] ∨ s = ['-'] ∨ s = ['+']

/-- A nonempty string of digits. -/
def IsDigits (s : Str) : Prop := s ≠ [] ∧ ∀ c ∈ s, c.isDigit

/-- A decimal integer literal with optional sign. -/
def IsIntLit (s : Str) : Prop := ∃ sg ds, s = sg ++ ds ∧ IsSign sg ∧ IsDigits ds

/-- The number a decimal integer literal denotes: `-` negates, the digits count in base ten with the
last one least significant. -/
def intLitValue : Str → Int
  | '-' :: ds => - ((Nat.ofDigits 10 (ds.reverse.map digitVal) : Nat) : Int)
  | '+' :: ds => ((Nat.ofDigits 10 (ds.reverse.map digitVal) : Nat) : Int)
  | ds => ((Nat.ofDigits 10 (ds.reverse.map digitVal) : Nat) : Int)

/-- A decimal literal: digits with an optional point, or a point and digits, with an optional
exponent. -/
def IsRealLit (s : Str) : Prop :=
  ∃ sg m e, s = sg ++ (m ++ e) ∧ IsSign sg ∧
    ((∃ a p b, m = a ++ p ++ b ∧ IsDigits a ∧ (p = [] ∨ p = ['.']) ∧ ∀ c ∈ b, c.isDigit) ∨
      ∃ b, m = '.' :: b ∧ IsDigits b) ∧
    (e = [] ∨ ∃ x es ed, e = x :: (es ++ ed) ∧ (x = 'e' ∨ x = 'E') ∧ IsSign es ∧ IsDigits ed)

open RegularExpression

theorem mem_cls (cs : List Char) (s : Str) : s ∈ (cls cs).matches' ↔ ∃ c ∈ cs, s = [c] := by
  induction cs with
  | nil =>
    simp only [cls, List.map_nil, List.foldr_nil, List.not_mem_nil, false_and, exists_false, iff_false]
    rw [matches'_zero]; exact fun h => h
  | cons c cs ih =>
    have : cls (c :: cs) = char c + cls cs := rfl
    rw [this, matches'_add, Language.mem_add, ih, matches'_char]
    simp only [List.mem_cons, exists_eq_or_imp]
    exact Iff.rfl

theorem isDigit_iff (c : Char) :
    c.isDigit = true ↔ c ∈ ['0', '1', '2', '3', '4', '5', '6', '7', '8', '9'] := by
  constructor
  · intro h
    simp only [Char.isDigit, Bool.and_eq_true, decide_eq_true_eq] at h
    obtain ⟨h1, h2⟩ := h
    have h1' : 48 ≤ c.toNat := h1
    have h2' : c.toNat ≤ 57 := h2
    have hc : c = Char.ofNat c.toNat := (Char.ofNat_toNat c).symm
    generalize c.toNat = n at *
    have : n = 48 ∨ n = 49 ∨ n = 50 ∨ n = 51 ∨ n = 52 ∨ n = 53 ∨ n = 54 ∨ n = 55 ∨ n = 56 ∨ n = 57 := by
      omega
    rcases this with rfl | rfl | rfl | rfl | rfl | rfl | rfl | rfl | rfl | rfl <;> (rw [hc]; decide)
  · intro h
    simp only [List.mem_cons, List.not_mem_nil, or_false] at h
    rcases h with rfl | rfl | rfl | rfl | rfl | rfl | rfl | rfl | rfl | rfl <;> decide

theorem mem_digit (s : Str) : s ∈ digit.matches' ↔ ∃ c, c.isDigit = true ∧ s = [c] := by
  rw [digit, mem_cls]
  simp only [← isDigit_iff]

theorem mem_opt (r : RegularExpression Char) (s : Str) : s ∈ (opt r).matches' ↔ s = [] ∨ s ∈ r.matches' := by
  rw [opt, matches'_add, Language.mem_add, matches'_epsilon, Language.mem_one]

theorem mem_mul' (p q : RegularExpression Char) (s : Str) :
    s ∈ (p * q).matches' ↔ ∃ a, a ∈ p.matches' ∧ ∃ b, b ∈ q.matches' ∧ a ++ b = s := by
  rw [matches'_mul, Language.mem_mul]

theorem mem_digitStar (s : Str) : s ∈ digit.star.matches' ↔ ∀ c ∈ s, c.isDigit = true := by
  rw [matches'_star, Language.mem_kstar]
  constructor
  · rintro ⟨L, rfl, hL⟩ c hc
    obtain ⟨y, hy, hcy⟩ := List.mem_flatten.mp hc
    obtain ⟨d, hd, rfl⟩ := (mem_digit y).mp (hL y hy)
    simp only [List.mem_singleton] at hcy
    rw [hcy]; exact hd
  · intro h
    refine ⟨s.map (fun c => [c]), ?_, ?_⟩
    · induction s with
      | nil => rfl
      | cons c cs ih =>
        simp only [List.map_cons, List.flatten_cons, List.singleton_append]
        rw [← ih (fun d hd => h d (by simp [hd]))]
    · intro y hy
      obtain ⟨c, hc, rfl⟩ := List.mem_map.mp hy
      exact (mem_digit _).mpr ⟨c, h c hc, rfl⟩

theorem mem_digits (s : Str) : s ∈ (digit * digit.star).matches' ↔ IsDigits s := by
  rw [mem_mul']
  constructor
  · rintro ⟨a, ha, b, hb, rfl⟩
    obtain ⟨c, hc, rfl⟩ := (mem_digit a).mp ha
    refine ⟨by simp, ?_⟩
    intro d hd
    simp only [List.singleton_append, List.mem_cons] at hd
    rcases hd with rfl | hd
    · exact hc
    · exact (mem_digitStar b).mp hb d hd
  · rintro ⟨hne, h⟩
    cases s with
    | nil => exact absurd rfl hne
    | cons c cs =>
      exact ⟨[c], (mem_digit _).mpr ⟨c, h c (by simp), rfl⟩, cs,
        (mem_digitStar _).mpr (fun d hd => h d (by simp [hd])), rfl⟩

theorem mem_sign (s : Str) : s ∈ signRx.matches' ↔ IsSign s := by
  rw [signRx, mem_opt, mem_cls]
  simp [IsSign]

/-- The integer pattern accepts exactly the integer literals. -/
theorem intPattern_iff (s : Str) : intPattern.rmatch s = true ↔ IsIntLit s := by
  rw [rmatch_iff_matches', intPattern, mem_mul']
  simp only [mem_sign, mem_digits]
  constructor
  · rintro ⟨a, ha, b, hb, rfl⟩; exact ⟨a, b, rfl, ha, hb⟩
  · rintro ⟨a, b, rfl, ha, hb⟩; exact ⟨a, ha, b, hb, rfl⟩

/-- The real pattern accepts exactly the decimal literals. -/
theorem realPattern_iff (s : Str) : realPattern.rmatch s = true ↔ IsRealLit s := by
  rw [rmatch_iff_matches', realPattern, mem_mul']
  have hm : ∀ m : Str, m ∈ (digit * digit.star * opt (cls ['.']) * digit.star +
      cls ['.'] * (digit * digit.star)).matches' ↔
      ((∃ a p b, m = a ++ p ++ b ∧ IsDigits a ∧ (p = [] ∨ p = ['.']) ∧ ∀ c ∈ b, c.isDigit) ∨
        ∃ b, m = '.' :: b ∧ IsDigits b) := by
    intro m
    rw [matches'_add, Language.mem_add, mem_mul', mem_mul']
    simp only [mem_mul' (digit * digit.star) (opt (cls ['.'])), mem_digits, mem_digitStar, mem_opt,
      mem_cls, List.mem_singleton, exists_eq_left]
    constructor
    · rintro (⟨_, ⟨a, ha, p, hp, rfl⟩, b, hb, rfl⟩ | ⟨b, hb, rfl⟩)
      · exact .inl ⟨a, p, b, rfl, ha, hp, hb⟩
      · exact .inr ⟨b, rfl, hb⟩
    · rintro (⟨a, p, b, rfl, ha, hp, hb⟩ | ⟨b, rfl, hb⟩)
      · exact .inl ⟨_, ⟨a, ha, p, hp, rfl⟩, b, hb, rfl⟩
      · exact .inr ⟨b, hb, rfl⟩
  have he : ∀ e : Str, e ∈ (opt (cls ['e', 'E'] * (signRx * (digit * digit.star)))).matches' ↔
      (e = [] ∨ ∃ x es ed, e = x :: (es ++ ed) ∧ (x = 'e' ∨ x = 'E') ∧ IsSign es ∧ IsDigits ed) := by
    intro e
    rw [mem_opt, mem_mul']
    simp only [mem_mul' signRx, mem_sign, mem_digits, mem_cls, List.mem_cons, List.not_mem_nil, or_false]
    constructor
    · rintro (rfl | ⟨_, ⟨x, hx, rfl⟩, _, ⟨es, h1, ed, h2, rfl⟩, rfl⟩)
      · exact .inl rfl
      · exact .inr ⟨x, es, ed, rfl, hx, h1, h2⟩
    · rintro (rfl | ⟨x, es, ed, rfl, hx, h1, h2⟩)
      · exact .inl rfl
      · exact .inr ⟨_, ⟨x, hx, rfl⟩, _, ⟨es, h1, ed, h2, rfl⟩, rfl⟩
  simp only [mem_sign, mem_mul' (digit * digit.star * opt (cls ['.']) * digit.star +
      cls ['.'] * (digit * digit.star)), hm, he]
  constructor
  · rintro ⟨a, ha, _, ⟨m, h1, e, h2, rfl⟩, rfl⟩; exact ⟨a, m, e, rfl, ha, h1, h2⟩
  · rintro ⟨a, m, e, rfl, ha, h1, h2⟩; exact ⟨a, ha, _, ⟨m, h1, e, h2, rfl⟩, rfl⟩

/-! ## C58: the 90% rule -/

/-- The number of values of a column that count as the given kind. -/
def countKind (vs : List Str) (k : Kind) : Nat := vs.countP (fun v => classify v = k)

/-- The number of values that are not missing. -/
def countPresent (vs : List Str) : Nat := vs.countP (fun v => classify v ≠ .missing)

theorem countPresent_eq (vs : List Str) :
    vs.length - vs.countP (fun v => classify v = .missing) = countPresent vs := by
  have := List.length_eq_countP_add_countP (fun v => decide (classify v = Kind.missing)) (l := vs)
  unfold countPresent
  have e : (fun v => decide (classify v ≠ Kind.missing)) =
      (fun v => decide (¬ decide (classify v = Kind.missing) = true)) := by
    funext v; simp
  rw [e]; omega

/-- **C58.**  A column gets a type other than text only if at least one value is present and at least
nine tenths of the values present are literals of that type (for reals: integer or decimal literals);
and if all values present are literals of one type, and at least one is present, it gets that type. -/
theorem inferColumnType_spec (vs : List Str) :
    (inferColumnType vs = .INT → 0 < countPresent vs ∧ 9 * countPresent vs ≤ 10 * countKind vs .int) ∧
    (inferColumnType vs = .REAL → 0 < countPresent vs ∧
      9 * countPresent vs ≤ 10 * (countKind vs .int + countKind vs .real)) ∧
    (inferColumnType vs = .BOOL → 0 < countPresent vs ∧ 9 * countPresent vs ≤ 10 * countKind vs .bool) ∧
    (inferColumnType vs = .DATE → 0 < countPresent vs ∧ 9 * countPresent vs ≤ 10 * countKind vs .date) ∧
    (inferColumnType vs = .TIME → 0 < countPresent vs ∧ 9 * countPresent vs ≤ 10 * countKind vs .time) ∧
    (inferColumnType vs = .DATETIME → 0 < countPresent vs ∧
      9 * countPresent vs ≤ 10 * countKind vs .dateTime) ∧
    inferColumnType vs ≠ .MISSING := by
  have hz : vs.isEmpty = true → countPresent vs = 0 := by
    intro h; rw [List.isEmpty_iff.mp h]; rfl
  have : inferColumnType vs = if countPresent vs = 0 then ColumnType.STRING
    else if 10 * countKind vs .dateTime ≥ 9 * countPresent vs then .DATETIME
    else if 10 * countKind vs .date ≥ 9 * countPresent vs then .DATE
    else if 10 * countKind vs .time ≥ 9 * countPresent vs then .TIME
    else if 10 * countKind vs .bool ≥ 9 * countPresent vs then .BOOL
    else if 10 * countKind vs .int ≥ 9 * countPresent vs then .INT
    else if 10 * (countKind vs .int + countKind vs .real) ≥ 9 * countPresent vs then .REAL
    else .STRING := by
    unfold inferColumnType
    dsimp only
    rw [countPresent_eq]
    split
    · next h => rw [if_pos (hz h)]
    · rfl
  rw [this]
  refine ⟨?_, ?_, ?_, ?_, ?_, ?_, ?_⟩
  all_goals
    split_ifs <;> simp <;> omega

/-- Two different kinds of values cannot both make up nine tenths. -/
theorem countKind_add_le (vs : List Str) (k k' : Kind) (h : k ≠ k') (hk : k ≠ .missing)
    (hk' : k' ≠ .missing) : countKind vs k + countKind vs k' ≤ countPresent vs := by
  unfold countKind countPresent
  induction vs with
  | nil => simp
  | cons v vs ih =>
    simp only [List.countP_cons, decide_eq_true_eq]
    split_ifs <;> simp_all <;> omega

/-- The type of a column of values of one kind. -/
def typeOfKind : Kind → ColumnType
  | .int => .INT | .real => .REAL | .bool => .BOOL | .date => .DATE | .time => .TIME
  | .dateTime => .DATETIME | .other => .STRING | .missing => .STRING

theorem inferColumnType_uniform (vs : List Str) (k : Kind) (hk : k ≠ .missing)
    (h : ∀ v ∈ vs, classify v = k ∨ classify v = .missing) (hex : ∃ v ∈ vs, classify v = k) :
    inferColumnType vs = typeOfKind k := by
  have h1 : countKind vs k = countPresent vs := by
    unfold countKind countPresent
    apply List.countP_congr
    intro v hv
    rcases h v hv with e | e
    · simp [e, hk]
    · simp [e, Ne.symm hk]
  have h2 : 0 < countPresent vs := by
    obtain ⟨v, hv, e⟩ := hex
    unfold countPresent
    rw [List.countP_pos_iff]
    exact ⟨v, hv, by simp [e, hk]⟩
  have h3 : ∀ k', k' ≠ k → k' ≠ .missing → countKind vs k' = 0 := by
    intro k' hne hm
    have := countKind_add_le vs k' k hne hm hk
    omega
  have hne : vs.isEmpty = false := by
    obtain ⟨v, hv, _⟩ := hex
    cases vs with
    | nil => simp at hv
    | cons => rfl
  have cd : ∀ k', vs.countP (fun v => classify v = k') = countKind vs k' := fun _ => rfl
  unfold inferColumnType
  dsimp only
  rw [countPresent_eq]
  simp only [hne, cd, Bool.false_eq_true, if_false]
  have e1 := h3 .dateTime; have e2 := h3 .date; have e3 := h3 .time; have e4 := h3 .bool
  have e5 := h3 .int; have e6 := h3 .real
  rw [if_neg (show ¬ countPresent vs = 0 by omega)]
  cases k
  case missing => exact absurd rfl hk
  all_goals
    simp only [ne_eq, reduceCtorEq, not_false_eq_true, forall_const, not_true_eq_false,
      IsEmpty.forall_iff] at e1 e2 e3 e4 e5 e6
    simp only [typeOfKind]
    split_ifs <;> first | rfl | (exfalso; omega)

/-! ## C59: integers are stored exactly -/

theorem scanDigits_all : ∀ (ds : Str) (acc : Nat), (∀ c ∈ ds, c.isDigit = true) →
    scanDigits acc ds = acc * 10 ^ ds.length + Nat.ofDigits 10 (ds.reverse.map digitVal) := by
  intro ds
  induction ds with
  | nil => intro acc _; simp [scanDigits]
  | cons c cs ih =>
    intro acc h
    rw [scanDigits, if_pos (h c (by simp)), ih _ (fun d hd => h d (by simp [hd]))]
    simp only [List.reverse_cons, List.map_append, List.map_cons, List.map_nil, Nat.ofDigits_append,
      Nat.ofDigits_singleton, List.length_map, List.length_reverse, List.length_cons, pow_succ]
    ring

/-- `std::stoi` of an integer literal is the number it denotes, when it fits. -/
theorem stoi_intLit {s : Str} (h : IsIntLit s) :
    stoi s = if -2147483648 ≤ intLitValue s ∧ intLitValue s ≤ 2147483647 then some (intLitValue s)
      else none := by
  obtain ⟨sg, ds, rfl, hsg, hne, hds⟩ := h
  cases ds with
  | nil => exact absurd rfl hne
  | cons c cs =>
    have hc := hds c (by simp)
    have hcm := (isDigit_iff c).mp hc
    have hsc := scanDigits_all (c :: cs) 0 hds
    rw [Nat.zero_mul, Nat.zero_add] at hsc
    have hnsp : isSpace c = false := by
      simp only [List.mem_cons, List.not_mem_nil, or_false] at hcm
      rcases hcm with rfl | rfl | rfl | rfl | rfl | rfl | rfl | rfl | rfl | rfl <;> decide
    have hminus : c ≠ '-' ∧ c ≠ '+' := by
      simp only [List.mem_cons, List.not_mem_nil, or_false] at hcm
      rcases hcm with rfl | rfl | rfl | rfl | rfl | rfl | rfl | rfl | rfl | rfl <;> decide
    rcases hsg with rfl | rfl | rfl
    · have hv : intLitValue (c :: cs) = ((Nat.ofDigits 10 ((c :: cs).reverse.map digitVal) : Nat) : Int) := by
        unfold intLitValue; split <;> simp_all
      rw [List.nil_append, hv, ← hsc]
      unfold stoi
      simp [List.dropWhile_cons, hnsp, takeSign, hminus, hc]
    · have hv : intLitValue ('-' :: c :: cs) = - ((Nat.ofDigits 10 ((c :: cs).reverse.map digitVal) : Nat) : Int) := rfl
      rw [List.singleton_append, hv, ← hsc]
      unfold stoi
      simp [List.dropWhile_cons, isSpace, takeSign, hc]
    · have hv : intLitValue ('+' :: c :: cs) = ((Nat.ofDigits 10 ((c :: cs).reverse.map digitVal) : Nat) : Int) := rfl
      rw [List.singleton_append, hv, ← hsc]
      unfold stoi
      simp [List.dropWhile_cons, isSpace, takeSign, hc]

theorem classify_int {v : Str} (h : IsIntLit (trim v)) : classify v = .int ∨ classify v = .missing := by
  unfold classify
  dsimp only
  rw [(intPattern_iff _).mpr h]
  split <;> simp

theorem digit_head_not_missing {s : Str} (h : IsIntLit s) : isMissingValue s = false := by
  obtain ⟨sg, ds, rfl, hsg, hne, hds⟩ := h
  obtain ⟨c, hc⟩ : ∃ c, c ∈ ds := List.exists_mem_of_ne_nil _ hne
  have hcd := hds c hc
  have hlow : c.toLower = c := by
    have hcm := (isDigit_iff c).mp hcd
    simp only [List.mem_cons, List.not_mem_nil, or_false] at hcm
    rcases hcm with rfl | rfl | rfl | rfl | rfl | rfl | rfl | rfl | rfl | rfl <;> decide
  have hmem : c ∈ lower (sg ++ ds) := by
    unfold lower
    exact List.mem_map.mpr ⟨c, by simp [hc], hlow⟩
  have hnot : ∀ w ∈ missingWords, c ∉ w := by
    intro w hw hcw
    have hcm := (isDigit_iff c).mp hcd
    simp only [List.mem_cons, List.not_mem_nil, or_false] at hcm
    simp only [missingWords, List.mem_cons, List.not_mem_nil, or_false] at hw
    rcases hw with rfl | rfl | rfl | rfl | rfl | rfl | rfl | rfl <;> simp at hcw <;>
      rcases hcm with rfl | rfl | rfl | rfl | rfl | rfl | rfl | rfl | rfl | rfl <;> simp at hcw
  unfold isMissingValue
  simp only [Bool.or_eq_false_iff, List.isEmpty_eq_false_iff, ne_eq, List.append_eq_nil_iff, not_and]
  refine ⟨fun _ => hne, ?_⟩
  rw [← Bool.not_eq_true, List.contains_iff_mem]
  intro hcon
  exact hnot _ hcon hmem

/-- **C59, integer columns.**  If every value of a column is, after trimming, an integer literal or
missing, and at least one is an integer literal, then the column is an integer column and each literal
that fits a 32-bit `int` is stored as the number it denotes; one that does not fit is missing. -/
theorem int_column_exact (stod : Str → Option R) (vs : List Str)
    (h : ∀ v ∈ vs, IsIntLit (trim v) ∨ isMissingValue (trim v) = true)
    (hex : ∃ v ∈ vs, IsIntLit (trim v)) :
    inferColumnType vs = .INT ∧ ∀ v ∈ vs, IsIntLit (trim v) →
      meaning stod .INT v =
        if -2147483648 ≤ intLitValue (trim v) ∧ intLitValue (trim v) ≤ 2147483647 then
          some (.int (intLitValue (trim v))) else none := by
  have hcl : ∀ v, IsIntLit (trim v) → classify v = .int := by
    intro v hv
    have := digit_head_not_missing hv
    unfold classify
    dsimp only
    simp [this, (intPattern_iff _).mpr hv]
  constructor
  · refine inferColumnType_uniform vs .int (by simp) ?_ ?_
    · intro v hv
      rcases h v hv with e | e
      · exact .inl (hcl v e)
      · right; unfold classify; simp [e]
    · obtain ⟨v, hv, e⟩ := hex; exact ⟨v, hv, hcl v e⟩
  · intro v _ hv
    have hm := digit_head_not_missing hv
    have : ¬ (trim v = [] ∨ lower (trim v) ∈ missingWords) := by
      intro hcon
      have : isMissingValue (trim v) = true := by simpa [isMissingValue] using hcon
      rw [hm] at this; cases this
    unfold meaning
    simp only [this, if_false, stoi_intLit hv]
    split_ifs <;> rfl

/-- The hypotheses are met by `" 17", "-5", "NA"`. -/
example : inferColumnType [" 17".toList, "-5".toList, "NA".toList] = .INT :=
  (int_column_exact (R := Unit) (fun _ => none) _ (by
    intro v hv
    simp only [List.mem_cons, List.not_mem_nil, or_false] at hv
    rcases hv with rfl | rfl | rfl
    · exact .inl ⟨[], "17".toList, by decide, .inl rfl, by decide, by decide⟩
    · exact .inl ⟨['-'], "5".toList, by decide, .inr (.inl rfl), by decide, by decide⟩
    · exact .inr (by decide)) ⟨"-5".toList, by simp,
      ⟨['-'], "5".toList, by decide, .inr (.inl rfl), by decide, by decide⟩⟩).1

theorem classify_of_intLit {v : Str} (hv : IsIntLit (trim v)) : classify v = .int := by
  have := digit_head_not_missing hv
  unfold classify
  dsimp only
  simp [this, (intPattern_iff _).mpr hv]

/-- **C59, the code disagrees.**  In a column of nine integers and `3.7` the last entry is not missing
and not 3.7: it is the integer 3.  With `12abc` in place of `3.7` the entry is 12. -/
theorem int_column_truncates (stod : Str → Option R) :
    let vs := List.replicate 9 "1".toList
    inferColumnType (vs ++ ["3.7".toList]) = .INT ∧
      meaning stod .INT "3.7".toList = some (.int 3) ∧
    inferColumnType (vs ++ ["12abc".toList]) = .INT ∧
      meaning stod .INT "12abc".toList = some (.int 12) := by
  have hone : classify "1".toList = .int :=
    classify_of_intLit ⟨[], ['1'], by decide, .inl rfl, by decide, by decide⟩
  have key : ∀ s : Str, classify s ≠ .missing →
      inferColumnType (List.replicate 9 "1".toList ++ [s]) = .INT := by
    intro s hs
    have c1 : ∀ k, List.countP (fun v => decide (classify v = k)) (List.replicate 9 "1".toList ++ [s]) =
        (if k = .int then 9 else 0) + if classify s = k then 1 else 0 := by
      intro k
      rw [List.countP_append, List.countP_replicate, List.countP_singleton]
      simp only [hone, decide_eq_true_eq, eq_comm (a := Kind.int)]
    unfold inferColumnType
    dsimp only
    simp only [c1]
    cases hc : classify s <;> simp_all
  refine ⟨key _ ?_, rfl, key _ ?_, rfl⟩
  · unfold classify; dsimp only
    rw [if_neg (by decide)]; split_ifs <;> simp
  · unfold classify; dsimp only
    rw [if_neg (by decide)]; split_ifs <;> simp

end Verif.Data
