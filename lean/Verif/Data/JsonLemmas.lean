import Verif.Data.CsvLemmas
import Verif.Data.DatasetProps

/-! # Lemmas about the JSON parser -/

set_option autoImplicit false

namespace Verif.Data

variable {R : Type}

/-! ## Tokens -/

theorem ws_isSpace {w : Str} (hw : Ws w) : ∀ c ∈ w, isSpace c = true := by
  intro c hc
  rcases hw c hc with rfl | rfl | rfl | rfl <;> decide

theorem skipWs_ws {w : Str} (hw : Ws w) (s : Str) : skipWs (w ++ s) = skipWs s := by
  unfold skipWs
  induction w with
  | nil => rfl
  | cons c cs ih =>
    rw [List.cons_append, List.dropWhile_cons, if_pos (ws_isSpace hw c (by simp))]
    exact ih (fun d hd => hw d (by simp [hd]))

theorem skipWs_cons {c : Char} (hc : isSpace c = false) (s : Str) : skipWs (c :: s) = c :: s := by
  simp [skipWs, List.dropWhile_cons, hc]

theorem peek_ws {w : Str} (hw : Ws w) {c : Char} (hc : isSpace c = false) (s : Str) :
    peek (w ++ c :: s) = (c, c :: s) := by
  simp [peek, skipWs_ws hw, skipWs_cons hc]

theorem get_ws {w : Str} (hw : Ws w) {c : Char} (hc : isSpace c = false) (s : Str) :
    get (w ++ c :: s) = (c, s) := by
  simp [get, skipWs_ws hw, skipWs_cons hc]

theorem ws_nil : Ws [] := by simp [Ws]

theorem peek_cons {c : Char} (hc : isSpace c = false) (s : Str) : peek (c :: s) = (c, c :: s) :=
  peek_ws ws_nil hc s

theorem get_cons {c : Char} (hc : isSpace c = false) (s : Str) : get (c :: s) = (c, s) :=
  get_ws ws_nil hc s

theorem parseStringBody_plain {c : Char} (h1 : c ≠ '"') (h2 : c ≠ '\\') (acc s : Str) :
    parseStringBody acc (c :: s) = parseStringBody (acc ++ [c]) s := by
  rw [parseStringBody.eq_def]; simp [h1, h2]

theorem parseStringBody_quote (acc s : Str) : parseStringBody acc ('"' :: s) = .ret (acc, s) := by
  rw [parseStringBody.eq_def]; simp

theorem parseStringBody_esc (e : Char) (acc s : Str) :
    parseStringBody acc ('\\' :: e :: s) = parseStringBody (acc ++ [unescape e]) s := by
  rw [parseStringBody.eq_def]; simp

theorem parseStringBody_text {s body : Str} (h : StringText PlainCharText s body) (rest : Str) :
    ∀ acc, parseStringBody acc (body ++ '"' :: rest) = .ret (acc ++ s, rest) := by
  induction h with
  | nil => intro acc; simp [parseStringBody_quote]
  | @cons c t s txt h1 _ ih =>
    intro acc
    have e : acc ++ c :: s = (acc ++ [c]) ++ s := by simp
    rw [e, ← ih]
    cases h1 with
    | plain _ h1 h2 => simp [parseStringBody_plain h1 h2]
    | quote => simp [parseStringBody_esc, unescape]
    | backslash => simp [parseStringBody_esc, unescape]
    | slash => simp [parseStringBody_esc, unescape]
    | newline => simp [parseStringBody_esc, unescape]
    | tab => simp [parseStringBody_esc, unescape]
    | cr => simp [parseStringBody_esc, unescape]

theorem parseString_lit {s txt : Str} (h : StrLit s txt) {w : Str} (hw : Ws w) (rest : Str) :
    parseString (w ++ txt ++ rest) = .ret (s, rest) := by
  obtain ⟨body, hb, rfl⟩ := h
  have e : w ++ ('"' :: body ++ ['"']) ++ rest = w ++ '"' :: (body ++ '"' :: rest) := by simp
  rw [e]
  simp [parseString, get_ws hw (show isSpace '"' = false by decide), parseStringBody_text hb]

/-- The text after a value starts with a character that cannot continue a number. -/
def Stops (s : Str) : Prop := ∀ c, s.head? = some c → isNumChar c = false

theorem takeWhile_stops {l rest : Str} (hl : ∀ c ∈ l, isNumChar c = true) (hr : Stops rest) :
    (l ++ rest).takeWhile isNumChar = l ∧ (l ++ rest).dropWhile isNumChar = rest := by
  induction l with
  | nil =>
    cases rest with
    | nil => simp
    | cons c cs => simp [List.takeWhile_cons, List.dropWhile_cons, hr c rfl]
  | cons c cs ih =>
    obtain ⟨h1, h2⟩ := ih (fun d hd => hl d (by simp [hd]))
    simp [List.takeWhile_cons, List.dropWhile_cons, hl c (by simp), h1, h2]

theorem digit_facts {c : Char} (h : c.isDigit = true) :
    isSpace c = false ∧ isNumChar c = true ∧ c ≠ '"' ∧ c ≠ '[' ∧ c ≠ '{' ∧ c ≠ 't' ∧ c ≠ 'f' ∧ c ≠ 'n' ∧
      c ≠ '-' := by
  have hn : isNumChar c = true := by simp [isNumChar, h]
  have h48 : 48 ≤ c.toNat ∧ c.toNat ≤ 57 := by
    simp only [Char.isDigit, Bool.and_eq_true, decide_eq_true_eq] at h
    exact h
  have key : ∀ d : Char, d.isDigit = false → c ≠ d := by
    rintro d hd rfl; rw [h] at hd; cases hd
  refine ⟨?_, hn, key _ (by decide), key _ (by decide), key _ (by decide), key _ (by decide),
    key _ (by decide), key _ (by decide), key _ (by decide)⟩
  simp only [isSpace, key ' ' (by decide), key '\t' (by decide), key '\n' (by decide),
    key '\r' (by decide), decide_false, Bool.or_false, Bool.false_or, Bool.or_eq_false_iff,
    decide_eq_false_iff_not]
  omega

theorem parseJsonValue_text {v : JVal} {vt : Str} (h : ValText v vt) {w rest : Str} (hw : Ws w)
    (hr : Stops rest) : parseJsonValue (w ++ vt ++ rest) = .ret (v.text, rest) := by
  cases h with
  | @str s _ hs =>
    have hps := parseString_lit hs hw rest
    obtain ⟨body, _, rfl⟩ := hs
    have e : w ++ ('"' :: body ++ ['"']) ++ rest = w ++ '"' :: (body ++ '"' :: rest) := by simp
    rw [e] at hps ⊢
    simp only [parseJsonValue, peekType, peek_ws hw (show isSpace '"' = false by decide)]
    simp [hps, JVal.text]
  | num hn =>
    obtain ⟨c, cs, rfl, hc, hcs'⟩ := hn
    have hcs : ∀ d ∈ cs, isNumChar d = true := by
      intro d hd
      rcases hcs' d hd with h | rfl | rfl | rfl | rfl | rfl
      · simp [isNumChar, h]
      all_goals decide
    rw [List.append_assoc, List.cons_append]
    obtain ⟨h1, h2⟩ := takeWhile_stops hcs hr
    rcases hc with rfl | hc
    · simp only [parseJsonValue, peekType, peek_ws hw (show isSpace '-' = false by decide)]
      simp [parseNumber, skipWs_ws hw, skipWs_cons (show isSpace '-' = false by decide), h1, h2,
        JVal.text]
    · obtain ⟨f1, f2, f3, f4, f5, f6, f7, f8, f9⟩ := digit_facts hc
      simp only [parseJsonValue, peekType, peek_ws hw f1]
      simp only [f3, f4, f5, f6, f7, f8, f9, hc, if_false, or_self, false_or, if_true, Outcome.bind_ret]
      simp only [parseNumber, skipWs_ws hw, skipWs_cons f1]
      split
      · next heq => simp at heq; exact absurd heq.1 f9
      · simp [List.takeWhile_cons, List.dropWhile_cons, f2, h1, h2, JVal.text]
  | «true» =>
    have e : w ++ "true".toList ++ rest = w ++ 't' :: ('r' :: 'u' :: 'e' :: rest) := by simp
    rw [e]
    simp only [parseJsonValue, peekType, peek_ws hw (show isSpace 't' = false by decide)]
    simp [parseBool, skipWs_ws hw, skipWs_cons (show isSpace 't' = false by decide), JVal.text]
  | «false» =>
    have e : w ++ "false".toList ++ rest = w ++ 'f' :: ('a' :: 'l' :: 's' :: 'e' :: rest) := by simp
    rw [e]
    simp only [parseJsonValue, peekType, peek_ws hw (show isSpace 'f' = false by decide)]
    simp [parseBool, skipWs_ws hw, skipWs_cons (show isSpace 'f' = false by decide), JVal.text]
  | null =>
    have e : w ++ "null".toList ++ rest = w ++ 'n' :: ('u' :: 'l' :: 'l' :: rest) := by simp
    rw [e]
    simp only [parseJsonValue, peekType, peek_ws hw (show isSpace 'n' = false by decide)]
    simp [parseNull, skipWs_ws hw, skipWs_cons (show isSpace 'n' = false by decide), JVal.text]

/-! ## Objects and arrays -/

/-- The columns after the pairs of an object. -/
def pushAll (cols : Columns) (o : JObj) : Columns := o.foldl (fun cols p => pushValue cols p.1 p.2.text) cols

/-- The columns after some objects. -/
def columnsOf (cols : Columns) (os : List JObj) : Columns :=
  os.foldl (fun cols o => padColumns (pushAll cols o)) cols

theorem isSpace_not_num {c : Char} (h : isSpace c = true) : isNumChar c = false := by
  by_contra hn
  have hn : isNumChar c = true := by simpa using hn
  simp only [isNumChar, Bool.or_eq_true, decide_eq_true_eq] at hn
  have : isSpace c = false := by
    rcases hn with ((((hn | rfl) | rfl) | rfl) | rfl) | rfl
    · exact (digit_facts hn).1
    all_goals decide
  rw [this] at h; cases h

theorem stops_ws {w : Str} (hw : Ws w) {c : Char} (hc : isNumChar c = false) (s : Str) :
    Stops (w ++ c :: s) := by
  intro d hd
  cases w with
  | nil => simp at hd; rw [← hd]; exact hc
  | cons e es => simp at hd; rw [← hd]; exact isSpace_not_num (ws_isSpace hw e (by simp))

/-- Reading one pair, with an optional comma in front of it. -/
theorem parsePairs_pair {p : Str × JVal} {pt : Str} (h : PairText p pt) (pre : Str)
    (hpre : pre = [] ∨ pre = [',']) (fuel : Nat) (cols : Columns) (c : Char) (hc : isNumChar c = false)
    (rest : Str) :
    ∃ w, Ws w ∧ parsePairs (fuel + 1) cols (pre ++ pt ++ c :: rest) =
      parsePairs fuel (pushValue cols p.1 p.2.text) (w ++ c :: rest) := by
  cases h with
  | @mk k kt vt w1 w2 w3 w4 v hk hv hw1 hw2 hw3 hw4 =>
    have hps := parseString_lit hk hw1 (w2 ++ ':' :: (w3 ++ vt ++ (w4 ++ c :: rest)))
    have hget := get_ws hw2 (show isSpace ':' = false by decide) (w3 ++ vt ++ (w4 ++ c :: rest))
    have hval := parseJsonValue_text hv hw3 (stops_ws hw4 hc rest)
    have etext : (w1 ++ kt ++ w2 ++ ':' :: (w3 ++ vt ++ w4)) ++ c :: rest =
        w1 ++ kt ++ (w2 ++ ':' :: (w3 ++ vt ++ (w4 ++ c :: rest))) := by simp
    refine ⟨w4, hw4, ?_⟩
    obtain ⟨body, _, hkt⟩ := hk
    rw [List.append_assoc, etext]
    set tail := w1 ++ kt ++ (w2 ++ ':' :: (w3 ++ vt ++ (w4 ++ c :: rest))) with htail
    have hpeek : peek tail = ('"', '"' :: ((body ++ ['"']) ++ (w2 ++ ':' :: (w3 ++ vt ++ (w4 ++ c :: rest))))) := by
      rw [htail, hkt, List.append_assoc, List.cons_append, List.cons_append]
      exact peek_ws hw1 (by decide) _
    have hps' : parseString ('"' :: ((body ++ ['"']) ++ (w2 ++ ':' :: (w3 ++ vt ++ (w4 ++ c :: rest))))) =
        .ret (k, w2 ++ ':' :: (w3 ++ vt ++ (w4 ++ c :: rest))) := by
      have := parseString_lit ⟨body, by assumption, hkt⟩ ws_nil
        (w2 ++ ':' :: (w3 ++ vt ++ (w4 ++ c :: rest))) (s := k)
      rw [hkt] at this
      simpa using this
    rcases hpre with rfl | rfl
    · rw [List.nil_append, parsePairs]
      simp only [hpeek, show ¬ ('"' = '}') by decide, if_false,
        peek_cons (show isSpace '"' = false by decide), show ¬ ('"' = ',') by decide, hps',
        Outcome.bind_ret, hget, ne_eq, not_true_eq_false, hval]
    · rw [List.singleton_append, parsePairs]
      simp only [peek_cons (show isSpace ',' = false by decide), show ¬ (',' = '}') by decide, if_false,
        if_true, get_cons (show isSpace ',' = false by decide), hps,
        Outcome.bind_ret, hget, ne_eq, not_true_eq_false, hval]

theorem parsePairs_end (fuel : Nat) (cols : Columns) {w : Str} (hw : Ws w) (rest : Str) :
    parsePairs (fuel + 1) cols (w ++ '}' :: rest) = .ret (cols, '}' :: rest) := by
  rw [parsePairs]
  simp [peek_ws hw (show isSpace '}' = false by decide)]

theorem parsePairs_list {o : JObj} {t : Str} (h : ListText PairText o t) :
    ∀ (pre : Str) (fuel : Nat) (cols : Columns) (rest : Str), (pre = [] ∨ (pre = [','] ∧ o ≠ [])) →
    o.length < fuel →
    parsePairs fuel cols (pre ++ t ++ '}' :: rest) = .ret (pushAll cols o, '}' :: rest) := by
  induction h with
  | nil hw =>
    intro pre fuel cols rest hpre hf
    rcases hpre with rfl | ⟨_, h⟩
    · obtain ⟨f, rfl⟩ : ∃ f, fuel = f + 1 := ⟨fuel - 1, by simp at hf; omega⟩
      exact parsePairs_end f cols hw rest
    · exact absurd rfl h
  | one hp =>
    intro pre fuel cols rest hpre hf
    obtain ⟨f, rfl⟩ : ∃ f, fuel = f + 2 := ⟨fuel - 2, by simp at hf; omega⟩
    obtain ⟨w, hw, h⟩ := parsePairs_pair hp pre (hpre.imp id And.left) (f + 1) cols '}' (by decide) rest
    rw [h, parsePairs_end f _ hw]; rfl
  | @cons a as t ts hp hne _ ih =>
    intro pre fuel cols rest hpre hf
    obtain ⟨f, rfl⟩ : ∃ f, fuel = f + 1 := ⟨fuel - 1, by simp at hf; omega⟩
    obtain ⟨w, hw, h⟩ := parsePairs_pair hp pre (hpre.imp id And.left) f cols ',' (by decide)
      (ts ++ '}' :: rest)
    have e : pre ++ (t ++ ',' :: ts) ++ '}' :: rest = pre ++ t ++ ',' :: (ts ++ '}' :: rest) := by simp
    rw [e, h]
    -- white space before the comma is skipped by the first `peek`
    have hskip : parsePairs f (pushValue cols a.1 a.2.text) (w ++ ',' :: (ts ++ '}' :: rest)) =
        parsePairs f (pushValue cols a.1 a.2.text) (',' :: (ts ++ '}' :: rest)) := by
      cases f with
      | zero => rfl
      | succ f =>
        rw [parsePairs, parsePairs, peek_ws hw (by decide), peek_cons (by decide)]
    rw [hskip]
    have := ih [','] f (pushValue cols a.1 a.2.text) rest (.inr ⟨rfl, hne⟩)
      (by simp only [List.length_cons] at hf; omega)
    simp only [List.cons_append, List.nil_append] at this
    rw [this]; rfl

theorem pairText_pos {p : Str × JVal} {t : Str} (h : PairText p t) : 0 < t.length := by
  cases h; simp; omega

theorem objText_pos {p : JObj} {t : Str} (h : ObjText p t) : 0 < t.length := by
  cases h; simp; omega

theorem listText_length {α : Type} {P : α → Str → Prop} (hP : ∀ a t, P a t → 0 < t.length) {l : List α}
    {t : Str} (h : ListText P l t) : l.length ≤ t.length := by
  induction h with
  | nil => simp
  | one h => have := hP _ _ h; simp; omega
  | cons h _ _ ih => have := hP _ _ h; simp only [List.length_append, List.length_cons]; omega

/-- Reading one object, with an optional comma in front of it. -/
theorem parseObjects_obj {o : JObj} {ot : Str} (h : ObjText o ot) (pre : Str)
    (hpre : pre = [] ∨ pre = [',']) (fuel : Nat) (cols : Columns) (rest : Str) :
    ∃ w, Ws w ∧ parseObjects (fuel + 1) cols (pre ++ ot ++ rest) =
      parseObjects fuel (padColumns (pushAll cols o)) (w ++ rest) := by
  cases h with
  | @mk t w1 w2 ht hw1 hw2 =>
    refine ⟨w2, hw2, ?_⟩
    have etext : (w1 ++ '{' :: (t ++ '}' :: w2)) ++ rest = w1 ++ '{' :: (t ++ '}' :: (w2 ++ rest)) := by
      simp
    rw [List.append_assoc, etext]
    have hpairs := parsePairs_list ht [] ((t ++ '}' :: (w2 ++ rest)).length + 1) cols (w2 ++ rest)
      (.inl rfl) (by
        have := listText_length (fun _ _ => pairText_pos) ht
        simp only [List.length_append]; omega)
    rw [List.nil_append] at hpairs
    rcases hpre with rfl | rfl
    · rw [List.nil_append, parseObjects]
      simp only [peek_ws hw1 (show isSpace '{' = false by decide), show ¬ ('{' = ']') by decide, if_false,
        peek_cons (show isSpace '{' = false by decide), show ¬ ('{' = ',') by decide,
        get_cons (show isSpace '{' = false by decide), ne_eq, not_true_eq_false, hpairs,
        Outcome.bind_ret, get_cons (show isSpace '}' = false by decide)]
    · rw [List.singleton_append, parseObjects]
      simp only [peek_cons (show isSpace ',' = false by decide), show ¬ (',' = ']') by decide, if_false,
        if_true, get_cons (show isSpace ',' = false by decide),
        get_ws hw1 (show isSpace '{' = false by decide), ne_eq, not_true_eq_false, hpairs,
        Outcome.bind_ret, get_cons (show isSpace '}' = false by decide)]

theorem parseObjects_end (fuel : Nat) (cols : Columns) {w : Str} (hw : Ws w) (rest : Str) :
    parseObjects (fuel + 1) cols (w ++ ']' :: rest) = .ret (cols, ']' :: rest) := by
  rw [parseObjects]
  simp [peek_ws hw (show isSpace ']' = false by decide)]

theorem parseObjects_list {os : List JObj} {t : Str} (h : ListText ObjText os t) :
    ∀ (pre : Str) (fuel : Nat) (cols : Columns) (rest : Str), (pre = [] ∨ (pre = [','] ∧ os ≠ [])) →
    os.length < fuel →
    parseObjects fuel cols (pre ++ t ++ ']' :: rest) = .ret (columnsOf cols os, ']' :: rest) := by
  induction h with
  | nil hw =>
    intro pre fuel cols rest hpre hf
    rcases hpre with rfl | ⟨_, h⟩
    · obtain ⟨f, rfl⟩ : ∃ f, fuel = f + 1 := ⟨fuel - 1, by simp at hf; omega⟩
      exact parseObjects_end f cols hw rest
    · exact absurd rfl h
  | one hp =>
    intro pre fuel cols rest hpre hf
    obtain ⟨f, rfl⟩ : ∃ f, fuel = f + 2 := ⟨fuel - 2, by simp at hf; omega⟩
    obtain ⟨w, hw, h⟩ := parseObjects_obj hp pre (hpre.imp id And.left) (f + 1) cols (']' :: rest)
    rw [h, parseObjects_end f _ hw]; rfl
  | @cons a as t ts hp hne _ ih =>
    intro pre fuel cols rest hpre hf
    obtain ⟨f, rfl⟩ : ∃ f, fuel = f + 1 := ⟨fuel - 1, by simp at hf; omega⟩
    obtain ⟨w, hw, h⟩ := parseObjects_obj hp pre (hpre.imp id And.left) f cols
      (',' :: (ts ++ ']' :: rest))
    have e : pre ++ (t ++ ',' :: ts) ++ ']' :: rest = pre ++ t ++ ',' :: (ts ++ ']' :: rest) := by simp
    rw [e, h]
    have hskip : ∀ cols, parseObjects f cols (w ++ ',' :: (ts ++ ']' :: rest)) =
        parseObjects f cols (',' :: (ts ++ ']' :: rest)) := by
      intro cols
      cases f with
      | zero => rfl
      | succ f =>
        rw [parseObjects, parseObjects, peek_ws hw (by decide), peek_cons (by decide)]
    rw [hskip]
    have := ih [','] f (padColumns (pushAll cols a)) rest (.inr ⟨rfl, hne⟩)
      (by simp only [List.length_cons] at hf; omega)
    simp only [List.cons_append, List.nil_append] at this
    rw [this]; rfl

/-- Parsing any text of an array of flat objects yields the columns of the objects. -/
theorem parseArray_text {os : List JObj} {s : Str} (h : ArrayText os s) :
    parseArray s = .ret (columnsOf [] os) := by
  cases h with
  | @mk t w rest ht hw =>
    have := parseObjects_list ht [] ((t ++ ']' :: rest).length + 1) [] rest (.inl rfl) (by
        have := listText_length (fun _ _ => objText_pos) ht
        simp only [List.length_append]; omega)
    rw [List.nil_append] at this
    simp only [parseArray, get_ws hw (show isSpace '[' = false by decide), ne_eq, not_true_eq_false,
      if_false, this, Outcome.bind_ret, get_cons (show isSpace ']' = false by decide), Outcome.pure_eq]

end Verif.Data
