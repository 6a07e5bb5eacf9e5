import Verif.Bin.Model
import Mathlib.Tactic.Ring

/-!
# Properties of the binary files (C29, C30)

`Vec.Valid`, `Mat.Valid` and `CVecValid` say which values exist: the storage holds exactly the
elements, and the sizes are those the classes and the 32-bit header fields can represent.
-/

set_option autoImplicit false

namespace Verif.Bin

/-- A vector of at most 2^32 - 1 elements of `es` bytes each. -/
def Vec.Valid (es : Nat) (v : Vec) : Prop := v.bytes.length = v.size * es ∧ v.size < 2 ^ 32

/-- A nonempty matrix within the limits of the class (`MAX_DIMENSION`, `MAX_ELEMENTS`). -/
def Mat.Valid (es : Nat) (m : Mat) : Prop :=
  m.bytes.length = m.rows * m.cols * es ∧ 0 < m.rows ∧ 0 < m.cols ∧ m.rows ≤ 100000 ∧
    m.cols ≤ 100000 ∧ m.rows * m.cols ≤ 100000000

/-- A complex vector of at most 2^32 - 1 elements whose parts have `es` bytes each. -/
def CVecValid (es : Nat) (v : CVec) : Prop :=
  v.length < 2 ^ 32 ∧ ∀ z ∈ v, z.1.length = es ∧ z.2.length = es

/-! ## Lemmas -/

theorem of32_le32 (n : Nat) : of32 (le32 n) = n % 2 ^ 32 := by
  simp only [of32, le32, Fin.ofNat]
  omega

theorem le32_length (n : Nat) : (le32 n).length = 4 := rfl

theorem read_exact (a b : List Byte) :
    Stream.read ⟨a ++ b, false⟩ a.length = (a, ⟨b, false⟩) := by
  simp [Stream.read]

theorem readU32_le32 (n : Nat) (rest : List Byte) :
    Stream.readU32 ⟨le32 n ++ rest, false⟩ = (some (n % 2 ^ 32), ⟨rest, false⟩) := by
  have h := read_exact (le32 n) rest
  rw [le32_length] at h
  simp only [Stream.readU32, h, le32_length, if_true, of32_le32]

theorem readU32_lt {n : Nat} (h : n < 2 ^ 32) (rest : List Byte) :
    Stream.readU32 ⟨le32 n ++ rest, false⟩ = (some n, ⟨rest, false⟩) := by
  rw [readU32_le32, Nat.mod_eq_of_lt h]

theorem magicVector_lt : magicVector < 2 ^ 32 := by decide
theorem versionVector_lt : versionVector < 2 ^ 32 := by decide
theorem magicMatrix_lt : magicMatrix < 2 ^ 32 := by decide
theorem versionMatrix_lt : versionMatrix < 2 ^ 32 := by decide
theorem magicComplex_lt : magicComplex < 2 ^ 32 := by decide
theorem versionComplex_lt : versionComplex < 2 ^ 32 := by decide

theorem readU32_four {w rest : List Byte} (hw : w.length = 4) :
    Stream.readU32 ⟨w ++ rest, false⟩ = (some (of32 w), ⟨rest, false⟩) := by
  have h := read_exact w rest
  rw [hw] at h
  simp only [Stream.readU32, h, hw, if_true]

theorem readU32_short {f : List Byte} (h : f.length < 4) :
    Stream.readU32 ⟨f, false⟩ = (none, ⟨[], true⟩) := by
  have hr : Stream.read ⟨f, false⟩ 4 = (f, ⟨[], true⟩) := by
    simp only [Stream.read]
    rw [if_neg (by simp), if_neg (by omega)]
  simp only [Stream.readU32, hr]
  rw [if_neg (by omega)]

theorem readU32_fail (f : List Byte) : Stream.readU32 ⟨f, true⟩ = (none, ⟨f, true⟩) := by
  simp [Stream.readU32, Stream.read]

theorem mod32 {n : Nat} (h : n < 2 ^ 32) : n % 2 ^ 32 = n := Nat.mod_eq_of_lt h

theorem readOver_exact {a : List Byte} (b mem : List Byte) (h : mem.length = a.length) :
    (Stream.readOver ⟨a ++ b, false⟩ a.length mem) = (a, ⟨b, false⟩) := by
  simp only [Stream.readOver, read_exact]
  rw [List.drop_eq_nil_of_le (by omega), List.append_nil]

theorem resizeBytes_length (mem : List Byte) (n : Nat) : (resizeBytes mem n).length = n := by
  simp only [resizeBytes, List.length_append, List.length_take, List.length_replicate]; omega

/-! ## C29 -/

/-- **C29 (format).**  Header words are little-endian: byte `i` of a word is `n / 256^i` modulo 256. -/
theorem little_endian (n i : Nat) (hi : i < 4) : ((le32 n)[i]?).map Fin.val = some (n / 256 ^ i % 256) := by
  have : i = 0 ∨ i = 1 ∨ i = 2 ∨ i = 3 := by omega
  rcases this with rfl | rfl | rfl | rfl <;> simp [le32, Fin.ofNat]

example : (le32 0x4D4D4C56).map Fin.val = [0x56, 0x4C, 0x4D, 0x4D] := by decide

/-- **C29, `Vector`.**  Loading a saved vector succeeds and gives back its size and all its bytes,
whatever vector is loaded into and whatever follows in the file. -/
theorem vector_roundtrip (es : Nat) (hes : es < 2 ^ 32) (v : Vec) (hv : v.Valid es) (out : Vec)
    (extra : List Byte) : loadVector es (saveVector es v ++ extra) out = .ret (true, v) := by
  obtain ⟨hl, hs⟩ := hv
  by_cases h0 : v.size = 0
  · have hb : v.bytes = [] := List.length_eq_zero_iff.mp (by rw [hl, h0]; simp)
    have : v = ⟨0, []⟩ := by cases v; simp_all
    subst this
    simp only [loadVector, saveVector, List.append_assoc, readU32_lt (show 0 < 2 ^ 32 by decide), readU32_lt magicVector_lt, readU32_lt versionVector_lt, readU32_lt hes, use,
      Outcome.bind_ret, ne_eq, not_true_eq_false, if_false, Outcome.pure_eq]
    simp [resizeBytes]
  · have hpos : v.size > 0 := by omega
    have ht : v.bytes.take (v.size * es) = v.bytes := List.take_of_length_le (by omega)
    have hr := readOver_exact (a := v.bytes) extra (resizeBytes out.bytes (v.size * es))
      (by rw [resizeBytes_length, hl])
    rw [hl] at hr
    simp only [loadVector, saveVector, List.append_assoc, readU32_lt hs, readU32_lt magicVector_lt, readU32_lt versionVector_lt, readU32_lt hes, use,
      Outcome.bind_ret, ne_eq, not_true_eq_false, if_false, Outcome.pure_eq, mod32 hs, if_pos hpos, ht, hr]

example : loadVector 2 (saveVector 2 ⟨3, [1, 2, 3, 4, 5, 255]⟩) ⟨1, [7, 7]⟩ =
    .ret (true, ⟨3, [1, 2, 3, 4, 5, 255]⟩) := by
  have := vector_roundtrip 2 (by decide) ⟨3, [1, 2, 3, 4, 5, 255]⟩ ⟨by decide, by decide⟩ ⟨1, [7, 7]⟩ []
  simpa using this

/-- **C29, `Matrix`.**  Loading a saved nonempty matrix succeeds and gives back its dimensions and all
its bytes, whatever matrix is loaded into. -/
theorem matrix_roundtrip (es : Nat) (hes : es < 2 ^ 32) (m : Mat) (hm : m.Valid es) (out : Mat)
    (hout : out.bytes.length = out.rows * out.cols * es) (extra : List Byte) :
    loadMatrix es (saveMatrix es m ++ extra) out = .ret (true, m) := by
  obtain ⟨hl, h1, h2, h3, h4, h5⟩ := hm
  have hr : m.rows % 2 ^ 32 = m.rows := mod32 (by omega)
  have hc : m.cols % 2 ^ 32 = m.cols := mod32 (by omega)
  have ht : m.bytes.take (m.rows * m.cols * es) = m.bytes := List.take_of_length_le (by omega)
  obtain ⟨mem, hres, hmem⟩ : ∃ mem : List Byte, resizeMat es out m.rows m.cols = .ret ⟨m.rows, m.cols, mem⟩ ∧
      mem.length = m.bytes.length := by
    unfold resizeMat
    by_cases he : m.rows = out.rows ∧ m.cols = out.cols
    · exact ⟨out.bytes, by rw [if_pos he, he.1, he.2], by rw [hout, hl, he.1, he.2]⟩
    · exact ⟨List.replicate (m.rows * m.cols * es) 0,
        by rw [if_neg he, if_neg (by omega), if_neg (by omega), if_neg (by omega)], by simp [hl]⟩
  have hro := readOver_exact (a := m.bytes) extra mem hmem
  rw [hl] at hro
  have hdim : ¬ (m.rows = 0 ∨ m.cols = 0 ∨ m.rows > 100000 ∨ m.cols > 100000) := by omega
  simp only [loadMatrix, saveMatrix, List.append_assoc, readU32_lt (show 0 < 2 ^ 32 by decide),
      readU32_lt (show m.rows < 2 ^ 32 by omega), readU32_lt (show m.cols < 2 ^ 32 by omega), readU32_lt magicMatrix_lt, readU32_lt versionMatrix_lt, readU32_lt hes, use,
      Outcome.bind_ret, ne_eq, not_true_eq_false, if_false, Outcome.pure_eq, if_neg hdim, hres, ht, hro]

example : loadMatrix 1 (saveMatrix 1 ⟨2, 3, [1, 2, 3, 4, 5, 255]⟩) ⟨1, 1, [7]⟩ =
    .ret (true, ⟨2, 3, [1, 2, 3, 4, 5, 255]⟩) := by
  have := matrix_roundtrip 1 (by decide) ⟨2, 3, [1, 2, 3, 4, 5, 255]⟩
    ⟨by decide, by decide, by decide, by decide, by decide, by decide⟩ ⟨1, 1, [7]⟩ (by decide) []
  simpa using this

theorem readParts_flatten (es : Nat) : ∀ (xs : List (List Byte)) (rest : List Byte),
    (∀ x ∈ xs, x.length = es) →
    readParts es xs.length ⟨xs.flatten ++ rest, false⟩ = (xs, ⟨rest, false⟩) := by
  intro xs
  induction xs with
  | nil => intro rest _; rfl
  | cons x xs ih =>
    intro rest h
    have hx := h x (by simp)
    have hr := readOver_exact (a := x) (xs.flatten ++ rest) (List.replicate es 0) (by simp [hx])
    rw [hx] at hr
    simp only [List.length_cons, readParts, List.flatten_cons, List.append_assoc, hr,
      ih rest (fun y hy => h y (by simp [hy]))]

theorem flatten_length {es : Nat} {xs : List (List Byte)} (h : ∀ x ∈ xs, x.length = es) :
    xs.flatten.length = xs.length * es := by
  induction xs with
  | nil => simp
  | cons x xs ih =>
    simp only [List.flatten_cons, List.length_append, List.length_cons, h x (by simp),
      ih (fun y hy => h y (by simp [hy]))]
    ring

theorem zip_parts (v : CVec) : (v.map (·.1)).zip (v.map (·.2)) = v := by
  induction v with
  | nil => rfl
  | cons z v ih => simp [ih]

/-- **C29, complex vectors.**  Loading a saved complex vector succeeds and gives back every element. -/
theorem complex_roundtrip (es : Nat) (hes : es < 2 ^ 32) (v : CVec) (hv : CVecValid es v) (out : CVec)
    (extra : List Byte) : loadComplex es (saveComplex es v ++ extra) out = .ret (true, v) := by
  obtain ⟨hs, hz⟩ := hv
  have h1 : ∀ x ∈ v.map (·.1), x.length = es := by
    intro x hx; obtain ⟨z, hz', rfl⟩ := List.mem_map.mp hx; exact (hz z hz').1
  have h2 : ∀ x ∈ v.map (·.2), x.length = es := by
    intro x hx; obtain ⟨z, hz', rfl⟩ := List.mem_map.mp hx; exact (hz z hz').2
  have r1 := readParts_flatten es (v.map (·.1)) ((v.map (·.2)).flatten ++ extra) h1
  have r2 := readParts_flatten es (v.map (·.2)) extra h2
  rw [List.length_map] at r1 r2
  have l1 := flatten_length h1
  have l2 := flatten_length h2
  rw [List.length_map] at l1 l2
  have hlen : ¬ (((v.map (·.1)).flatten ++ ((v.map (·.2)).flatten ++ extra)).length < v.length * es * 2) := by
    simp only [List.length_append, l1, l2]; omega
  simp only [loadComplex, saveComplex, List.append_assoc, readU32_lt hs, readU32_lt magicComplex_lt, readU32_lt versionComplex_lt, readU32_lt hes, use,
      Outcome.bind_ret, ne_eq, not_true_eq_false, if_false, Outcome.pure_eq, hlen, r1, r2, zip_parts]

/-- **C29.**  Real values saved as complex ones and loaded as reals are unchanged. -/
theorem real_as_complex_roundtrip (es : Nat) (hes : es < 2 ^ 32) (v : List (List Byte))
    (hn : v.length < 2 ^ 32) (hv : ∀ x ∈ v, x.length = es) (out : List (List Byte)) :
    loadComplexAsReal es (saveRealAsComplex es v) out = .ret (true, v) := by
  have := complex_roundtrip es hes (v.map (fun x => (x, List.replicate es 0)))
    ⟨by simpa using hn, by
      intro z hz; obtain ⟨x, hx, rfl⟩ := List.mem_map.mp hz; exact ⟨hv x hx, by simp⟩⟩ [] []
  rw [List.append_nil] at this
  simp [loadComplexAsReal, saveRealAsComplex, this, Function.comp_def]

example : loadComplex 2 (saveComplex 2 [([1, 2], [3, 4]), ([5, 6], [7, 255])]) [] =
    .ret (true, [([1, 2], [3, 4]), ([5, 6], [7, 255])]) := by
  have := complex_roundtrip 2 (by decide) [([1, 2], [3, 4]), ([5, 6], [7, 255])]
    ⟨by decide, by decide⟩ [] []
  simpa using this

/-- **C29 (limits).**  An empty matrix can be saved, but the file is refused on loading. -/
theorem empty_matrix_refused (es : Nat) (hes : es < 2 ^ 32) (out : Mat) :
    loadMatrix es (saveMatrix es ⟨0, 0, []⟩) out = .ret (false, out) := by
  simp only [loadMatrix, saveMatrix, List.append_assoc, readU32_lt (show 0 < 2 ^ 32 by decide), readU32_lt magicMatrix_lt, readU32_lt versionMatrix_lt, readU32_lt hes, use,
      Outcome.bind_ret, ne_eq, not_true_eq_false, if_false, Outcome.pure_eq, true_or, if_true]

/-! ## C30: damaged headers -/

/-- Splitting off whole words. -/
theorem split4 {f : List Byte} (h : 4 ≤ f.length) : ∃ w rest, f = w ++ rest ∧ w.length = 4 ∧
    rest.length + 4 = f.length :=
  ⟨f.take 4, f.drop 4, (List.take_append_drop 4 f).symm, by simp [h], by simp; omega⟩

/-- **C30, `Vector`, complete header.**  Any file of at least 16 bytes whose magic number, version or
element size is not the expected one is refused and leaves the vector as it was; with the expected
ones the load reports success. -/
theorem vector_header (es : Nat) (w0 w1 w2 w3 rest : List Byte) (h0 : w0.length = 4) (h1 : w1.length = 4)
    (h2 : w2.length = 4) (h3 : w3.length = 4) (out : Vec) :
    (of32 w0 ≠ 0x4D4D4C56 ∨ of32 w1 ≠ 1 ∨ of32 w3 ≠ es →
      loadVector es (w0 ++ (w1 ++ (w2 ++ (w3 ++ rest)))) out = .ret (false, out)) ∧
    (of32 w0 = 0x4D4D4C56 → of32 w1 = 1 → of32 w3 = es →
      ∃ v, loadVector es (w0 ++ (w1 ++ (w2 ++ (w3 ++ rest)))) out = .ret (true, v) ∧ v.size = of32 w2) := by
  simp only [loadVector, readU32_four h0, readU32_four h1, readU32_four h2, readU32_four h3, use,
    Outcome.bind_ret, magicVector, versionVector]
  constructor
  · intro h
    by_cases a : of32 w0 = 0x4D4D4C56
    · by_cases b : of32 w1 = 1
      · have c : of32 w3 ≠ es := by
          rcases h with h | h | h
          · exact absurd a h
          · exact absurd b h
          · exact h
        simp [a, b, c]
      · simp [a, b]
    · simp [a]
  · intro a b c
    simp [a, b, c]

/-- **C30, `Matrix`, complete header.**  As for vectors; zero or too large dimensions are refused too. -/
theorem matrix_header (es : Nat) (w0 w1 w2 w3 w4 w5 rest : List Byte) (h0 : w0.length = 4)
    (h1 : w1.length = 4) (h2 : w2.length = 4) (h3 : w3.length = 4) (h4 : w4.length = 4)
    (h5 : w5.length = 4) (out : Mat)
    (h : of32 w0 ≠ 0x4D4D4C4D ∨ of32 w1 ≠ 1 ∨ of32 w4 ≠ es ∨ of32 w2 = 0 ∨ of32 w3 = 0 ∨
      100000 < of32 w2 ∨ 100000 < of32 w3) :
    loadMatrix es (w0 ++ (w1 ++ (w2 ++ (w3 ++ (w4 ++ (w5 ++ rest)))))) out = .ret (false, out) := by
  simp only [loadMatrix, readU32_four h0, readU32_four h1, readU32_four h2, readU32_four h3,
    readU32_four h4, readU32_four h5, use, Outcome.bind_ret, magicMatrix, versionMatrix]
  by_cases a : of32 w0 = 0x4D4D4C4D
  · by_cases b : of32 w1 = 1
    · by_cases c : of32 w4 = es
      · have d : of32 w2 = 0 ∨ of32 w3 = 0 ∨ of32 w2 > 100000 ∨ of32 w3 > 100000 := by
          rcases h with h | h | h | h
          · exact absurd a h
          · exact absurd b h
          · exact absurd c h
          · exact h
        simp [a, b, c, d]
      · simp [a, b, c]
    · simp [a, b]
  · simp [a]

/-- **C30, complex vectors, complete header.**  Refused exactly when the magic number, the version or
the element size is wrong or the data are shorter than declared. -/
theorem complex_header (es : Nat) (w0 w1 w2 w3 rest : List Byte) (h0 : w0.length = 4) (h1 : w1.length = 4)
    (h2 : w2.length = 4) (h3 : w3.length = 4) (out : CVec) :
    (of32 w0 ≠ 0x4D4D4C43 ∨ of32 w1 ≠ 1 ∨ of32 w3 ≠ es ∨ rest.length < of32 w2 * es * 2 →
      loadComplex es (w0 ++ (w1 ++ (w2 ++ (w3 ++ rest)))) out = .ret (false, out)) ∧
    (of32 w0 = 0x4D4D4C43 → of32 w1 = 1 → of32 w3 = es → of32 w2 * es * 2 ≤ rest.length →
      ∃ v, loadComplex es (w0 ++ (w1 ++ (w2 ++ (w3 ++ rest)))) out = .ret (true, v)) := by
  simp only [loadComplex, readU32_four h0, readU32_four h1, readU32_four h2, readU32_four h3, use,
    Outcome.bind_ret, magicComplex, versionComplex]
  constructor
  · intro h
    by_cases a : of32 w0 = 0x4D4D4C43
    · by_cases b : of32 w1 = 1
      · by_cases c : of32 w3 = es
        · have d : rest.length < of32 w2 * es * 2 := by
            rcases h with h | h | h | h
            · exact absurd a h
            · exact absurd b h
            · exact absurd c h
            · exact h
          simp [a, b, c, d]
        · simp [a, b, c]
      · simp [a, b]
    · simp [a]
  · intro a b c d
    simp [a, b, c, Nat.not_lt.mpr d]

example : loadVector 8 (le32 0x4D4D4C56 ++ (le32 2 ++ (le32 0 ++ (le32 8 ++ [])))) ⟨0, []⟩ =
    .ret (false, ⟨0, []⟩) :=
  (vector_header 8 _ _ _ _ [] rfl rfl rfl rfl ⟨0, []⟩).1 (.inr (.inl (by decide)))

/-! ## C30: truncated files -/

/-- **C30 (partial, complex vectors).**  A saved complex vector cut off anywhere inside the data (a
crash during the save) is refused.  Missing: cuts inside the 16 byte header, where the loader compares
variables it never set (`truncated_header_ub`), and the other two formats, which do not notice
truncation (`vector_truncated_accepted`, `matrix_truncated_accepted`). -/
theorem complex_truncated_partial (es : Nat) (hes : es < 2 ^ 32) (v : CVec) (hv : CVecValid es v)
    (out : CVec) (k : Nat) (hk1 : 16 ≤ k) (hk2 : k < (saveComplex es v).length) :
    loadComplex es ((saveComplex es v).take k) out = .ret (false, out) := by
  obtain ⟨hs, hz⟩ := hv
  set data := (v.map (·.1)).flatten ++ (v.map (·.2)).flatten with hdata
  have hsave : saveComplex es v = le32 magicComplex ++ (le32 versionComplex ++ (le32 v.length ++
      (le32 es ++ data))) := by simp [saveComplex, hdata]
  have hld : data.length = v.length * es * 2 := by
    rw [hdata, List.length_append,
      flatten_length (es := es) (by
        intro x hx; obtain ⟨z, hz', rfl⟩ := List.mem_map.mp hx; exact (hz z hz').1),
      flatten_length (es := es) (by
        intro x hx; obtain ⟨z, hz', rfl⟩ := List.mem_map.mp hx; exact (hz z hz').2)]
    simp only [List.length_map]; ring
  have hlen : (saveComplex es v).length = 16 + data.length := by
    rw [hsave]; simp only [List.length_append, le32_length]; omega
  have htake : (saveComplex es v).take k = le32 magicComplex ++ (le32 versionComplex ++ (le32 v.length ++
      (le32 es ++ data.take (k - 16)))) := by
    rw [hsave]
    obtain ⟨j, rfl⟩ : ∃ j, k = j + 16 := ⟨k - 16, by omega⟩
    simp [le32, List.take_succ_cons]
  rw [htake]
  refine (complex_header es _ _ _ _ _ rfl rfl rfl rfl out).1 (.inr (.inr (.inr ?_)))
  rw [of32_le32, mod32 hs, List.length_take]
  omega

example : loadComplex 1 ((saveComplex 1 [([1], [2]), ([3], [4])]).take 19) [] = .ret (false, []) :=
  complex_truncated_partial 1 (by decide) _ ⟨by decide, by decide⟩ [] 19 (by decide) (by decide)

/-- **C30, negation for `Vector`.**  Every saved vector cut off anywhere inside the data is loaded
with success; the elements beyond the cut are whatever the vector held before, or zero. -/
theorem vector_truncated_accepted (es : Nat) (hes : es < 2 ^ 32) (v : Vec) (hv : v.Valid es) (out : Vec)
    (k : Nat) (hk : k < v.bytes.length) :
    loadVector es ((saveVector es v).take (16 + k)) out =
      .ret (true, ⟨v.size, v.bytes.take k ++ (resizeBytes out.bytes (v.size * es)).drop k⟩) := by
  obtain ⟨hl, hs⟩ := hv
  have hpos : v.size > 0 := by
    rcases Nat.eq_zero_or_pos v.size with h | h
    · rw [hl, h] at hk; simp at hk
    · exact h
  have ht : v.bytes.take (v.size * es) = v.bytes := List.take_of_length_le (by omega)
  have htake : (saveVector es v).take (16 + k) = le32 magicVector ++ (le32 versionVector ++
      (le32 v.size ++ (le32 es ++ v.bytes.take k))) := by
    rw [Nat.add_comm]
    simp only [saveVector, mod32 hs, if_pos hpos, ht]
    simp [le32, List.take_succ_cons]
  have hread : Stream.read ⟨v.bytes.take k, false⟩ (v.size * es) = (v.bytes.take k, ⟨[], true⟩) := by
    simp only [Stream.read]
    rw [if_neg (by simp), if_neg (by rw [List.length_take]; omega)]
  have hmin : min k v.bytes.length = k := by omega
  rw [htake]
  simp only [loadVector, readU32_lt hs, readU32_lt magicVector_lt, readU32_lt versionVector_lt, readU32_lt hes, use,
      Outcome.bind_ret, ne_eq, not_true_eq_false, if_false, Outcome.pure_eq,
      if_pos hpos, Stream.readOver, hread, List.length_take, hmin]

/-- **C30, negation, concrete.**  Two one-byte elements, the second cut off: success is reported and
the vector read is not the one saved. -/
theorem vector_truncated_example :
    loadVector 1 ((saveVector 1 ⟨2, [5, 6]⟩).take 17) ⟨0, []⟩ = .ret (true, ⟨2, [5, 0]⟩) :=
  vector_truncated_accepted 1 (by decide) ⟨2, [5, 6]⟩ ⟨by decide, by decide⟩ ⟨0, []⟩ 1 (by decide)

/-- **C30, negation for `Matrix`.**  Every saved matrix cut off anywhere inside the data is loaded
with success into an empty matrix, the elements beyond the cut being zero. -/
theorem matrix_truncated_accepted (es : Nat) (hes : es < 2 ^ 32) (m : Mat) (hm : m.Valid es) (k : Nat)
    (hk : k < m.bytes.length) :
    loadMatrix es ((saveMatrix es m).take (24 + k)) ⟨0, 0, []⟩ =
      .ret (true, ⟨m.rows, m.cols, m.bytes.take k ++ List.replicate (m.bytes.length - k) 0⟩) := by
  obtain ⟨hl, h1, h2, h3, h4, h5⟩ := hm
  have hr : m.rows % 2 ^ 32 = m.rows := mod32 (by omega)
  have hc : m.cols % 2 ^ 32 = m.cols := mod32 (by omega)
  have ht : m.bytes.take (m.rows * m.cols * es) = m.bytes := List.take_of_length_le (by omega)
  have htake : (saveMatrix es m).take (24 + k) = le32 magicMatrix ++ (le32 versionMatrix ++
      (le32 m.rows ++ (le32 m.cols ++ (le32 es ++ (le32 0 ++ m.bytes.take k))))) := by
    rw [Nat.add_comm]
    simp [saveMatrix, ht, le32, List.take_succ_cons]
  have hread : Stream.read ⟨m.bytes.take k, false⟩ (m.rows * m.cols * es) =
      (m.bytes.take k, ⟨[], true⟩) := by
    simp only [Stream.read]
    rw [if_neg (by simp), if_neg (by rw [List.length_take]; omega)]
  have hmin : min k (m.rows * m.cols * es) = k := by omega
  have hdim : ¬ (m.rows = 0 ∨ m.cols = 0 ∨ m.rows > 100000 ∨ m.cols > 100000) := by omega
  have hres : resizeMat es ⟨0, 0, []⟩ m.rows m.cols =
      .ret ⟨m.rows, m.cols, List.replicate (m.rows * m.cols * es) 0⟩ := by
    unfold resizeMat
    rw [if_neg (by simp; omega), if_neg (by omega), if_neg (by omega), if_neg (by omega)]
  rw [htake]
  simp only [loadMatrix, readU32_lt (show 0 < 2 ^ 32 by decide),
      readU32_lt (show m.rows < 2 ^ 32 by omega), readU32_lt (show m.cols < 2 ^ 32 by omega), readU32_lt magicMatrix_lt, readU32_lt versionMatrix_lt, readU32_lt hes, use,
      Outcome.bind_ret, ne_eq, not_true_eq_false, if_false, Outcome.pure_eq, if_neg hdim, hres, Stream.readOver, hread,
      List.length_take, hmin, List.drop_replicate, hl]

example : loadMatrix 1 ((saveMatrix 1 ⟨1, 2, [5, 6]⟩).take 25) ⟨0, 0, []⟩ = .ret (true, ⟨1, 2, [5, 0]⟩) :=
  matrix_truncated_accepted 1 (by decide) ⟨1, 2, [5, 6]⟩
    ⟨by decide, by decide, by decide, by decide, by decide, by decide⟩ 1 (by decide)

/-- **C30, negation (headers).**  A saved vector cut off anywhere inside the header makes the loader
compare a variable it never set: undefined behaviour. -/
theorem truncated_header_ub (es : Nat) (v : Vec) (out : Vec) (k : Nat) (hk : k < 16) :
    loadVector es ((saveVector es v).take k) out = .ub := by
  have hsave : saveVector es v = le32 magicVector ++ (le32 versionVector ++ (le32 v.size ++ (le32 es ++
      (if v.size % 2 ^ 32 > 0 then v.bytes.take (v.size % 2 ^ 32 * es) else [])))) := by
    simp [saveVector]
  rw [hsave]
  have hshort : ∀ (j n : Nat) (r : List Byte), j < 4 → ((le32 n ++ r).take j).length < 4 := by
    intro j n r h; rw [List.length_take]; omega
  have hlong : ∀ (j n : Nat) (r : List Byte), (le32 n ++ r).take (j + 4) = le32 n ++ r.take j := by
    intro j n r; simp [le32, List.take_succ_cons]
  by_cases k1 : k < 4
  · simp only [loadVector, readU32_short (hshort k magicVector _ k1), use, Outcome.bind_ub]
  obtain ⟨k, rfl⟩ : ∃ j, k = j + 4 := ⟨k - 4, by omega⟩
  rw [hlong]
  by_cases k2 : k < 4
  · simp only [loadVector, readU32_lt magicVector_lt, readU32_lt versionVector_lt, readU32_le32, readU32_short (hshort k versionVector _ k2), use, Outcome.bind_ub,
      Outcome.bind_ret, ne_eq, not_true_eq_false, if_false]
  obtain ⟨k, rfl⟩ : ∃ j, k = j + 4 := ⟨k - 4, by omega⟩
  rw [hlong]
  by_cases k3 : k < 4
  · simp only [loadVector, readU32_lt magicVector_lt, readU32_lt versionVector_lt, readU32_le32, readU32_short (hshort k v.size _ k3), readU32_fail, use,
      Outcome.bind_ub, Outcome.bind_ret, ne_eq, not_true_eq_false, if_false]
  obtain ⟨k, rfl⟩ : ∃ j, k = j + 4 := ⟨k - 4, by omega⟩
  rw [hlong]
  simp only [loadVector, readU32_lt magicVector_lt, readU32_lt versionVector_lt, readU32_le32, readU32_short (hshort k es _ (by omega)), readU32_fail, use,
    Outcome.bind_ub, Outcome.bind_ret, ne_eq, not_true_eq_false, if_false]

end Verif.Bin
