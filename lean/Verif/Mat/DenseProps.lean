import Verif.Mat.DenseMore
import Verif.Hoare
import Mathlib.Algebra.BigOperators.Ring.Finset
import Mathlib.Tactic.Ring

/-!
# Properties of the dense matrix: faithful storage (C40), matrix algebra (C41) and the predicates (C65)
-/

set_option autoImplicit false

namespace Verif.Mat.Dense

variable {K : Type}

/-! ## Representation -/

theorem is_ofFn {r c : ℕ} (h : Shape r c) (f : ℕ → ℕ → K) : Is (ofFn r c f) r c f :=
  ⟨⟨by simp [ofFn], h⟩, rfl, rfl, fun _ hi _ hj => get_ofFn f hi hj⟩

theorem valid_ofFn {r c : ℕ} (h : Shape r c) (f : ℕ → ℕ → K) : Valid (ofFn r c f) := (is_ofFn h f).1

theorem Valid.exists_ofFn [Nonempty K] {m : Dense K} (h : Valid m) :
    ∃ r c f, Shape r c ∧ m = ofFn r c f := ⟨_, _, _, h.2, eq_ofFn m h.1⟩

/-- A consistent matrix is determined by its dimensions and its elements. -/
theorem is_unique [Nonempty K] {m : Dense K} {r c : ℕ} {f : ℕ → ℕ → K} :
    Is m r c f ↔ Shape r c ∧ m = ofFn r c f := by
  constructor
  · rintro ⟨hv, rfl, rfl, hg⟩
    refine ⟨hv.2, ?_⟩
    have e := eq_ofFn m hv.1
    refine e.trans (ofFn_congr fun i hi j hj => ?_)
    have h1 := hg i hi j hj
    have h2 : m.get i j = .ret (m.data.getD (i * m.cols + j) (Classical.arbitrary K)) := by
      conv_lhs => rw [e]
      exact get_ofFn _ hi hj
    rw [h1] at h2
    exact (Outcome.ret.inj h2).symm
  · rintro ⟨h, rfl⟩
    exact is_ofFn h f

/-! ## Faithful storage -/

/-- **C40 (dense).**  Writing an element and reading any element back. -/
theorem write_read [Nonempty K] (m : Dense K) (hm : Valid m) (i j : ℕ) (hi : i < m.rows) (hj : j < m.cols)
    (a : K) :
    ∃ m', m.set i j a = .ret m' ∧ Valid m' ∧ m'.rows = m.rows ∧ m'.cols = m.cols ∧
      ∀ p < m.rows, ∀ q < m.cols,
        m'.get p q = if p = i ∧ q = j then .ret a else m.get p q := by
  obtain ⟨r, c, f, hs, rfl⟩ := hm.exists_ofFn
  refine ⟨_, set_ofFn f hi hj a, valid_ofFn hs _, rfl, rfl, fun p hp q hq => ?_⟩
  simp only [ofFn_rows, ofFn_cols] at hp hq
  refine (get_ofFn (r := r) (c := c) _ hp hq).trans ?_
  rw [get_ofFn f hp hq]
  split <;> rfl

/-- **C40 (dense).**  Every element in range can be read, and `at` reads the same element. -/
theorem at_spec [Nonempty K] (m : Dense K) (hm : Valid m) (i j : ℤ) :
    (0 ≤ i ∧ i < m.rows ∧ 0 ≤ j ∧ j < m.cols →
      ∃ x, m.get i.toNat j.toNat = .ret x ∧ m.at_ i j = .ret x ∧
        ∀ a, m.setAt i j a = m.set i.toNat j.toNat a) ∧
    (¬(0 ≤ i ∧ i < m.rows ∧ 0 ≤ j ∧ j < m.cols) →
      m.at_ i j = .exn (.mml "MatrixAccessBoundsError") ∧
        ∀ a, m.setAt i j a = .exn (.mml "MatrixAccessBoundsError")) := by
  obtain ⟨r, c, f, hs, rfl⟩ := hm.exists_ofFn
  simp only [ofFn_rows, ofFn_cols]
  constructor
  · rintro ⟨h1, h2, h3, h4⟩
    have hn : ¬(i < 0 ∨ i ≥ ((ofFn r c f).rows : ℤ) ∨ j < 0 ∨ j ≥ ((ofFn r c f).cols : ℤ)) := by
      simp only [ofFn_rows, ofFn_cols]; omega
    refine ⟨_, get_ofFn f (by omega) (by omega), ?_, fun a => ?_⟩
    · rw [at_, if_neg hn, get_ofFn f (by omega) (by omega)]
    · rw [setAt, if_neg hn]
  · intro h
    have hn : (i < 0 ∨ i ≥ ((ofFn r c f).rows : ℤ) ∨ j < 0 ∨ j ≥ ((ofFn r c f).cols : ℤ)) := by
      simp only [ofFn_rows, ofFn_cols]; omega
    exact ⟨by rw [at_, if_pos hn], fun a => by rw [setAt, if_pos hn]⟩

example : Valid (⟨2, 2, [1, 2, 3, 4]⟩ : Dense ℤ) := ⟨by decide, Or.inr (by decide)⟩
example : (⟨2, 2, [1, 2, 3, 4]⟩ : Dense ℤ).set 1 0 9 = .ret ⟨2, 2, [1, 2, 9, 4]⟩ := by decide

/-- **C40 (dense).**  The unchecked `operator()` wraps into the next row when the column is out of range: it
reads element `(1, 0)` for `(0, 2)` of a 2×2 matrix. -/
theorem get_column_overflow : (⟨2, 2, [1, 2, 3, 4]⟩ : Dense ℤ).get 0 2 = .ret 3 := by decide

/-- **C40 (dense).**  A new matrix holds the given value everywhere; negative sizes, sizes over the limits and
allocations over the limits are refused. -/
theorem newFill_outcome [Nonempty K] (r c : ℤ) (a : K) :
    (r < 0 ∨ c < 0 → newFill r c a = .exn (.mml "MatrixDimensionError")) ∧
    (0 ≤ r → 0 ≤ c → (r = 0 ∨ c = 0) → ∃ m, newFill r c a = .ret m ∧ Is m 0 0 (fun _ _ => a)) ∧
    (0 < r → 0 < c → (r > 100000 ∨ c > 100000) → newFill r c a = .exn (.mml "MatrixDimensionError")) ∧
    (0 < r → 0 < c → r ≤ 100000 → c ≤ 100000 → r.toNat * c.toNat > 100000000 →
      newFill r c a = .exn .badAlloc) ∧
    (0 < r → 0 < c → r ≤ 100000 → c ≤ 100000 → r.toNat * c.toNat ≤ 100000000 →
      ∃ m, newFill r c a = .ret m ∧ Is m r.toNat c.toNat (fun _ _ => a)) := by
  refine ⟨fun h => by rw [newFill, if_pos h], fun h1 h2 h3 => ?_, fun h1 h2 h3 => ?_, fun h1 h2 h3 h4 h5 => ?_,
    fun h1 h2 h3 h4 h5 => ?_⟩
  · refine ⟨⟨0, 0, []⟩, by rw [newFill, if_neg (by omega), if_pos h3], ⟨rfl, Or.inl ⟨rfl, rfl⟩⟩, rfl, rfl, ?_⟩
    intro i hi
    omega
  · rw [newFill, if_neg (by omega), if_neg (by omega), validate, if_pos (by omega)]
    rfl
  · rw [newFill, if_neg (by omega), if_neg (by omega), validate, if_neg (by omega), if_pos h5]
    rfl
  · have hs : Shape r.toNat c.toNat := Or.inr ⟨by omega, by omega, by omega, by omega, h5⟩
    have := newFill_spec hs a
    rw [Int.toNat_of_nonneg (by omega), Int.toNat_of_nonneg (by omega)] at this
    exact ⟨_, this, is_ofFn hs _⟩

/-- **C40 (dense).**  `Resize` with preservation keeps every element both shapes have and fills with zero;
without preservation all elements become zero. -/
theorem resize_preserves [Zero K] [Nonempty K] (m : Dense K) (r c r' c' : ℕ) (f : ℕ → ℕ → K) (hm : Is m r c f)
    (h : Shape r' c') (hr : 0 < r') :
    ∃ m', m.resize r' c' true = .ret m' ∧ Is m' r' c' (fun i j => if i < r ∧ j < c then f i j else 0) := by
  obtain ⟨hs, rfl⟩ := is_unique.1 hm
  by_cases hne : r' = r ∧ c' = c
  · obtain ⟨rfl, rfl⟩ := hne
    refine ⟨ofFn r' c' f, by simp [resize], ?_⟩
    rw [is_unique]
    refine ⟨hs, ofFn_congr fun i hi j hj => by rw [if_pos ⟨hi, hj⟩]⟩
  · exact ⟨_, resize_ofFn f h hr hne, is_ofFn h _⟩

/-- **C40 (dense).**  `Resize` to another shape without preservation gives the zero matrix. -/
theorem resize_clears [Zero K] [Nonempty K] (m : Dense K) (r c r' c' : ℕ) (f : ℕ → ℕ → K) (hm : Is m r c f)
    (h : Shape r' c') (hr : 0 < r') (hne : ¬(r' = r ∧ c' = c)) :
    ∃ m', m.resize r' c' false = .ret m' ∧ Is m' r' c' (fun _ _ => 0) := by
  obtain ⟨hs, rfl⟩ := is_unique.1 hm
  refine ⟨_, ?_, is_ofFn h _⟩
  have hS : 0 < r' ∧ 0 < c' ∧ r' ≤ 100000 ∧ c' ≤ 100000 ∧ r' * c' ≤ 100000000 := by
    rcases h with ⟨rfl, _⟩ | h
    · omega
    · exact h
  rw [resize, if_neg (by simp only [ofFn_rows, ofFn_cols]; omega), if_neg (by omega)]
  simp only [Int.toNat_natCast]
  rw [validate, if_neg (by omega), if_neg (by omega), Outcome.bind_ret, if_neg (by simp), replicate_eq_tab]
  rfl

example : Is (⟨2, 2, [1, 2, 3, 4]⟩ : Dense ℤ) 2 2 (fun i j => 2 * i + j + 1) :=
  ⟨⟨by decide, Or.inr (by decide)⟩, rfl, rfl, by decide⟩
example : (⟨2, 2, [1, 2, 3, 4]⟩ : Dense ℤ).resize 3 3 true = .ret ⟨3, 3, [1, 2, 0, 3, 4, 0, 0, 0, 0]⟩ := by decide
example : Shape 3 3 := Or.inr (by decide)

/-- **C40 (dense).**  The nested-vector constructor stores row `i` of its argument as row `i`. -/
theorem fromNested_spec (r c : ℕ) (h : Shape r c) (hr : 0 < r) (f : ℕ → ℕ → K) :
    ∃ m, fromNested (tab r (fun i => tab c (fun j => f i j))) = .ret m ∧ Is m r c f :=
  ⟨_, fromNested_ofFn h hr f, is_ofFn h f⟩

example : fromNested [[1, 2], [3, (4 : ℤ)]] = .ret ⟨2, 2, [1, 2, 3, 4]⟩ := by decide
example : fromNested [[1, 2], [(3 : ℤ)]] = .exn (.mml "MatrixDimensionError") := by decide

/-- **C40 (dense).**  The nested-vector constructor refuses rows of different lengths. -/
theorem fromNested_ragged (r0 : List K) (rest : List (List K)) (h0 : r0 ≠ [])
    (h : Shape (rest.length + 1) r0.length) (hrow : ∃ row ∈ rest, row.length ≠ r0.length) :
    fromNested (r0 :: rest) = .exn (.mml "MatrixDimensionError") := by
  obtain ⟨row, hmem, hne⟩ := hrow
  obtain ⟨k, hk, rfl⟩ := List.getElem_of_mem hmem
  have hv : validate (r0 :: rest).length r0.length = .ret () := by
    rcases h with ⟨h1, _⟩ | h
    · omega
    · rw [validate, if_neg (by rw [List.length_cons]; omega), if_neg (by rw [List.length_cons]; omega)]
  have key : (forRange (r0 :: rest).length [] (nestedRow (r0 :: rest) r0.length)).Sat
      (fun _ => False) (fun e => e = .mml "MatrixDimensionError") := by
    have := forRange_sat (fun i _ => i ≤ k + 1) (fun e => e = .mml "MatrixDimensionError") (r0 :: rest).length ([] : List K)
      (nestedRow (r0 :: rest) r0.length) (by omega) (by
        intro i d hi hik
        rw [nestedRow, Outcome.index, List.getElem?_eq_getElem hi]
        simp only [Outcome.bind_ret]
        split
        · rfl
        · rename_i hlen
          push Not at hlen
          have hik' : i ≠ k + 1 := by
            rintro rfl
            exact hne (by simpa using hlen)
          have hd := forRange_sat (fun _ (_ : List K) => True) (fun e => e = .mml "MatrixDimensionError") r0.length d
            (fun d j => do
              let x ← Outcome.index (r0 :: rest)[i] j
              .ret (d ++ [x])) trivial (by
              intro j t hj _
              rw [Outcome.index, List.getElem?_eq_getElem (by omega)]
              trivial)
          exact hd.imp fun _ _ => by omega)
    refine this.imp fun _ h2 => ?_
    rw [List.length_cons] at h2
    omega
  have e : fromNested (r0 :: rest) = (do
      validate (r0 :: rest).length r0.length
      let d ← forRange (r0 :: rest).length [] (nestedRow (r0 :: rest) r0.length)
      .ret ⟨(r0 :: rest).length, r0.length, d⟩) := by
    cases r0 with
    | nil => exact absurd rfl h0
    | cons x xs => rfl
  rw [e, hv, Outcome.bind_ret]
  cases hf : forRange (r0 :: rest).length [] (nestedRow (r0 :: rest) r0.length) with
  | ub => rw [hf] at key; exact key.elim
  | exn ex =>
    rw [hf] at key
    have key : ex = .mml "MatrixDimensionError" := key
    rw [key]
    rfl
  | ret d => rw [hf] at key; exact key.elim

/-- **C40 (dense).**  Rows, columns, the diagonal, triangles and submatrices are read off at the right places. -/
theorem slices_spec [Zero K] [Nonempty K] (m : Dense K) (r c : ℕ) (f : ℕ → ℕ → K) (hm : Is m r c f) :
    (∀ i < r, m.rowVector (i : ℕ) = .ret (tab c (fun j => f i j))) ∧
    (∀ j < c, m.colVector (j : ℕ) = .ret (tab r (fun i => f i j))) ∧
    (r = c → m.diagonal = .ret (tab r (fun i => f i i))) ∧
    (r = c → ∀ incl : Bool,
      (∃ l, m.getLower incl = .ret l ∧
        Is l r r (fun i j => if j < i ∨ (incl = true ∧ i = j) then f i j else 0)) ∧
      (∃ u, m.getUpper incl = .ret u ∧
        Is u r r (fun i j => if i < j ∨ (incl = true ∧ i = j) then f i j else 0))) ∧
    (∀ r0 c0 nr nc : ℕ, 0 < nr → 0 < nc → r0 + nr ≤ r → c0 + nc ≤ c →
      ∃ s, m.submatrix r0 c0 nr nc = .ret s ∧ Is s nr nc (fun i j => f (r0 + i) (c0 + j))) := by
  obtain ⟨hs, rfl⟩ := is_unique.1 hm
  refine ⟨fun i hi => rowVector_ofFn f hi, fun j hj => colVector_ofFn f hj, ?_, ?_, ?_⟩
  · rintro rfl; exact diagonal_ofFn f
  · rintro rfl incl
    exact ⟨⟨_, getLower_ofFn hs f incl, is_ofFn hs _⟩, ⟨_, getUpper_ofFn hs f incl, is_ofFn hs _⟩⟩
  · intro r0 c0 nr nc h1 h2 h3 h4
    refine ⟨_, submatrix_ofFn f h1 h2 h3 h4, is_ofFn ?_ _⟩
    rcases hs with ⟨rfl, rfl⟩ | ⟨a1, a2, a3, a4, a5⟩
    · omega
    · exact Or.inr ⟨h1, h2, by omega, by omega, le_trans (Nat.mul_le_mul (by omega) (by omega)) a5⟩

/-- **C40 (dense).**  Requests outside the matrix are refused. -/
theorem slices_reject [Zero K] (m : Dense K) :
    (∀ i : ℤ, ¬(0 ≤ i ∧ i < m.rows) → m.rowVector i = .exn (.mml "MatrixAccessBoundsError")) ∧
    (∀ j : ℤ, ¬(0 ≤ j ∧ j < m.cols) → m.colVector j = .exn (.mml "MatrixAccessBoundsError")) ∧
    (m.rows ≠ m.cols → m.diagonal = .exn (.mml "MatrixDimensionError") ∧
      ∀ incl, m.getLower incl = .exn (.mml "MatrixDimensionError") ∧
        m.getUpper incl = .exn (.mml "MatrixDimensionError")) ∧
    (∀ r0 c0 nr nc : ℤ, ¬(0 ≤ r0 ∧ 0 ≤ c0 ∧ 0 < nr ∧ 0 < nc ∧ r0 + nr ≤ m.rows ∧ c0 + nc ≤ m.cols) →
      m.submatrix r0 c0 nr nc = .exn (.mml "MatrixDimensionError")) := by
  refine ⟨fun i h => by rw [rowVector, if_pos (by omega)], fun j h => by rw [colVector, if_pos (by omega)],
    fun h => ⟨by rw [diagonal, if_pos h], fun _ => ⟨by rw [getLower, if_pos h], by rw [getUpper, if_pos h]⟩⟩,
    fun r0 c0 nr nc h => ?_⟩
  rw [submatrix]
  by_cases h1 : r0 < 0 ∨ r0 ≥ (m.rows : ℤ) ∨ c0 < 0 ∨ c0 ≥ (m.cols : ℤ)
  · rw [if_pos h1]
  · rw [if_neg h1]
    by_cases h2 : nr ≤ 0 ∨ nc ≤ 0
    · rw [if_pos h2]
    · rw [if_neg h2, if_pos (by omega)]

/-- **C40 (dense).**  Replacing and exchanging rows and columns. -/
theorem rearrange_spec [Nonempty K] (m : Dense K) (r c : ℕ) (f : ℕ → ℕ → K) (hm : Is m r c f) :
    (∀ i < r, ∀ v : ℕ → K, ∃ m', m.initRow (i : ℕ) (tab c v) = .ret m' ∧
      Is m' r c (fun p q => if p = i then v q else f p q)) ∧
    (∀ j < c, ∀ v : ℕ → K, ∃ m', m.initCol (j : ℕ) (tab r v) = .ret m' ∧
      Is m' r c (fun p q => if q = j then v p else f p q)) ∧
    (∀ k < r, ∀ l < r, ∃ m', m.swapRows (k : ℕ) (l : ℕ) = .ret m' ∧
      Is m' r c (fun p q => f (if p = k then l else if p = l then k else p) q)) ∧
    (∀ k < c, ∀ l < c, ∃ m', m.swapCols (k : ℕ) (l : ℕ) = .ret m' ∧
      Is m' r c (fun p q => f p (if q = k then l else if q = l then k else q))) := by
  obtain ⟨hs, rfl⟩ := is_unique.1 hm
  exact ⟨fun i hi v => ⟨_, initRow_ofFn f hi v, is_ofFn hs _⟩, fun j hj v => ⟨_, initCol_ofFn f hj v, is_ofFn hs _⟩,
    fun k hk l hl => ⟨_, swapRows_ofFn f hk hl, is_ofFn hs _⟩,
    fun k hk l hl => ⟨_, swapCols_ofFn f hk hl, is_ofFn hs _⟩⟩

example : (⟨2, 3, [1, 2, 3, 4, 5, 6]⟩ : Dense ℤ).swapCols 0 2 = .ret ⟨2, 3, [3, 2, 1, 6, 5, 4]⟩ := by decide

/-! ## Matrix algebra -/

section
variable [CommRing K]



/-- **C41.**  The elements of sums, differences, negations, multiples, transposes and products. -/
theorem arith_entries (a b : Dense K) (r c : ℕ) (f g : ℕ → ℕ → K) (ha : Is a r c f) (hb : Is b r c g) :
    (∃ m, a.add b = .ret m ∧ Is m r c (fun i j => f i j + g i j)) ∧
    (∃ m, a.sub b = .ret m ∧ Is m r c (fun i j => f i j - g i j)) ∧
    (∃ m, a.addAssign b = .ret m ∧ Is m r c (fun i j => f i j + g i j)) ∧
    (∃ m, a.subAssign b = .ret m ∧ Is m r c (fun i j => f i j - g i j)) ∧
    (∃ m, a.neg = .ret m ∧ Is m r c (fun i j => - f i j)) ∧
    (∀ x, ∃ m, a.scale x = .ret m ∧ Is m r c (fun i j => f i j * x)) ∧
    (∃ m, a.transpose = .ret m ∧ Is m c r (fun i j => f j i)) := by
  obtain ⟨hs, rfl⟩ := is_unique.1 ha
  obtain ⟨_, rfl⟩ := is_unique.1 hb
  exact ⟨⟨_, zipData_ofFn hs f g _, is_ofFn hs _⟩, ⟨_, zipData_ofFn hs f g _, is_ofFn hs _⟩,
    ⟨_, zipDataInPlace_ofFn f g _, is_ofFn hs _⟩, ⟨_, zipDataInPlace_ofFn f g _, is_ofFn hs _⟩,
    ⟨_, mapData_ofFn hs f _, is_ofFn hs _⟩, fun x => ⟨_, mapData_ofFn hs f _, is_ofFn hs _⟩,
    ⟨_, transpose_ofFn hs f, is_ofFn hs.symm _⟩⟩

/-- **C41.**  The elements of a product, and the only ways a product of consistent matrices can fail. -/
theorem mul_outcome (a b : Dense K) (ha : Valid a) (hb : Valid b) :
    (a.cols ≠ b.rows → a.mul b = .exn (.mml "MatrixDimensionError")) ∧
    (a.cols = b.rows → a.rows * b.cols > 100000000 → a.mul b = .exn .badAlloc) ∧
    (a.cols = b.rows → a.rows * b.cols ≤ 100000000 → ∃ m, a.mul b = .ret m ∧ Valid m) ∧
    (∀ r k c f g, Is a r k f → Is b k c g → r * c ≤ 100000000 →
      ∃ m, a.mul b = .ret m ∧ Is m r c (fun i j => ∑ t ∈ Finset.range k, f i t * g t j)) := by
  have key : ∀ r k c f g, Is a r k f → Is b k c g → r * c ≤ 100000000 →
      ∃ m, a.mul b = .ret m ∧ Is m r c (fun i j => ∑ t ∈ Finset.range k, f i t * g t j) := by
    intro r k c f g h1 h2 h3
    obtain ⟨hs, rfl⟩ := is_unique.1 h1
    obtain ⟨hs', rfl⟩ := is_unique.1 h2
    have : Shape r c := by
      rcases hs with ⟨rfl, rfl⟩ | hs
      · rcases hs' with ⟨_, rfl⟩ | hs'
        · exact Or.inl ⟨rfl, rfl⟩
        · omega
      · rcases hs' with ⟨rfl, rfl⟩ | hs'
        · omega
        · exact Or.inr ⟨hs.1, hs'.2.1, hs.2.2.1, hs'.2.2.2.1, h3⟩
    exact ⟨_, mul_ofFn this f g, is_ofFn this _⟩
  refine ⟨fun h => by rw [mul, if_pos h], fun h h2 => ?_, fun h h2 => ?_, key⟩
  · have h1 := ha.2
    have h1' := hb.2
    have hpos : 0 < a.rows ∧ 0 < b.cols ∧ a.rows ≤ 100000 ∧ b.cols ≤ 100000 := by
      rcases h1 with ⟨h3, _⟩ | h3
      · rw [h3] at h2; omega
      · rcases h1' with ⟨_, h4⟩ | h4
        · rw [h4] at h2; omega
        · exact ⟨h3.1, h4.2.1, h3.2.2.1, h4.2.2.2.1⟩
    rw [mul, if_neg (by simpa using h), new, newFill, if_neg (by omega), if_neg (by omega)]
    simp only [Int.toNat_natCast, validate]
    rw [if_neg (by omega), if_pos h2]
    rfl
  · obtain ⟨r, k, f, _, rfl⟩ := ha.exists_ofFn
    obtain ⟨k', c, g, _, rfl⟩ := hb.exists_ofFn
    obtain rfl : k = k' := h
    obtain ⟨m, h3, h4⟩ := key r k c f g ((is_unique).2 ⟨ha.2, rfl⟩) ((is_unique).2 ⟨hb.2, rfl⟩) h2
    exact ⟨m, h3, h4.1⟩

/-- **C41.**  Shapes that do not fit are refused. -/
theorem arith_reject (a b : Dense K) (v : List K) :
    ((a.rows ≠ b.rows ∨ a.cols ≠ b.cols) →
      a.add b = .exn (.mml "MatrixDimensionError") ∧ a.sub b = .exn (.mml "MatrixDimensionError") ∧
      a.addAssign b = .exn (.mml "MatrixDimensionError") ∧ a.subAssign b = .exn (.mml "MatrixDimensionError")) ∧
    (a.cols ≠ b.rows → a.mul b = .exn (.mml "MatrixDimensionError")) ∧
    (a.cols ≠ v.length → a.mulVec v = .exn (.mml "MatrixDimensionError")) ∧
    (v.length ≠ a.rows → vecMul v a = .exn (.mml "MatrixDimensionError")) ∧
    (a.rows ≠ a.cols → a.trace = .exn (.mml "MatrixDimensionError") ∧
      a.transposeInPlace = .exn (.mml "MatrixDimensionError")) :=
  ⟨fun h => ⟨by rw [add, zipData, if_pos h], by rw [sub, zipData, if_pos h], by rw [addAssign, zipDataInPlace, if_pos h],
      by rw [subAssign, zipDataInPlace, if_pos h]⟩,
    fun h => by rw [mul, if_pos h], fun h => by rw [mulVec, if_pos h], fun h => by rw [vecMul, if_pos h],
    fun h => ⟨by rw [trace, if_pos h], by rw [transposeInPlace, if_pos h]⟩⟩

/-- **C41.**  The matrix-vector products. -/
theorem vec_entries (m : Dense K) (r c : ℕ) (f : ℕ → ℕ → K) (hm : Is m r c f) :
    (∀ v : ℕ → K, m.mulVec (tab c v) = .ret (tab r (fun i => ∑ j ∈ Finset.range c, f i j * v j))) ∧
    (∀ v : ℕ → K, vecMul (tab r v) m = .ret (tab c (fun j => ∑ i ∈ Finset.range r, v i * f i j))) ∧
    (r = c → m.trace = .ret (∑ i ∈ Finset.range r, f i i)) := by
  obtain ⟨hs, rfl⟩ := is_unique.1 hm
  refine ⟨fun v => mulVec_ofFn f v, fun v => vecMul_ofFn f v, ?_⟩
  rintro rfl
  exact trace_ofFn f

/-- **C41.**  Laws of addition and of multiples. -/
theorem add_laws (a b c : Dense K) (ha : Valid a) (hb : Valid b) (hc : Valid c)
    (hab : a.rows = b.rows ∧ a.cols = b.cols) (hbc : b.rows = c.rows ∧ b.cols = c.cols) (x y : K) :
    a.add b = b.add a ∧
    ((a.add b >>= fun s => s.add c) = (b.add c >>= fun s => a.add s)) ∧
    ((new (a.rows : ℤ) (a.cols : ℤ) >>= fun z => a.add z) = .ret a) ∧
    ((a.neg >>= fun s => a.add s) = new (a.rows : ℤ) (a.cols : ℤ)) ∧
    a.sub b = (b.neg >>= fun s => a.add s) ∧
    a.addAssign b = a.add b ∧ a.subAssign b = a.sub b ∧
    ((a.add b >>= fun s => s.scale x) = (do
      let p ← a.scale x
      let q ← b.scale x
      p.add q)) ∧
    (a.scale (x + y) = (do
      let p ← a.scale x
      let q ← a.scale y
      p.add q)) ∧
    ((a.scale x >>= fun s => s.scale y) = a.scale (x * y)) ∧
    a.scale 1 = .ret a := by
  obtain ⟨r, k, f, hs, rfl⟩ := ha.exists_ofFn
  obtain ⟨r', k', g, _, rfl⟩ := hb.exists_ofFn
  obtain ⟨r'', k'', h, _, rfl⟩ := hc.exists_ofFn
  simp only [ofFn_rows, ofFn_cols] at hab hbc
  obtain ⟨rfl, rfl⟩ := hab
  obtain ⟨rfl, rfl⟩ := hbc
  simp only [add, sub, neg, scale, addAssign, subAssign, ofFn_rows, ofFn_cols, zipData_ofFn hs, mapData_ofFn hs,
    zipDataInPlace_ofFn, new_spec hs, Outcome.bind_ret, Outcome.ret.injEq]
  refine ⟨?_, ?_, ?_, ?_, ?_, trivial, trivial, ?_, ?_, ?_, ?_⟩ <;>
    exact ofFn_congr fun i _ j _ => by ring

/-- **C41.**  The product is associative whenever the sizes of all products are within the limits. -/
theorem mul_assoc_law (a b c : Dense K) (ha : Valid a) (hb : Valid b) (hc : Valid c)
    (hab : a.cols = b.rows) (hbc : b.cols = c.rows) (h1 : a.rows * b.cols ≤ 100000000)
    (h2 : b.rows * c.cols ≤ 100000000) (h3 : a.rows * c.cols ≤ 100000000) :
    ((a.mul b >>= fun p => p.mul c) = (b.mul c >>= fun p => a.mul p)) ∧
      ∃ m, (a.mul b >>= fun p => p.mul c) = .ret m ∧ Valid m := by
  obtain ⟨r, k, f, hs, rfl⟩ := ha.exists_ofFn
  obtain ⟨k', l, g, hs', rfl⟩ := hb.exists_ofFn
  obtain ⟨l', t, h, hs'', rfl⟩ := hc.exists_ofFn
  obtain rfl : k = k' := hab
  obtain rfl : l = l' := hbc
  simp only [ofFn_rows, ofFn_cols] at h1 h2 h3
  have e1 : Shape r l := by simp only [Shape] at *; omega
  have e2 : Shape k t := by simp only [Shape] at *; omega
  have e3 : Shape r t := by simp only [Shape] at *; omega
  rw [mul_ofFn e1, mul_ofFn e2, Outcome.bind_ret, Outcome.bind_ret, mul_ofFn e3, mul_ofFn e3]
  refine ⟨?_, _, rfl, valid_ofFn e3 _⟩
  congr 1
  refine ofFn_congr fun i _ j _ => ?_
  simp only [Finset.sum_mul, Finset.mul_sum]
  rw [Finset.sum_comm]
  exact Finset.sum_congr rfl fun _ _ => Finset.sum_congr rfl fun _ _ => mul_assoc _ _ _

/-- **C41.**  The product distributes over sums on both sides. -/
theorem mul_add_laws (a b c d : Dense K) (ha : Valid a) (hb : Valid b) (hc : Valid c) (hd : Valid d)
    (hab : a.cols = b.rows) (hbc : b.rows = c.rows ∧ b.cols = c.cols) (had : a.rows = d.rows ∧ a.cols = d.cols)
    (h1 : a.rows * b.cols ≤ 100000000) :
    ((b.add c >>= fun s => a.mul s) = (do
      let p ← a.mul b
      let q ← a.mul c
      p.add q)) ∧
    ((a.add d >>= fun s => s.mul b) = (do
      let p ← a.mul b
      let q ← d.mul b
      p.add q)) ∧
    (∀ x, (a.scale x >>= fun s => s.mul b) = (a.mul b >>= fun p => p.scale x)) := by
  obtain ⟨r, k, f, hs, rfl⟩ := ha.exists_ofFn
  obtain ⟨k', l, g, hs', rfl⟩ := hb.exists_ofFn
  obtain ⟨k'', l', h, _, rfl⟩ := hc.exists_ofFn
  obtain ⟨r', k''', u, _, rfl⟩ := hd.exists_ofFn
  simp only [ofFn_rows, ofFn_cols] at hab hbc had h1
  subst hab
  obtain ⟨rfl, rfl⟩ := hbc
  obtain ⟨rfl, rfl⟩ := had
  have e1 : Shape r l := by simp only [Shape] at *; omega
  simp only [add, scale, zipData_ofFn hs, zipData_ofFn hs', mapData_ofFn hs, Outcome.bind_ret, mul_ofFn e1,
    zipData_ofFn e1, mapData_ofFn e1, Outcome.ret.injEq]
  refine ⟨?_, ?_, fun x => ?_⟩
  · exact ofFn_congr fun i _ j _ => by simp only [mul_add, Finset.sum_add_distrib]
  · exact ofFn_congr fun i _ j _ => by simp only [add_mul, Finset.sum_add_distrib]
  · refine ofFn_congr fun i _ j _ => ?_
    rw [Finset.sum_mul]
    exact Finset.sum_congr rfl fun _ _ => by ring

/-- **C41.**  Multiplying by the identity changes nothing. -/
theorem mul_identity (a : Dense K) (ha : Valid a) (hr : 0 < a.rows)
    (h1 : a.rows * a.rows ≤ 100000000) (h2 : a.cols * a.cols ≤ 100000000) :
    ((identity (a.cols : ℤ) >>= fun e => a.mul e) = .ret a) ∧
    ((identity (a.rows : ℤ) >>= fun e => e.mul a) = .ret a) := by
  obtain ⟨r, k, f, hs, rfl⟩ := ha.exists_ofFn
  simp only [ofFn_rows, ofFn_cols] at h1 h2 hr ⊢
  have hk : 0 < k := by simp only [Shape] at hs; omega
  have e1 : Shape r r := by simp only [Shape] at *; omega
  have e2 : Shape k k := by simp only [Shape] at *; omega
  rw [identity_spec e2 hk, identity_spec e1 hr, Outcome.bind_ret, Outcome.bind_ret, mul_ofFn hs, mul_ofFn hs]
  constructor
  · congr 1
    refine ofFn_congr fun i hi j hj => ?_
    rw [Finset.sum_eq_single j]
    · simp
    · intro t _ ht; simp [ht]
    · intro h; exact absurd (Finset.mem_range.2 hj) h
  · congr 1
    refine ofFn_congr fun i hi j hj => ?_
    rw [Finset.sum_eq_single i]
    · simp
    · intro t _ ht; simp [Ne.symm ht]
    · intro h; exact absurd (Finset.mem_range.2 hi) h

/-- **C41.**  Laws of the transpose; the in-place version agrees with the copying one. -/
theorem transpose_laws (a b c : Dense K) (ha : Valid a) (hb : Valid b) (hc : Valid c)
    (hac : a.rows = c.rows ∧ a.cols = c.cols) (hab : a.cols = b.rows) (h1 : a.rows * b.cols ≤ 100000000) :
    ((a.transpose >>= fun t => t.transpose) = .ret a) ∧
    ((a.add c >>= fun s => s.transpose) = (do
      let p ← a.transpose
      let q ← c.transpose
      p.add q)) ∧
    ((a.mul b >>= fun s => s.transpose) = (do
      let p ← b.transpose
      let q ← a.transpose
      p.mul q)) ∧
    (a.rows = a.cols → a.transposeInPlace = a.transpose) := by
  obtain ⟨r, k, f, hs, rfl⟩ := ha.exists_ofFn
  obtain ⟨k', l, g, hs', rfl⟩ := hb.exists_ofFn
  obtain ⟨r', k'', h, _, rfl⟩ := hc.exists_ofFn
  simp only [ofFn_rows, ofFn_cols] at hab hac h1
  subst hab
  obtain ⟨rfl, rfl⟩ := hac
  have e1 : Shape r l := by simp only [Shape] at *; omega
  simp only [add, zipData_ofFn hs, zipData_ofFn hs.symm, transpose_ofFn hs, transpose_ofFn hs.symm, transpose_ofFn hs',
    transpose_ofFn e1, Outcome.bind_ret, mul_ofFn e1, mul_ofFn e1.symm, Outcome.ret.injEq]
  refine ⟨trivial, trivial, ?_, ?_⟩
  · exact ofFn_congr fun i _ j _ => Finset.sum_congr rfl fun _ _ => mul_comm _ _
  · intro h
    simp only [ofFn_rows, ofFn_cols] at h
    subst h
    exact transposeInPlace_ofFn f

/-- **C41.**  `trace(AB) = trace(BA)`, and the trace is linear and unchanged by transposition. -/
theorem trace_laws (a b c : Dense K) (ha : Valid a) (hb : Valid b) (hc : Valid c)
    (hab : a.cols = b.rows) (hba : b.cols = a.rows)
    (h1 : a.rows * a.rows ≤ 100000000) (h2 : b.rows * b.rows ≤ 100000000)
    (hsq : c.rows = c.cols) :
    ((a.mul b >>= fun p => p.trace) = (b.mul a >>= fun p => p.trace)) ∧
    ((c.transpose >>= fun p => p.trace) = c.trace) ∧
    (∀ x, (c.scale x >>= fun p => p.trace) = (c.trace >>= fun t => .ret (t * x))) := by
  obtain ⟨r, k, f, hs, rfl⟩ := ha.exists_ofFn
  obtain ⟨k', l, g, hs', rfl⟩ := hb.exists_ofFn
  obtain ⟨n, n', h, hs'', rfl⟩ := hc.exists_ofFn
  simp only [ofFn_rows, ofFn_cols] at hab hba h1 h2 hsq
  subst hab hba hsq
  have e1 : Shape l l := by simp only [Shape] at *; omega
  have e2 : Shape k k := by simp only [Shape] at *; omega
  simp only [scale, mul_ofFn e1, mul_ofFn e2, transpose_ofFn hs'', mapData_ofFn hs'', trace_ofFn, Outcome.bind_ret,
    Outcome.ret.injEq, Finset.sum_mul, implies_true, and_true]
  rw [Finset.sum_comm]
  exact Finset.sum_congr rfl fun _ _ => Finset.sum_congr rfl fun _ _ => mul_comm _ _

example : Valid (⟨1, 2, [1, 2]⟩ : Dense ℤ) := ⟨by decide, Or.inr (by decide)⟩
example : Valid (⟨2, 1, [3, 4]⟩ : Dense ℤ) := ⟨by decide, Or.inr (by decide)⟩
example : (⟨1, 2, [1, 2]⟩ : Dense ℤ).mul ⟨2, 1, [3, 4]⟩ = .ret ⟨1, 1, [11]⟩ := by decide
example : (⟨1, 2, [1, 2]⟩ : Dense ℤ).mul ⟨1, 2, [3, 4]⟩ = .exn (.mml "MatrixDimensionError") := by decide

end

/-! ## Predicates -/

section
variable [CommRing K] [LinearOrder K]

/-- **C65.**  What the tolerance predicates decide. -/
theorem predicates_spec (m : Dense K) (r c : ℕ) (f : ℕ → ℕ → K) (hm : Is m r c f) (eps : K) :
    (∃ b, m.isIdentity eps = .ret b ∧
      (b = true ↔ r = c ∧ ∀ i < r, ∀ j < c, |f i j - (if i = j then 1 else 0)| ≤ eps)) ∧
    (∃ b, m.isDiagonal eps = .ret b ∧ (b = true ↔ ∀ i < r, ∀ j < c, i ≠ j → |f i j| ≤ eps)) ∧
    (∃ b, m.isSymmetric eps = .ret b ∧
      (b = true ↔ r = c ∧ ∀ i < r, ∀ j < r, i < j → |f i j - f j i| ≤ eps)) ∧
    (m.isZero eps = true ↔ ∀ i < r, ∀ j < c, |f i j| ≤ eps) := by
  obtain ⟨hs, rfl⟩ := is_unique.1 hm
  refine ⟨?_, ?_, ?_, ?_⟩
  · by_cases hrc : r = c
    · subst hrc
      obtain ⟨b, hb, hP⟩ := allEntries_spec r (fun _ => 0) (fun _ => r) (fun i j => do
        let x ← (ofFn r r f).get i j
        if i = j then .ret (decide (¬ |x - 1| > eps)) else .ret (decide (¬ |x| > eps)))
        (fun i j => |f i j - (if i = j then 1 else 0)| ≤ eps)
        (by
          intro i hi j _ hj
          rw [get_ofFn f hi hj, Outcome.bind_ret]
          by_cases h : i = j
          · rw [if_pos h, if_pos h]; simp
          · rw [if_neg h, if_neg h]; simp)
      refine ⟨b, by rw [isIdentity, if_neg (by simp)]; exact hb, hP.trans ?_⟩
      simp
    · exact ⟨false, by rw [isIdentity, if_pos (by simpa using hrc)], by simp [hrc]⟩
  · obtain ⟨b, hb, hP⟩ := allEntries_spec r (fun _ => 0) (fun _ => c) (fun i j => do
      if i ≠ j then do
        let x ← (ofFn r c f).get i j
        .ret (decide (¬ |x| > eps))
      else .ret true)
      (fun i j => i ≠ j → |f i j| ≤ eps)
      (by
        intro i hi j _ hj
        by_cases h : i = j
        · simp [h]
        · rw [if_pos h, get_ofFn f hi hj, Outcome.bind_ret]
          simp [h])
    refine ⟨b, hb, hP.trans ?_⟩
    simp
  · by_cases hrc : r = c
    · subst hrc
      obtain ⟨b, hb, hP⟩ := allEntries_spec r (fun i => i + 1) (fun _ => r) (fun i j => do
        let x ← (ofFn r r f).get i j
        let y ← (ofFn r r f).get j i
        .ret (decide (¬ |x - y| > eps)))
        (fun i j => |f i j - f j i| ≤ eps)
        (by
          intro i hi j _ hj
          rw [get_ofFn f hi hj, Outcome.bind_ret, get_ofFn f hj hi, Outcome.bind_ret]
          simp)
      refine ⟨b, by rw [isSymmetric, if_neg (by simp)]; exact hb, hP.trans ?_⟩
      constructor
      · exact fun h => ⟨rfl, fun i hi j hj hij => h i hi j hij hj⟩
      · exact fun h i hi j hij hj => h.2 i hi j hj hij
    · exact ⟨false, by rw [isSymmetric, if_pos (by simpa using hrc)], by simp [hrc]⟩
  · simp only [isZero, List.all_eq_true, decide_eq_true_eq, ofFn, tab, List.mem_map, List.mem_range,
      forall_exists_index, and_imp, gt_iff_lt, not_lt]
    constructor
    · intro h i hi j hj
      have := h _ _ (idx_lt hi hj) rfl
      rwa [idx_div hj, idx_mod hj] at this
    · rintro h x t ht rfl
      have hc : 0 < c := by
        rcases Nat.eq_zero_or_pos c with h | h
        · subst h; simp at ht
        · exact h
      exact h _ (Nat.div_lt_of_lt_mul (by rwa [Nat.mul_comm] at ht)) _ (Nat.mod_lt _ hc)

/-- **C65.**  `IsEqualTo` compares shape and every element within the tolerance. -/
theorem isEqualTo_spec (a b : Dense K) (r c r' c' : ℕ) (f g : ℕ → ℕ → K) (ha : Is a r c f) (hb : Is b r' c' g)
    (eps : K) :
    ∃ q, a.isEqualTo b eps = .ret q ∧
      (q = true ↔ r = r' ∧ c = c' ∧ ∀ i < r, ∀ j < c, |f i j - g i j| ≤ eps) := by
  obtain ⟨hs, rfl⟩ := is_unique.1 ha
  obtain ⟨_, rfl⟩ := is_unique.1 hb
  by_cases h : r ≠ r' ∨ c ≠ c'
  · exact ⟨false, by rw [isEqualTo, if_pos (by simpa using h)], by
      constructor
      · intro h; cases h
      · rintro ⟨h1, h2, _⟩; omega⟩
  · obtain ⟨rfl, rfl⟩ : r = r' ∧ c = c' := by omega
    obtain ⟨q, hq, hP⟩ := forRange_rule
      (fun n (q : Bool) => q = true ↔ ∀ t < n, |f (t / c) (t % c) - g (t / c) (t % c)| ≤ eps) (r * c) true
      (fun ok i => if ok then do
          let x ← Outcome.index (ofFn r c f).data i
          let y ← Outcome.index (ofFn r c g).data i
          .ret (decide (¬ |x - y| > eps))
        else .ret false)
      (by simp)
      (by
        intro i ok hi hok
        cases ok with
        | false =>
          refine ⟨false, rfl, ?_⟩
          constructor
          · intro h; cases h
          · intro h
            exact absurd (hok.2 fun t ht => h t (by omega)) (by simp)
        | true =>
          refine ⟨decide (¬ |f (i / c) (i % c) - g (i / c) (i % c)| > eps), by
            rw [if_pos rfl]
            simp only [ofFn]
            rw [index_tab _ hi, Outcome.bind_ret, index_tab _ hi, Outcome.bind_ret], ?_⟩
          simp only [decide_eq_true_eq, gt_iff_lt, not_lt]
          constructor
          · intro h t ht
            rcases Nat.lt_or_ge t i with h5 | h5
            · exact hok.1 rfl t h5
            · rw [show t = i by omega]; exact h
          · exact fun h => h i (by omega))
    refine ⟨q, by
      rw [isEqualTo, if_neg (by simp)]
      have : (ofFn r c f).data.length = r * c := by simp [ofFn]
      rw [this]
      exact hq, hP.trans ?_⟩
    constructor
    · refine fun h => ⟨rfl, rfl, fun i hi j hj => ?_⟩
      have := h _ (idx_lt hi hj)
      rwa [idx_div hj, idx_mod hj] at this
    · rintro ⟨_, _, h⟩ t ht
      have hc : 0 < c := by
        rcases Nat.eq_zero_or_pos c with h | h
        · subst h; simp at ht
        · exact h
      exact h _ (Nat.div_lt_of_lt_mul (by rwa [Nat.mul_comm] at ht)) _ (Nat.mod_lt _ hc)

/-- **C65.**  The anti-symmetry test looks at the pairs above the diagonal only. -/
theorem isAntiSymmetric_spec_partial (m : Dense K) (r c : ℕ) (f : ℕ → ℕ → K) (hm : Is m r c f) (eps : K) :
    ∃ b, m.isAntiSymmetric eps = .ret b ∧
      (b = true ↔ r = c ∧ ∀ i < r, ∀ j < r, i < j → |f i j + f j i| ≤ eps) := by
  obtain ⟨hs, rfl⟩ := is_unique.1 hm
  by_cases hrc : r = c
  · subst hrc
    obtain ⟨b, hb, hP⟩ := allEntries_spec r (fun i => i + 1) (fun _ => r) (fun i j => do
      let x ← (ofFn r r f).get i j
      let y ← (ofFn r r f).get j i
      .ret (decide (¬ |x + y| > eps)))
      (fun i j => |f i j + f j i| ≤ eps)
      (by
        intro i hi j _ hj
        rw [get_ofFn f hi hj, Outcome.bind_ret, get_ofFn f hj hi, Outcome.bind_ret]
        simp)
    refine ⟨b, by rw [isAntiSymmetric, if_neg (by simp)]; exact hb, hP.trans ?_⟩
    constructor
    · exact fun h => ⟨rfl, fun i hi j hj hij => h i hi j hij hj⟩
    · exact fun h i hi j hij hj => h.2 i hi j hj hij
  · exact ⟨false, by rw [isAntiSymmetric, if_pos (by simpa using hrc)], by simp [hrc]⟩

end

/-- **C40 (dense).**  The constructor from a flat list takes the elements row by row; in the lenient mode
missing elements are zero and surplus ones are ignored, in the strict mode the number must match. -/
theorem fromList_spec [Zero K] {r c : ℕ} (h : Shape r c) (v : List K) :
    (∃ m, fromList (r : ℤ) (c : ℤ) v false = .ret m ∧ Is m r c (fun i j => v.getD (i * c + j) 0)) ∧
    (v.length = r * c → fromList (r : ℤ) (c : ℤ) v true = fromList (r : ℤ) (c : ℤ) v false) ∧
    (0 < r → v.length ≠ r * c → fromList (r : ℤ) (c : ℤ) v true = .exn (.mml "MatrixDimensionError")) := by
  rcases h with ⟨rfl, rfl⟩ | ⟨h1, h2, h3, h4, h5⟩
  · refine ⟨⟨⟨0, 0, []⟩, rfl, ⟨rfl, Or.inl ⟨rfl, rfl⟩⟩, rfl, rfl, fun i hi => by omega⟩, fun _ => rfl,
      fun h => by omega⟩
  · have hval : validate r c = .ret () := by
      rw [validate, if_neg (by omega), if_neg (by omega)]
    have step : ∀ b : Bool, fromList (r : ℤ) (c : ℤ) v b =
        if b = true ∧ v.length ≠ r * c then .exn (.mml "MatrixDimensionError")
        else .ret (ofFn r c (fun i j => v.getD (i * c + j) 0)) := by
      intro b
      rw [fromList, if_neg (by omega), if_neg (by omega)]
      simp only [Int.toNat_natCast, hval, Outcome.bind_ret]
      by_cases hb : b = true ∧ v.length ≠ r * c
      · rw [if_pos hb, if_pos hb]
      · rw [if_neg hb, if_neg hb]
        rw [replicate_eq_tab, forRange_fill (min (r * c) v.length) (r * c) (by omega) _ (fun i => v.getD i 0),
          Outcome.bind_ret]
        · congr 1
          have := eq_ofFn (⟨r, c, tab (r * c) (fun k => if k < min (r * c) v.length then v.getD k 0 else 0)⟩ : Dense K)
            (by simp)
          rw [this]
          refine ofFn_congr fun i hi j hj => ?_
          change i < r at hi
          change j < c at hj
          have hlt := idx_lt hi hj
          simp only
          rw [getD_tab _ _ _ hlt]
          by_cases hk : i * c + j < v.length
          · rw [if_pos (by omega)]
          · rw [if_neg (by omega)]
            simp [List.getD, List.getElem?_eq_none (by omega : v.length ≤ i * c + j)]
        · intro i hi d
          have hi' : i < v.length := by omega
          simp [Outcome.index, hi']
    have hs : Shape r c := Or.inr ⟨h1, h2, h3, h4, h5⟩
    refine ⟨⟨_, by rw [step, if_neg (by simp)], is_ofFn hs _⟩, fun hv => ?_, fun _ hv => ?_⟩
    · rw [step, step, if_neg (by simp [hv]), if_neg (by simp)]
    · rw [step, if_pos ⟨rfl, hv⟩]

/-- **C65.**  `operator==` answers true exactly for matrices of the same shape with the same elements. -/
theorem beq_spec [DecidableEq K] [Nonempty K] (a b : Dense K) (r c r' c' : ℕ) (f g : ℕ → ℕ → K) (ha : Is a r c f)
    (hb : Is b r' c' g) :
    beq a b = true ↔ r = r' ∧ c = c' ∧ ∀ i < r, ∀ j < c, f i j = g i j := by
  obtain ⟨ha1, ha2, ha3, ha4⟩ := ha
  obtain ⟨hb1, hb2, hb3, hb4⟩ := hb
  subst ha2 ha3 hb2 hb3
  constructor
  · intro h
    by_cases hd : a.rows ≠ b.rows ∨ a.cols ≠ b.cols
    · rw [beq, if_pos hd] at h; cases h
    · rw [beq, if_neg hd] at h
      have hdata : a.data = b.data := by simpa using h
      refine ⟨by omega, by omega, fun i hi j hj => ?_⟩
      have e1 := ha4 i hi j hj
      have e2 := hb4 i (by omega) j (by omega)
      have hc : a.cols = b.cols := by omega
      rw [get, idx, hdata, hc] at e1
      rw [get, idx, e1] at e2
      exact Outcome.ret.inj e2
  · rintro ⟨h1, h2, h3⟩
    have e : a = b := by
      obtain ⟨_, ea⟩ := is_unique.1 (⟨ha1, rfl, rfl, ha4⟩ : Is a a.rows a.cols f)
      obtain ⟨_, eb⟩ := is_unique.1 (⟨hb1, rfl, rfl, hb4⟩ : Is b b.rows b.cols g)
      rw [ea, eb, h1, h2]
      exact ofFn_congr fun i hi j hj => h3 i (by omega) j (by omega)
    subst e
    rw [beq, if_neg (by simp)]
    simp

/-- **C65, negated.**  The identity matrix is reported anti-symmetric, although its diagonal is not zero. -/
theorem isAntiSymmetric_accepts_identity :
    (⟨2, 2, [1, 0, 0, 1]⟩ : Dense ℤ).isAntiSymmetric 0 = .ret true := by decide

example : (⟨2, 2, [1, 5, 5, 1]⟩ : Dense ℤ).isSymmetric 0 = .ret true := by decide

end Verif.Mat.Dense
