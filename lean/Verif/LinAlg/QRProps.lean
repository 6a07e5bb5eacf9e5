import Verif.LinAlg.QRSolve
import Verif.Mat.DenseProps
import Verif.LinAlg.GJProps

/-!
# C98: the QR solver

`A` is an `m × n` matrix with `m ≥ n ≥ 1`, given by its elements; `eps` is any positive tolerance.  `resid m n A b x` is
`‖A x - b‖²` (`QRSolve.lean`).
-/

set_option autoImplicit false

namespace Verif.LinAlg.QR

open Verif.Mat Finset

variable {eps : ℝ} {m n : ℕ} {A : ℕ → ℕ → ℝ} {a : Dense ℝ}

/-- The zero matrix of one element, the one singular matrix that is not detected. -/
def Zero11 (m n : ℕ) (A : ℕ → ℕ → ℝ) : Prop := m = 1 ∧ n = 1 ∧ A 0 0 = 0

theorem made (heps : 0 < eps) (ha : Dense.Is a m n A) (hnm : n ≤ m) (hn : 0 < n) {s : QR} (hs : new eps a = .ret s) :
    Dense.Shape m n ∧ ∃ f c d, Dec eps m n A s f c d := by
  obtain ⟨hsh, rfl⟩ := Dense.is_unique.1 ha
  obtain ⟨s', f, c, d, h1, h2⟩ := new_dec heps hnm hn A
  rw [h1] at hs
  obtain rfl := Outcome.ret.inj hs
  exact ⟨hsh, f, c, d, h2⟩

theorem shape_nn (hsh : Dense.Shape m n) (hnm : n ≤ m) (hn : 0 < n) : Dense.Shape n n := by
  rcases hsh with ⟨_, h⟩ | ⟨h1, h2, h3, h4, h5⟩
  · omega
  · exact Or.inr ⟨hn, hn, h4, h4, (Nat.mul_le_mul_right n hnm).trans h5⟩

/-- **C98.**  The constructor accepts every matrix with at least as many rows as columns.  `GetQ` has orthonormal columns,
`GetR` is upper triangular, and `Q R` is `A`: exactly if the matrix is not reported singular, and otherwise with an error
in each column of Euclidean length at most `√m eps`. -/
theorem qr_factor (heps : 0 < eps) (ha : Dense.Is a m n A) (hnm : n ≤ m) (hn : 0 < n) :
    ∃ s q r Q R, new eps a = .ret s ∧ getQ s = .ret q ∧ getR s = .ret r ∧ Dense.Is q m n Q ∧ Dense.Is r n n R ∧
      (∀ j < n, ∀ k < n, ∑ i ∈ range m, Q i j * Q i k = if j = k then 1 else 0) ∧
      (∀ i < n, ∀ j < i, R i j = 0) ∧
      (s.sing = false → ∀ i < m, ∀ j < n, A i j = ∑ t ∈ range n, Q i t * R t j) ∧
      ∀ j < n, ∑ i ∈ range m, (A i j - ∑ t ∈ range n, Q i t * R t j) ^ 2 ≤ m * eps ^ 2 := by
  obtain ⟨hsh, rfl⟩ := Dense.is_unique.1 ha
  obtain ⟨s, f, c, d, h1, h2⟩ := new_dec heps hnm hn A
  have hshn := shape_nn hsh hnm hn
  have hA : ∀ j, Qm m (V f) c n (Qt m (V f) c n fun i => A i j) = fun i => A i j := fun j => Qm_Qt h2.good le_rfl _
  refine ⟨s, _, _, _, _, h1, h2.getQ hsh hnm, h2.getR hshn hnm, Dense.is_ofFn hsh _, Dense.is_ofFn hshn _,
    fun j hj k hk => ?_, fun i hi j hj => ?_, fun hs i hi j hj => ?_, fun j hj => ?_⟩
  · exact (dot_Qm h2.good le_rfl (unit j) (unit k)).trans (dot_unit (by omega))
  · rw [R, if_neg (by omega), if_neg (by omega)]
  · rw [h2.prod hj i hi, ← Qm_congr n (fun i hi => h2.exact hs j hj i hi) i hi, hA]
  · refine le_trans (le_of_eq ?_) (h2.err j hj)
    rw [← dot_Qm h2.good le_rfl, Qm_sub, hA]
    refine sum_congr rfl fun i hi => ?_
    rw [h2.prod hj i (mem_range.1 hi)]
    exact sq _

/-- **C98.**  A matrix with more columns than rows is refused. -/
theorem qr_wide (ha : Dense.Is a m n A) (h : m < n) : new eps a = .exn (.mml "MatrixDimensionError") := by
  obtain ⟨_, rfl, rfl, _⟩ := ha
  rw [new, if_pos h]

/-- **C98.**  `QtMultiply` and `QMultiply` undo each other and preserve inner products, and the first `n` columns of `GetQ`
are the images under `QMultiply` of the unit vectors. -/
theorem qr_multiply (heps : 0 < eps) (ha : Dense.Is a m n A) (hnm : n ≤ m) (hn : 0 < n) {s : QR} (hs : new eps a = .ret s)
    (b b' : ℕ → ℝ) :
    ∃ y y' z, qtMultiply s (tab m b) = .ret (tab m y) ∧ qtMultiply s (tab m b') = .ret (tab m y') ∧
      qMultiply s (tab m b) = .ret (tab m z) ∧
      qMultiply s (tab m y) = .ret (tab m b) ∧ qtMultiply s (tab m z) = .ret (tab m b) ∧
      ∑ i ∈ range m, y i * y' i = ∑ i ∈ range m, b i * b' i ∧
      ∃ q Q, getQ s = .ret q ∧ Dense.Is q m n Q ∧ ∀ j < n, qMultiply s (tab m fun i => if i = j then 1 else 0) =
        .ret (tab m fun i => Q i j) := by
  obtain ⟨hsh, f, c, d, h⟩ := made heps ha hnm hn hs
  refine ⟨_, _, _, h.qt hnm b, h.qt hnm b', h.qm hnm b, ?_, ?_, dot_Qt h.good le_rfl b b', _, _, h.getQ hsh hnm,
    Dense.is_ofFn hsh _, fun j _ => h.qm hnm _⟩
  · rw [h.qm hnm, Qm_Qt h.good le_rfl]
  · rw [h.qt hnm, Qt_Qm h.good le_rfl]

/-- **C98.**  `LeastSquaresSolve` returns the one vector for which `‖A x - b‖` is smallest. -/
theorem qr_leastSquares (heps : 0 < eps) (ha : Dense.Is a m n A) (hnm : n ≤ m) (hn : 0 < n) (hz : ¬Zero11 m n A) {s : QR}
    (hs : new eps a = .ret s) (hsing : s.sing = false) (b : ℕ → ℝ) :
    ∃ x, leastSquares s (tab m b) = .ret (tab n x) ∧
      ∀ z, resid m n A b x ≤ resid m n A b z ∧ (resid m n A b z = resid m n A b x → ∀ j < n, z j = x j) := by
  obtain ⟨hsh, f, c, d, h⟩ := made heps ha hnm hn hs
  have hd := h.dnz hsing hz
  obtain ⟨x, hx, hy⟩ := h.rsolve hnm hsing hd (Qt m (V f) c n b)
  refine ⟨x, ?_, h.min hnm hsing hd hy⟩
  rw [leastSquares, h.rows, h.cols, length_tab, if_neg (by simp), hsing, if_neg (by simp), h.qt hnm, Outcome.bind_ret, ← hx]
  congr 1
  apply List.ext_getElem?
  intro k
  rw [List.getElem?_take, getElem?_tab, getElem?_tab]
  by_cases hk : k < n
  · rw [if_pos hk, if_pos hk, if_pos (by omega)]
  · rw [if_neg hk, if_neg hk]

/-- **C98.**  For a square matrix not reported singular `Solve` returns the one solution of `A x = b`, `det` the
determinant and `inverse` the inverse. -/
theorem qr_square (heps : 0 < eps) (ha : Dense.Is a n n A) (hn : 0 < n) (hz : ¬Zero11 n n A) {s : QR}
    (hs : new eps a = .ret s) (hsing : s.sing = false) :
    (∀ b : ℕ → ℝ, ∃ x, solve s (tab n b) = .ret (tab n x) ∧ (∀ i < n, ∑ j ∈ range n, A i j * x j = b i) ∧
      ∀ z : ℕ → ℝ, (∀ i < n, ∑ j ∈ range n, A i j * z j = b i) → ∀ j < n, z j = x j) ∧
    QR.det s = .ret (Matrix.of fun i j : Fin n => A i j).det ∧ (Matrix.of fun i j : Fin n => A i j).det ≠ 0 ∧
    ∀ v, Dense.Valid v → ∃ w W, inverse s v = .ret w ∧ Dense.Is w n n W ∧
      (∀ i < n, ∀ k < n, ∑ j ∈ range n, A i j * W j k = if i = k then 1 else 0) ∧
      ∀ i < n, ∀ k < n, ∑ j ∈ range n, W i j * A j k = if i = k then 1 else 0 := by
  obtain ⟨hsh, f, c, d, h⟩ := made heps ha le_rfl hn hs
  have hd := h.dnz hsing hz
  have hsolve : ∀ b : ℕ → ℝ, ∃ x, solve s (tab n b) = .ret (tab n x) ∧ (∀ i < n, ∑ j ∈ range n, A i j * x j = b i) ∧
      ∀ z : ℕ → ℝ, (∀ i < n, ∑ j ∈ range n, A i j * z j = b i) → ∀ j < n, z j = x j := by
    intro b
    obtain ⟨x, hx, hy⟩ := h.rsolve le_rfl hsing hd (Qt n (V f) c n b)
    have hAx := h.zero_resid hsing hy
    refine ⟨x, ?_, hAx, fun z hz => (h.min le_rfl hsing hd hy z).2 ?_⟩
    · rw [solve, h.rows, h.cols, length_tab, if_neg (by simp), if_neg (by simp), hsing, if_neg (by simp), h.qt le_rfl,
        Outcome.bind_ret, hx]
    · rw [resid, resid]
      refine sum_congr rfl fun i hi => ?_
      rw [hz i (mem_range.1 hi), hAx i (mem_range.1 hi)]
  have hinv : ∀ v, Dense.Valid v → ∃ w W, inverse s v = .ret w ∧ Dense.Is w n n W ∧
      (∀ i < n, ∀ k < n, ∑ j ∈ range n, A i j * W j k = if i = k then 1 else 0) ∧
      ∀ i < n, ∀ k < n, ∑ j ∈ range n, W i j * A j k = if i = k then 1 else 0 := by
    intro v hv
    obtain ⟨g, hg⟩ : ∃ g, v.resize n n false = .ret (Dense.ofFn n n g) := by
      obtain ⟨r, c, f, hsf, rfl⟩ := hv.exists_ofFn
      by_cases he : n = r ∧ n = c
      · obtain ⟨rfl, h⟩ := he
        subst h
        exact ⟨f, by rw [Dense.resize, if_pos (by simp)]⟩
      · obtain ⟨m', h1, h2⟩ := Dense.resize_clears (Dense.ofFn r c f) r c n n f (Dense.is_ofFn hsf f) hsh (by omega) he
        exact ⟨_, by rw [h1, (Dense.is_unique.1 h2).2]⟩
    choose X hX hAX _ using fun j : ℕ => hsolve (fun i => if i = j then 1 else 0)
    refine ⟨Dense.ofFn n n fun i j => X j i, fun i j => X j i, ?_, Dense.is_ofFn hsh _, fun i hi k _ => hAX k i hi, ?_⟩
    · rw [inverse, h.rows, h.cols, if_neg (by simp), hsing, if_neg (by simp), hg, Outcome.bind_ret]
      obtain ⟨t, ht, hP⟩ := forRange_rule
        (fun j v => v = Dense.ofFn n n (fun p q => if q < j then X q p else g p q)) n (Dense.ofFn n n g) (invCol s n)
        (Dense.ofFn_congr fun i _ k _ => by rw [if_neg (by omega)])
        (by
          rintro j _ hj rfl
          refine ⟨_, by
            rw [invCol, hX j, Outcome.bind_ret, Dense.forRange_rowOfT j n _ (X j) hj le_rfl]
            intro i hi m
            rw [index_tab _ hi, Outcome.bind_ret], Dense.ofFn_congr fun p hp q _ => ?_⟩
          by_cases hq : q = j
          · subst hq; rw [if_pos ⟨rfl, hp⟩, if_pos (by omega)]
          · rw [if_neg (by tauto)]
            by_cases h2 : q < j
            · rw [if_pos h2, if_pos (by omega)]
            · rw [if_neg h2, if_neg (by omega)])
      rw [ht, hP]
      congr 1
      exact Dense.ofFn_congr fun i _ j hj => by rw [if_pos hj]
    · intro i hi k hk
      exact right_inverse (A := fun i j => X j i) (R := A) (fun r hr c hc => hAX c r hr) i hi k hk
  refine ⟨hsolve, h.det hn hsing, ?_, hinv⟩
  obtain ⟨_, W, _, _, hW, _⟩ := hinv a ha.1
  have : (Matrix.of fun i j : Fin n => A i j) * (Matrix.of fun i j : Fin n => W i j) = 1 := by
    ext i k
    rw [Matrix.mul_apply, Matrix.one_apply]
    simp only [Matrix.of_apply]
    rw [Fin.sum_univ_eq_sum_range (fun j => A i j * W j k) n, hW i i.2 k k.2]
    simp only [Fin.ext_iff]
  intro h0
  have := congrArg Matrix.det this
  rw [Matrix.det_mul, h0, zero_mul, Matrix.det_one] at this
  exact zero_ne_one this

/-- **C98.**  Linearly dependent columns are always reported, except in the zero matrix of one element; and what is
reported has a column within `√m eps` or `n eps max|A|` of a combination of the columns before it. -/
theorem qr_singular (heps : 0 < eps) (ha : Dense.Is a m n A) (hnm : n ≤ m) (hn : 0 < n) {s : QR} (hs : new eps a = .ret s) :
    (¬Zero11 m n A → (∃ z : ℕ → ℝ, (∃ j < n, z j ≠ 0) ∧ ∀ i < m, ∑ j ∈ range n, A i j * z j = 0) → s.sing = true) ∧
    (s.sing = true → ∃ i₀ < m, ∃ j₀ < n, ∃ j < n, ∃ z : ℕ → ℝ,
      ∑ i ∈ range m, (A i j - ∑ t ∈ range j, z t * A i t) ^ 2 ≤ max (m * eps ^ 2) ((eps * |A i₀ j₀| * n) ^ 2)) := by
  constructor
  · rintro hz ⟨z, ⟨j, hj, hzj⟩, hA⟩
    by_contra hsing
    have hsing : s.sing = false := by simpa using hsing
    obtain ⟨x, _, hx⟩ := qr_leastSquares heps ha hnm hn hz hs hsing (fun _ => 0)
    have h0 : resid m n A (fun _ => 0) z = 0 :=
      sum_eq_zero fun i hi => by rw [hA i (mem_range.1 hi), sub_zero]; ring
    have h1 : resid m n A (fun _ => 0) (fun _ => 0) = 0 :=
      sum_eq_zero fun i hi => by rw [sum_eq_zero (fun j _ => mul_zero _), sub_zero]; ring
    have hnn : 0 ≤ resid m n A (fun _ => 0) x := sum_nonneg fun i _ => sq_nonneg _
    have h2 : resid m n A (fun _ => 0) x = 0 := le_antisymm ((hx z).1.trans_eq h0) hnn
    have e1 := (hx z).2 (by rw [h0, h2]) j hj
    have e2 := (hx (fun _ => 0)).2 (by rw [h1, h2]) j hj
    exact hzj (e1.trans e2.symm)
  · intro hsing
    obtain ⟨_, f, c, d, h⟩ := made heps ha hnm hn hs
    obtain ⟨norm, ⟨i, hi, j, hj, rfl⟩, k, hk, z, hz⟩ := h.flag hsing
    exact ⟨i, hi, j, hj, k, hk, z, hz⟩

/-- **C98.**  What is refused: vectors of the wrong length, everything but the factors for a matrix reported singular
(whose determinant is zero), and the operations for square matrices when the matrix is not square. -/
theorem qr_refuses (heps : 0 < eps) (ha : Dense.Is a m n A) (hnm : n ≤ m) (hn : 0 < n) {s : QR} (hs : new eps a = .ret s) :
    (∀ b, b.length ≠ m → leastSquares s b = .exn (.mml "VectorDimensionError") ∧
      qtMultiply s b = .exn (.mml "VectorDimensionError") ∧ qMultiply s b = .exn (.mml "VectorDimensionError") ∧
      (m = n → solve s b = .exn (.mml "VectorDimensionError"))) ∧
    (s.sing = true → ∀ b, b.length = m → leastSquares s b = .exn (.mml "SingularMatrixError") ∧
      (m = n → solve s b = .exn (.mml "SingularMatrixError") ∧ QR.det s = .ret 0 ∧
        ∀ v, inverse s v = .exn (.mml "SingularMatrixError"))) ∧
    (m ≠ n → (∀ b, solve s b = .exn (.mml "MatrixDimensionError")) ∧ QR.det s = .exn (.mml "MatrixDimensionError") ∧
      ∀ v, inverse s v = .exn (.mml "MatrixDimensionError")) := by
  obtain ⟨_, f, c, d, h⟩ := made heps ha hnm hn hs
  refine ⟨fun b hb => ⟨?_, ?_, ?_, fun hmn => ?_⟩, fun hsing b hb => ⟨?_, fun hmn => ⟨?_, ?_, fun v => ?_⟩⟩,
    fun hmn => ⟨fun b => ?_, ?_, fun v => ?_⟩⟩
  · rw [leastSquares, h.rows, if_pos hb]
  · rw [qtMultiply, h.rows, if_pos hb]
  · rw [qMultiply, h.rows, if_pos hb]
  · rw [solve, h.rows, h.cols, if_neg (by simpa using hmn), if_pos hb]
  · rw [leastSquares, h.rows, if_neg (by simpa using hb), if_pos hsing]
  · rw [solve, h.rows, h.cols, if_neg (by simpa using hmn), if_neg (by simpa using hb), if_pos hsing]
  · rw [QR.det, h.rows, h.cols, if_neg (by simpa using hmn), if_pos hsing]
  · rw [inverse, h.rows, h.cols, if_neg (by simpa using hmn), if_pos hsing]
  · rw [solve, h.rows, h.cols, if_pos hmn]
  · rw [QR.det, h.rows, h.cols, if_pos hmn]
  · rw [inverse, h.rows, h.cols, if_pos hmn]

/-! ## Where the code falls short -/

/-- The zero matrix of one element is not reported singular, and `Solve` divides by zero. -/
theorem zero11_unreported : ∃ s, new (1 / 1000) (Dense.ofFn 1 1 fun _ _ => (0 : ℝ)) = .ret s ∧ s.sing = false ∧
    ∀ b, solve s [b] = .ub := by
  refine ⟨⟨Dense.ofFn 1 1 fun _ _ => 0, [0], [0], false, 0⟩, ?_, rfl, fun b => ?_⟩
  · simp [new, Dense.ofFn, tab, ncols, forRange, last, Dense.get, Dense.idx, Outcome.index, Outcome.store, maxAbs]
  · simp [solve, qtMultiply, Dense.ofFn, ncols, forRange, rSolve, forDown, backStep, Outcome.index, forFromTo, divU]

/-- A well-conditioned matrix with small elements is reported singular, whatever its scale: the threshold of the columns
is not relative. -/
theorem small_reported : ∃ s, new (1 / 1000) (Dense.ofFn 2 2 fun i j => if i = j then (1 / 2000 : ℝ) else 0) = .ret s ∧
    s.sing = true ∧ QR.det s = .ret 0 := by
  have ha : Dense.Is (Dense.ofFn 2 2 fun i j => if i = j then (1 / 2000 : ℝ) else 0) 2 2
      (fun i j => if i = j then (1 / 2000 : ℝ) else 0) := Dense.is_ofFn (Or.inr (by norm_num)) _
  obtain ⟨s, f, c, d, h1, h2⟩ := new_dec (eps := 1 / 1000) (by norm_num) (le_refl 2) (by norm_num)
    (fun i j => if i = j then (1 / 2000 : ℝ) else 0)
  have hsing : s.sing = true := by
    by_contra h
    have h : s.sing = false := by simpa using h
    rw [new] at h1
    have e1 : (Dense.ofFn 2 2 fun i j => if i = j then (1 / 2000 : ℝ) else 0).rows = 2 := rfl
    have e2 : (Dense.ofFn 2 2 fun i j => if i = j then (1 / 2000 : ℝ) else 0).cols = 2 := rfl
    have e3 : colScale 2 (Dense.ofFn 2 2 fun i j => if i = j then (1 / 2000 : ℝ) else 0) 0 = .ret (1 / 2000) := by
      rw [colScale]
      simp only [forFromTo, forRange, Nat.sub_zero, Outcome.bind_ret, zero_add, add_zero]
      rw [Dense.get_ofFn _ (by norm_num) (by norm_num), Outcome.bind_ret, Outcome.bind_ret,
        Dense.get_ofFn _ (by norm_num) (by norm_num), Outcome.bind_ret]
      norm_num
    rw [e1, e2, if_neg (by norm_num), show ncols 2 2 = 0 + 1 from rfl, forRange, forRange, Outcome.bind_ret, step] at h1
    simp only at h1
    rw [e3, Outcome.bind_ret, if_pos (by norm_num), replicate_eq_tab, store_tab _ (by norm_num), Outcome.bind_ret,
      Outcome.bind_ret, Outcome.bind_ret, if_pos trivial, last, if_neg (by norm_num)] at h1
    simp only at h1
    rw [Dense.get_ofFn _ (by norm_num) (by norm_num), Outcome.bind_ret, store_tab _ (by norm_num), Outcome.bind_ret] at h1
    obtain ⟨x, hx, _⟩ := maxAbs_eq (m := 2) (n := 2) (fun i j => if i = j then (1 / 2000 : ℝ) else 0)
    rw [hx, Outcome.bind_ret] at h1
    have := Outcome.ret.inj h1
    rw [← this] at h
    simp at h
  exact ⟨s, h1, hsing, ((qr_refuses (by norm_num) ha le_rfl (by norm_num) h1).2.1 hsing [0, 0] rfl).2 rfl |>.2.1⟩

/-- A matrix without elements has its element `-1` written. -/
theorem empty_ub : new eps (Dense.ofFn 0 0 fun _ _ => (0 : ℝ)) = .ub := rfl

/-! ## The hypotheses can be met -/

example : Dense.Is (Dense.ofFn 3 2 fun i j => ((i + 2 * j : ℕ) : ℝ)) 3 2 (fun i j => ((i + 2 * j : ℕ) : ℝ)) :=
  Dense.is_ofFn (Or.inr (by norm_num)) _

/-- A matrix that is not reported: the identity, for every tolerance up to a half. -/
example : ∃ s, new (1 / 4) (Dense.ofFn 2 2 fun i j => if i = j then (1 : ℝ) else 0) = .ret s ∧ s.sing = false := by
  have ha : Dense.Is (Dense.ofFn 2 2 fun i j => if i = j then (1 : ℝ) else 0) 2 2
      (fun i j => if i = j then (1 : ℝ) else 0) := Dense.is_ofFn (Or.inr (by norm_num)) _
  obtain ⟨s, f, c, d, h1, h2⟩ := new_dec (eps := 1 / 4) (by norm_num) (le_refl 2) (by norm_num)
    (fun i j => if i = j then (1 : ℝ) else 0)
  refine ⟨s, h1, ?_⟩
  by_contra h
  obtain ⟨i, hi, j, hj, k, hk, z, hz⟩ := (qr_singular (by norm_num) ha le_rfl (by norm_num) h1).2 (by simpa using h)
  have hle : max (((2 : ℕ) : ℝ) * (1 / 4) ^ 2) ((1 / 4 * |if i = j then (1 : ℝ) else 0| * ((2 : ℕ) : ℝ)) ^ 2) ≤ 1 / 4 := by
    refine max_le (by norm_num) ?_
    split_ifs <;> norm_num
  have := hz.trans hle
  interval_cases k <;> norm_num [Finset.sum_range_succ] at this
  nlinarith [sq_nonneg (z 0)]

end Verif.LinAlg.QR
