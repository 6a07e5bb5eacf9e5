import Verif.LinAlg.CholeskyLemmas
import Verif.LinAlg.GJProps
import Mathlib.Analysis.SpecialFunctions.Log.Basic
import Mathlib.LinearAlgebra.Matrix.Block

/-!
# Properties of `CholeskySolver` (C37, C38)
-/

set_option autoImplicit false

namespace Verif.LinAlg.Chol

open Verif.Mat
open Verif.Mat.Dense (Valid Is Shape ofFn)

variable {K : Type} [Field K] [LinearOrder K] [IsStrictOrderedRing K]

/-- `sqrt` is a square root on the positive numbers. -/
def IsSqrt (sqrt : K → K) : Prop := ∀ x, 0 < x → 0 < sqrt x ∧ sqrt x * sqrt x = x

/-- `A` is symmetric. -/
def Symm (n : ℕ) (A : ℕ → ℕ → K) : Prop := ∀ i < n, ∀ j < n, A i j = A j i

/-- `A` is positive definite. -/
def PosDef (n : ℕ) (A : ℕ → ℕ → K) : Prop :=
  ∀ v : ℕ → K, (∃ k < n, v k ≠ 0) → 0 < ∑ r ∈ Finset.range n, ∑ c ∈ Finset.range n, v r * A r c * v c

/-- The symmetric matrix with the upper triangle of `A`. -/
def mirror (A : ℕ → ℕ → K) (i j : ℕ) : K := if i ≤ j then A i j else A j i

/-! ## Lemmas -/

theorem minmax (A : ℕ → ℕ → K) (r c : ℕ) : A (min r c) (max r c) = mirror A r c := by
  rw [mirror]
  split
  · rw [min_eq_left (by assumption), max_eq_right (by assumption)]
  · rw [min_eq_right (by omega), max_eq_left (by omega)]

theorem mirror_symm {n : ℕ} {A : ℕ → ℕ → K} (h : Symm n A) {i j : ℕ} (hi : i < n) (hj : j < n) : mirror A i j = A i j := by
  rw [mirror]
  split
  · rfl
  · exact h j hj i hi

theorem form_eq (n : ℕ) (A : ℕ → ℕ → K) (v : ℕ → K) :
    form n A v = ∑ r ∈ Finset.range n, ∑ c ∈ Finset.range n, v r * mirror A r c * v c := by
  rw [form]
  exact Finset.sum_congr rfl fun r _ => Finset.sum_congr rfl fun c _ => by rw [minmax A]

theorem isSymmetric_iff {n : ℕ} (A : ℕ → ℕ → K) (hs : Shape n n) (tol : K) (ht : 0 ≤ tol) :
    ∃ b, (ofFn n n A).isSymmetric tol = .ret b ∧ (b = true ↔ ∀ i < n, ∀ j < n, |A i j - A j i| ≤ tol) := by
  obtain ⟨b, hb, hb'⟩ := (Dense.predicates_spec (ofFn n n A) n n A (Dense.is_ofFn hs A) tol).2.2.1
  refine ⟨b, hb, hb'.trans ⟨fun h i hi j hj => ?_, fun h => ⟨rfl, fun i hi j hj _ => h i hi j hj⟩⟩⟩
  rcases lt_trichotomy i j with hij | hij | hij
  · exact h.2 i hi j hj hij
  · subst hij; simpa using ht
  · rw [abs_sub_comm]; exact h.2 j hj i hi hij

/-- What is known of a successfully constructed solver. -/
theorem new_factor {n : ℕ} {sqrt : K → K} (hsq : IsSqrt sqrt) {tol : K} (ht : 0 ≤ tol) {a : Dense K} {A : ℕ → ℕ → K}
    (ha : Is a n n A) {s : Chol K} (hs : new sqrt tol a = .ret s) :
    n ≠ 0 ∧ (∀ i < n, ∀ j < n, |A i j - A j i| ≤ tol) ∧ ∃ L, s = ⟨ofFn n n L⟩ ∧ Factor n A L := by
  obtain ⟨hsh, rfl⟩ := Dense.is_unique.1 ha
  have hn : n ≠ 0 := by
    rintro rfl
    rw [new, if_neg (by simp), if_pos (by simp)] at hs
    cases hs
  obtain ⟨b, hb, hb'⟩ := isSymmetric_iff A hsh tol ht
  cases b with
  | false =>
    rw [new, if_neg (by simp), if_neg (by simpa using hn), hb, Outcome.bind_ret, if_pos (by simp)] at hs
    cases hs
  | true =>
    have h := new_sat sqrt hsq tol A hn hb (fun _ => True) (fun _ => trivial)
    rw [hs] at h
    obtain ⟨L, h1, h2⟩ := h
    obtain ⟨el⟩ := s
    exact ⟨hn, hb'.1 rfl, L, by rw [← h1], h2⟩

/-! ## The constructor -/

/-- **C37 (Cholesky).**  The constructor refuses a matrix that is not square, is empty, or is not symmetric to within
the tolerance. -/
theorem new_reject (sqrt : K → K) (tol : K) (ht : 0 ≤ tol) (a : Dense K) :
    ((a.rows ≠ a.cols ∨ a.rows = 0) → new sqrt tol a = .exn (.mml "MatrixDimensionError")) ∧
    (∀ n A, Is a n n A → (∃ i < n, ∃ j < n, tol < |A i j - A j i|) →
      new sqrt tol a = .exn (.mml "MatrixDimensionError")) := by
  refine ⟨fun h => ?_, fun n A ha h => ?_⟩
  · rw [new]
    split
    · rfl
    · rw [if_pos (by omega)]
  · obtain ⟨hsh, rfl⟩ := Dense.is_unique.1 ha
    obtain ⟨i, hi, j, hj, hlt⟩ := h
    obtain ⟨b, hb, hb'⟩ := isSymmetric_iff A hsh tol ht
    cases b with
    | true => exact absurd (hb'.1 rfl i hi j hj) (not_le.2 hlt)
    | false =>
      rw [new, if_neg (by simp), if_neg (by simp; omega), hb, Outcome.bind_ret, if_pos (by simp)]

/-- **C37 (Cholesky).**  A matrix that is symmetric to within the tolerance is accepted if and only if the symmetric
matrix with its upper triangle is positive definite, and is reported as singular otherwise. -/
theorem new_decides_mirror (sqrt : K → K) (hsq : IsSqrt sqrt) (tol : K) (ht : 0 ≤ tol) (a : Dense K) (n : ℕ)
    (A : ℕ → ℕ → K) (ha : Is a n n A) (hn : 0 < n) (hsym : ∀ i < n, ∀ j < n, |A i j - A j i| ≤ tol) :
    (PosDef n (mirror A) → ∃ s, new sqrt tol a = .ret s) ∧
    (¬ PosDef n (mirror A) → new sqrt tol a = .exn (.mml "SingularMatrixError")) := by
  obtain ⟨hsh, rfl⟩ := Dense.is_unique.1 ha
  obtain ⟨b, hb, hb'⟩ := isSymmetric_iff A hsh tol ht
  obtain rfl : b = true := hb'.2 hsym
  refine ⟨fun hpd => ?_, fun hpd => ?_⟩
  · have h := new_sat sqrt hsq tol A (by omega) hb (fun _ => False) (by
      rintro ⟨v, hv, hle⟩
      rw [form_eq] at hle
      exact absurd (hpd v hv) (not_lt.2 hle))
    cases hc : new sqrt tol (ofFn n n A) with
    | ub => rw [hc] at h; exact h.elim
    | exn e => rw [hc] at h; exact h.elim
    | ret s => exact ⟨s, rfl⟩
  · have h := new_sat sqrt hsq tol A (by omega) hb (fun e => e = .mml "SingularMatrixError") (fun _ => rfl)
    cases hc : new sqrt tol (ofFn n n A) with
    | ub => rw [hc] at h; exact h.elim
    | exn e => rw [hc] at h; exact congrArg _ h
    | ret s =>
      rw [hc] at h
      obtain ⟨L, _, hL⟩ := h
      refine absurd (fun v hv => ?_) hpd
      rw [← form_eq]
      exact hL.form_pos v hv

/-- **C37 (Cholesky).**  A symmetric matrix is accepted if and only if it is positive definite, and is reported as
singular otherwise. -/
theorem new_decides (sqrt : K → K) (hsq : IsSqrt sqrt) (tol : K) (ht : 0 ≤ tol) (a : Dense K) (n : ℕ) (A : ℕ → ℕ → K)
    (ha : Is a n n A) (hn : 0 < n) (hsym : Symm n A) :
    (PosDef n A → ∃ s, new sqrt tol a = .ret s) ∧
    (¬ PosDef n A → new sqrt tol a = .exn (.mml "SingularMatrixError")) := by
  have h : PosDef n (mirror A) ↔ PosDef n A := by
    refine forall_congr' fun v => imp_congr_right fun _ => ?_
    rw [Finset.sum_congr rfl fun r hr => Finset.sum_congr rfl fun c hc => by
      rw [mirror_symm hsym (Finset.mem_range.1 hr) (Finset.mem_range.1 hc)]]
  rw [← h]
  exact new_decides_mirror sqrt hsq tol ht a n A ha hn fun i hi j hj => by
    rw [hsym i hi j hj, sub_self, abs_zero]; exact ht

/-- **C37 (Cholesky).**  `L()` is lower triangular with a positive diagonal, and `L * Lᵀ` is the matrix. -/
theorem factor_correct (sqrt : K → K) (hsq : IsSqrt sqrt) (tol : K) (ht : 0 ≤ tol) (a : Dense K) (n : ℕ)
    (A : ℕ → ℕ → K) (ha : Is a n n A) (hsym : Symm n A) (s : Chol K) (hs : new sqrt tol a = .ret s) :
    ∃ L, Is s.el n n L ∧ (∀ i < n, 0 < L i i) ∧ (∀ i < n, ∀ j < n, i < j → L i j = 0) ∧
      ∀ i < n, ∀ j < n, ∑ k ∈ Finset.range n, L i k * L j k = A i j := by
  obtain ⟨hn, _, L, rfl, hL⟩ := new_factor hsq ht ha hs
  refine ⟨L, Dense.is_ofFn (Dense.is_unique.1 ha).1 L, hL.pos, hL.zero, fun i hi j hj => ?_⟩
  rw [hL.prod i hi j hj, minmax A, mirror_symm hsym hi hj]

/-! ## Solving -/

/-- **C37 (Cholesky).**  For a symmetric matrix, `Solve` returns the `x` with `A * x = b`, whatever the output vector
held before and whatever its length; a wrong length of `b` is refused. -/
theorem solve_solves (sqrt : K → K) (hsq : IsSqrt sqrt) (tol : K) (ht : 0 ≤ tol) (a : Dense K) (n : ℕ)
    (A : ℕ → ℕ → K) (ha : Is a n n A) (hsym : Symm n A) (s : Chol K) (hs : new sqrt tol a = .ret s) (b : List K) :
    (b.length = n → (∃ x, s.solve b = .ret x ∧ a.mulVec x = .ret b) ∧
      ∀ x0, ∃ x, s.solveInto b x0 = .ret x ∧ a.mulVec x = .ret b) ∧
    (b.length ≠ n → s.solve b = .exn (.mml "VectorDimensionError") ∧
      ∀ x0, s.solveInto b x0 = .exn (.mml "VectorDimensionError")) := by
  obtain ⟨hn, _, L, rfl, hL⟩ := new_factor hsq ht ha hs
  obtain ⟨hsh, rfl⟩ := Dense.is_unique.1 ha
  have bad : b.length ≠ n → ∀ x0, solveInto ⟨ofFn n n L⟩ b x0 = .exn (.mml "VectorDimensionError") := fun hb x0 => by
    rw [solveInto, if_pos (by simpa using hb)]
  refine ⟨fun hb => ?_, fun hb => ⟨bad hb _, bad hb⟩⟩
  obtain ⟨B, rfl⟩ : ∃ B, b = tab n B := ⟨_, hb ▸ eq_tab b 0⟩
  have key : ∀ x0, ∃ x, solveInto ⟨ofFn n n L⟩ (tab n B) x0 = .ret x ∧ (ofFn n n A).mulVec x = .ret (tab n B) := by
    intro x0
    obtain ⟨x, hx, hx'⟩ := solveInto_spec hL B x0
    refine ⟨tab n x, hx, ?_⟩
    rw [Dense.mulVec_ofFn]
    congr 1
    refine tab_congr fun r hr => ?_
    rw [← hx' r hr]
    exact Finset.sum_congr rfl fun c hc => by rw [minmax A, mirror_symm hsym hr (Finset.mem_range.1 hc)]
  exact ⟨key _, key⟩

/-- **C37 (Cholesky).**  The tolerance lets matrices through that are not symmetric, and their system is then not the
one that is solved: only the upper triangle is used. -/
theorem solve_near_symmetric (tol : ℝ) (ht : 0 < tol) :
    ∃ (a : Dense ℝ) (A : ℕ → ℕ → ℝ) (s : Chol ℝ) (x : List ℝ), Is a 2 2 A ∧ new Real.sqrt tol a = .ret s ∧
      s.solve [1, 1] = .ret x ∧ a.mulVec x ≠ .ret [1, 1] := by
  have hsq : IsSqrt Real.sqrt := fun x hx => ⟨Real.sqrt_pos.2 hx, Real.mul_self_sqrt hx.le⟩
  let A : ℕ → ℕ → ℝ := fun i j => if i = j then 1 else if i = 1 then tol else 0
  have hsh : Shape 2 2 := Or.inr (by decide)
  have hm : ∀ i < 2, ∀ j < 2, mirror A i j = if i = j then 1 else 0 := by
    intro i hi j hj
    interval_cases i <;> interval_cases j <;> simp [mirror, A]
  have ha := Dense.is_ofFn hsh A
  obtain ⟨s, hs⟩ := (new_decides_mirror Real.sqrt hsq tol ht.le _ 2 A ha (by omega) (by
    intro i hi j hj
    interval_cases i <;> interval_cases j <;> simp [A, abs_of_pos ht, ht.le])).1 (by
      rintro v ⟨k, hk, hv⟩
      have e : ∑ r ∈ Finset.range 2, ∑ c ∈ Finset.range 2, v r * mirror A r c * v c = v 0 ^ 2 + v 1 ^ 2 := by
        simp [Finset.sum_range_succ, hm]; ring
      rw [e]
      interval_cases k
      · have := sq_pos_of_ne_zero hv; positivity
      · have := sq_pos_of_ne_zero hv; positivity)
  obtain ⟨_, _, L, rfl, hL⟩ := new_factor hsq ht.le ha hs
  obtain ⟨x, hx, hx'⟩ := solveInto_spec hL (fun _ => 1) (List.replicate 2 0)
  refine ⟨_, A, _, tab 2 x, ha, hs, hx, ?_⟩
  rw [Dense.mulVec_ofFn]
  intro h
  injection h with h
  have h0 := hx' 0 (by omega)
  have h1 := hx' 1 (by omega)
  simp [Finset.sum_range_succ, A] at h0 h1
  have e : (tab 2 fun r => ∑ k ∈ Finset.range 2, A r k * x k)[1]? = some 1 := by rw [h]; rfl
  rw [getElem?_tab, if_pos (by omega)] at e
  injection e with e
  simp [Finset.sum_range_succ, A, h0, h1] at e
  exact absurd e ht.ne'

/-- **C38 (Cholesky).**  `inverse(ainv)` stores the inverse, whatever shape and contents `ainv` had. -/
theorem inverse_correct (sqrt : K → K) (hsq : IsSqrt sqrt) (tol : K) (ht : 0 ≤ tol) (a : Dense K) (n : ℕ)
    (A : ℕ → ℕ → K) (ha : Is a n n A) (hsym : Symm n A) (s : Chol K) (hs : new sqrt tol a = .ret s) (ainv : Dense K)
    (hv : Valid ainv) :
    ∃ v, s.inverse ainv = .ret v ∧ Valid v ∧ (∃ e, a.mul v = .ret e ∧ Is e n n (δ K)) ∧
      ∃ e, v.mul a = .ret e ∧ Is e n n (δ K) := by
  obtain ⟨hn, _, L, rfl, hL⟩ := new_factor hsq ht ha hs
  obtain ⟨hsh, rfl⟩ := Dense.is_unique.1 ha
  obtain ⟨g, hg⟩ : ∃ g, ainv.resize n n false = .ret (ofFn n n g) := by
    obtain ⟨r, c, f, hsf, rfl⟩ := hv.exists_ofFn
    by_cases he : n = r ∧ n = c
    · obtain ⟨rfl, h⟩ := he
      subst h
      exact ⟨f, by rw [Dense.resize, if_pos (by simp)]⟩
    · obtain ⟨m', h1, h2⟩ := Dense.resize_clears (ofFn r c f) r c n n f (Dense.is_ofFn hsf f) hsh (by omega) he
      exact ⟨_, by rw [h1, (Dense.is_unique.1 h2).2]⟩
  obtain ⟨t, ht, X, e1, x1, x2, e2, e3, hX⟩ := forRange_rule
    (fun j (t : Dense K × List K × List K) => ∃ X : ℕ → ℕ → K, t.1 = ofFn n n X ∧ ∃ x1 x2 : ℕ → K,
      t.2.1 = tab n x1 ∧ t.2.2 = tab n x2 ∧
      ∀ c < j, ∀ r < n, ∑ k ∈ Finset.range n, A (min r k) (max r k) * X k c = δ K r c)
    n (ofFn n n g, List.replicate n 0, List.replicate n 0) (inverseStep ⟨ofFn n n L⟩ n)
    ⟨g, rfl, _, _, replicate_eq_tab _ _, replicate_eq_tab _ _, fun c hc => by omega⟩
    (by
      rintro j ⟨m, u, w⟩ hj ⟨X, e1, x1, x2, e2, e3, hX⟩
      simp only at e1 e2 e3
      subst e1 e2 e3
      obtain ⟨x, hx, hx'⟩ := solveInto_spec hL (fun i => if i = j then 1 else 0) (tab n x2)
      have hei : forRange n (tab n x1) (fun ei i => Outcome.store ei i (if i = j then 1 else 0)) =
          .ret (tab n (fun i => if i = j then (1 : K) else 0)) := by
        rw [forRange_fill n n le_rfl _ (fun i => if i = j then (1 : K) else 0) _ (fun i _ r => rfl)]
        congr 1
        exact tab_congr fun i hi => by rw [if_pos hi]
      refine ⟨_, by
        rw [inverseStep]
        simp only
        rw [hei, Outcome.bind_ret, hx, Outcome.bind_ret]
        have := Dense.forRange_rowOfT j n X x hj le_rfl (fun m i => do
          let x ← Outcome.index (tab n x) i
          m.set i j x) (fun i hi m => by rw [index_tab _ hi, Outcome.bind_ret])
        rw [this, Outcome.bind_ret], fun p q => if q = j ∧ p < n then x p else X p q, rfl, _, _, rfl, rfl, fun c hc r hr => ?_⟩
      by_cases hcj : c = j
      · subst hcj
        rw [Finset.sum_congr rfl fun k hk => by beta_reduce; rw [if_pos ⟨rfl, Finset.mem_range.1 hk⟩], hx' r hr, δ]
      · rw [Finset.sum_congr rfl fun k hk => by beta_reduce; rw [if_neg (by omega)]]
        exact hX c (by omega) r hr)
  have hX' : ∀ r < n, ∀ c < n, ∑ k ∈ Finset.range n, A r k * X k c = δ K r c := by
    intro r hr c hc
    rw [← hX c hc r hr]
    exact Finset.sum_congr rfl fun k hk => by rw [minmax A, mirror_symm hsym hr (Finset.mem_range.1 hk)]
  refine ⟨ofFn n n X, ?_, Dense.valid_ofFn hsh X, ⟨_, Dense.mul_ofFn hsh A X, ?_⟩, _, Dense.mul_ofFn hsh X A, ?_⟩
  · rw [inverse]
    simp only [Dense.ofFn_rows]
    rw [hg, Outcome.bind_ret, ht, Outcome.bind_ret, e1]
  · exact Dense.is_unique.2 ⟨hsh, Dense.ofFn_congr hX'⟩
  · refine Dense.is_unique.2 ⟨hsh, Dense.ofFn_congr fun r hr c hc => ?_⟩
    exact right_inverse (A := X) (R := A) hX' r hr c hc

/-- **C38 (Cholesky).**  `logdet()` is the logarithm of the determinant, which is positive. -/
theorem logdet_correct (tol : ℝ) (ht : 0 ≤ tol) (a : Dense ℝ) (n : ℕ)
    (A : ℕ → ℕ → ℝ) (ha : Is a n n A) (hsym : Symm n A) (s : Chol ℝ) (hs : new Real.sqrt tol a = .ret s) :
    0 < Matrix.det (Matrix.of fun i j : Fin n => A i j) ∧
    s.logdet Real.log = .ret (Real.log (Matrix.det (Matrix.of fun i j : Fin n => A i j))) := by
  have hsq : IsSqrt Real.sqrt := fun x hx => ⟨Real.sqrt_pos.2 hx, Real.mul_self_sqrt hx.le⟩
  obtain ⟨hn, _, L, rfl, hL⟩ := new_factor hsq ht ha hs
  let M : Matrix (Fin n) (Fin n) ℝ := Matrix.of fun i j => L i j
  have hM : M.det = ∏ i ∈ Finset.range n, L i i := by
    have : M.BlockTriangular OrderDual.toDual := by
      intro i j hij
      have hij' : i < j := hij
      simp only [M, Matrix.of_apply]
      exact hL.zero i i.2 j j.2 hij'
    rw [Matrix.det_of_lowerTriangular _ this, ← Fin.prod_univ_eq_prod_range (fun i => L i i) n]
    exact Finset.prod_congr rfl fun i _ => by simp [M]
  have hA : (Matrix.of fun i j : Fin n => A i j) = M * M.transpose := by
    ext i j
    rw [Matrix.of_apply, Matrix.mul_apply]
    simp only [M, Matrix.transpose_apply, Matrix.of_apply]
    rw [Fin.sum_univ_eq_sum_range (fun k => L i k * L j k) n, hL.prod i i.2 j j.2, minmax A, mirror_symm hsym i.2 j.2]
  have hdet : Matrix.det (Matrix.of fun i j : Fin n => A i j) = (∏ i ∈ Finset.range n, L i i) * ∏ i ∈ Finset.range n, L i i := by
    rw [hA, Matrix.det_mul, Matrix.det_transpose, hM]
  have hpos : 0 < ∏ i ∈ Finset.range n, L i i := Finset.prod_pos fun i hi => hL.pos i (Finset.mem_range.1 hi)
  refine ⟨by rw [hdet]; exact mul_pos hpos hpos, ?_⟩
  rw [hdet, Real.log_mul hpos.ne' hpos.ne', Real.log_prod fun i hi => (hL.pos i (Finset.mem_range.1 hi)).ne', logdet]
  simp only [Dense.ofFn_rows]
  rw [forRange_sum n _ _ (fun i => Real.log (L i i)) (fun i hi s => by
    rw [Dense.get_ofFn _ hi hi, Outcome.bind_ret]), Outcome.bind_ret, zero_add, two_mul]

/-! ## The hypotheses are met -/

example : IsSqrt Real.sqrt := fun _ hx => ⟨Real.sqrt_pos.2 hx, Real.mul_self_sqrt hx.le⟩

/-- Enough of a square root for the examples. -/
def exSqrt (x : ℚ) : ℚ := if x = 4 then 2 else if x = 9 then 3 else 0

def exC : Dense ℚ := ⟨2, 2, [4, 2, 2, 10]⟩

example : (new exSqrt 0 exC >>= fun s => .ret s.el) = .ret ⟨2, 2, [2, 0, 1, 3]⟩ := by decide +kernel
example : (new exSqrt 0 exC >>= fun s => s.solve [8, 22]) = .ret [1, 2] := by decide +kernel
example : (new exSqrt 0 exC >>= fun s => s.inverse ⟨0, 0, []⟩) = .ret ⟨2, 2, [5 / 18, -1 / 18, -1 / 18, 1 / 9]⟩ := by
  decide +kernel
example : (new exSqrt 0 ⟨2, 2, [4, 2, 2, 1]⟩ >>= fun s => .ret s.el) = .exn (.mml "SingularMatrixError") := by
  decide +kernel

example : PosDef 2 (fun i j => if i = j then 2 else (1 : ℝ)) := by
  rintro v ⟨k, hk, hv⟩
  have e : ∑ r ∈ Finset.range 2, ∑ c ∈ Finset.range 2, v r * (if r = c then 2 else (1 : ℝ)) * v c =
      v 0 ^ 2 + v 1 ^ 2 + (v 0 + v 1) ^ 2 := by
    simp [Finset.sum_range_succ]; ring
  rw [e]
  interval_cases k
  · have := sq_pos_of_ne_zero hv; positivity
  · have := sq_pos_of_ne_zero hv; positivity

end Verif.LinAlg.Chol
