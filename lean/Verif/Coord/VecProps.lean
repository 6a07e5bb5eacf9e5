import Verif.Deriv.Mixed
import Verif.Coord.TensorProps
import Verif.Deriv.PartialProps

/-!
# Vectors and tensors under a change of coordinates (C102)

The derivatives are difference quotients of order four.  The theorems on accuracy hold for every transformation that is smooth enough; those on affine
transformations are exact.
-/

set_option autoImplicit false

namespace Verif.Coord

open Verif Deriv

variable {N : ℕ}

/-! ## Specification -/

/-- The transformation `x ↦ A x + b` and its inverse `y ↦ B (y - b)`. -/
structure Affine (t : Transf N) (A B : Matrix (Fin N) (Fin N) ℝ) (b : Fin N → ℝ) : Prop where
  fwd : ∀ i x, t.fwd i x = Matrix.mulVec A x i + b i
  inv : ∀ i y, t.inv i y = Matrix.mulVec B (y - b) i
  mul : A * B = 1

/-- The matrix of the partial derivatives. -/
noncomputable def deriv' (f : Fin N → (Fin N → ℝ) → ℝ) (p : Fin N → ℝ) : Matrix (Fin N) (Fin N) ℝ := fun i j => fderiv ℝ (f i) p (Pi.single j 1)

/-! ## The derivative -/

/-- The step used. -/
noncomputable def step (eps : ℝ) (h : Option ℝ) (x : ℝ) : ℝ := h.getD (scaleStep (nDer4H eps) x)

theorem step_pos {eps : ℝ} (he : 0 < eps) (x : ℝ) : 0 < step eps none x := (default_steps_pos eps x he).2.2.1

theorem der_formula (eps : ℝ) (h : Option ℝ) (f : (Fin N → ℝ) → ℝ) (i : Fin N) (p : Fin N → ℝ) (hs : step eps h (p i) ≠ 0) :
    (∃ e, nDer4Partial eps f i p h false = .ret (some (der eps h f i p), e)) ∧
    der eps h f i p = ((f (Function.update p i (p i - 2 * step eps h (p i))) - f (Function.update p i (p i + 2 * step eps h (p i)))) +
      8 * (f (Function.update p i (p i + step eps h (p i))) - f (Function.update p i (p i - step eps h (p i))))) / (12 * step eps h (p i)) := by
  have h1 : nDer4Partial eps f i p h false = .ret (some (((f (Function.update p i (p i - 2 * step eps h (p i))) - f (Function.update p i (p i + 2 * step eps h (p i)))) +
      8 * (f (Function.update p i (p i + step eps h (p i))) - f (Function.update p i (p i - step eps h (p i))))) / (12 * step eps h (p i))), some 0) := by
    rw [nDer4Partial, unchecked, if_neg (by exact hs)]
    rfl
  have h2 : der eps h f i p = ((f (Function.update p i (p i - 2 * step eps h (p i))) - f (Function.update p i (p i + 2 * step eps h (p i)))) +
      8 * (f (Function.update p i (p i + step eps h (p i))) - f (Function.update p i (p i - step eps h (p i))))) / (12 * step eps h (p i)) := by
    rw [der, h1]
  exact ⟨⟨_, by rw [h1, h2]⟩, h2⟩

/-- The number written `der` is what the code's `NDer4Partial` returns, for the default step and for every step that is not zero. -/
theorem der_returned {eps : ℝ} (he : 0 < eps) (f : (Fin N → ℝ) → ℝ) (i : Fin N) (p : Fin N → ℝ) :
    (∃ e, nDer4Partial eps f i p none false = .ret (some (der eps none f i p), e)) ∧
    ∀ h, h ≠ 0 → ∃ e, nDer4Partial eps f i p (some h) false = .ret (some (der eps (some h) f i p), e) :=
  ⟨(der_formula eps none f i p (step_pos he _).ne').1, fun h hh => (der_formula eps (some h) f i p hh).1⟩

theorem der_order {eps : ℝ} (he : 0 < eps) (f : (Fin N → ℝ) → ℝ) (i : Fin N) (p : Fin N → ℝ) {M : ℝ} (hf : SmoothAt f p (2 * step eps none (p i)) 5 M) :
    |der eps none f i p - fderiv ℝ f p (Pi.single i 1)| ≤ 1 / 18 * M * step eps none (p i) ^ 4 := by
  obtain ⟨v, e, h1, h2⟩ := nDer4Partial_order eps f i p _ M none false rfl (step_pos he (p i)) hf
  obtain ⟨e', h3⟩ := (der_returned he f i p).1
  rw [h1] at h3
  have := Outcome.ret.inj h3
  simp only [Prod.mk.injEq, Option.some.injEq] at this
  rw [← this.1]
  exact h2

/-- Exact on polynomials of degree four in the variable. -/
theorem der_poly {eps : ℝ} {h : Option ℝ} (f : (Fin N → ℝ) → ℝ) (i : Fin N) (p : Fin N → ℝ) (hs : step eps h (p i) ≠ 0) (c : Fin 5 → ℝ)
    (hf : ∀ u, f (Function.update p i u) = c 0 + c 1 * u + c 2 * u ^ 2 + c 3 * u ^ 3 + c 4 * u ^ 4) :
    der eps h f i p = c 1 + 2 * c 2 * p i + 3 * c 3 * p i ^ 2 + 4 * c 4 * p i ^ 3 := by
  rw [(der_formula eps h f i p hs).2]
  simp only [hf]
  generalize step eps h (p i) = s at hs
  field_simp
  ring

theorem mulVec_update (A : Matrix (Fin N) (Fin N) ℝ) (x : Fin N → ℝ) (i j : Fin N) (u : ℝ) :
    Matrix.mulVec A (Function.update x j u) i = Matrix.mulVec A x i + A i j * (u - x j) := by
  have h : Function.update x j u = x + Pi.single j (u - x j) := by
    funext k
    by_cases hk : k = j
    · subst hk; simp
    · simp [hk]
  rw [h, Matrix.mulVec_add]
  simp

theorem der_affine {eps : ℝ} {h : Option ℝ} {f : (Fin N → ℝ) → ℝ} {A : Matrix (Fin N) (Fin N) ℝ} {a : Fin N} {b : ℝ} (hf : ∀ x, f x = Matrix.mulVec A x a + b) (i : Fin N)
    (p : Fin N → ℝ) (hs : step eps h (p i) ≠ 0) : der eps h f i p = A a i := by
  rw [der_poly f i p hs ![Matrix.mulVec A p a + b - A a i * p i, A a i, 0, 0, 0] fun u => ?_]
  · simp
  · rw [hf, mulVec_update]
    simp
    ring

theorem Affine.der_fwd {t : Transf N} {A B : Matrix (Fin N) (Fin N) ℝ} {b : Fin N → ℝ} (ht : Affine t A B b) {eps : ℝ} (he : 0 < eps) (i j : Fin N)
    (p : Fin N → ℝ) : der eps none (t.fwd i) j p = A i j :=
  der_affine (ht.fwd i) j p (step_pos he _).ne'

theorem Affine.der_inv {t : Transf N} {A B : Matrix (Fin N) (Fin N) ℝ} {b : Fin N → ℝ} (ht : Affine t A B b) {eps : ℝ} (h : Option ℝ) (i j : Fin N)
    (p : Fin N → ℝ) (hs : step eps h (p j) ≠ 0) : der eps h (t.inv i) j p = B i j :=
  der_affine (A := B) (a := i) (b := -Matrix.mulVec B b i) (fun x => by rw [ht.inv, Matrix.mulVec_sub]; simp [sub_eq_add_neg]) j p hs

namespace Transf

/-! ## Vectors -/

/-- A contravariant vector is multiplied by the matrix of the derivatives, up to the error of the difference quotients. -/
theorem vecContravariant_order {eps : ℝ} (he : 0 < eps) (t : Transf N) (v p : Fin N → ℝ) {s M : ℝ} (hs : ∀ j, step eps none (p j) ≤ s)
    (hf : ∀ i, SmoothAt (t.fwd i) p (2 * s) 5 M) (i : Fin N) :
    |vecContravariant eps t v p i - Matrix.mulVec (deriv' t.fwd p) v i| ≤ 1 / 18 * M * s ^ 4 * ∑ j, |v j| := by
  have e : Matrix.mulVec (deriv' t.fwd p) v i = ∑ j, fderiv ℝ (t.fwd i) p (Pi.single j 1) * v j := rfl
  rw [vecContravariant, e, ← Finset.sum_sub_distrib, Finset.mul_sum]
  refine (Finset.abs_sum_le_sum_abs _ _).trans (Finset.sum_le_sum fun j _ => ?_)
  rw [← sub_mul, abs_mul]
  refine mul_le_mul_of_nonneg_right ?_ (abs_nonneg _)
  have hp := step_pos he (p j)
  have hM : 0 ≤ M := (norm_nonneg _).trans ((hf i).bound p (by simp; linarith [hs j]))
  refine (der_order he (t.fwd i) j p ((hf i).mono (by linarith [hs j]))).trans ?_
  have := pow_le_pow_left₀ hp.le (hs j) 4
  exact mul_le_mul_of_nonneg_left this (by positivity)

/-- A covariant vector in the old coordinates is the old one multiplied by the transposed matrix of the derivatives, up to the error of the difference quotients. -/
theorem inverseVecCovariant_order {eps : ℝ} (he : 0 < eps) (t : Transf N) (w p : Fin N → ℝ) {s M : ℝ} (hs : ∀ j, step eps none (p j) ≤ s)
    (hf : ∀ i, SmoothAt (t.fwd i) p (2 * s) 5 M) (i : Fin N) :
    |inverseVecCovariant eps t w p i - Matrix.vecMul w (deriv' t.fwd p) i| ≤ 1 / 18 * M * s ^ 4 * ∑ j, |w j| := by
  have e : Matrix.vecMul w (deriv' t.fwd p) i = ∑ j, w j * fderiv ℝ (t.fwd j) p (Pi.single i 1) := rfl
  rw [inverseVecCovariant, e, ← Finset.sum_sub_distrib, Finset.mul_sum]
  refine (Finset.abs_sum_le_sum_abs _ _).trans (Finset.sum_le_sum fun j _ => ?_)
  rw [mul_comm (w j), ← sub_mul, abs_mul]
  refine mul_le_mul_of_nonneg_right ?_ (abs_nonneg _)
  have hp := step_pos he (p i)
  have hM : 0 ≤ M := (norm_nonneg _).trans ((hf j).bound p (by simp; linarith [hs i]))
  refine (der_order he (t.fwd j) i p ((hf j).mono (by linarith [hs i]))).trans ?_
  have := pow_le_pow_left₀ hp.le (hs i) 4
  exact mul_le_mul_of_nonneg_left this (by positivity)

/-- The same for covariant vectors into the new coordinates: the matrix is that of the derivatives of the inverse. -/
theorem vecCovariant_order {eps : ℝ} (he : 0 < eps) (t : Transf N) (w q : Fin N → ℝ) {s M : ℝ} (hs : ∀ j, step eps none (q j) ≤ s)
    (hf : ∀ i, SmoothAt (t.inv i) q (2 * s) 5 M) (i : Fin N) :
    |vecCovariant eps t w q i - Matrix.vecMul w (deriv' t.inv q) i| ≤ 1 / 18 * M * s ^ 4 * ∑ j, |w j| :=
  inverseVecCovariant_order he ⟨t.inv, t.fwd⟩ w q hs hf i

/-- For every transformation, and whatever the errors of the difference quotients: the product of a covector of the new coordinates with a transformed
vector is the product of the covector transformed back with the vector. -/
theorem pairing (eps : ℝ) (t : Transf N) (v w p : Fin N → ℝ) :
    ∑ i, w i * vecContravariant eps t v p i = ∑ j, inverseVecCovariant eps t w p j * v j := by
  simp only [vecContravariant, inverseVecCovariant, Finset.mul_sum, Finset.sum_mul]
  rw [Finset.sum_comm]
  exact Finset.sum_congr rfl fun i _ => Finset.sum_congr rfl fun j _ => by ring

/-- The rows and columns of the matrix returned by `jacobian`; a vector is transformed by it, and the base vectors are its columns. -/
theorem jacobian_spec (eps : ℝ) (t : Transf N) (p v : Fin N → ℝ) :
    vecContravariant eps t v p = Matrix.mulVec (jacobian eps t p) v ∧ inverseVecCovariant eps t v p = Matrix.vecMul v (jacobian eps t p) ∧
    (∀ k, basisVec eps t k p = fun i => jacobian eps t p i k) ∧ (∀ k, basisVec eps t k p = vecContravariant eps t (Pi.single k 1) p) := by
  refine ⟨rfl, ?_, fun _ => rfl, fun k => ?_⟩
  · funext i
    exact Finset.sum_congr rfl fun j _ => mul_comm _ _
  · funext i
    simp [basisVec, vecContravariant, Pi.single_apply]

/-- Affine transformations are treated exactly: vectors are multiplied by `A`, covectors by its inverse, there and back is the identity, and products of
covectors with vectors do not change. -/
theorem affine_vectors {eps : ℝ} (he : 0 < eps) {t : Transf N} {A B : Matrix (Fin N) (Fin N) ℝ} {b : Fin N → ℝ} (ht : Affine t A B b) (v w p q : Fin N → ℝ) :
    vecContravariant eps t v p = Matrix.mulVec A v ∧ vecCovariant eps t w q = Matrix.vecMul w B ∧
    inverseVecContravariant eps t (vecContravariant eps t v p) q = v ∧ vecContravariant eps t (inverseVecContravariant eps t v q) p = v ∧
    inverseVecCovariant eps t (vecCovariant eps t w q) p = w ∧ vecCovariant eps t (inverseVecCovariant eps t w p) q = w ∧
    ∑ i, vecCovariant eps t w q i * vecContravariant eps t v p i = ∑ i, w i * v i := by
  have hBA : B * A = 1 := mul_eq_one_comm.1 ht.mul
  have h1 : ∀ v, vecContravariant eps t v p = Matrix.mulVec A v := fun v => funext fun i => Finset.sum_congr rfl fun j _ => by rw [ht.der_fwd he]
  have h2 : ∀ w, vecCovariant eps t w q = Matrix.vecMul w B := fun w => funext fun i => Finset.sum_congr rfl fun j _ => by
    rw [ht.der_inv none j i q (step_pos he _).ne', mul_comm]
  have h3 : ∀ v, inverseVecContravariant eps t v q = Matrix.mulVec B v := fun v => funext fun i => Finset.sum_congr rfl fun j _ => by
    rw [ht.der_inv (some derivativeStepSize) i j q (by simp [step, derivativeStepSize])]
  have h4 : ∀ w, inverseVecCovariant eps t w p = Matrix.vecMul w A := fun w => funext fun i => Finset.sum_congr rfl fun j _ => by
    rw [ht.der_fwd he, mul_comm]
  refine ⟨h1 v, h2 w, ?_, ?_, ?_, ?_, ?_⟩
  · rw [h1, h3, Matrix.mulVec_mulVec, hBA, Matrix.one_mulVec]
  · rw [h1, h3, Matrix.mulVec_mulVec, ht.mul, Matrix.one_mulVec]
  · rw [h2, h4, Matrix.vecMul_vecMul, hBA, Matrix.vecMul_one]
  · rw [h2, h4, Matrix.vecMul_vecMul, ht.mul, Matrix.vecMul_one]
  · rw [h1, h2]
    change Matrix.vecMul w B ⬝ᵥ Matrix.mulVec A v = w ⬝ᵥ v
    rw [← Matrix.dotProduct_mulVec, Matrix.mulVec_mulVec, hBA, Matrix.one_mulVec]

/-- For affine transformations the base vectors and the contravariant base vectors are dual to each other. -/
theorem affine_basis {eps : ℝ} (he : 0 < eps) {t : Transf N} {A B : Matrix (Fin N) (Fin N) ℝ} {b : Fin N → ℝ} (ht : Affine t A B b) (k l : Fin N) (p q : Fin N → ℝ) :
    ∑ i, contravarBasisVec eps t l q i * basisVec eps t k p i = if l = k then 1 else 0 := by
  have hBA : B * A = 1 := mul_eq_one_comm.1 ht.mul
  have h := congrFun (congrFun hBA l) k
  rw [Matrix.mul_apply, Matrix.one_apply] at h
  rw [← h]
  refine Finset.sum_congr rfl fun i _ => ?_
  rw [contravarBasisVec, basisVec, ht.der_fwd he, ht.der_inv none l i q (step_pos he _).ne']

/-- Beside them: the transformation `(x, y) ↦ (2 x + 3, x + y)`. -/
theorem affine_example : Affine ⟨fun i x => ![2 * x 0 + 3, x 0 + x 1] i, fun i y => ![(y 0 - 3) / 2, y 1 - (y 0 - 3) / 2] i⟩ !![2, 0; 1, 1] !![1 / 2, 0; -1 / 2, 1] ![3, 0] := by
  refine ⟨fun i x => ?_, fun i y => ?_, ?_⟩
  · fin_cases i <;> simp [Matrix.mulVec, dotProduct, Fin.sum_univ_two]
  · fin_cases i <;> simp [Matrix.mulVec, dotProduct, Fin.sum_univ_two] <;> ring
  · ext i j
    fin_cases i <;> fin_cases j <;> simp [Matrix.mul_apply, Fin.sum_univ_two] <;> norm_num

/-- **Disagreement.**  `getInverseBasisVec`, documented as the base dual to `getBasisVec`, returns the rows of the same matrix: for the scaling by two in
one dimension the product with the base vector is four. -/
theorem inverseBasisVec_not_dual {eps : ℝ} (he : 0 < eps) :
    ∃ t : Transf 1, Affine t (Matrix.of fun _ _ => 2) (Matrix.of fun _ _ => 1 / 2) 0 ∧ ∀ p, ∑ i, inverseBasisVec eps t 0 p i * basisVec eps t 0 p i = 4 := by
  have ht : Affine (N := 1) ⟨fun _ x => 2 * x 0, fun _ y => y 0 / 2⟩ (Matrix.of fun _ _ => 2) (Matrix.of fun _ _ => 1 / 2) 0 := by
    refine ⟨fun i x => ?_, fun i y => ?_, ?_⟩
    · simp [Matrix.mulVec, dotProduct]
    · simp [Matrix.mulVec, dotProduct]; ring
    · ext i j
      rw [Matrix.mul_apply, Subsingleton.elim i j]
      simp
  refine ⟨_, ht, fun p => ?_⟩
  have h := ht.der_fwd he 0 0 p
  simp only [Matrix.of_apply] at h
  simp only [inverseBasisVec, basisVec, Finset.univ_unique, Finset.sum_singleton, Fin.default_eq_zero, Fin.isValue, h]
  norm_num

/-! ## Tensors of rank two -/

/-- For affine transformations the elements are those of the tensor in the new coordinates.  Missing from the full statement: the
variance of the result, see `tensor2_variance`, and transformations that are not affine, see `tensor2_position`. -/
theorem tensor2_affine_partial {eps : ℝ} (he : 0 < eps) {t : Transf N} {A B : Matrix (Fin N) (Fin N) ℝ} {b : Fin N → ℝ} (ht : Affine t A B b) (a : Tensor 2 N) (p : Fin N → ℝ)
    (ha : 0 ≤ a.numCovar ∧ 0 ≤ a.numContravar ∧ a.numCovar + a.numContravar = 2) :
    ∃ u, tensor2 eps t a p = .ret u ∧ ∀ m, u.coeff m = ∑ k, (∏ j, factor A B (a.isContravar j) (m j) (k j)) * a.coeff k := by
  have hn : Tensor.new 2 N a.numContravar a.numCovar = .ret ⟨fun _ => 0, a.numCovar, a.numContravar, fun i => decide (a.numContravar ≤ i)⟩ := by
    rw [Tensor.new, if_neg (by omega), if_neg (by push_cast; omega), if_neg (by omega)]
  refine ⟨_, by rw [tensor2, hn, Outcome.bind_ret], fun m => ?_⟩
  have hc : ∀ v i k, coef eps t p v i k = factor A B v i k := by
    intro v i k
    rw [coef, factor]
    split_ifs
    · exact ht.der_fwd he i k p
    · exact ht.der_inv none k i p (step_pos he _).ne'
  simp only [tensor2Coeff, hc]
  rw [← (finTwoArrowEquiv (Fin N)).symm.sum_comp, Fintype.sum_prod_type]
  refine Finset.sum_congr rfl fun k _ => Finset.sum_congr rfl fun l _ => ?_
  simp [Fin.prod_univ_two, finTwoArrowEquiv]

example {eps : ℝ} (he : 0 < eps) : ∃ t u, Tensor.new 2 2 1 1 = .ret t ∧
    tensor2 eps ⟨fun i x => ![2 * x 0 + 3, x 0 + x 1] i, fun i y => ![(y 0 - 3) / 2, y 1 - (y 0 - 3) / 2] i⟩ t 0 = .ret u := by
  obtain ⟨t, h, -, h1, h2, -⟩ := (Tensor.new_spec (r := 2) (N := 2) 1 1).1 rfl
  obtain ⟨u, hu, -⟩ := tensor2_affine_partial he affine_example t 0 (by rw [h1, h2]; norm_num)
  exact ⟨t, u, by exact_mod_cast h, hu⟩

/-- For tensors with upper indices only, under every transformation smooth enough: the elements are those of the tensor in the new coordinates up to the
error of the difference quotients; `E` bounds that error and `K` the derivatives. -/
theorem tensor2_order {eps : ℝ} (he : 0 < eps) (t : Transf N) (a : Tensor 2 N) (p : Fin N → ℝ) (ha : a.numCovar = 0 ∧ a.numContravar = 2)
    (hv : ∀ i, a.isContravar i = true) {s M K E : ℝ} (hs : ∀ j, step eps none (p j) ≤ s) (hf : ∀ i, SmoothAt (t.fwd i) p (2 * s) 5 M)
    (hK : ∀ i j, |deriv' t.fwd p i j| ≤ K) (hE : 1 / 18 * M * s ^ 4 ≤ E) :
    ∃ u, tensor2 eps t a p = .ret u ∧ ∀ m, |u.coeff m - ∑ k, ∑ l, deriv' t.fwd p (m 0) k * deriv' t.fwd p (m 1) l * a.coeff ![k, l]| ≤
      E * (2 * K + E) * ∑ k, ∑ l, |a.coeff ![k, l]| := by
  have hn : Tensor.new 2 N a.numContravar a.numCovar = .ret ⟨fun _ => 0, 0, 2, fun i => decide ((2 : ℤ) ≤ i)⟩ := by
    rw [ha.1, ha.2]
    simp [Tensor.new]
  refine ⟨_, by rw [tensor2, hn, Outcome.bind_ret], fun m => ?_⟩
  have hd : ∀ i j, |der eps none (t.fwd i) j p - deriv' t.fwd p i j| ≤ E := by
    intro i j
    have hp := step_pos he (p j)
    have hM : 0 ≤ M := (norm_nonneg _).trans ((hf i).bound p (by simp; linarith [hs j]))
    refine ((der_order he (t.fwd i) j p ((hf i).mono (by linarith [hs j]))).trans ?_).trans hE
    have := pow_le_pow_left₀ hp.le (hs j) 4
    exact mul_le_mul_of_nonneg_left this (by positivity)
  simp only [tensor2Coeff, coef, hv, if_true]
  rw [← Finset.sum_sub_distrib, Finset.mul_sum]
  refine (Finset.abs_sum_le_sum_abs _ _).trans (Finset.sum_le_sum fun k _ => ?_)
  rw [← Finset.sum_sub_distrib, Finset.mul_sum]
  refine (Finset.abs_sum_le_sum_abs _ _).trans (Finset.sum_le_sum fun l _ => ?_)
  rw [← sub_mul, abs_mul]
  refine mul_le_mul_of_nonneg_right ?_ (abs_nonneg _)
  have h1 := hd (m 0) k
  have h2 := hd (m 1) l
  have h3 := hK (m 0) k
  have h4 := hK (m 1) l
  generalize der eps none (t.fwd (m 0)) k p = x at h1
  generalize der eps none (t.fwd (m 1)) l p = y at h2
  generalize deriv' t.fwd p (m 0) k = X at *
  generalize deriv' t.fwd p (m 1) l = Y at *
  have e : x * y - X * Y = (x - X) * (y - Y) + (x - X) * Y + X * (y - Y) := by ring
  rw [e]
  have hE0 : 0 ≤ E := (abs_nonneg _).trans h1
  have hK0 : 0 ≤ K := (abs_nonneg _).trans h3
  calc |(x - X) * (y - Y) + (x - X) * Y + X * (y - Y)| ≤ |x - X| * |y - Y| + |x - X| * |Y| + |X| * |y - Y| := by
        refine (abs_add_le _ _).trans (add_le_add ((abs_add_le _ _).trans (add_le_add ?_ ?_)) ?_) <;> rw [abs_mul]
    _ ≤ E * E + E * K + K * E := add_le_add (add_le_add (mul_le_mul h1 h2 (abs_nonneg _) hE0) (mul_le_mul h1 h4 (abs_nonneg _) hE0)) (mul_le_mul h3 h2 (abs_nonneg _) hK0)
    _ = E * (2 * K + E) := by ring

/-- **Disagreement.**  The numbers are given to the constructor in the wrong order: a tensor with two lower indices comes back, even from the identity, as one
with two upper indices. -/
theorem tensor2_variance {eps : ℝ} {t : Transf N} (a : Tensor 2 N) (p : Fin N → ℝ) (ha : a.numCovar = 2 ∧ a.numContravar = 0) :
    ∃ u, tensor2 eps t a p = .ret u ∧ u.numCovar = 0 ∧ u.numContravar = 2 ∧ ∀ i, u.isContravar i = true := by
  have hn : Tensor.new 2 N a.numContravar a.numCovar = .ret ⟨fun _ => 0, 2, 0, fun i => decide (0 ≤ (i : ℤ))⟩ := by
    rw [ha.1, ha.2]
    simp [Tensor.new]
  exact ⟨⟨tensor2Coeff eps t a p, 2, 0, fun i => decide (0 ≤ (i : ℤ))⟩, by rw [tensor2, hn, Outcome.bind_ret], rfl, rfl, fun i => by simp⟩

/-- The transformation `(x, y) ↦ (x + 1, y + x²)` with its inverse. -/
def parabola : Transf 2 := ⟨fun i x => ![x 0 + 1, x 1 + x 0 ^ 2] i, fun i y => ![y 0 - 1, y 1 - (y 0 - 1) ^ 2] i⟩

theorem parabola_inverse (x : Fin 2 → ℝ) : (fun i => parabola.inv i (parabola.apply x)) = x ∧ (parabola.apply fun i => parabola.inv i x) = x := by
  constructor
  · funext i; fin_cases i <;> simp [parabola, apply]
  · funext i; fin_cases i <;> simp [parabola, apply]

/-- Beside the theorems on accuracy: their hypotheses hold for `parabola` and for its inverse at every point. -/
example {eps : ℝ} (_he : 0 < eps) (p : Fin 2 → ℝ) : ∃ s M, (∀ j, step eps none (p j) ≤ s) ∧ (∀ i, SmoothAt (parabola.fwd i) p (2 * s) 5 M) ∧
    ∀ i, SmoothAt (parabola.inv i) p (2 * s) 5 M := by
  have hc : ∀ i, ContDiff ℝ 5 (parabola.fwd i) := by
    intro i
    fin_cases i
    · exact (by fun_prop : ContDiff ℝ 5 fun x : Fin 2 → ℝ => x 0 + 1)
    · exact (by fun_prop : ContDiff ℝ 5 fun x : Fin 2 → ℝ => x 1 + x 0 ^ 2)
  have hi : ∀ i, ContDiff ℝ 5 (parabola.inv i) := by
    intro i
    fin_cases i
    · exact (by fun_prop : ContDiff ℝ 5 fun x : Fin 2 → ℝ => x 0 - 1)
    · exact (by fun_prop : ContDiff ℝ 5 fun x : Fin 2 → ℝ => x 1 - (x 0 - 1) ^ 2)
  refine ⟨max (step eps none (p 0)) (step eps none (p 1)), ?_⟩
  choose M hM using fun i => smoothAt_of_contDiff _ 5 (hc i) p (2 * max (step eps none (p 0)) (step eps none (p 1)))
  choose M' hM' using fun i => smoothAt_of_contDiff _ 5 (hi i) p (2 * max (step eps none (p 0)) (step eps none (p 1)))
  have hb : ∀ i : Fin 2, M i ≤ max (max (M 0) (M 1)) (max (M' 0) (M' 1)) ∧ M' i ≤ max (max (M 0) (M 1)) (max (M' 0) (M' 1)) := by
    intro i
    fin_cases i <;> simp
  refine ⟨max (max (M 0) (M 1)) (max (M' 0) (M' 1)), fun j => by fin_cases j <;> simp, fun i => ⟨(hM i).diff, fun q hq => ((hM i).bound q hq).trans (hb i).1⟩,
    fun i => ⟨(hM' i).diff, fun q hq => ((hM' i).bound q hq).trans (hb i).2⟩⟩

/-- **Disagreement.**  The derivatives of the inverse are taken at the old position instead of the new one.  For the transformation `parabola`, whose derivatives
the difference quotients give exactly, the tensor with lower indices and elements `T_yy = 1` at the origin has in the new coordinates the element `0` at `(0, 1)`, since the
Jacobian there is the identity, but `2` is computed. -/
theorem tensor2_position {eps : ℝ} (he : 0 < eps) :
    ∃ a u, a.numCovar = 2 ∧ a.numContravar = 0 ∧ (∀ i, a.isContravar i = false) ∧ tensor2 eps parabola a 0 = .ret u ∧ u.coeff ![0, 1] = 2 ∧
      ∑ k, (∏ j, factor (deriv' parabola.fwd 0) (deriv' parabola.inv (parabola.apply 0)) (a.isContravar j) ((![0, 1] : Fin 2 → Fin 2) j) (k j)) * a.coeff k = 0 := by
  have d10 : der eps none (parabola.inv 1) 0 0 = 2 := by
    rw [der_poly _ _ _ (step_pos he _).ne' ![-1, 2, -1, 0, 0] fun u => by simp [parabola]; ring]
    simp
  have d11 : der eps none (parabola.inv 1) 1 0 = 1 := by
    rw [der_poly _ _ _ (step_pos he _).ne' ![-1, 1, 0, 0, 0] fun u => by simp [parabola]; ring]
    simp
  refine ⟨⟨fun m => if m = ![1, 1] then 1 else 0, 0, 2, fun _ => false⟩, _, rfl, rfl, fun _ => rfl, by
    rw [tensor2]; simp only [Tensor.new]; rw [if_neg (by norm_num), if_neg (by norm_num), if_neg (by norm_num), Outcome.bind_ret], ?_, ?_⟩
  · simp only [tensor2Coeff, coef, Bool.false_eq_true, if_false]
    rw [Finset.sum_eq_single 1 (by intro k _ hk; simp [hk]) (by simp), Finset.sum_eq_single 1 (by intro k _ hk; simp [hk]) (by simp)]
    simp [d10, d11]
  · rw [Finset.sum_eq_single ![1, 1] (by intro k _ hk; simp [hk]) (by simp)]
    have : deriv' parabola.inv (parabola.apply 0) 1 0 = 0 := by
      have e1 := (ContinuousLinearMap.proj (R := ℝ) (φ := fun _ : Fin 2 => ℝ) 1).hasFDerivAt (x := parabola.apply 0)
      have e0 := ((ContinuousLinearMap.proj (R := ℝ) (φ := fun _ : Fin 2 => ℝ) 0).hasFDerivAt (x := parabola.apply 0)).sub_const 1
      have hd : HasFDerivAt (parabola.inv 1) _ (parabola.apply 0) := e1.sub (e0.pow 2)
      rw [deriv', hd.fderiv]
      simp [parabola, apply]
    simp [Fin.prod_univ_two, factor, this]

end Transf

end Verif.Coord
