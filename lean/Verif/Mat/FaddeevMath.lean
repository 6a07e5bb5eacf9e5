import Mathlib.LinearAlgebra.Matrix.Charpoly.Coeff
import Mathlib.LinearAlgebra.Matrix.Adjugate
import Mathlib.Tactic

/-!
# Mathematics behind the Faddeev-Leverrier recurrence

The derivative of the characteristic polynomial is the trace of the adjugate of the characteristic matrix, and
the coefficients of that adjugate satisfy the recurrence of the algorithm.  No code is modelled here.
-/

set_option autoImplicit false

namespace Verif.Mat.Fad

open Polynomial Matrix

variable {K : Type} [Field K] {n : ℕ}

/-- Jacobi's formula for the columns of a matrix of polynomials. -/
theorem derivative_det (N : Matrix (Fin n) (Fin n) K[X]) :
    derivative N.det = ∑ i, (N.updateCol i (fun k => derivative (N k i))).det := by
  simp only [det_apply', derivative_sum]
  rw [Finset.sum_comm]
  refine Finset.sum_congr rfl fun σ _ => ?_
  rw [derivative_mul, derivative_intCast, zero_mul, zero_add, derivative_prod_finset, Finset.mul_sum]
  refine Finset.sum_congr rfl fun i _ => ?_
  congr 1
  rw [← Finset.mul_prod_erase Finset.univ _ (Finset.mem_univ i), updateCol_self, mul_comm]
  congr 1
  refine Finset.prod_congr rfl fun j hj => ?_
  rw [updateCol_ne (Finset.ne_of_mem_erase hj)]

theorem derivative_charpoly (A : Matrix (Fin n) (Fin n) K) :
    derivative A.charpoly = (adjugate A.charmatrix).trace := by
  rw [charpoly, ← det_transpose, derivative_det, trace]
  refine Finset.sum_congr rfl fun i _ => ?_
  rw [diag_apply, adjugate_def, of_apply, cramer_apply]
  congr 2
  funext k
  rw [transpose_apply]
  by_cases h : k = i
  · subst h; rw [charmatrix_apply_eq]; simp
  · rw [charmatrix_apply_ne _ _ _ (Ne.symm h), Pi.single_eq_of_ne h]; simp

/-- The coefficient matrices of the adjugate of `X - A`. -/
noncomputable def Q (A : Matrix (Fin n) (Fin n) K) (k : ℕ) : Matrix (Fin n) (Fin n) K :=
  (matPolyEquiv (adjugate A.charmatrix)).coeff k

theorem eqn (A : Matrix (Fin n) (Fin n) K) :
    (X - C A) * matPolyEquiv (adjugate A.charmatrix) = A.charpoly.map (algebraMap K (Matrix (Fin n) (Fin n) K)) := by
  rw [← matPolyEquiv_charmatrix, ← map_mul, mul_adjugate, ← matPolyEquiv_smul_one]
  rfl

theorem Q_succ (A : Matrix (Fin n) (Fin n) K) (k : ℕ) :
    Q A k = A * Q A (k + 1) + A.charpoly.coeff (k + 1) • (1 : Matrix (Fin n) (Fin n) K) := by
  have h := congrArg (fun p => p.coeff (k + 1)) (eqn A)
  simp only [sub_mul, coeff_sub, coeff_X_mul, coeff_C_mul, coeff_map] at h
  rw [Algebra.algebraMap_eq_smul_one] at h
  unfold Q
  rw [← h]; abel

theorem Q_zero (A : Matrix (Fin n) (Fin n) K) :
    A * Q A 0 + A.charpoly.coeff 0 • (1 : Matrix (Fin n) (Fin n) K) = 0 := by
  have h := congrArg (fun p => p.coeff 0) (eqn A)
  simp only [sub_mul, coeff_sub, coeff_C_mul, coeff_map, mul_coeff_zero, coeff_X_zero, zero_mul, coeff_C_zero] at h
  rw [Algebra.algebraMap_eq_smul_one] at h
  unfold Q
  rw [← h]; abel

theorem Q_large (A : Matrix (Fin n) (Fin n) K) (k : ℕ) (hk : n ≤ k) : Q A k = 0 := by
  by_contra h0
  set P := matPolyEquiv (adjugate A.charmatrix) with hP
  have key : ∀ d, Q A (k + d) ≠ 0 := by
    intro d
    induction d with
    | zero => exact h0
    | succ d ih =>
      intro h
      apply ih
      rw [Q_succ, show k + d + 1 = k + (d + 1) by omega, h, mul_zero, zero_add,
        coeff_eq_zero_of_natDegree_lt, zero_smul]
      rw [charpoly_natDegree_eq_dim, Fintype.card_fin]; omega
  apply key (P.natDegree + 1)
  unfold Q
  rw [← hP]
  exact coeff_eq_zero_of_natDegree_lt (by omega)

theorem Q_top (A : Matrix (Fin (n + 1)) (Fin (n + 1)) K) : Q A n = 1 := by
  rw [Q_succ, Q_large A (n + 1) le_rfl, mul_zero, zero_add]
  have h := (charpoly_monic A).coeff_natDegree
  rw [charpoly_natDegree_eq_dim, Fintype.card_fin] at h
  rw [h, one_smul]

theorem Q_trace (A : Matrix (Fin n) (Fin n) K) (k : ℕ) :
    (Q A k).trace = A.charpoly.coeff (k + 1) * (k + 1) := by
  have h := congrArg (fun p => p.coeff k) (derivative_charpoly A)
  simp only [coeff_derivative] at h
  rw [h, trace, trace, finset_sum_coeff]
  refine Finset.sum_congr rfl fun i _ => ?_
  rw [diag_apply, diag_apply, Q, matPolyEquiv_coeff_apply]

/-- The trace identity the algorithm divides out. -/
theorem Q_trace_mul (A : Matrix (Fin n) (Fin n) K) (k : ℕ) (hk : k ≤ n) :
    (A * Q A k).trace = -(((n - k : ℕ) : K)) * A.charpoly.coeff k := by
  rw [Nat.cast_sub hk]
  cases k with
  | zero =>
    have h := congrArg trace (Q_zero A)
    rw [trace_add, trace_smul, trace_one, Fintype.card_fin, trace_zero, smul_eq_mul] at h
    push_cast
    linear_combination h
  | succ k =>
    have h := congrArg trace (Q_succ A k)
    rw [trace_add, trace_smul, trace_one, Fintype.card_fin, smul_eq_mul, Q_trace] at h
    push_cast
    linear_combination -h

end Verif.Mat.Fad
