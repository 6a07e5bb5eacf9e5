import Verif.LinAlg.SVD
import Verif.Mat.DenseSpec

/-! # What a singular value decomposition is, without reference to the code -/

set_option autoImplicit false

namespace Verif.LinAlg.SVD

open Verif.Mat

/-- `A = U diag(w) Vᵀ` for an `m × n` matrix `A`, with orthonormal columns of `V` (`n × n`) and non-negative numbers `w`, in any
order.  The columns of `U` (`m × n`) are orthonormal too; columns that belong to `w = 0` are exempt, since `n > m` columns cannot
be orthonormal. -/
structure IsSVD (m n : ℕ) (A U : ℕ → ℕ → ℝ) (w : ℕ → ℝ) (V : ℕ → ℕ → ℝ) : Prop where
  orthoU : ∀ j < n, ∀ k < n, 0 < w j → 0 < w k → ∑ i ∈ Finset.range m, U i j * U i k = if j = k then 1 else 0
  orthoV : ∀ j < n, ∀ k < n, ∑ i ∈ Finset.range n, V i j * V i k = if j = k then 1 else 0
  nonneg : ∀ j < n, 0 ≤ w j
  prod : ∀ i < m, ∀ j < n, A i j = ∑ k ∈ Finset.range n, U i k * w k * V j k

/-- The members of the solver hold `U`, `w` and `V`. -/
structure Holds (s : Fac) (m n : ℕ) (U : ℕ → ℕ → ℝ) (w : ℕ → ℝ) (V : ℕ → ℕ → ℝ) : Prop where
  u : Dense.Is s.u m n U
  w : s.w = tab n w
  v : Dense.Is s.v n n V

/-- `‖A x - b‖²`. -/
noncomputable def resid2 (m n : ℕ) (A : ℕ → ℕ → ℝ) (b x : ℕ → ℝ) : ℝ :=
  ∑ i ∈ Finset.range m, (∑ j ∈ Finset.range n, A i j * x j - b i) ^ 2

/-- `A` with the singular values not above `t` replaced by zero. -/
noncomputable def cutoff (n : ℕ) (U : ℕ → ℕ → ℝ) (w : ℕ → ℝ) (V : ℕ → ℕ → ℝ) (t : ℝ) (i j : ℕ) : ℝ :=
  ∑ k ∈ Finset.range n, U i k * (if w k > t then w k else 0) * V j k

/-- The threshold in force: the given one if not negative, otherwise the default `½ √(m + n + 1) w₀ eps`. -/
noncomputable def limit (m n : ℕ) (eps thresh : ℝ) (w : ℕ → ℝ) : ℝ :=
  if thresh ≥ 0 then thresh else 0.5 * Real.sqrt (m + n + 1.0) * w 0 * eps

end Verif.LinAlg.SVD
