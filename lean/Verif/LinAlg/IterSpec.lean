import Verif.LinAlg.Iter
import Mathlib.Analysis.SpecialFunctions.Sqrt
import Mathlib.Algebra.BigOperators.Intervals

/-! # Specification of the iterative solvers -/

set_option autoImplicit false

namespace Verif.LinAlg.Iter

open Finset

/-- The Euclidean length of the first `n` elements. -/
noncomputable def len (n : ℕ) (v : ℕ → ℝ) : ℝ := Real.sqrt (∑ i ∈ range n, v i * v i)

/-- `‖A x - b‖ / ‖b‖`, or `‖A x‖` if `b` is zero. -/
noncomputable def relResidual (n : ℕ) (A : ℕ → ℕ → ℝ) (b x : ℕ → ℝ) : ℝ :=
  len n (fun i => ∑ j ∈ range n, A i j * x j - b i) / (if len n b = 0 then 1 else len n b)

/-- `x'` solves each equation for its diagonal unknown, with the other unknowns from `x`. -/
def JacobiStep (n : ℕ) (A : ℕ → ℕ → ℝ) (b x x' : ℕ → ℝ) : Prop :=
  ∀ i < n, A i i * x' i = b i - ∑ j ∈ (range n).erase i, A i j * x j

/-- `x'` is `x` moved by `omega` times the way to the solution of each equation for its diagonal unknown, with the earlier
unknowns from `x'` and the later ones from `x`. -/
def SorStep (n : ℕ) (A : ℕ → ℕ → ℝ) (b : ℕ → ℝ) (omega : ℝ) (x x' : ℕ → ℝ) : Prop :=
  ∀ i < n, A i i * (x' i - x i) =
    omega * (b i - ∑ j ∈ range i, A i j * x' j - A i i * x i - ∑ j ∈ Ico (i + 1) n, A i j * x j)

/-- The matrix is strictly diagonally dominant by rows. -/
def DiagDominant (n : ℕ) (A : ℕ → ℕ → ℝ) : Prop := ∀ i < n, ∑ j ∈ (range n).erase i, |A i j| < |A i i|

/-- The matrix is symmetric and positive definite. -/
def PosDef (n : ℕ) (A : ℕ → ℕ → ℝ) : Prop :=
  (∀ i < n, ∀ j < n, A i j = A j i) ∧
    ∀ z : ℕ → ℝ, (∃ i < n, z i ≠ 0) → 0 < ∑ i ∈ range n, ∑ j ∈ range n, z i * A i j * z j

/-- The diagonal passes the test of the solvers: no element is below `eps` or below `eps` times the largest. -/
def DiagOk (eps : ℝ) (n : ℕ) (A : ℕ → ℕ → ℝ) : Prop :=
  ∀ i < n, eps ≤ |A i i| ∧ ∀ j < n, eps * |A j j| ≤ |A i i|

/-- What the result of a solver says about the iterates `xs 0`, `xs 1`, ...: if it is marked converged then it is the first iterate
from `xs 1` on whose relative residual is below the tolerance, and not later than the limit; otherwise it is the last iterate allowed,
none was below the tolerance, and the count is one more than the limit. -/
structure Run (n : ℕ) (A : ℕ → ℕ → ℝ) (b : ℕ → ℝ) (tol : ℝ) (maxIter : ℕ) (xs : ℕ → ℕ → ℝ) (r : Result) : Prop where
  yes : r.converged = true → ∃ k, 1 ≤ k ∧ k ≤ maxIter ∧ r.iterations = k ∧ r.solution = tab n (xs k) ∧
    r.residual = relResidual n A b (xs k) ∧ relResidual n A b (xs k) < tol ∧
    ∀ j, 1 ≤ j → j < k → tol ≤ relResidual n A b (xs j)
  no : r.converged = false → r.iterations = maxIter + 1 ∧ r.solution = tab n (xs maxIter) ∧
    (1 ≤ maxIter → r.residual = relResidual n A b (xs maxIter)) ∧
    ∀ j, 1 ≤ j → j ≤ maxIter → tol ≤ relResidual n A b (xs j)

end Verif.LinAlg.Iter
