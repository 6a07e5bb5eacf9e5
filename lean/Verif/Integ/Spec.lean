import Mathlib.Analysis.SpecialFunctions.Integrals.Basic
import Mathlib.LinearAlgebra.Lagrange

/-!
# What the quadrature rules mean

The composite rules, written as sums over panels of equal width.
-/

set_option autoImplicit false

namespace Verif.Integ

/-- The left end of panel `k` of `N`. -/
noncomputable def node (a b : ℝ) (N : ℕ) (k : ℝ) : ℝ := a + k * ((b - a) / N)

/-- The composite trapezoidal rule with `N` panels. -/
noncomputable def trapezoid (f : ℝ → ℝ) (a b : ℝ) (N : ℕ) : ℝ :=
  ∑ k ∈ Finset.range N, (b - a) / N * ((f (node a b N k) + f (node a b N (k + 1))) / 2)

/-- The composite midpoint rule with `N` panels. -/
noncomputable def midpoint (f : ℝ → ℝ) (a b : ℝ) (N : ℕ) : ℝ :=
  ∑ k ∈ Finset.range N, (b - a) / N * f (node a b N (k + 1 / 2))

/-- The composite Simpson rule with `N` panels. -/
noncomputable def simpson (f : ℝ → ℝ) (a b : ℝ) (N : ℕ) : ℝ :=
  ∑ k ∈ Finset.range N,
    (b - a) / N * ((f (node a b N k) + 4 * f (node a b N (k + 1 / 2)) + f (node a b N (k + 1))) / 6)

/-- Successive estimates `T` settle at round `i`: from round six on, the estimate differs from the previous one by less than
`eps` relative to it, with an absolute floor of `eps` times the spacing of floating-point numbers at one. -/
def Settles (T : ℕ → ℝ) (eps : ℝ) (i : ℕ) : Prop :=
  5 < i ∧ |T i - T (i - 1)| < eps * |T (i - 1)| + eps * (1 / 2 ^ 52)

/-- Richardson extrapolation: the value at zero of the polynomial in the squared step, `q^i` at stage `i`, through the last
`K` of the estimates `T 0, ..., T j`. -/
noncomputable def extrapolated (q : ℝ) (T : ℕ → ℝ) (K j : ℕ) : ℝ :=
  (Lagrange.interpolate (Finset.Icc (j + 1 - K) j) (fun i => q ^ i) T).eval 0

end Verif.Integ
