import Mathlib.Analysis.SpecialFunctions.Integrals.Basic
import Mathlib.Algebra.Polynomial.Eval.Degree
import Mathlib.Algebra.BigOperators.Group.List.Basic

/-!
# What a quadrature rule is
-/

set_option autoImplicit false

namespace Verif.Integ

open Polynomial

/-- A rule on `[-1, 1]`: pairs of a node and a weight. -/
abbrev Rule := List (ℝ × ℝ)

/-- The rule moved to `[a, b]` and applied to `f`. -/
noncomputable def Rule.apply (r : Rule) (f : ℝ → ℝ) (a b : ℝ) : ℝ :=
  (b - a) / 2 * (r.map fun p => p.2 * f ((a + b) / 2 + (b - a) / 2 * p.1)).sum

/-- A rule with `n` different nodes in `(-1, 1)`, positive weights and the right moments up to degree `d`, within `tol`: the
integral of `x^k` over `[-1, 1]` is `(1 + (-1)^k) / (k + 1)`. -/
structure IsRule (r : Rule) (n d : ℕ) (tol : ℝ) : Prop where
  length : r.length = n
  distinct : (r.map Prod.fst).Nodup
  nodes : ∀ p ∈ r, -1 < p.1 ∧ p.1 < 1
  weights : ∀ p ∈ r, 0 < p.2
  moments : ∀ k ≤ d, |(r.map fun p => p.2 * p.1 ^ k).sum - (1 + (-1) ^ k) / (k + 1)| ≤ tol

/-- The sum of the absolute coefficients of a polynomial written in the variable that runs from `-1` to `1` over `[a, b]`. -/
noncomputable def size (p : ℝ[X]) (a b : ℝ) : ℝ :=
  (p.comp (C ((a + b) / 2) + C ((b - a) / 2) * X)).sum fun _ c => |c|

end Verif.Integ
