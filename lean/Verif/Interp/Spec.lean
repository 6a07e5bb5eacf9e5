import Mathlib.Data.Real.Basic
import Mathlib.Analysis.Calculus.ContDiff.Basic
import Mathlib.Analysis.Calculus.Deriv.Basic
import Mathlib.Algebra.Polynomial.Degree.Lemmas

/-!
# Tables of abscissas

Vocabulary for the properties of the interpolation classes; does not refer to the model.
-/

set_option autoImplicit false

namespace Verif.Interp

/-- The first `n` values are strictly increasing. -/
def Increasing (n : ℕ) (x : ℕ → ℝ) : Prop := ∀ i j, i < j → j < n → x i < x j

/-- The first `n` values are strictly decreasing. -/
def Decreasing (n : ℕ) (x : ℕ → ℝ) : Prop := ∀ i j, i < j → j < n → x j < x i

/-- The first `n` values are different. -/
def Distinct (n : ℕ) (x : ℕ → ℝ) : Prop := ∀ i j, i < j → j < n → x i ≠ x j

/-- `z` lies between `a` and `b`, which come in either order. -/
def Between (a z b : ℝ) : Prop := a ≤ z ∧ z ≤ b ∨ b ≤ z ∧ z ≤ a

/-- The value at `z` of the straight line through `(x0, y0)` and `(x1, y1)`. -/
noncomputable def lineThrough (x0 y0 x1 y1 z : ℝ) : ℝ := ((x1 - z) * y0 + (z - x0) * y1) / (x1 - x0)

/-- A cubic spline through the points of a table: twice continuously differentiable, with the values given, and a polynomial of
degree at most three between neighbouring points. -/
structure CubicSpline (n : ℕ) (x y : ℕ → ℝ) (S : ℝ → ℝ) : Prop where
  smooth : ContDiff ℝ 2 S
  values : ∀ i < n, S (x i) = y i
  cubic : ∀ i, i + 1 < n → ∃ p : Polynomial ℝ, p.natDegree ≤ 3 ∧ ∀ z, Between (x i) z (x (i + 1)) → S z = p.eval z

/-- The condition at an end of a spline for the slope `yp` passed to the constructor, where `d1` and `d2` are the derivatives there:
the slope, or no curvature (a natural end) when the number passed is beyond `0.99e99`. -/
def EndCondition (yp d1 d2 : ℝ) : Prop := if yp > 99 / 100 * 10 ^ 99 then d2 = 0 else d1 = yp

/-- A natural cubic spline: a cubic spline without curvature at both ends. -/
structure NaturalSpline (n : ℕ) (x y : ℕ → ℝ) (S : ℝ → ℝ) : Prop where
  spline : CubicSpline n x y S
  first : deriv (deriv S) (x 0) = 0
  last : deriv (deriv S) (x (n - 1)) = 0

end Verif.Interp
