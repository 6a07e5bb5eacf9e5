import Mathlib.Algebra.BigOperators.Group.List.Basic
import Mathlib.Data.Real.Basic

/-! # What a least-squares line is, without reference to the code -/

set_option autoImplicit false

namespace Verif.Fit

/-- The sum of the squared vertical distances of the points from the line `y = a * x + b`. -/
def sumSq (pts : List (ℝ × ℝ)) (a b : ℝ) : ℝ := (pts.map fun p => (p.2 - (a * p.1 + b)) ^ 2).sum

/-- The line `y = a * x + b` is as close to the points as any other. -/
def IsBest (pts : List (ℝ × ℝ)) (a b : ℝ) : Prop := ∀ c d, sumSq pts a b ≤ sumSq pts c d

/-- The points with the abscissas `xs` and the ordinates `ys`. -/
abbrev points (xs ys : List ℝ) : List (ℝ × ℝ) := xs.zip ys

/-- The sum of the abscissas, and of their squares. -/
def sumX (xs : List ℝ) : ℝ := xs.sum

/-- The sum of the squares of the abscissas. -/
def sumXX (xs : List ℝ) : ℝ := (xs.map fun x => x ^ 2).sum

/-- The abscissas are too close together, relative to their size, for the normal equations: `n Σx² - (Σx)²`, which is `n` times the
sum of the squared deviations from the mean, is below `eps` times `max (n Σx²) ((Σx)²)`. -/
def Clustered (eps : ℝ) (xs : List ℝ) : Prop :=
  xs.length * sumXX xs - sumX xs ^ 2 < eps * max (xs.length * sumXX xs) (sumX xs ^ 2)

end Verif.Fit
