import Mathlib.Data.Real.Basic
import Mathlib.Algebra.BigOperators.Group.List.Basic

/-!
# What the statistics are

Textbook definitions, independent of the model.
-/

set_option autoImplicit false

namespace Verif.Stats

/-- The arithmetic mean. -/
noncomputable def mean (d : List ℝ) : ℝ := d.sum / d.length

/-- `v` is the `k`-th smallest of the data, counting from zero: it occurs, at most `k` values are smaller, and more than `k`
are at most as large. -/
def IsKth (d : List ℝ) (k : ℕ) (v : ℝ) : Prop :=
  v ∈ d ∧ d.countP (fun x => x < v) ≤ k ∧ k < d.countP (fun x => x ≤ v)

/-- The sum of the products of the deviations from the means. -/
noncomputable def coprod (x y : List ℝ) : ℝ := (List.zipWith (fun a b => (a - mean x) * (b - mean y)) x y).sum

/-- The sum of the `k`-th powers of the deviations from the mean. -/
noncomputable def devSum (k : ℕ) (d : List ℝ) : ℝ := (d.map fun x => (x - mean d) ^ k).sum

/-- The average rank of a value: the values below it, plus half of one more than the number of its occurrences. -/
noncomputable def avgRank (d : List ℝ) (v : ℝ) : ℝ := (d.countP (fun x => x < v) : ℝ) + ((d.count v : ℝ) + 1) / 2

end Verif.Stats
