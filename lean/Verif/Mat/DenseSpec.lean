import Verif.Mat.Dense

/-! # Specification vocabulary for the dense matrix -/

set_option autoImplicit false

namespace Verif.Mat.Dense

variable {K : Type}

/-- The shapes a matrix object can have: empty, or positive dimensions within the documented limits. -/
def Shape (r c : ℕ) : Prop :=
  (r = 0 ∧ c = 0) ∨ (0 < r ∧ 0 < c ∧ r ≤ 100000 ∧ c ≤ 100000 ∧ r * c ≤ 100000000)

/-- A matrix object in a consistent state: the storage has exactly `rows * cols` elements. -/
def Valid (m : Dense K) : Prop := m.data.length = m.rows * m.cols ∧ Shape m.rows m.cols

/-- `m` is a consistent `r × c` matrix whose element read at row `i` and column `j` is `f i j`. -/
def Is (m : Dense K) (r c : ℕ) (f : ℕ → ℕ → K) : Prop :=
  Valid m ∧ m.rows = r ∧ m.cols = c ∧ ∀ i < r, ∀ j < c, m.get i j = .ret (f i j)

end Verif.Mat.Dense
