import Verif.ODE.Bulirsch
import Verif.ODE.StepperSpec

/-! # Specification of the Bulirsch–Stoer steppers: the modified midpoint method -/

set_option autoImplicit false

namespace Verif.ODE

variable {n : ℕ}

/-- The states of the modified midpoint method: `z₀ = y`, `z₁ = y + h f(t, y)`,
`z_{m+2} = z_m + 2 h f(t + (m+1) h, z_{m+1})`. -/
noncomputable def gragg (f : ℝ → (Fin n → ℝ) → Fin n → ℝ) (t : ℝ) (y : Fin n → ℝ) (h : ℝ) :
    ℕ → Fin n → ℝ
  | 0 => y
  | 1 => y + h • f t y
  | m + 2 => gragg f t y h m + (2 * h) • f (t + (m + 1 : ℕ) * h) (gragg f t y h (m + 1))

/-- The modified midpoint method with `N + 1` substeps, written as its own recursion (`gragg`). -/
noncomputable def midRule (f : ℝ → (Fin n → ℝ) → Fin n → ℝ) (t : ℝ) (y : Fin n → ℝ) (H : ℝ) (N : ℕ) :
    Fin n → ℝ :=
  (1 / 2 : ℝ) • (gragg f t y (H / (N + 1 : ℕ)) N + gragg f t y (H / (N + 1 : ℕ)) (N + 1)
    + (H / (N + 1 : ℕ)) • f (t + (N + 1 : ℕ) * (H / (N + 1 : ℕ))) (gragg f t y (H / (N + 1 : ℕ)) (N + 1)))

end Verif.ODE
