import Mathlib.Analysis.Complex.Polynomial.Basic
import Mathlib.Algebra.Polynomial.Div

/-! # Specification of Bairstow's method -/

set_option autoImplicit false

namespace Verif.Roots

open Polynomial

/-- The quadratic `x² + u x + v`. -/
noncomputable def quad (u v : ℝ) : ℝ[X] := X ^ 2 + C u * X + C v

/-- The linear polynomial `a x + b`. -/
noncomputable def lin (a b : ℝ) : ℝ[X] := C a * X + C b

/-- `(du, dv)` is the correction of Newton's method for the factor `x² + u x + v` of a polynomial with quotient `Q` and remainder `r`:
when the factor and the quotient are both corrected, by `-(du x + dv)` and some `E`, their product is the polynomial but for the product
of the two corrections. -/
def NewtonFactor (Q r : ℝ[X]) (u v du dv : ℝ) : Prop :=
  ∃ E, quad u v * Q + r = quad (u - du) (v - dv) * (Q + E) + lin du dv * E

/-- The numbers found factor by factor.  For a polynomial `x² + u x + v` times `Q` plus `c x + d`, either the remainder is below the
tolerance and the next two numbers are the roots of `x² + u x + v`, or the correction of Newton's method is, and they are the roots of
the corrected quadratic.  The others are found for `Q`.  For a linear polynomial its root is found. -/
inductive Factored (tol : ℝ) : ℝ[X] → List ℂ → Prop
  | nil (a : ℝ) : Factored tol (C a) []
  | linear (a b : ℝ) : a ≠ 0 → Factored tol (lin a b) [((-b / a : ℝ) : ℂ)]
  | small (Q : ℝ[X]) (u v c d : ℝ) (r₁ r₂ : ℂ) (rest : List ℂ) : |c| < tol → |d| < tol →
      (quad u v).map Complex.ofRealHom = (X - C r₁) * (X - C r₂) → Factored tol Q rest →
      Factored tol (quad u v * Q + lin c d) (r₁ :: r₂ :: rest)
  | step (Q : ℝ[X]) (u v c d du dv : ℝ) (r₁ r₂ : ℂ) (rest : List ℂ) : NewtonFactor Q (lin c d) u v du dv → |du| < tol → |dv| < tol →
      (quad (u - du) (v - dv)).map Complex.ofRealHom = (X - C r₁) * (X - C r₂) → Factored tol Q rest →
      Factored tol (quad u v * Q + lin c d) (r₁ :: r₂ :: rest)

end Verif.Roots
