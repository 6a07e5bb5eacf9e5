import Mathlib.Analysis.Complex.Polynomial.Basic
import Mathlib.Algebra.Polynomial.Div
import Mathlib.Analysis.SpecialFunctions.Sqrt

/-! # Specification of the iterative polynomial solvers -/

set_option autoImplicit false

namespace Verif.Roots

open Polynomial

/-- `x` is close to a root of `q`: within `√n + 1` times the tolerance, or so close that the `n`-th power of the distance times the
leading coefficient is below the tolerance, where `n` is the degree. -/
def CloseTo (q : ℂ[X]) (tol : ℝ) (x : ℂ) : Prop :=
  ∃ z, q.IsRoot z ∧ (‖x - z‖ < (Real.sqrt q.natDegree + 1) * tol ∨ ‖q.leadingCoeff‖ * ‖x - z‖ ^ q.natDegree < tol)

/-- `y` follows from `x` by a step of Newton's method, which is left out where the derivative is at most `tol`. -/
def NewtonStep (q : ℂ[X]) (tol : ℝ) (x y : ℂ) : Prop :=
  tol < ‖q.derivative.eval x‖ ∧ y = x - q.eval x / q.derivative.eval x ∨ ‖q.derivative.eval x‖ ≤ tol ∧ y = x

/-- The numbers found one after the other: each is obtained from a point close to a root by three steps of Newton's method, and the
rest are found for the quotient by the linear factor. -/
inductive Found (tol : ℝ) : ℂ[X] → List ℂ → Prop
  | nil (a : ℂ) : Found tol (C a) []
  | cons (q : ℂ[X]) (x y z r : ℂ) (rs : List ℂ) : CloseTo q tol x → NewtonStep q tol x y → NewtonStep q tol y z →
      NewtonStep q tol z r → Found tol (q /ₘ (X - C r)) rs → Found tol q (r :: rs)

end Verif.Roots
