import Mathlib.Algebra.Polynomial.Eval.Defs

/-! # Specification of polynomials: the mathematical polynomial with given coefficients -/

set_option autoImplicit false

namespace Verif.Poly

open Polynomial

/-- The polynomial with the coefficients of the list, constant term first. -/
noncomputable def toPoly {K : Type} [Field K] (v : List K) : K[X] :=
  ∑ i ∈ Finset.range v.length, C (v.getD i 0) * X ^ i

end Verif.Poly
