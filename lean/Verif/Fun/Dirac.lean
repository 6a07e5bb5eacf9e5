import Verif.Common
import Mathlib.Analysis.SpecialFunctions.Trigonometric.Basic
import Mathlib.Analysis.SpecialFunctions.Exp
import Mathlib.Analysis.Real.Sqrt

/-!
# Model of the approximations of the delta function (`mml/base/DiracDeltaFunction.h`)

`Real` is exact; `int` has 32 bits and overflow is undefined behaviour.
-/

set_option autoImplicit false

namespace Verif.Dirac

/-- Multiplication of two `int` values, as in `2 * _N` and `_N * _N` (`mml/base/DiracDeltaFunction.h:50,87`). -/
def imul (a b : Int) : Outcome Int :=
  if -2 ^ 31 ≤ a * b ∧ a * b < 2 ^ 31 then .ret (a * b) else .ub

open Classical in
/-- `mml/base/DiracDeltaFunction.h:48-54`, `DiracStep`.  For `N = 0` the quotients are infinite and the value is `N`. -/
noncomputable def diracStep (N : Int) (x : ℝ) : Outcome ℝ := do
  let d ← imul 2 N
  if d = 0 then .ret (N : ℝ)
  else if x < -1 / (d : ℝ) ∨ x > 1 / (d : ℝ) then .ret 0
  else .ret (N : ℝ)

/-- `mml/base/DiracDeltaFunction.h:71`, `DiracExp`; `-x * x * _N * _N / 2.0` associates to the left, so all products
are floating-point. -/
noncomputable def diracExp (N : Int) (x : ℝ) : Outcome ℝ :=
  .ret ((N : ℝ) / Real.sqrt (2 * Real.pi) * Real.exp (-x * x * N * N / 2))

/-- `mml/base/DiracDeltaFunction.h:87`, `DiracSqr`; in `_N * _N * x * x` the first product is one of integers. -/
noncomputable def diracSqr (N : Int) (x : ℝ) : Outcome ℝ := do
  let m ← imul N N
  .ret ((N : ℝ) / Real.pi / (1 + (m : ℝ) * x * x))

open Classical in
/-- `mml/base/DiracDeltaFunction.h:104-108`, `DiracSin`. -/
noncomputable def diracSin (N : Int) (x : ℝ) : Outcome ℝ :=
  if |x| < 1 / 10 ^ 15 then .ret ((N : ℝ) / Real.pi)
  else .ret (Real.sin (N * x) / (Real.pi * x))

end Verif.Dirac
