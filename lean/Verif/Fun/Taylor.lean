import Verif.Deriv.Model

/-!
# Model of `TaylorSeries2` and `TaylorSeries3` (`mml/core/FunctionHelpers.h`)

The derivatives are those of `Verif.Deriv.Model`, with the default step and no error estimate.  A value that is not finite
is `none`; the polynomial is then `none` as a whole (simplified: in the code only some coefficients may be affected).
-/

set_option autoImplicit false

namespace Verif.Deriv

/-- `mml/core/FunctionHelpers.h:43-57`, `TaylorSeries2`: the coefficients, that of degree 0 first. -/
noncomputable def taylorSeries2 (eps : ℝ) (f : Fn) (a : ℝ) : Outcome (Option (List ℝ)) := do
  let d1 ← nDer6 eps f a none false
  let d2 ← nSecDer4 eps f a none false
  .ret (do
    let val ← f a
    let coef1 ← d1.1
    let der2 ← d2.1
    let coef2 := der2 / 2
    some [val - coef1 * a + coef2 * (a * a), coef1 - 2 * coef2 * a, coef2])

/-- `mml/core/FunctionHelpers.h:64-80`, `TaylorSeries3`: the coefficients, that of degree 0 first. -/
noncomputable def taylorSeries3 (eps : ℝ) (f : Fn) (a : ℝ) : Outcome (Option (List ℝ)) := do
  let d1 ← nDer6 eps f a none false
  let d2 ← nSecDer4 eps f a none false
  let d3 ← nThirdDer2 eps f a none false
  .ret (do
    let val ← f a
    let coef1 ← d1.1
    let der2 ← d2.1
    let der3 ← d3.1
    let coef2 := der2 / 2
    let coef3 := der3 / 6
    some [val - coef1 * a + coef2 * (a * a) - coef3 * a ^ 3, coef1 - 2 * coef2 * a + 3 * coef3 * (a * a),
      coef2 - 3 * coef3 * a, coef3])

end Verif.Deriv
