import Mathlib.Analysis.SpecialFunctions.Exp

/-!
Model of the scalar bump fields of `mml/core/Fields.h`.  `Real` is exact; the components of the position and of the centre are
separate arguments.  For the width 0 the code divides by 0; the theorems leave that case out.
-/

set_option autoImplicit false

namespace Verif.Bumps

/-- `mml/core/Fields.h:433-440`, `GaussianBumpField::operator()`. -/
noncomputable def gaussianBump (A sigma c0 c1 c2 x y z : ℝ) : ℝ :=
  let dx := x - c0
  let dy := y - c1
  let dz := z - c2
  let rSq := dx * dx + dy * dy + dz * dz
  A * Real.exp (-rSq / (sigma * sigma))

/-- `mml/core/Fields.h:463-471`, `MexicanHatField::operator()`. -/
noncomputable def mexicanHat (A sigma c0 c1 c2 x y z : ℝ) : ℝ :=
  let dx := x - c0
  let dy := y - c1
  let dz := z - c2
  let rSq := dx * dx + dy * dy + dz * dz
  let sigmaSq := sigma * sigma
  A * (1 - rSq / sigmaSq) * Real.exp (-rSq / (2 * sigmaSq))

end Verif.Bumps
