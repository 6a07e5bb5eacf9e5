import Verif.Deriv.Partial
import Verif.Integ.Model

/-!
# Model of `PathIntegration` (`mml/core/Integration/PathIntegration.h`)

Curves, fields and densities are total functions.  `meps` is the machine precision, from which `NDer4` takes its step;
`M` is `Defaults::TrapezoidIntegrationMaxSteps`.
-/

set_option autoImplicit false

namespace Verif.Path

open Verif

variable {N : ℕ}

/-- `Derivation::DeriveCurve` (`mml/core/Derivation/DerivationParametricCurve.h:319-320`): `NDer4` with its own step. -/
noncomputable def deriveCurve (meps : ℝ) (c : ℝ → Fin N → ℝ) (t : ℝ) : Outcome (Fin N → ℝ) := Deriv.nDer4Curve meps c t none

/-- An integrand made from the tangent vector.  Simplified: where the tangent is undefined (a step of zero, which does not
occur for a positive machine precision) it is 0. -/
noncomputable def withTangent (F : (Fin N → ℝ) → ℝ) : Outcome (Fin N → ℝ) → ℝ
  | .ret v => F v
  | _ => 0

/-- `HelperCurveLen` (`mml/core/Integration/PathIntegration.h:76-80`). -/
noncomputable def speed (meps : ℝ) (c : ℝ → Fin N → ℝ) (t : ℝ) : ℝ :=
  withTangent (fun v => Deriv.normL2 v) (deriveCurve meps c t)

/-- `HelperCurveMass` (`mml/core/Integration/PathIntegration.h:94-98`). -/
noncomputable def massRate (meps : ℝ) (c : ℝ → Fin N → ℝ) (density : ℝ → ℝ) (t : ℝ) : ℝ :=
  withTangent (fun v => Deriv.normL2 v * density t) (deriveCurve meps c t)

/-- `HelperLineIntegralScalarFunc` (`mml/core/Integration/PathIntegration.h:112-117`). -/
noncomputable def scalarRate (meps : ℝ) (f : (Fin N → ℝ) → ℝ) (c : ℝ → Fin N → ℝ) (t : ℝ) : ℝ :=
  withTangent (fun v => f (c t) * Deriv.normL2 v) (deriveCurve meps c t)

/-- `HelperLineIntegralVectorFunc` (`mml/core/Integration/PathIntegration.h:131-136`). -/
noncomputable def vectorRate (meps : ℝ) (F : (Fin N → ℝ) → Fin N → ℝ) (c : ℝ → Fin N → ℝ) (t : ℝ) : ℝ :=
  withTangent (fun v => ∑ k, v k * F (c t) k) (deriveCurve meps c t)

/-- `ParametricCurveLength` (`mml/core/Integration/PathIntegration.h:164-168`). -/
noncomputable def curveLength (meps : ℝ) (M : ℕ) (eps : ℝ) (c : ℝ → Fin N → ℝ) (a b : ℝ) : Outcome Integ.Result :=
  Integ.integrateTrap M (speed meps c) a b eps

/-- `ParametricCurveMass` (`mml/core/Integration/PathIntegration.h:199-204`). -/
noncomputable def curveMass (meps : ℝ) (M : ℕ) (eps : ℝ) (c : ℝ → Fin N → ℝ) (density : ℝ → ℝ) (a b : ℝ) :
    Outcome Integ.Result :=
  Integ.integrateTrap M (massRate meps c density) a b eps

/-- `LineIntegral` of a scalar field (`mml/core/Integration/PathIntegration.h:234-239`). -/
noncomputable def lineIntegralScalar (meps : ℝ) (M : ℕ) (eps : ℝ) (f : (Fin 3 → ℝ) → ℝ) (c : ℝ → Fin 3 → ℝ) (a b : ℝ) :
    Outcome Integ.Result :=
  Integ.integrateTrap M (scalarRate meps f c) a b eps

/-- `LineIntegral` of a vector field (`mml/core/Integration/PathIntegration.h:279-284`). -/
noncomputable def lineIntegralVector (meps : ℝ) (M : ℕ) (eps : ℝ) (F : (Fin 3 → ℝ) → Fin 3 → ℝ) (c : ℝ → Fin 3 → ℝ)
    (a b : ℝ) : Outcome Integ.Result :=
  Integ.integrateTrap M (vectorRate meps F c) a b eps

end Verif.Path
