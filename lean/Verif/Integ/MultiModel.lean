import Verif.Integ.Model
import Verif.Integ.GaussModel

/-!
# Model of the method dispatch and of the nested integrators

`Integration1D.h:388-437`, `Integration2D.h`, `Integration3D.h`.  A scalar function of two or three variables is a curried total
function.
-/

set_option autoImplicit false

namespace Verif.Integ

open Verif

/-- `IntegrationMethod` (Integration1D.h:35). -/
inductive Method
  | trap
  | simpson
  | romberg
  | gauss10
  | gk21
  deriving DecidableEq

/-- The settings the one-dimensional integrators read from `Defaults` (MMLBase.h:199-208) and the number of points of the Romberg
extrapolation (Integration1D.h:217). -/
structure Config where
  trapSteps : ℕ
  trapEps : ℝ
  simpsonSteps : ℕ
  simpsonEps : ℝ
  rombergSteps : ℕ
  rombergPoints : ℕ
  rombergEps : ℝ

/-- `IntegrateGK21` (Integration1D.h:388-393): the result of the Gauss-Kronrod rule repackaged. -/
noncomputable def wrapGK21 (f : ℝ → ℝ) (a b : ℝ) : Outcome Result := do
  let g ← integrateGK21 f a b
  .ret ⟨g.value, g.error, g.evals, g.converged⟩

/-- `Integrate` (Integration1D.h:414-437). -/
noncomputable def integrate (c : Config) (f : ℝ → ℝ) (a b : ℝ) (m : Method) (eps : ℝ) : Outcome Result :=
  match m with
  | .trap => integrateTrap c.trapSteps f a b eps
  | .simpson => integrateSimpson c.simpsonSteps f a b eps
  | .romberg => integrateRomberg c.rombergSteps c.rombergPoints f a b eps
  | .gauss10 => integrateGauss10 f a b
  | .gk21 => wrapGK21 f a b

/-- The `switch` of the nested integrators, each method with its own default accuracy (Integration2D.h:62-75, 89-102,
Integration3D.h:63-90, 111-123, 142-155). -/
noncomputable def run (c : Config) (m : Method) (f : ℝ → ℝ) (a b : ℝ) : Outcome Result :=
  match m with
  | .simpson => integrateSimpson c.simpsonSteps f a b c.simpsonEps
  | .romberg => integrateRomberg c.rombergSteps c.rombergPoints f a b c.rombergEps
  | .gauss10 => integrateGauss10 f a b
  | .gk21 => wrapGK21 f a b
  | .trap => integrateTrap c.trapSteps f a b c.trapEps

/-- The `.value` of a result. -/
noncomputable def valueOf : Outcome Result → ℝ
  | .ret r => r.value
  | _ => 0

open Classical in
/-- Using the value of an inner integral as the integrand of an outer one.  Simplified: the outer integrator is undefined as soon
as the inner one is undefined at any point, not only at the points it visits. -/
noncomputable def nest (inner : ℝ → Outcome Result) (outer : (ℝ → ℝ) → Outcome Result) : Outcome Result :=
  if ∀ x, ∃ r, inner x = .ret r then outer fun x => valueOf (inner x) else .ub

/-- `Integral2DOuter::operator()` (Integration2D.h:59-76): the inner integral for a given `x`. -/
noncomputable def inner2D (c : Config) (m : Method) (f : ℝ → ℝ → ℝ) (y1 y2 : ℝ → ℝ) (x : ℝ) : Outcome Result :=
  run c m (f x) (y1 x) (y2 x)

/-- `Integrate2D` (Integration2D.h:83-104). -/
noncomputable def integrate2D (c : Config) (f : ℝ → ℝ → ℝ) (m : Method) (x1 x2 : ℝ) (y1 y2 : ℝ → ℝ) : Outcome Result :=
  nest (inner2D c m f y1 y2) fun F => run c m F x1 x2

/-- `Integral3DInner::operator()` (Integration3D.h:59-90): the innermost integral for given `x` and `y`. -/
noncomputable def innermost3D (c : Config) (m : Method) (f : ℝ → ℝ → ℝ → ℝ) (z1 z2 : ℝ → ℝ → ℝ) (x y : ℝ) : Outcome Result :=
  run c m (f x y) (z1 x y) (z2 x y)

/-- `Integral3DOuter::operator()` (Integration3D.h:107-124): the two inner integrals for a given `x`. -/
noncomputable def inner3D (c : Config) (m : Method) (f : ℝ → ℝ → ℝ → ℝ) (y1 y2 : ℝ → ℝ) (z1 z2 : ℝ → ℝ → ℝ) (x : ℝ) :
    Outcome Result :=
  nest (innermost3D c m f z1 z2 x) fun F => run c m F (y1 x) (y2 x)

/-- `Integrate3D` (Integration3D.h:134-156). -/
noncomputable def integrate3D (c : Config) (f : ℝ → ℝ → ℝ → ℝ) (m : Method) (x1 x2 : ℝ) (y1 y2 : ℝ → ℝ) (z1 z2 : ℝ → ℝ → ℝ) :
    Outcome Result :=
  nest (inner3D c m f y1 y2 z1 z2) fun F => run c m F x1 x2

/-- `Integrate3D` without a method (Integration3D.h:159-165). -/
noncomputable def integrate3DDefault (c : Config) (f : ℝ → ℝ → ℝ → ℝ) (x1 x2 : ℝ) (y1 y2 : ℝ → ℝ) (z1 z2 : ℝ → ℝ → ℝ) :
    Outcome Result :=
  integrate3D c f .gauss10 x1 x2 y1 y2 z1 z2

end Verif.Integ
