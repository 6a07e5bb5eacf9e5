import Verif.Integ.Model
import Mathlib.Analysis.SpecialFunctions.Trigonometric.Basic

/-!
# Gauss-Chebyshev rules (GaussianQuadrature.h)
-/

set_option autoImplicit false

namespace Verif.Integ

open Verif

/-- `GaussQuadratureRule` (GaussianQuadrature.h:29-35). -/
structure QuadRule where
  nodes : List ℝ
  weights : List ℝ
  n : ℕ

/-- The constructor (GaussianQuadrature.h:34): a negative size is refused by `std::vector`. -/
def QuadRule.new (n : ℤ) : Outcome QuadRule :=
  if n < 0 then .exn .lengthError else .ret ⟨List.replicate n.toNat 0, List.replicate n.toNat 0, n.toNat⟩

/-- The loop body of `GaussChebyshev1` (GaussianQuadrature.h:456-460), with `wgt` of line 455 written in place. -/
noncomputable def cheb1Step (n : ℕ) (xw : List ℝ × List ℝ) (i : ℕ) : Outcome (List ℝ × List ℝ) := do
  let x ← Outcome.store xw.1 i (Real.cos (Real.pi * (2 * i + 1) / (2 * n)))
  let w ← Outcome.store xw.2 i (Real.pi / n)
  .ret (x, w)

/-- `GaussChebyshev1` (GaussianQuadrature.h:449-461).  For empty vectors line 455 divides by zero and the result is not used. -/
noncomputable def gaussChebyshev1 (x w : List ℝ) : Outcome (List ℝ × List ℝ) :=
  if w.length ≠ x.length then .exn (.mml "VectorDimensionError")
  else forRange x.length (x, w) (cheb1Step x.length)

/-- The loop body of `GaussChebyshev2` (GaussianQuadrature.h:479-485). -/
noncomputable def cheb2Step (n : ℕ) (xw : List ℝ × List ℝ) (i : ℕ) : Outcome (List ℝ × List ℝ) := do
  let x ← Outcome.store xw.1 i (Real.cos (Real.pi * (i + 1) / (n + 1)))
  let w ← Outcome.store xw.2 i
    (Real.pi / (n + 1) * Real.sin (Real.pi * (i + 1) / (n + 1)) * Real.sin (Real.pi * (i + 1) / (n + 1)))
  .ret (x, w)

/-- `GaussChebyshev2` (GaussianQuadrature.h:473-486). -/
noncomputable def gaussChebyshev2 (x w : List ℝ) : Outcome (List ℝ × List ℝ) :=
  if w.length ≠ x.length then .exn (.mml "VectorDimensionError")
  else forRange x.length (x, w) (cheb2Step x.length)

/-- `GaussChebyshev1Rule` (GaussianQuadrature.h:491-496). -/
noncomputable def chebyshev1Rule (n : ℤ) : Outcome QuadRule := do
  let r ← QuadRule.new n
  let xw ← gaussChebyshev1 r.nodes r.weights
  .ret ⟨xw.1, xw.2, r.n⟩

/-- `GaussChebyshev2Rule` (GaussianQuadrature.h:501-506). -/
noncomputable def chebyshev2Rule (n : ℤ) : Outcome QuadRule := do
  let r ← QuadRule.new n
  let xw ← gaussChebyshev2 r.nodes r.weights
  .ret ⟨xw.1, xw.2, r.n⟩

/-- The loop body of `IntegrateWithRule` (GaussianQuadrature.h:522-525). -/
noncomputable def ruleStep (f : ℝ → ℝ) (r : QuadRule) (sum : ℝ) (i : ℕ) : Outcome ℝ := do
  let w ← Outcome.index r.weights i
  let x ← Outcome.index r.nodes i
  .ret (sum + w * f x)

/-- `IntegrateWithRule` (GaussianQuadrature.h:519-527). -/
noncomputable def integrateWithRule (f : ℝ → ℝ) (r : QuadRule) : Outcome ℝ := forRange r.n 0 (ruleStep f r)

/-- `IntegrateGaussChebyshev1` (GaussianQuadrature.h:685-690). -/
noncomputable def integrateChebyshev1 (f : ℝ → ℝ) (n : ℤ) : Outcome Result := do
  let r ← chebyshev1Rule n
  let v ← integrateWithRule f r
  .ret ⟨v, 0, 1, true⟩

/-- `IntegrateGaussChebyshev2` (GaussianQuadrature.h:720-725). -/
noncomputable def integrateChebyshev2 (f : ℝ → ℝ) (n : ℤ) : Outcome Result := do
  let r ← chebyshev2Rule n
  let v ← integrateWithRule f r
  .ret ⟨v, 0, 1, true⟩

end Verif.Integ
