import Verif.LinAlg.LU
import Mathlib.Analysis.SpecialFunctions.Sqrt

/-!
# Model of the curve fitting routines: the straight line and the polynomial evaluation

`mml/algorithms/CurveFitting.h` for `Scalar = Real`, exact.  `eps` is `std::numeric_limits<Scalar>::epsilon()`.  The output
parameters `a`, `b` are returned with the value.  A division by zero (NaN or infinity in the code) is undefined behaviour here.
The general fit, which uses the singular value decomposition, is in `Verif/Fit/General.lean`.
-/

set_option autoImplicit false

namespace Verif.Fit

open Verif.LinAlg (divU)

/-- `CurveFittingError`. -/
def errFit : Exn := .mml "CurveFittingError"

/-- `SingularMatrixError`. -/
def errSing : Exn := .mml "SingularMatrixError"

/-- Slope, intercept and residual norm: the output parameters and the return value of `LinearLeastSquares`
(CurveFitting.h:128). -/
structure Line where
  a : ℝ
  b : ℝ
  norm : ℝ

/-- The four sums of the normal equations (CurveFitting.h:163). -/
structure Sums where
  x : ℝ
  y : ℝ
  xx : ℝ
  xy : ℝ

/-- One round of the summation (CurveFitting.h:166-169). -/
noncomputable def sumStep (xs ys : List ℝ) (s : Sums) (i : ℕ) : Outcome Sums := do
  let x ← Outcome.index xs i
  let y ← Outcome.index ys i
  .ret ⟨s.x + x, s.y + y, s.xx + x * x, s.xy + x * y⟩

/-- The summation loop (CurveFitting.h:163-170). -/
noncomputable def sums (n : ℕ) (xs ys : List ℝ) : Outcome Sums :=
  forRange n (⟨0, 0, 0, 0⟩ : Sums) (sumStep xs ys)

/-- The sum of the squared residuals (CurveFitting.h:186-190, 227-232). -/
noncomputable def resSum (n : ℕ) (xs ys : List ℝ) (a b : ℝ) : Outcome ℝ :=
  forRange n (0 : ℝ) (fun r i => do
    let x ← Outcome.index xs i
    let y ← Outcome.index ys i
    .ret (r + (y - (a * x + b)) * (y - (a * x + b))))

/-- Two points with nearly the same abscissa (CurveFitting.h:148-154). -/
noncomputable def twoFlat (y0 y1 : ℝ) : Line :=
  ⟨0, (y0 + y1) / 2, Real.sqrt ((y0 - (y0 + y1) / 2) * (y0 - (y0 + y1) / 2) + (y1 - (y0 + y1) / 2) * (y1 - (y0 + y1) / 2))⟩

/-- Two points (CurveFitting.h:145-159). -/
noncomputable def two (eps : ℝ) (xs ys : List ℝ) : Outcome Line := do
  let x1 ← Outcome.index xs 1
  let x0 ← Outcome.index xs 0
  let y0 ← Outcome.index ys 0
  let y1 ← Outcome.index ys 1
  if |x1 - x0| < eps * 10 then .ret (twoFlat y0 y1)
  else do
    let a ← divU (y1 - y0) (x1 - x0)
    .ret ⟨a, y0 - a * x0, 0⟩

/-- Cramer's rule and the residual norm (CurveFitting.h:182-192). -/
noncomputable def cramer (n : ℕ) (xs ys : List ℝ) (s : Sums) (det : ℝ) : Outcome Line := do
  let a ← divU (n * s.xy - s.x * s.y) det
  let b ← divU (s.xx * s.y - s.x * s.xy) det
  let r ← resSum n xs ys a b
  .ret ⟨a, b, Real.sqrt r⟩

/-- Three points or more (CurveFitting.h:161-192). -/
noncomputable def many (eps : ℝ) (n : ℕ) (xs ys : List ℝ) : Outcome Line := do
  let s ← sums n xs ys
  if |n * s.xx - s.x * s.x| < eps * max |n * s.xx| |s.x * s.x| then .exn errSing
  else cramer n xs ys s (n * s.xx - s.x * s.x)

/-- `LinearLeastSquares` (CurveFitting.h:127-193). -/
noncomputable def lineFit (eps : ℝ) (xs ys : List ℝ) : Outcome Line :=
  if xs.length ≠ ys.length then .exn errFit
  else if xs.length = 0 then .exn errFit
  else if xs.length = 1 then do
    let y ← Outcome.index ys 0
    .ret ⟨0, y, 0⟩
  else if xs.length = 2 then two eps xs ys
  else many eps xs.length xs ys

/-- `LinearFitResult` (CurveFitting.h:197-211). -/
structure LineStats where
  a : ℝ
  b : ℝ
  norm : ℝ
  r2 : ℝ
  mse : ℝ

/-- The mean of the ordinates (CurveFitting.h:221-224, 380-383). -/
noncomputable def meanOf (n : ℕ) (ys : List ℝ) : Outcome ℝ := do
  let s ← forRange n (0 : ℝ) (fun s i => do
    let y ← Outcome.index ys i
    .ret (s + y))
  divU s n

/-- The total sum of squares (CurveFitting.h:226, 233, 385-389). -/
noncomputable def totSum (n : ℕ) (ys : List ℝ) (mean : ℝ) : Outcome ℝ :=
  forRange n (0 : ℝ) (fun s i => do
    let y ← Outcome.index ys i
    .ret (s + (y - mean) * (y - mean)))

/-- The coefficient of determination (CurveFitting.h:237-242, 391-399). -/
noncomputable def r2Of (eps res tot : ℝ) : ℝ :=
  if tot > eps then 1 - res / tot else if res < eps then 1 else 0

/-- `LinearLeastSquaresDetailed` (CurveFitting.h:213-247).  The loop of lines 229-234 is modelled as two loops, one for each of
the sums it accumulates. -/
noncomputable def lineFitDetailed (eps : ℝ) (xs ys : List ℝ) : Outcome LineStats := do
  let l ← lineFit eps xs ys
  let mean ← meanOf xs.length ys
  let res ← resSum xs.length xs ys l.a l.b
  let tot ← totSum xs.length ys mean
  let mse ← divU res xs.length
  .ret ⟨l.a, l.b, l.norm, r2Of eps res tot, mse⟩

/-- The statuses the detailed entry points report (CurveFitting.h:76, 90-101). -/
inductive Status where
  | success
  | singularMatrix
  | invalidInput
  | algorithmSpecificFailure
  deriving DecidableEq

/-- The status for a caught exception (CurveFitting.h:90-101).  `SingularMatrixError` and `CurveFittingError` are unrelated classes,
so that the order of the clauses does not matter. -/
def statusOf (e : Exn) : Status :=
  if e = errSing then .singularMatrix else if e = errFit then .invalidInput else .algorithmSpecificFailure

/-- `ExecuteCurveFittingDetailed` (CurveFitting.h:68-102) without the texts and the times: the status and, on success, the result
the body `compute` has filled in. -/
def execute {α : Type} (propagate : Bool) (compute : Outcome α) : Outcome (Status × Option α) :=
  match compute with
  | .ret r => .ret (.success, some r)
  | .exn e => if propagate then .exn e else .ret (statusOf e, none)
  | .ub => .ub

/-- `LinearFitDetailed` (CurveFitting.h:566-584): the coefficients are listed slope first. -/
noncomputable def linearFitDetailed (eps : ℝ) (propagate : Bool) (xs ys : List ℝ) :
    Outcome (Status × Option (List ℝ × ℝ × ℝ × ℝ)) :=
  execute propagate (do
    let f ← lineFitDetailed eps xs ys
    .ret ([f.a, f.b], f.norm, f.r2, f.mse))

/-- `EvaluatePolynomial` (CurveFitting.h:547-559). -/
noncomputable def evalPoly (x : ℝ) (c : List ℝ) : Outcome ℝ :=
  if c.length = 0 then .ret 0
  else do
    let r ← Outcome.index c (c.length - 1)
    forDown 0 (c.length - 1) r (fun r i => do
      let ci ← Outcome.index c i
      .ret (ci + x * r))

end Verif.Fit
