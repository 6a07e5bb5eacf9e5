import Verif.Interp.Model
import Mathlib.Analysis.SpecialFunctions.Pow.Real
import Mathlib.Analysis.SpecialFunctions.Trigonometric.Inverse

/-!
# Model of the closed-form polynomial solvers (mml/algorithms/RootFinding/RootFindingPolynoms.h:36-200)

Numbers are exact; the reference arguments the roots are written to are returned.
-/

set_option autoImplicit false

namespace Verif.Roots

open Verif

/-- `Constants::Eps` (MMLBase.h:129), for `Real = double`. -/
noncomputable def epsilon : ℝ := 1 / 2 ^ 52

/-- `std::copysign(s, b)` for `s ≥ 0`.  The sign of a negative zero is not modelled. -/
noncomputable def copySign (s b : ℝ) : ℝ := if b < 0 then -s else s

/-- `std::cbrt`. -/
noncomputable def cbrt (x : ℝ) : ℝ := if x < 0 then -((-x) ^ (1 / 3 : ℝ)) else x ^ (1 / 3 : ℝ)

/-- `std::sqrt` of a complex number: the principal root. -/
noncomputable def csqrt (z : ℂ) : ℂ := z ^ (1 / 2 : ℂ)

/-- The number returned and the roots of `SolveQuadratic`. -/
structure Roots2 where
  count : ℕ
  x1 : ℂ
  x2 : ℂ

/-- The number returned and the roots of `SolveCubic`. -/
structure Roots3 where
  count : ℕ
  x1 : ℂ
  x2 : ℂ
  x3 : ℂ

/-- The roots of `SolveQuartic`. -/
structure Roots4 where
  x1 : ℂ
  x2 : ℂ
  x3 : ℂ
  x4 : ℂ

/-- The case `D >= 0` (RootFindingPolynoms.h:52-58).  For `q = 0` the quotient `c / q` is `0 / 0`. -/
noncomputable def quadraticReal (a b c : ℝ) : Outcome Roots2 := do
  let r ← Interp.fdiv c (-0.5 * (b + copySign (Real.sqrt (b * b - 4 * a * c)) b))
  .ret ⟨2, ((-0.5 * (b + copySign (Real.sqrt (b * b - 4 * a * c)) b) / a : ℝ) : ℂ), (r : ℂ)⟩

/-- `SolveQuadratic` with real coefficients (RootFindingPolynoms.h:38-65). -/
noncomputable def solveQuadratic (a b c : ℝ) : Outcome Roots2 :=
  if |a| < epsilon then
    if |b| < epsilon then .ret ⟨0, 0, 0⟩ else .ret ⟨1, ((-c / b : ℝ) : ℂ), 0⟩
  else if b * b - 4 * a * c ≥ 0 then quadraticReal a b c
  else .ret ⟨0, (-b + csqrt ((b * b - 4 * a * c : ℝ) : ℂ)) / (2 * a), (-b - csqrt ((b * b - 4 * a * c : ℝ) : ℂ)) / (2 * a)⟩

/-- `SolveQuadratic` with complex coefficients (RootFindingPolynoms.h:68-81). -/
noncomputable def solveQuadraticC (a b c : ℂ) : ℂ × ℂ :=
  if ‖a‖ < epsilon then (if ‖b‖ < epsilon then 0 else -c / b, 0)
  else ((-b + csqrt (b * b - 4 * a * c)) / (2 * a), (-b - csqrt (b * b - 4 * a * c)) / (2 * a))

/-- `Q` (RootFindingPolynoms.h:100) of the normalised coefficients. -/
noncomputable def cubicQ (A B : ℝ) : ℝ := (3 * B - A ^ 2) / 9

/-- `R` (RootFindingPolynoms.h:101-102). -/
noncomputable def cubicR (A B C : ℝ) : ℝ := (9 * A * B - 27 * C - 2 * A ^ 3) / 54

/-- The case `D >= 0` (RootFindingPolynoms.h:107-116), from `A`, `S` and `T`. -/
noncomputable def cardano (A S T : ℝ) : Roots3 :=
  ⟨1, ((-A / 3 + (S + T) : ℝ) : ℂ), ((-A / 3 - (S + T) / 2 : ℝ) : ℂ) + ⟨0, Real.sqrt 3 * (S - T) / 2⟩,
    ((-A / 3 - (S + T) / 2 : ℝ) : ℂ) - ⟨0, Real.sqrt 3 * (S - T) / 2⟩⟩

/-- The case `D < 0` (RootFindingPolynoms.h:120-129), from `A`, `Q` and `theta`. -/
noncomputable def trigonometric (A Q θ : ℝ) : Roots3 :=
  ⟨3, ((2 * Real.sqrt (-Q) * Real.cos (θ / 3) - A / 3 : ℝ) : ℂ),
    ((2 * Real.sqrt (-Q) * Real.cos ((θ + 2 * Real.pi) / 3) - A / 3 : ℝ) : ℂ),
    ((2 * Real.sqrt (-Q) * Real.cos ((θ + 4 * Real.pi) / 3) - A / 3 : ℝ) : ℂ)⟩

/-- The cubic with leading coefficient one (RootFindingPolynoms.h:99-130).  Where `theta` is computed, `-Q^3 > 0`. -/
noncomputable def monicCubic (A B C : ℝ) : Roots3 :=
  if cubicQ A B ^ 3 + cubicR A B C ^ 2 ≥ 0 then
    cardano A (cbrt (cubicR A B C + Real.sqrt (cubicQ A B ^ 3 + cubicR A B C ^ 2)))
      (cbrt (cubicR A B C - Real.sqrt (cubicQ A B ^ 3 + cubicR A B C ^ 2)))
  else trigonometric A (cubicQ A B) (Real.arccos (cubicR A B C / Real.sqrt (-cubicQ A B ^ 3)))

/-- `SolveCubic` (RootFindingPolynoms.h:85-131). -/
noncomputable def solveCubic (a b c d : ℝ) : Outcome Roots3 :=
  if |a| < epsilon then do
    let r ← solveQuadratic b c d
    .ret ⟨r.count, r.x1, r.x2, 0⟩
  else .ret (monicCubic (b / a) (c / a) (d / a))

/-- `P` of the depressed quartic (RootFindingPolynoms.h:152) from the normalised coefficients. -/
noncomputable def quarticP (A B : ℝ) : ℝ := B - 3 * (A * A) / 8

/-- `Q` (RootFindingPolynoms.h:153). -/
noncomputable def quarticQ (A B C : ℝ) : ℝ := C - 0.5 * A * B + A * A * A / 8

/-- `R` (RootFindingPolynoms.h:154-155). -/
noncomputable def quarticR (A B C D : ℝ) : ℝ := D - 0.25 * A * C + A * A * B / 16 - 3 * (A * A) * (A * A) / 256

/-- The biquadratic case (RootFindingPolynoms.h:159-166). -/
noncomputable def biquadratic (A P R : ℝ) : Roots4 :=
  ⟨csqrt (solveQuadraticC 1 P R).1 - A / 4, -csqrt (solveQuadraticC 1 P R).1 - A / 4,
    csqrt (solveQuadraticC 1 P R).2 - A / 4, -csqrt (solveQuadraticC 1 P R).2 - A / 4⟩

/-- One comparison of the choice of `z` (RootFindingPolynoms.h:182-187). -/
noncomputable def better (P : ℝ) (z z' : ℂ) : ℂ := if ‖csqrt (2 * z' - P)‖ > ‖csqrt (2 * z - P)‖ then z' else z

/-- The two quadratics (RootFindingPolynoms.h:190-201) from `z` and `U`.  The quotient `Q / (2 U)` is undefined for `U = 0`. -/
noncomputable def ferrari (A Q : ℝ) (z U : ℂ) : Outcome Roots4 :=
  if U = 0 then .ub
  else .ret ⟨(solveQuadraticC 1 U (z - Q / (2 * U))).1 - A / 4, (solveQuadraticC 1 U (z - Q / (2 * U))).2 - A / 4,
    (solveQuadraticC 1 (-U) (z + Q / (2 * U))).1 - A / 4, (solveQuadraticC 1 (-U) (z + Q / (2 * U))).2 - A / 4⟩

/-- The quartic with leading coefficient one (RootFindingPolynoms.h:150-202). -/
noncomputable def monicQuartic (A B C D : ℝ) : Outcome Roots4 :=
  if |quarticQ A B C| ≤ epsilon then .ret (biquadratic A (quarticP A B) (quarticR A B C D))
  else do
    let r ← solveCubic 1 (-quarticP A B / 2) (-quarticR A B C D)
      (quarticR A B C D * quarticP A B / 2 - quarticQ A B C * quarticQ A B C / 8)
    let z := better (quarticP A B) (better (quarticP A B) r.x1 r.x2) r.x3
    ferrari A (quarticQ A B C) z (csqrt (2 * z - quarticP A B))

/-- `SolveQuartic` (RootFindingPolynoms.h:135-202). -/
noncomputable def solveQuartic (a b c d e : ℝ) : Outcome Roots4 :=
  if |a| < epsilon then do
    let r ← solveCubic b c d e
    .ret ⟨r.x1, r.x2, r.x3, 0⟩
  else monicQuartic (b / a) (c / a) (d / a) (e / a)

end Verif.Roots
