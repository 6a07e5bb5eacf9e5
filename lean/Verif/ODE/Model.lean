import Verif.Loops
import Verif.ODE.Coeffs
import Mathlib.Data.Real.Basic

/-!
# The single-step methods (mml/algorithms/ODESolvers/ODEStepCalculators.h)
-/

set_option autoImplicit false

namespace Verif.ODE

open Outcome

/-- An `IODESystem` (mml/interfaces/IODESystem.h, base/ODESystem.h:29-71, 111-124): `getDim()` and
`derivs(t, x, dxdt)`, which may read the old content of `dxdt` and returns its new content. -/
structure System where
  dim : ℕ
  derivs : ℝ → List ℝ → List ℝ → Outcome (List ℝ)

/-- An `IODESystemStepCalculator` (mml/interfaces/IODESystemStepCalculator.h): `calcStep(sys, t, x, dxdt,
h, x_out, x_err)` with the old contents of the two output vectors, returning their new contents. -/
abbrev Calc := System → ℝ → List ℝ → List ℝ → ℝ → List ℝ → List ℝ → Outcome (List ℝ × List ℝ)

/-- `Vector<Real> v(n)` (Vector.h: n zero elements). -/
def zeros (n : ℕ) : List ℝ := List.replicate n 0

/-- `for (i = 0; i < n; i++) out[i] = e(i);`, the loop every step calculator uses
(ODEStepCalculators.h:65-66 and throughout). -/
def fill (n : ℕ) (out : List ℝ) (e : ℕ → Outcome ℝ) : Outcome (List ℝ) :=
  forRange n out (fun out i => do
    let v ← e i
    store out i v)

/-- `for (i = 0; i < m; i++) out[m + i] = e(i);` (ODEStepCalculators.h:125-126, 132-133, 172-173,
179-180). -/
def fillHigh (m : ℕ) (out : List ℝ) (e : ℕ → Outcome ℝ) : Outcome (List ℝ) :=
  forRange m out (fun out i => do
    let v ← e i
    store out (m + i) v)

/-- `EulerStep_Calculator::calcStep` (ODEStepCalculators.h:61-71). -/
def eulerStep : Calc := fun sys _t x dxdt h xOut xErr => do
  let xOut ← fill sys.dim xOut (fun i => do
    let xi ← index x i
    let di ← index dxdt i
    ret (xi + h * di))
  let xErr ← fill sys.dim xErr (fun _ => ret 0)
  ret (xOut, xErr)

/-- `EulerCromer_StepCalculator::calcStep` (ODEStepCalculators.h:80-99). -/
noncomputable def eulerCromerStep : Calc := fun sys t x dxdt h xOut xErr => do
  let xNew ← fill sys.dim (zeros sys.dim) (fun i => do
    let xi ← index x i
    let di ← index dxdt i
    ret (xi + h * di))
  let dEnd ← sys.derivs (t + h) xNew (zeros sys.dim)
  let xOut ← fill sys.dim xOut (fun i => do
    let xi ← index x i
    let di ← index dxdt i
    let ei ← index dEnd i
    ret (xi + 1 / 2 * h * (di + ei)))
  let xErr ← fill sys.dim xErr (fun i => do
    let oi ← index xOut i
    let ni ← index xNew i
    ret (oi - ni))
  ret (xOut, xErr)

/-- `VelocityVerlet_StepCalculator::calcStep` (ODEStepCalculators.h:108-138). -/
noncomputable def verletStep : Calc := fun sys t x dxdt h xOut xErr => do
  let xOut ← fill (sys.dim / 2) xOut (fun i => do
    let xi ← index x i
    let vi ← index x (sys.dim / 2 + i)
    let ai ← index dxdt (sys.dim / 2 + i)
    ret (xi + vi * h + 1 / 2 * ai * h * h))
  let xTemp ← fillHigh (sys.dim / 2) xOut (fun i => index x (sys.dim / 2 + i))
  let dTemp ← sys.derivs (t + h) xTemp (zeros sys.dim)
  let xOut ← fillHigh (sys.dim / 2) xOut (fun i => do
    let vi ← index x (sys.dim / 2 + i)
    let ai ← index dxdt (sys.dim / 2 + i)
    let bi ← index dTemp (sys.dim / 2 + i)
    ret (vi + 1 / 2 * (ai + bi) * h))
  let xErr ← fill sys.dim xErr (fun _ => ret 0)
  ret (xOut, xErr)

/-- `Leapfrog_StepCalculator::calcStep` (ODEStepCalculators.h:150-185). -/
noncomputable def leapfrogStep : Calc := fun sys t x dxdt h xOut xErr => do
  let vHalf ← fill (sys.dim / 2) (zeros (sys.dim / 2)) (fun i => do
    let vi ← index x (sys.dim / 2 + i)
    let ai ← index dxdt (sys.dim / 2 + i)
    ret (vi + 1 / 2 * h * ai))
  let xOut ← fill (sys.dim / 2) xOut (fun i => do
    let xi ← index x i
    let vi ← index vHalf i
    ret (xi + h * vi))
  let xNext ← fillHigh (sys.dim / 2) xOut (fun i => index vHalf i)
  let dNext ← sys.derivs (t + h) xNext (zeros sys.dim)
  let xOut ← fillHigh (sys.dim / 2) xOut (fun i => do
    let vi ← index vHalf i
    let bi ← index dNext (sys.dim / 2 + i)
    ret (vi + 1 / 2 * h * bi))
  let xErr ← fill sys.dim xErr (fun _ => ret 0)
  ret (xOut, xErr)

/-- `Midpoint_StepCalculator::calcStep` (ODEStepCalculators.h:194-211). -/
noncomputable def midpointStep : Calc := fun sys t x dxdt h xOut xErr => do
  let xMid ← fill sys.dim (zeros sys.dim) (fun i => do
    let xi ← index x i
    let di ← index dxdt i
    ret (xi + 1 / 2 * h * di))
  let dMid ← sys.derivs (t + 1 / 2 * h) xMid (zeros sys.dim)
  let xOut ← fill sys.dim xOut (fun i => do
    let xi ← index x i
    let di ← index dMid i
    ret (xi + h * di))
  let xErr ← fill sys.dim xErr (fun _ => ret 0)
  ret (xOut, xErr)

/-- The third loop of `RungeKutta4_StepCalculator::calcStep` (ODEStepCalculators.h:240-243), on the pair
`(x_temp, dx_mid)`. -/
def rk4Third (x dTemp : List ℝ) (h : ℝ) (s : List ℝ × List ℝ) (i : ℕ) :
    Outcome (List ℝ × List ℝ) := do
  let xi ← index x i
  let mi ← index s.2 i
  let xTemp ← store s.1 i (xi + h * mi)
  let ti ← index dTemp i
  let dMid ← store s.2 i (mi + ti)
  ret (xTemp, dMid)

/-- `RungeKutta4_StepCalculator::calcStep` (ODEStepCalculators.h:220-253). -/
noncomputable def rk4Step : Calc := fun sys t x dxdt h xOut xErr => do
  let xTemp ← fill sys.dim (zeros sys.dim) (fun i => do
    let xi ← index x i
    let di ← index dxdt i
    ret (xi + h * (1 / 2) * di))
  let dTemp ← sys.derivs (t + h * (1 / 2)) xTemp (zeros sys.dim)
  let xTemp ← fill sys.dim xTemp (fun i => do
    let xi ← index x i
    let di ← index dTemp i
    ret (xi + h * (1 / 2) * di))
  let dMid ← sys.derivs (t + h * (1 / 2)) xTemp (zeros sys.dim)
  let s ← forRange sys.dim (xTemp, dMid) (rk4Third x dTemp h)
  let dTemp ← sys.derivs (t + h) s.1 dTemp
  let xOut ← fill sys.dim xOut (fun i => do
    let xi ← index x i
    let di ← index dxdt i
    let ti ← index dTemp i
    let mi ← index s.2 i
    ret (xi + h / 6 * (di + ti + 2 * mi)))
  let xErr ← fill sys.dim xErr (fun _ => ret 0)
  ret (xOut, xErr)

/-- The unrolled sum `row[0] * k[0][i] + row[1] * k[1][i] + …` of the embedded methods
(ODEStepCalculators.h:285, 289, …, 473) and the summing loops 478-480, 486-488. -/
noncomputable def combine (row : List ℚ) (k : List (List ℝ)) (i : ℕ) : Outcome ℝ :=
  forRange row.length 0 (fun s j => do
    let q ← index row j
    let kj ← index k j
    let v ← index kj i
    ret (s + (q : ℝ) * v))

/-- `x[i] + h * (row[0] * k[0][i] + …)` (same lines). -/
noncomputable def advance (x : List ℝ) (h : ℝ) (row : List ℚ) (k : List (List ℝ)) (i : ℕ) :
    Outcome ℝ := do
  let xi ← index x i
  let s ← combine row k i
  ret (xi + h * s)

/-- `h * (row[0] * k[0][i] + …)` (ODEStepCalculators.h:304, 377, 486-489). -/
noncomputable def estimate (h : ℝ) (row : List ℚ) (k : List (List ℝ)) (i : ℕ) : Outcome ℝ := do
  let s ← combine row k i
  ret (h * s)

/-- The error coefficients `b - bstar` (ODERKCoefficients.h:91-96, 170-176 are those of the tables;
ODEStepCalculators.h:488 forms them for the eighth-order method). -/
def diffs (b b' : List ℚ) : List ℚ := List.zipWith (· - ·) b b'

/-- `RK5_CashKarp_Calculator::calcStep` (ODEStepCalculators.h:273-305). -/
noncomputable def ckStep : Calc := fun sys t x dxdt h xOut xErr => do
  let xt ← fill x.length (zeros x.length) (advance x h [CK.a21] [dxdt])
  let k2 ← sys.derivs (t + CK.c2 * h) xt (zeros x.length)
  let xt ← fill x.length xt (advance x h [CK.a31, CK.a32] [dxdt, k2])
  let k3 ← sys.derivs (t + CK.c3 * h) xt (zeros x.length)
  let xt ← fill x.length xt (advance x h [CK.a41, CK.a42, CK.a43] [dxdt, k2, k3])
  let k4 ← sys.derivs (t + CK.c4 * h) xt (zeros x.length)
  let xt ← fill x.length xt (advance x h [CK.a51, CK.a52, CK.a53, CK.a54] [dxdt, k2, k3, k4])
  let k5 ← sys.derivs (t + CK.c5 * h) xt (zeros x.length)
  let xt ← fill x.length xt
    (advance x h [CK.a61, CK.a62, CK.a63, CK.a64, CK.a65] [dxdt, k2, k3, k4, k5])
  let k6 ← sys.derivs (t + CK.c6 * h) xt (zeros x.length)
  let xOut ← fill x.length xOut (advance x h [CK.b1, CK.b3, CK.b4, CK.b6] [dxdt, k3, k4, k6])
  let xErr ← fill x.length xErr
    (estimate h [CK.e1, CK.e3, CK.e4, CK.e5, CK.e6] [dxdt, k3, k4, k5, k6])
  ret (xOut, xErr)

/-- `DormandPrince5_StepCalculator::calcStep` (ODEStepCalculators.h:330-378). -/
noncomputable def dp5Step : Calc := fun sys t x dxdt h xOut xErr => do
  let k1 ← fill x.length (zeros x.length) (fun i => index dxdt i)
  let xt ← fill x.length (zeros x.length) (advance x h [DP5.a21] [k1])
  let k2 ← sys.derivs (t + DP5.c2 * h) xt (zeros x.length)
  let xt ← fill x.length xt (advance x h [DP5.a31, DP5.a32] [k1, k2])
  let k3 ← sys.derivs (t + DP5.c3 * h) xt (zeros x.length)
  let xt ← fill x.length xt (advance x h [DP5.a41, DP5.a42, DP5.a43] [k1, k2, k3])
  let k4 ← sys.derivs (t + DP5.c4 * h) xt (zeros x.length)
  let xt ← fill x.length xt (advance x h [DP5.a51, DP5.a52, DP5.a53, DP5.a54] [k1, k2, k3, k4])
  let k5 ← sys.derivs (t + DP5.c5 * h) xt (zeros x.length)
  let xt ← fill x.length xt
    (advance x h [DP5.a61, DP5.a62, DP5.a63, DP5.a64, DP5.a65] [k1, k2, k3, k4, k5])
  let k6 ← sys.derivs (t + DP5.c6 * h) xt (zeros x.length)
  let xt ← fill x.length xt
    (advance x h [DP5.a71, DP5.a72, DP5.a73, DP5.a74, DP5.a75, DP5.a76] [k1, k2, k3, k4, k5, k6])
  let k7 ← sys.derivs (t + DP5.c7 * h) xt (zeros x.length)
  let xOut ← fill x.length xOut (advance x h
    [DP5.b1, DP5.b2, DP5.b3, DP5.b4, DP5.b5, DP5.b6, DP5.b7] [k1, k2, k3, k4, k5, k6, k7])
  let xErr ← fill x.length xErr (estimate h
    [DP5.e1, DP5.e2, DP5.e3, DP5.e4, DP5.e5, DP5.e6, DP5.e7] [k1, k2, k3, k4, k5, k6, k7])
  ret (xOut, xErr)

/-- `DormandPrince8_StepCalculator::calcStep` (ODEStepCalculators.h:402-491).  The array `k` of thirteen
vectors is held in thirteen variables. -/
noncomputable def dp8Step : Calc := fun sys t x dxdt h xOut xErr => do
  let k0 ← fill x.length (zeros x.length) (fun i => index dxdt i)
  let xt ← fill x.length (zeros x.length) (advance x h DP8.a2 [k0])
  let k1 ← sys.derivs (t + (DP8.c.getD 1 0 : ℚ) * h) xt (zeros x.length)
  let xt ← fill x.length xt (advance x h DP8.a3 [k0, k1])
  let k2 ← sys.derivs (t + (DP8.c.getD 2 0 : ℚ) * h) xt (zeros x.length)
  let xt ← fill x.length xt (advance x h DP8.a4 [k0, k1, k2])
  let k3 ← sys.derivs (t + (DP8.c.getD 3 0 : ℚ) * h) xt (zeros x.length)
  let xt ← fill x.length xt (advance x h DP8.a5 [k0, k1, k2, k3])
  let k4 ← sys.derivs (t + (DP8.c.getD 4 0 : ℚ) * h) xt (zeros x.length)
  let xt ← fill x.length xt (advance x h DP8.a6 [k0, k1, k2, k3, k4])
  let k5 ← sys.derivs (t + (DP8.c.getD 5 0 : ℚ) * h) xt (zeros x.length)
  let xt ← fill x.length xt (advance x h DP8.a7 [k0, k1, k2, k3, k4, k5])
  let k6 ← sys.derivs (t + (DP8.c.getD 6 0 : ℚ) * h) xt (zeros x.length)
  let xt ← fill x.length xt (advance x h DP8.a8 [k0, k1, k2, k3, k4, k5, k6])
  let k7 ← sys.derivs (t + (DP8.c.getD 7 0 : ℚ) * h) xt (zeros x.length)
  let xt ← fill x.length xt (advance x h DP8.a9 [k0, k1, k2, k3, k4, k5, k6, k7])
  let k8 ← sys.derivs (t + (DP8.c.getD 8 0 : ℚ) * h) xt (zeros x.length)
  let xt ← fill x.length xt (advance x h DP8.a10 [k0, k1, k2, k3, k4, k5, k6, k7, k8])
  let k9 ← sys.derivs (t + (DP8.c.getD 9 0 : ℚ) * h) xt (zeros x.length)
  let xt ← fill x.length xt (advance x h DP8.a11 [k0, k1, k2, k3, k4, k5, k6, k7, k8, k9])
  let k10 ← sys.derivs (t + (DP8.c.getD 10 0 : ℚ) * h) xt (zeros x.length)
  let xt ← fill x.length xt (advance x h DP8.a12 [k0, k1, k2, k3, k4, k5, k6, k7, k8, k9, k10])
  let k11 ← sys.derivs (t + (DP8.c.getD 11 0 : ℚ) * h) xt (zeros x.length)
  let xt ← fill x.length xt
    (advance x h DP8.a13 [k0, k1, k2, k3, k4, k5, k6, k7, k8, k9, k10, k11])
  let k12 ← sys.derivs (t + (DP8.c.getD 12 0 : ℚ) * h) xt (zeros x.length)
  let xOut ← fill x.length xOut
    (advance x h DP8.b8 [k0, k1, k2, k3, k4, k5, k6, k7, k8, k9, k10, k11, k12])
  let xErr ← fill x.length xErr (estimate h (diffs DP8.b8 DP8.b7)
    [k0, k1, k2, k3, k4, k5, k6, k7, k8, k9, k10, k11, k12])
  ret (xOut, xErr)

end Verif.ODE
