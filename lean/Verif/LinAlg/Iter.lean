import Verif.LinAlg.LU
import Mathlib.Analysis.SpecialFunctions.Sqrt
import Mathlib.Analysis.SpecialFunctions.Trigonometric.Basic

/-!
# Model of the iterative solvers

`JacobiSolver`, `GaussSeidelSolver` and `SORSolver` (`mml/core/LinAlgEqSolvers/LinAlgEqSolvers_iterative.h`), exact.  `eps` is
`std::numeric_limits<Real>::epsilon()`.  The diagnostic fields of the result (names, times, messages) are left out.
-/

set_option autoImplicit false

namespace Verif.LinAlg.Iter

open Verif.Mat

/-- `IterativeSolverResult` (LinAlgEqSolvers_iterative.h:79-97). -/
structure Result where
  solution : List ℝ
  iterations : ℕ
  residual : ℝ
  converged : Bool

/-- `NormL2` (Vector.h:382-395), for real elements. -/
noncomputable def normL2 (v : List ℝ) : Outcome ℝ := do
  let s ← forRange v.length (0 : ℝ) (fun s i => do
    let x ← Outcome.index v i
    .ret (s + x * x))
  .ret (Real.sqrt s)

/-- `operator-` (Vector.h:232-241). -/
noncomputable def subVec (a b : List ℝ) : Outcome (List ℝ) :=
  if a.length ≠ b.length then .exn (.mml "VectorDimensionError")
  else forRange b.length (List.replicate b.length 0) (fun r i => do
    let x ← Outcome.index a i
    let y ← Outcome.index b i
    Outcome.store r i (x - y))

/-- The largest absolute value on the diagonal (LinAlgEqSolvers_iterative.h:150-151, 304-305, 472-473). -/
noncomputable def maxDiag (a : Dense ℝ) : Outcome ℝ :=
  forRange a.rows (0 : ℝ) (fun s i => do
    let x ← a.get i i
    .ret (if |x| > s then |x| else s))

/-- `diagTol` (LinAlgEqSolvers_iterative.h:152-153, 306-307, 474-475). -/
noncomputable def diagTol (eps m : ℝ) : ℝ := if m * eps < eps then eps else m * eps

/-- The test of the diagonal (LinAlgEqSolvers_iterative.h:154-158, 308-312, 476-480). -/
noncomputable def checkDiag (a : Dense ℝ) (tol : ℝ) : Outcome Unit :=
  forRange a.rows () (fun _ i => do
    let x ← a.get i i
    if |x| < tol then .exn (.mml "SingularMatrixError") else .ret ())

/-- The tests of the arguments (LinAlgEqSolvers_iterative.h:141-158, 295-312, 463-480). -/
noncomputable def check (eps : ℝ) (a : Dense ℝ) (b : List ℝ) : Outcome Unit :=
  if a.cols ≠ a.rows then .exn (.mml "MatrixDimensionError")
  else if b.length ≠ a.rows then .exn (.mml "MatrixDimensionError")
  else do
    let m ← maxDiag a
    checkDiag a (diagTol eps m)

/-- The first vector (LinAlgEqSolvers_iterative.h:161-165, 315-319, 483-487). -/
noncomputable def start (n : ℕ) (x0 : List ℝ) : List ℝ := if x0.length = n then x0 else List.replicate n 0

/-- `b_norm` (LinAlgEqSolvers_iterative.h:168-169, 321-322, 489-490). -/
noncomputable def bNorm (b : List ℝ) : Outcome ℝ := do
  let s ← normL2 b
  .ret (if s = 0 then 1 else s)

/-- The relative residual (LinAlgEqSolvers_iterative.h:190-191, 345-346, 517-518). -/
noncomputable def relRes (a : Dense ℝ) (b : List ℝ) (bn : ℝ) (x : List ℝ) : Outcome ℝ := do
  let y ← a.mulVec x
  let r ← subVec y b
  let s ← normL2 r
  divU s bn

/-- One term of a row's sum. -/
noncomputable def term (a : Dense ℝ) (x : List ℝ) (i : ℕ) (s : ℝ) (j : ℕ) : Outcome ℝ := do
  let y ← a.get i j
  let z ← Outcome.index x j
  .ret (s + y * z)

/-- The end of an update, `(b[i] - sigma) / A(i, i)` (LinAlgEqSolvers_iterative.h:186, 341, 510). -/
noncomputable def update (a : Dense ℝ) (b : List ℝ) (i : ℕ) (sigma : ℝ) : Outcome ℝ := do
  let y ← Outcome.index b i
  let d ← a.get i i
  divU (y - sigma) d

/-- A sweep of Jacobi's method (LinAlgEqSolvers_iterative.h:178-187).  `x_new` is made anew in each sweep; the code keeps it, and
assigns all its elements. -/
noncomputable def jacobiSweep (a : Dense ℝ) (b x : List ℝ) : Outcome (List ℝ) :=
  forRange a.rows (List.replicate a.rows 0) (fun xn i => do
    let sigma ← forRange a.rows (0 : ℝ) (fun s j => if j ≠ i then term a x i s j else .ret s)
    let v ← update a b i sigma
    Outcome.store xn i v)

/-- The sum over the other elements of the row, first those before the diagonal (LinAlgEqSolvers_iterative.h:333-339, 501-507). -/
noncomputable def sigma (a : Dense ℝ) (x : List ℝ) (i : ℕ) : Outcome ℝ := do
  let s ← forRange i (0 : ℝ) (term a x i)
  forFromTo (i + 1) a.rows s (term a x i)

/-- A sweep of the Gauss-Seidel method (LinAlgEqSolvers_iterative.h:331-342). -/
noncomputable def gsSweep (a : Dense ℝ) (b x : List ℝ) : Outcome (List ℝ) :=
  forRange a.rows x (fun x i => do
    let s ← sigma a x i
    let v ← update a b i s
    Outcome.store x i v)

/-- A sweep of SOR (LinAlgEqSolvers_iterative.h:499-514). -/
noncomputable def sorSweep (omega : ℝ) (a : Dense ℝ) (b x : List ℝ) : Outcome (List ℝ) :=
  forRange a.rows x (fun x i => do
    let s ← sigma a x i
    let v ← update a b i s
    let old ← Outcome.index x i
    Outcome.store x i ((1 - omega) * old + omega * v))

/-- The iteration (LinAlgEqSolvers_iterative.h:175-205, 328-356, 496-528); the first argument counts the sweeps left. -/
noncomputable def loop (sweep : List ℝ → Outcome (List ℝ)) (res : List ℝ → Outcome ℝ) (tol : ℝ) :
    ℕ → ℕ → List ℝ → ℝ → Outcome Result
  | 0, iter, x, r => .ret ⟨x, iter, r, false⟩
  | k + 1, iter, x, _ => do
    let x' ← sweep x
    let r' ← res x'
    if r' < tol then .ret ⟨x', iter, r', true⟩ else loop sweep res tol k (iter + 1) x' r'

/-- The common part of the three `Solve` functions. -/
noncomputable def solveWith (sweep : List ℝ → Outcome (List ℝ)) (eps : ℝ) (a : Dense ℝ) (b x0 : List ℝ) (tol : ℝ) (maxIter : ℤ) :
    Outcome Result := do
  let _ ← check eps a b
  let bn ← bNorm b
  loop sweep (relRes a b bn) tol maxIter.toNat 1 (start a.rows x0) 0

/-- `JacobiSolver::Solve` (LinAlgEqSolvers_iterative.h:135-206). -/
noncomputable def jacobi (eps : ℝ) (a : Dense ℝ) (b x0 : List ℝ) (tol : ℝ) (maxIter : ℤ) : Outcome Result :=
  solveWith (jacobiSweep a b) eps a b x0 tol maxIter

/-- `GaussSeidelSolver::Solve` (LinAlgEqSolvers_iterative.h:289-357). -/
noncomputable def gaussSeidel (eps : ℝ) (a : Dense ℝ) (b x0 : List ℝ) (tol : ℝ) (maxIter : ℤ) : Outcome Result :=
  solveWith (gsSweep a b) eps a b x0 tol maxIter

/-- `SORSolver::Solve` (LinAlgEqSolvers_iterative.h:452-529). -/
noncomputable def sor (eps : ℝ) (a : Dense ℝ) (b : List ℝ) (omega : ℝ) (x0 : List ℝ) (tol : ℝ) (maxIter : ℤ) : Outcome Result :=
  if omega ≤ 0 ∨ omega ≥ 2 then .exn (.mml "NumericalMethodError")
  else solveWith (sorSweep omega a b) eps a b x0 tol maxIter

/-- `SORSolver::SolveOptimal` (LinAlgEqSolvers_iterative.h:538-547). -/
noncomputable def sorOptimal (eps : ℝ) (a : Dense ℝ) (b x0 : List ℝ) (tol : ℝ) (maxIter : ℤ) : Outcome Result := do
  let t ← divU Real.pi (a.rows : ℝ)
  let omega ← divU 2 (1 + Real.sin t)
  sor eps a b omega x0 tol maxIter

/-- The end of the three `SolveSimple` functions (LinAlgEqSolvers_iterative.h:218-222, 369-373, 560-564). -/
noncomputable def simple (r : Outcome Result) : Outcome (List ℝ) := do
  let r ← r
  if r.converged = true then .ret r.solution else .exn (.mml "ConvergenceError")

/-- One sample of `EstimateOptimalOmega` (LinAlgEqSolvers_iterative.h:590-596); the state holds `bestOmega` and `bestResidual`.
`zt` is `EigenSolverZeroThreshold`. -/
noncomputable def sample (eps zt : ℝ) (a : Dense ℝ) (b : List ℝ) (num : ℕ) (testIter : ℤ) (s : ℝ × ℝ) (i : ℕ) : Outcome (ℝ × ℝ) := do
  let t ← divU (95 / 100 * (i : ℝ)) (num : ℝ)
  let r ← sor eps a b (1 + t) [] zt testIter
  if r.residual < s.2 then .ret (1 + t, r.residual) else .ret s

/-- `SORSolver::EstimateOptimalOmega` (LinAlgEqSolvers_iterative.h:579-600), for a number of samples that is not negative; `big` is
the largest number. -/
noncomputable def estimateOmega (eps zt big : ℝ) (a : Dense ℝ) (b : List ℝ) (num : ℕ) (testIter : ℤ) : Outcome ℝ := do
  let s ← forRange (num + 1) (1, big) (sample eps zt a b num testIter)
  .ret s.1

end Verif.LinAlg.Iter
