import Verif.LinAlg.LU
import Verif.Mat.Packed
import Mathlib.Analysis.SpecialFunctions.Trigonometric.Arctan

/-!
# Model of the Jacobi eigenvalue solver

`SymmMatEigenSolverJacobi` (`mml/algorithms/EigenSystemSolvers.h`) for real elements, exact.  `thr` is
`PrecisionValues<Real>::EigenSolverZeroThreshold`, a positive number.
-/

set_option autoImplicit false

namespace Verif.Eigen

open Verif.Mat Verif.LinAlg

/-- The working matrices `D` and `V` (EigenSystemSolvers.h:151, 156). -/
structure Work where
  d : Dense ℝ
  v : Dense ℝ

/-- `Result` (EigenSystemSolvers.h:111-133) without the texts and the time. -/
structure Result where
  values : List ℝ
  vectors : Dense ℝ
  converged : Bool
  iterations : ℕ
  residual : ℝ

/-- The working matrix before the first sweep (EigenSystemSolvers.h:151-154). -/
noncomputable def copyUpper (n : ℕ) (a : Sym ℝ) : Outcome (Dense ℝ) := do
  let d ← Dense.new (K := ℝ) n n
  forRange n d (fun d i => forRange n d (fun d j => do
    let x ← if i ≤ j then a.get i j else a.get j i
    d.set i j x))

/-- `OffDiagonalNorm` (EigenSystemSolvers.h:302-309). -/
noncomputable def offNorm (n : ℕ) (d : Dense ℝ) : Outcome ℝ := do
  let s ← forRange (n - 1) (0 : ℝ) (fun s i => forFromTo (i + 1) n s (fun s j => do
    let x ← d.get i j
    let y ← d.get i j
    .ret (s + x * y)))
  .ret (Real.sqrt s)

/-- The tangent of the rotation angle (EigenSystemSolvers.h:257-260) for `tau`. -/
noncomputable def tangent (tau : ℝ) : Outcome ℝ :=
  if tau ≥ 0 then divU 1 (tau + Real.sqrt (1 + tau * tau)) else divU (-1) (-tau + Real.sqrt (1 + tau * tau))

/-- `ComputeRotationAngle` (EigenSystemSolvers.h:247-266). -/
noncomputable def angle (thr : ℝ) (a : Dense ℝ) (p q : ℕ) : Outcome ℝ := do
  let apq ← a.get p q
  if |apq| < thr then .ret 0
  else do
    let aqq ← a.get q q
    let app ← a.get p p
    let tau ← divU (aqq - app) (2 * apq)
    let t ← tangent tau
    .ret (Real.arctan t)

/-- Row and column `i` in the first loop of `ApplyRotation` (EigenSystemSolvers.h:272-279). -/
noncomputable def rotateEntry (p q : ℕ) (c s : ℝ) (a : Dense ℝ) (i : ℕ) : Outcome (Dense ℝ) :=
  if i ≠ p ∧ i ≠ q then do
    let aip ← a.get i p
    let aiq ← a.get i q
    let a ← a.set i p (c * aip - s * aiq)
    let x ← a.get i p
    let a ← a.set p i x
    let a ← a.set i q (s * aip + c * aiq)
    let y ← a.get i q
    a.set q i y
  else .ret a

/-- The elements where the two rows and columns meet (EigenSystemSolvers.h:283-290). -/
noncomputable def rotateDiag (p q : ℕ) (c s : ℝ) (a : Dense ℝ) : Outcome (Dense ℝ) := do
  let app ← a.get p p
  let aqq ← a.get q q
  let apq ← a.get p q
  let a ← a.set p p (c * c * app - 2 * s * c * apq + s * s * aqq)
  let a ← a.set q q (s * s * app + 2 * s * c * apq + c * c * aqq)
  let a ← a.set p q 0
  a.set q p 0

/-- Row `i` of the matrix of eigenvectors (EigenSystemSolvers.h:294-297). -/
noncomputable def rotateVec (p q : ℕ) (c s : ℝ) (v : Dense ℝ) (i : ℕ) : Outcome (Dense ℝ) := do
  let vip ← v.get i p
  let viq ← v.get i q
  let v ← v.set i p (c * vip - s * viq)
  v.set i q (s * vip + c * viq)

/-- `ApplyRotation` (EigenSystemSolvers.h:269-299). -/
noncomputable def applyRotation (n p q : ℕ) (c s : ℝ) (w : Work) : Outcome Work := do
  let d ← forRange n w.d (rotateEntry p q c s)
  let d ← rotateDiag p q c s d
  let v ← forRange n w.v (rotateVec p q c s)
  .ret ⟨d, v⟩

/-- The element `(p, q)` of a sweep (EigenSystemSolvers.h:166-174). -/
noncomputable def rotateOne (thr : ℝ) (n p : ℕ) (w : Work) (q : ℕ) : Outcome Work := do
  let x ← w.d.get p q
  if |x| < thr then .ret w
  else do
    let theta ← angle thr w.d p q
    applyRotation n p q (Real.cos theta) (Real.sin theta) w

/-- One sweep (EigenSystemSolvers.h:164-176). -/
noncomputable def sweep (thr : ℝ) (n : ℕ) (w : Work) : Outcome Work :=
  forRange (n - 1) w (fun w p => forFromTo (p + 1) n w (rotateOne thr n p))

/-- The loop over the sweeps (EigenSystemSolvers.h:159-180) with the number of sweeps still allowed (`maxIter - sweep`), the
working matrices and the number of sweeps made: the working matrices, the number of sweeps and the norm after it. -/
noncomputable def iterate (thr tol : ℝ) (n : ℕ) : ℕ → Work → ℕ → Outcome (Work × ℕ × ℝ)
  | 0, w, k => do
    let r ← offNorm n w.d
    .ret (w, k, r)
  | m + 1, w, k => do
    let r ← offNorm n w.d
    if r > tol then do
      let w ← sweep thr n w
      iterate thr tol n m w (k + 1)
    else .ret (w, k, r)

/-- The index of the smallest eigenvalue from `i` on (EigenSystemSolvers.h:317-321). -/
noncomputable def minIndex (n : ℕ) (e : List ℝ) (i : ℕ) : Outcome ℕ :=
  forFromTo (i + 1) n i (fun k j => do
    let x ← Outcome.index e j
    let y ← Outcome.index e k
    .ret (if x < y then j else k))

/-- The exchange of the columns `i` and `k` (EigenSystemSolvers.h:328-329). -/
noncomputable def swapCols (n i k : ℕ) (v : Dense ℝ) : Outcome (Dense ℝ) :=
  forRange n v (fun v row => v.swap row i row k)

/-- One round of the sort (EigenSystemSolvers.h:317-330). -/
noncomputable def sortRound (n : ℕ) (s : List ℝ × Dense ℝ) (i : ℕ) : Outcome (List ℝ × Dense ℝ) := do
  let k ← minIndex n s.1 i
  if k ≠ i then do
    let x ← Outcome.index s.1 i
    let y ← Outcome.index s.1 k
    let e ← Outcome.store s.1 i y
    let e ← Outcome.store e k x
    let v ← swapCols n i k s.2
    .ret (e, v)
  else .ret s

/-- `SortEigenvalues` (EigenSystemSolvers.h:312-332). -/
noncomputable def sortEigen (e : List ℝ) (v : Dense ℝ) : Outcome (List ℝ × Dense ℝ) :=
  forRange (e.length - 1) (e, v) (sortRound e.length)

/-- The eigenvalues before the sort (EigenSystemSolvers.h:183-184). -/
noncomputable def diagonal (n : ℕ) (d : Dense ℝ) : Outcome (List ℝ) :=
  forRange n (List.replicate n (0 : ℝ)) (fun e i => do
    let x ← d.get i i
    Outcome.store e i x)

/-- `Solve(MatrixSym, tol, maxIter)` (EigenSystemSolvers.h:146-198). -/
noncomputable def solve (thr : ℝ) (a : Sym ℝ) (tol : ℝ) (maxIter : ℤ) : Outcome Result := do
  let d ← copyUpper a.dim a
  let v ← Dense.identity (K := ℝ) a.dim
  let (w, k, r) ← iterate thr tol a.dim maxIter.toNat ⟨d, v⟩ 0
  let e ← diagonal a.dim w.d
  let (e, v) ← sortEigen e w.v
  .ret ⟨e, v, decide (r ≤ tol), k, r⟩

/-- The symmetric part of a matrix (EigenSystemSolvers.h:204-208, 236-240). -/
noncomputable def symmetrize (a : Dense ℝ) : Outcome (Sym ℝ) := do
  let s ← Sym.newFill (K := ℝ) a.rows 0
  forRange a.rows s (fun s i => forFromTo i a.rows s (fun s j => do
    let x ← a.get i j
    let y ← a.get j i
    s.set i j (0.5 * (x + y))))

/-- `Solve(Matrix, tol, maxIter)` (EigenSystemSolvers.h:202-211). -/
noncomputable def solveDense (thr : ℝ) (a : Dense ℝ) (tol : ℝ) (maxIter : ℤ) : Outcome Result := do
  let s ← symmetrize a
  solve thr s tol maxIter

/-- `Solve(MatrixSym, config)` (EigenSystemSolvers.h:218-232): the result and whether the status is `Success`. -/
noncomputable def solveConfig (thr : ℝ) (a : Sym ℝ) (tol : ℝ) (maxIter : ℤ) : Outcome (Result × Bool) := do
  let r ← solve thr a tol (if maxIter > 0 then maxIter else 100)
  .ret (r, r.converged)

end Verif.Eigen
