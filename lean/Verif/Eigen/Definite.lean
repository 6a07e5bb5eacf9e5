import Verif.Eigen.Jacobi

/-!
# Model of the classification of symmetric matrices (MatrixAlg.h)

The eigenvalue solver is the model of `SymmMatEigenSolverJacobi`, called with its default number of sweeps.
-/

set_option autoImplicit false

namespace Verif.Eigen

open Verif.Mat Verif.LinAlg

/-- `Definiteness` (MatrixAlg.h:97-103). -/
inductive Definiteness where
  | posDef
  | posSemi
  | negDef
  | negSemi
  | indef
  deriving DecidableEq

/-- The counters (MatrixAlg.h:125-127). -/
structure Counts where
  pos : ℕ
  neg : ℕ
  zero : ℕ

/-- A round of the count (MatrixAlg.h:130-135). -/
noncomputable def countOne (tol x : ℝ) (c : Counts) : Counts :=
  if x > tol then { c with pos := c.pos + 1 }
  else if x < -tol then { c with neg := c.neg + 1 }
  else { c with zero := c.zero + 1 }

/-- The loop of the count (MatrixAlg.h:129-136). -/
noncomputable def countSigns (tol : ℝ) (n : ℕ) (e : List ℝ) : Outcome Counts :=
  forRange n ⟨0, 0, 0⟩ (fun c i => do
    let x ← Outcome.index e i
    .ret (countOne tol x c))

/-- The decision (MatrixAlg.h:138-147). -/
def decideClass (c : Counts) : Definiteness :=
  if c.neg = 0 ∧ c.zero = 0 then .posDef
  else if c.neg = 0 ∧ c.pos > 0 then .posSemi
  else if c.pos = 0 ∧ c.zero = 0 then .negDef
  else if c.pos = 0 ∧ c.neg > 0 then .negSemi
  else .indef

/-- `ClassifyDefiniteness(MatrixSym, tol)` (MatrixAlg.h:120-148); the solver is called with its default of 100 sweeps
(EigenSystemSolvers.h:146). -/
noncomputable def classify (thr : ℝ) (a : Sym ℝ) (tol : ℝ) : Outcome Definiteness := do
  let r ← solve thr a tol 100
  let c ← countSigns tol a.dim r.values
  .ret (decideClass c)

/-- `ClassifyDefiniteness(Matrix, tol)` (MatrixAlg.h:151-163); the symmetric part is computed like in the solver. -/
noncomputable def classifyDense (thr : ℝ) (a : Dense ℝ) (tol : ℝ) : Outcome Definiteness :=
  if a.cols ≠ a.rows then .exn (.mml "MatrixDimensionError")
  else do
    let s ← symmetrize a
    classify thr s tol

/-- `IsPositiveDefinite` (MatrixAlg.h:173-175). -/
noncomputable def isPositiveDefinite (thr : ℝ) (a : Sym ℝ) (tol : ℝ) : Outcome Bool := do
  let d ← classify thr a tol
  .ret (decide (d = .posDef))

/-- `IsPositiveSemiDefinite` (MatrixAlg.h:190-193). -/
noncomputable def isPositiveSemiDefinite (thr : ℝ) (a : Sym ℝ) (tol : ℝ) : Outcome Bool := do
  let d ← classify thr a tol
  .ret (decide (d = .posDef ∨ d = .posSemi))

/-- `IsNegativeDefinite` (MatrixAlg.h:208-210). -/
noncomputable def isNegativeDefinite (thr : ℝ) (a : Sym ℝ) (tol : ℝ) : Outcome Bool := do
  let d ← classify thr a tol
  .ret (decide (d = .negDef))

/-- `IsNegativeSemiDefinite` (MatrixAlg.h:221-224). -/
noncomputable def isNegativeSemiDefinite (thr : ℝ) (a : Sym ℝ) (tol : ℝ) : Outcome Bool := do
  let d ← classify thr a tol
  .ret (decide (d = .negDef ∨ d = .negSemi))

/-- `IsIndefinite` (MatrixAlg.h:236-238). -/
noncomputable def isIndefinite (thr : ℝ) (a : Sym ℝ) (tol : ℝ) : Outcome Bool := do
  let d ← classify thr a tol
  .ret (decide (d = .indef))

end Verif.Eigen
