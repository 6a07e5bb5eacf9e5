import Verif.Mat.Dense
import Verif.ODE.Model

/-!
# The solution container and the fixed-step solver
(mml/base/ODESystemSolution.h, mml/algorithms/ODESolvers/ODESolverFixedStep.h)
-/

set_option autoImplicit false

namespace Verif.ODE

open Outcome

/-- The data members of `ODESystemSolution` (ODESystemSolution.h:30-38).  `getNumStepsOK` and
`getNumStepsBad` are `stepsOK` and `stepsBad`. -/
structure Sol where
  stepsOK : ℕ
  stepsBad : ℕ
  sysDim : ℤ
  totalSaved : ℤ
  count : ℤ
  t1 : ℝ
  t2 : ℝ
  tval : List ℝ
  xval : Mat.Dense ℝ

/-- `Vector::Resize(newLen)` (Vector.h:163-166): `std::vector::resize`, which keeps the elements, appends
zeros, and throws when asked for a negative (hence huge) size. -/
noncomputable def vresize (v : List ℝ) (n : ℤ) : Outcome (List ℝ) :=
  if n < 0 then exn .lengthError
  else ret (v.take n.toNat ++ List.replicate (n.toNat - v.length) 0)

/-- `ODESystemSolution(x1, x2, dim, maxSteps)` (ODESystemSolution.h:55-61). -/
noncomputable def Sol.new (x1 x2 : ℝ) (dim maxSteps : ℤ) : Outcome Sol := do
  let tv ← vresize [] (maxSteps + 1)
  let xv ← Mat.Dense.resize (⟨0, 0, []⟩ : Mat.Dense ℝ) dim (maxSteps + 1) false
  ret ⟨0, 0, dim, maxSteps + 1, 0, x1, x2, tv, xv⟩

/-- `ExtendSavedSteps()` (ODESystemSolution.h:40-47). -/
noncomputable def Sol.extend (s : Sol) : Outcome Sol := do
  let tv ← vresize s.tval (3 * s.totalSaved / 2 + 1)
  let xv ← s.xval.resize s.sysDim (3 * s.totalSaved / 2 + 1) true
  ret { s with totalSaved := 3 * s.totalSaved / 2 + 1, tval := tv, xval := xv }

/-- Growing before a write (ODESystemSolution.h:165-166, 184-185, 204-205). -/
noncomputable def Sol.room (s : Sol) (ind : ℤ) : Outcome Sol :=
  if ind ≥ s.totalSaved then s.extend else ret s

/-- `if (ind + 1 > _count) _count = ind + 1;` (ODESystemSolution.h:169, 188, 210). -/
def Sol.bump (s : Sol) (ind : ℤ) : Sol := { s with count := if ind + 1 > s.count then ind + 1 else s.count }

/-- `setTVal(ind, x)` (ODESystemSolution.h:160-170). -/
noncomputable def Sol.setTVal (s : Sol) (ind : ℤ) (x : ℝ) : Outcome Sol :=
  if ind < 0 then exn (.mml "IndexError")
  else do
    let s ← s.room ind
    let tv ← store s.tval ind.toNat x
    ret (Sol.bump { s with tval := tv } ind)

/-- `setXVal(ind, component, x)` (ODESystemSolution.h:176-189). -/
noncomputable def Sol.setXVal (s : Sol) (ind comp : ℤ) (x : ℝ) : Outcome Sol :=
  if ind < 0 then exn (.mml "IndexError")
  else if comp < 0 ∨ comp ≥ s.sysDim then exn (.mml "IndexError")
  else do
    let s ← s.room ind
    let xv ← s.xval.set comp.toNat ind.toNat x
    ret (Sol.bump { s with xval := xv } ind)

/-- `fillValues(ind, x, y)` (ODESystemSolution.h:197-211). -/
noncomputable def Sol.fillValues (s : Sol) (ind : ℤ) (x : ℝ) (y : List ℝ) : Outcome Sol :=
  if ind < 0 then exn (.mml "IndexError")
  else if (y.length : ℤ) ≠ s.sysDim then exn (.mml "ArgumentError")
  else do
    let s ← s.room ind
    let tv ← store s.tval ind.toNat x
    let xv ← forRange s.sysDim.toNat s.xval (fun xv i => do
      let yi ← index y i
      xv.set i ind.toNat yi)
    ret (Sol.bump { s with tval := tv, xval := xv } ind)

/-- `setFinalSize(numDoneSteps)` (ODESystemSolution.h:215-222). -/
noncomputable def Sol.setFinalSize (s : Sol) (numDone : ℤ) : Outcome Sol := do
  let tv ← vresize s.tval (numDone + 1)
  let xv ← s.xval.resize s.sysDim (numDone + 1) true
  ret { s with totalSaved := numDone + 1, count := numDone + 1, tval := tv, xval := xv }

/-- `reserve(n)` (ODESystemSolution.h:96-102). -/
noncomputable def Sol.reserve (s : Sol) (n : ℤ) : Outcome Sol :=
  if n > s.totalSaved then do
    let tv ← vresize s.tval n
    let xv ← s.xval.resize s.sysDim n true
    ret { s with totalSaved := n, tval := tv, xval := xv }
  else ret s

/-- `size()` (ODESystemSolution.h:90). -/
def Sol.size (s : Sol) : ℤ := s.count

/-- `getNumSteps()` (ODESystemSolution.h:85). -/
def Sol.getNumSteps (s : Sol) : ℤ := if s.count > 0 then s.count - 1 else 0

/-- `getTValues()` (ODESystemSolution.h:105). -/
def Sol.getTValues (s : Sol) : List ℝ := s.tval

/-- `getTValue(ind)` (ODESystemSolution.h:112-116). -/
def Sol.getTValue (s : Sol) (ind : ℤ) : Outcome ℝ :=
  if ind < 0 ∨ ind ≥ s.count then exn (.mml "IndexError") else index s.tval ind.toNat

/-- `getXValue(ind, component)` (ODESystemSolution.h:122-128). -/
def Sol.getXValue (s : Sol) (ind comp : ℤ) : Outcome ℝ :=
  if ind < 0 ∨ ind ≥ s.count then exn (.mml "IndexError")
  else if comp < 0 ∨ comp ≥ s.sysDim then exn (.mml "IndexError")
  else s.xval.get comp.toNat ind.toNat

/-- `getXValues(component)` (ODESystemSolution.h:133-139). -/
def Sol.getXValuesOf (s : Sol) (comp : ℤ) : Outcome (List ℝ) :=
  if comp < 0 ∨ comp ≥ s.sysDim then exn (.mml "IndexError") else s.xval.rowVector comp

/-- `getXValuesAtEnd()` (ODESystemSolution.h:143-151). -/
noncomputable def Sol.getXValuesAtEnd (s : Sol) : Outcome (List ℝ) :=
  if s.count = 0 then exn (.mml "IndexError")
  else fill s.sysDim.toNat (zeros s.sysDim.toNat) (fun i => s.xval.get i (s.count - 1).toNat)

/-- The local variables of `integrate` (ODESolverFixedStep.h:54-61). -/
structure Run where
  sol : Sol
  x : List ℝ
  xOut : List ℝ
  dxdt : List ℝ
  xErr : List ℝ
  t : ℝ

/-- The loop body of `integrate` (ODESolverFixedStep.h:65-69), for `k = i + 1`. -/
noncomputable def fixedBody (sys : System) (clc : Calc) (h : ℝ) (r : Run) (i : ℕ) : Outcome Run := do
  let dxdt ← sys.derivs r.t r.x r.dxdt
  let o ← clc sys r.t r.x dxdt h r.xOut r.xErr
  let sol ← r.sol.fillValues (i + 1) (r.t + h) o.1
  ret ⟨sol, o.1, o.1, dxdt, o.2, r.t + h⟩

/-- `ODESystemFixedStepSolver::integrate(initCond, t1, t2, numSteps)` (ODESolverFixedStep.h:53-73).
For `numSteps = 0` the step `(t2 - t1) / 0` is never used. -/
noncomputable def integrateFixed (sys : System) (clc : Calc) (init : List ℝ) (t1 t2 : ℝ) (numSteps : ℤ) :
    Outcome Sol := do
  let sol ← Sol.new t1 t2 sys.dim numSteps
  let sol ← sol.fillValues 0 t1 init
  let r ← forRange numSteps.toNat
    (⟨sol, init, zeros sys.dim, zeros sys.dim, zeros sys.dim, t1⟩ : Run)
    (fixedBody sys clc ((t2 - t1) / numSteps))
  ret r.sol

end Verif.ODE
