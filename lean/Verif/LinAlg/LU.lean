import Verif.Mat.Dense
import Mathlib.Algebra.Field.Defs
import Mathlib.Algebra.Order.Group.Unbundled.Abs

/-!
# Model of the LU solvers

`LUSolver` and `LUSolverInPlace` (`mml/core/LinAlgEqSolvers/LinAlgDirect.h`), for real elements in an exact ordered
field.  `eps` is `std::numeric_limits<Real>::epsilon()`.  The tests for NaN and infinity (305-309, 353-361, 497-501)
cannot fire in exact arithmetic except after a division by zero.
-/

set_option autoImplicit false

namespace Verif.LinAlg

open Verif.Mat

variable {K : Type} [Field K] [LinearOrder K]

/-- The members of a solver object (LinAlgDirect.h:267-274, 474-483): `_n` is `lu.rows`. -/
structure LU (K : Type) where
  lu : Dense K
  indx : List ℕ
  d : K

/-- Floating-point division where a zero divisor is undefined behaviour. -/
def divU {K : Type} [Field K] [DecidableEq K] (x y : K) : Outcome K := if y = 0 then .ub else .ret (x / y)

namespace LU

/-- The largest absolute value of row `i` (LinAlgDirect.h:300-303, 510-512). -/
def rowMax (n : ℕ) (a : Dense K) (i : ℕ) : Outcome K :=
  forRange n (0 : K) (fun big j => do
    let x ← a.get i j
    .ret (if |x| > big then |x| else big))

/-- One row of the scaling loop (LinAlgDirect.h:298-316, 509-518); the state holds `norm_a` and `vv`. -/
def scaleStep (n : ℕ) (a : Dense K) (s : K × List K) (i : ℕ) : Outcome (K × List K) := do
  let big ← rowMax n a i
  if big = 0 then .exn (.mml "SingularMatrixError")
  else do
    let vv ← Outcome.store s.2 i (1 / big)
    .ret (if big > s.1 then big else s.1, vv)

/-- The search for the pivot row (LinAlgDirect.h:322-331, 521-529); the state holds `big` and `imax`. -/
def pivotStep (vv : List K) (lu : Dense K) (k : ℕ) (s : K × ℕ) (i : ℕ) : Outcome (K × ℕ) := do
  let v ← Outcome.index vv i
  let x ← lu.get i k
  .ret (if |v * x| > s.1 then (|v * x|, i) else s)

/-- The row exchange (LinAlgDirect.h:333-343, 530-538); the state holds `_lu`, `_d` and `vv`. -/
def exchange (n k imax : ℕ) (lu : Dense K) (d : K) (vv : List K) : Outcome (Dense K × K × List K) :=
  if k ≠ imax then do
    let lu ← forRange n lu (fun m j => m.swap imax j k j)
    let vk ← Outcome.index vv k
    let vv ← Outcome.store vv imax vk
    .ret (lu, -d, vv)
  else .ret (lu, d, vv)

/-- Elimination of one row (LinAlgDirect.h:349-365, 543-547).  In `LUSolver` a zero divisor is detected and
reported (353-361), in `LUSolverInPlace` it is not: `zeroDiv` is what happens. -/
def elimStep (n k : ℕ) (zeroDiv : Outcome (Dense K)) (lu : Dense K) (i : ℕ) : Outcome (Dense K) := do
  let x ← lu.get i k
  let p ← lu.get k k
  if p = 0 then zeroDiv
  else do
    let lu ← lu.set i k (x / p)
    forFromTo (k + 1) n lu (fun lu j => do
      let y ← lu.get i j
      let z ← lu.get k j
      lu.set i j (y - x / p * z))

/-- One round of the main loop (LinAlgDirect.h:320-366, 520-548); the state also holds `vv`. -/
def step (n : ℕ) (zeroDiv : Outcome (Dense K)) (thr : K) (s : LU K × List K) (k : ℕ) : Outcome (LU K × List K) := do
  let q ← forFromTo k n ((0 : K), k) (pivotStep s.2 s.1.lu k)
  let e ← exchange n k q.2 s.1.lu s.1.d s.2
  let indx ← Outcome.store s.1.indx k q.2
  let p ← e.1.get k k
  if |p| < thr then .exn (.mml "SingularMatrixError")
  else do
    let lu ← forFromTo (k + 1) n e.1 (elimStep n k zeroDiv)
    .ret (⟨lu, indx, e.2.1⟩, e.2.2)

/-- The constructors (LinAlgDirect.h:282-367, 488-549). -/
def create (zeroDiv : Outcome (Dense K)) (eps : K) (a : Dense K) : Outcome (LU K) :=
  if a.rows ≠ a.cols then .exn (.mml "MatrixDimensionError")
  else if a.rows = 0 then .exn (.mml "MatrixDimensionError")
  else do
    let n := a.rows
    let sc ← forRange n ((0 : K), List.replicate n (0 : K)) (scaleStep n a)
    let s ← forRange n ((⟨a, List.replicate n 0, 1⟩ : LU K), sc.2) (step n zeroDiv (eps * sc.1 * n))
    .ret s.1

/-- The constructor of `LUSolver` (LinAlgDirect.h:282-367). -/
def new (eps : K) (a : Dense K) : Outcome (LU K) := create (.exn (.mml "MatrixNumericalError")) eps a

/-- The constructor of `LUSolverInPlace` (LinAlgDirect.h:488-549). -/
def newInPlace (eps : K) (a : Dense K) : Outcome (LU K) := create .ub eps a

/-- One round of the forward substitution (LinAlgDirect.h:416-426, 604-614); the state holds `x` and `ii`. -/
def forwardStep (s : LU K) (t : List K × ℕ) (i : ℕ) : Outcome (List K × ℕ) := do
  let ip ← Outcome.index s.indx i
  let sum ← Outcome.index t.1 ip
  let xi ← Outcome.index t.1 i
  let x ← Outcome.store t.1 ip xi
  if t.2 ≠ 0 then do
    let sum ← forFromTo (t.2 - 1) i sum (fun sum j => do
      let y ← s.lu.get i j
      let z ← Outcome.index x j
      .ret (sum - y * z))
    let x ← Outcome.store x i sum
    .ret (x, t.2)
  else do
    let x ← Outcome.store x i sum
    .ret (x, if sum ≠ 0 then i + 1 else t.2)

/-- One round of the back substitution (LinAlgDirect.h:428-433, 616-621). -/
def backStep (s : LU K) (n : ℕ) (x : List K) (i : ℕ) : Outcome (List K) := do
  let sum ← Outcome.index x i
  let sum ← forFromTo (i + 1) n sum (fun sum j => do
    let y ← s.lu.get i j
    let z ← Outcome.index x j
    .ret (sum - y * z))
  let p ← s.lu.get i i
  let q ← divU sum p
  Outcome.store x i q

/-- `Solve(b, x)` for vectors of the right size (LinAlgDirect.h:413-434, 601-622).  Every element of `x` is assigned
from `b` first, so the result does not depend on `x`, nor on whether `b` and `x` are the same object. -/
def solveCore (s : LU K) (b : List K) : Outcome (List K) := do
  let n := s.lu.rows
  let t ← forRange n (b, 0) (forwardStep s)
  forDown 0 n t.1 (backStep s n)

/-- `bool Solve(b, x)` (LinAlgDirect.h:401-435, 589-623): the result and the new value of `x`. -/
def solveInto (s : LU K) (b x : List K) : Outcome (Bool × List K) :=
  if b.length ≠ s.lu.rows ∨ x.length ≠ s.lu.rows then .ret (false, x)
  else do
    let x ← solveCore s b
    .ret (true, x)

/-- `Vector Solve(b)` (LinAlgDirect.h:437-444, 629-636). -/
def solve (s : LU K) (b : List K) : Outcome (List K) := do
  let r ← solveInto s b (List.replicate b.length 0)
  if r.1 then .ret r.2 else .exn (.mml "VectorDimensionError")

/-- One column of the matrix form (LinAlgDirect.h:387-396, 569-578).  `src` picks the right-hand side from the
current value of the output: a constant function, or the identity when both are the same object. -/
def solveColumn (s : LU K) (n : ℕ) (src : Dense K → Dense K) (out : Dense K) (j : ℕ) : Outcome (Dense K) := do
  let xx ← forRange n (List.replicate n (0 : K)) (fun xx i => do
    let x ← (src out).get i j
    Outcome.store xx i x)
  let r ← solveInto s xx xx
  forRange n out (fun out i => do
    let x ← Outcome.index r.2 i
    out.set i j x)

/-- `LUSolver::Solve(matRHS, outSol)` (LinAlgDirect.h:373-397) for two distinct objects: the new `outSol`. -/
def solveM (s : LU K) (rhs out : Dense K) : Outcome (Dense K) :=
  if rhs.rows ≠ s.lu.rows then .exn (.mml "MatrixDimensionError")
  else if out.rows ≠ s.lu.rows ∨ out.cols ≠ rhs.cols then .exn (.mml "MatrixDimensionError")
  else forRange rhs.cols out (solveColumn s rhs.rows (fun _ => rhs))

/-- `LUSolver::Solve(m, m)` (LinAlgDirect.h:373-397), both arguments the same object. -/
def solveMSame (s : LU K) (m : Dense K) : Outcome (Dense K) :=
  if m.rows ≠ s.lu.rows then .exn (.mml "MatrixDimensionError")
  else if m.rows ≠ s.lu.rows ∨ m.cols ≠ m.cols then .exn (.mml "MatrixDimensionError")
  else forRange m.cols m (solveColumn s m.rows id)

/-- `LUSolverInPlace::Solve(matRHS)` (LinAlgDirect.h:556-581). -/
def solveMNew (s : LU K) (rhs : Dense K) : Outcome (Dense K) :=
  if rhs.rows ≠ s.lu.rows then .exn (.mml "MatrixDimensionError")
  else do
    let out ← Dense.new (rhs.rows : ℤ) (rhs.cols : ℤ)
    forRange rhs.cols out (solveColumn s rhs.rows (fun _ => rhs))

/-- `inverse(ainv)` (LinAlgDirect.h:448-457). -/
def inverse (s : LU K) (ainv : Dense K) : Outcome (Dense K) := do
  let n := s.lu.rows
  let m ← ainv.resize n n false
  let m ← forRange n m (fun m i => do
    let m ← forRange n m (fun m j => m.set i j 0)
    m.set i i 1)
  solveMSame s m

/-- `det()` (LinAlgDirect.h:459-465). -/
def det (s : LU K) : Outcome K :=
  forRange s.lu.rows s.d (fun dd i => do
    let x ← s.lu.get i i
    .ret (dd * x))

end LU

end Verif.LinAlg
