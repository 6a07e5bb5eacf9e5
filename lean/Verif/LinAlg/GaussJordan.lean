import Verif.Mat.Dense
import Mathlib.Algebra.Field.Defs
import Mathlib.Algebra.Order.Group.Unbundled.Abs

/-!
# Model of Gauss-Jordan elimination

`GaussJordanSolver` (`mml/core/LinAlgEqSolvers/LinAlgDirect.h`) and `Matrix::Invert`
(`mml/base/Matrix/Matrix.h`), for real elements in an exact ordered field.  `eps` is
`std::numeric_limits<Real>::epsilon()`.  `a[i][j]` and `a(i, j)` are the unchecked accesses of `Dense`.
-/

set_option autoImplicit false

namespace Verif.LinAlg

open Verif.Mat

variable {K : Type} [Field K] [LinearOrder K]

/-- The largest absolute value of the first `n` rows and columns (LinAlgDirect.h:131-135, Matrix.h:1101-1106). -/
def maxAbs (n : ℕ) (a : Dense K) : Outcome K :=
  forRange n (0 : K) (fun s i => forRange n s (fun s j => do
    let x ← a.get i j
    .ret (if |x| > s then |x| else s)))

/-- The innermost body of the pivot search (LinAlgDirect.h:145-150, Matrix.h:1117-1122).  The state holds `big` and
the pair `(irow, icol)`, absent until it is assigned. -/
def searchCol (a : Dense K) (ipiv : List ℕ) (j : ℕ) (s : K × Option (ℕ × ℕ)) (k : ℕ) :
    Outcome (K × Option (ℕ × ℕ)) := do
  let pk ← Outcome.index ipiv k
  if pk = 0 then do
    let x ← a.get j k
    if |x| ≥ s.1 then .ret (|x|, some (j, k)) else .ret s
  else .ret s

/-- One row of the pivot search (LinAlgDirect.h:142-151, Matrix.h:1115-1124). -/
def searchRow (n : ℕ) (a : Dense K) (ipiv : List ℕ) (s : K × Option (ℕ × ℕ)) (j : ℕ) :
    Outcome (K × Option (ℕ × ℕ)) := do
  let pj ← Outcome.index ipiv j
  if pj ≠ 1 then forRange n s (searchCol a ipiv j) else .ret s

/-- The pivot search (LinAlgDirect.h:140-151, Matrix.h:1110-1125).  Using `irow` or `icol` when no candidate was
found is modelled as undefined behaviour (in `SolveInPlace` they are uninitialised in the first round). -/
def search (n : ℕ) (a : Dense K) (ipiv : List ℕ) : Outcome (ℕ × ℕ) := do
  let s ← forRange n ((0 : K), (none : Option (ℕ × ℕ))) (searchRow n a ipiv)
  match s.2 with
  | some p => .ret p
  | none => .ub

/-- `if (irow != icol)` swap the two rows (LinAlgDirect.h:153-156, Matrix.h:1129-1132). -/
def swapRowsIf (irow icol : ℕ) (m : Dense K) : Outcome (Dense K) :=
  if irow ≠ icol then forRange m.cols m (fun m l => m.swap irow l icol l) else .ret m

/-- `m[r][l] *= x` for all `l` (LinAlgDirect.h:176-177, Matrix.h:1142-1143). -/
def scaleRow (r : ℕ) (x : K) (m : Dense K) : Outcome (Dense K) :=
  forRange m.cols m (fun m l => do
    let y ← m.get r l
    m.set r l (y * x))

/-- `m[ll][l] -= m[icol][l] * dum` for all `l` (LinAlgDirect.h:182-183, Matrix.h:1149-1150). -/
def subRow (ll icol : ℕ) (dum : K) (m : Dense K) : Outcome (Dense K) :=
  forRange m.cols m (fun m l => do
    let x ← m.get ll l
    let y ← m.get icol l
    m.set ll l (x - y * dum))

/-- Elimination of one row (LinAlgDirect.h:179-184, Matrix.h:1146-1151). -/
def elimRow (icol : ℕ) (s : Dense K × Dense K) (ll : ℕ) : Outcome (Dense K × Dense K) :=
  if ll ≠ icol then do
    let dum ← s.1.get ll icol
    let a ← s.1.set ll icol 0
    let a ← subRow ll icol dum a
    let b ← subRow ll icol dum s.2
    .ret (a, b)
  else .ret s

/-- The local variables of the main loop. -/
structure GJ (K : Type) where
  a : Dense K
  b : Dense K
  ipiv : List ℕ
  indxr : List ℕ
  indxc : List ℕ

/-- Scaling the pivot row and eliminating the others (LinAlgDirect.h:175-184, Matrix.h:1141-1152). -/
def gjElim (n icol : ℕ) (pivinv : K) (a b : Dense K) : Outcome (Dense K × Dense K) := do
  let a ← a.set icol icol 1
  let a ← scaleRow icol pivinv a
  let b ← scaleRow icol pivinv b
  forRange n (a, b) (elimRow icol)

/-- The rest of one round of the main loop, after the pivot search (LinAlgDirect.h:152-184, Matrix.h:1126-1152).
`zeroPivot` is what happens when the pivot passes the threshold test although it is zero: the division gives an
infinity, which `SolveInPlace` detects and reports (163-173) and `Invert` does not. -/
def gjPivot (n : ℕ) (zeroPivot : Outcome (GJ K)) (thr : K) (s : GJ K) (i irow icol : ℕ) : Outcome (GJ K) := do
  let c ← Outcome.index s.ipiv icol
  let ipiv ← Outcome.store s.ipiv icol (c + 1)
  let a ← swapRowsIf irow icol s.a
  let b ← swapRowsIf irow icol s.b
  let indxr ← Outcome.store s.indxr i irow
  let indxc ← Outcome.store s.indxc i icol
  let p ← a.get icol icol
  if |p| < thr then .exn (.mml "SingularMatrixError")
  else if p = 0 then zeroPivot
  else do
    let ab ← gjElim n icol (1 / p) a b
    .ret ⟨ab.1, ab.2, ipiv, indxr, indxc⟩

/-- One round of the main loop (LinAlgDirect.h:139-185, Matrix.h:1109-1153). -/
def gjStep (n : ℕ) (zeroPivot : Outcome (GJ K)) (thr : K) (s : GJ K) (i : ℕ) : Outcome (GJ K) := do
  let p ← search n s.a s.ipiv
  gjPivot n zeroPivot thr s i p.1 p.2

/-- One round of unscrambling the columns (LinAlgDirect.h:186-190, Matrix.h:1156-1161). -/
def unscrambleStep (n : ℕ) (indxr indxc : List ℕ) (a : Dense K) (l : ℕ) : Outcome (Dense K) := do
  let r ← Outcome.index indxr l
  let c ← Outcome.index indxc l
  if r ≠ c then forRange n a (fun a k => a.swap k r k c) else .ret a

/-- The elimination common to `SolveInPlace` (LinAlgDirect.h:128-190) and `Invert` (Matrix.h:1098-1161, which has
no `b`; there the model is run with a matrix `b` without columns).  Returns the final `a` and `b`. -/
def gaussJordan (zeroPivot : Outcome (GJ K)) (eps : K) (a b : Dense K) : Outcome (Dense K × Dense K) := do
  let n := a.rows
  let norm ← maxAbs n a
  let z := List.replicate n 0
  let s ← forRange n (⟨a, b, z, z, z⟩ : GJ K) (gjStep n zeroPivot (eps * norm * n))
  let a ← forDown 0 n s.a (unscrambleStep n s.indxr s.indxc)
  .ret (a, s.b)

/-- `GaussJordanSolver::SolveInPlace(Matrix, Matrix)` (LinAlgDirect.h:110-191). -/
def solveInPlaceM (eps : K) (a b : Dense K) : Outcome (Dense K × Dense K) :=
  if a.rows ≠ a.cols then .exn (.mml "MatrixDimensionError")
  else if a.rows = 0 ∨ a.cols = 0 then .exn (.mml "MatrixDimensionError")
  else if b.rows = 0 ∨ b.cols = 0 then .exn (.mml "MatrixDimensionError")
  else if a.rows ≠ b.rows then .exn (.mml "MatrixDimensionError")
  else gaussJordan (.exn (.mml "MatrixNumericalError")) eps a b

/-- `Utils::ColumnMatrixFromVector` (mml/base/BaseUtils/MatrixOps.h:51-58). -/
def columnMatrix (b : List K) : Outcome (Dense K) := do
  let m ← Dense.new (b.length : ℤ) 1
  forRange b.length m (fun m i => do
    let x ← Outcome.index b i
    m.set i 0 x)

/-- `GaussJordanSolver::SolveInPlace(Matrix, Vector)` (LinAlgDirect.h:198-211); `Solve` (219-232) and `SolveConst`
(240-255) are the same computation without the write-back.  Returns the final matrix and the solution. -/
def solveInPlaceV (eps : K) (a : Dense K) (b : List K) : Outcome (Dense K × List K) :=
  if a.rows ≠ a.cols then .exn (.mml "MatrixDimensionError")
  else if a.rows ≠ b.length then .exn (.mml "MatrixDimensionError")
  else if b.length = 0 then .exn (.mml "MatrixDimensionError")
  else do
    let bm ← columnMatrix b
    let ab ← solveInPlaceM eps a bm
    let x ← ab.2.colVector 0
    .ret (ab.1, x)

/-- `Matrix::Invert` (Matrix.h:1090-1163) and `inverse` (1167-1172).  The division by a zero pivot, which leaves
infinities and NaNs in the matrix, is undefined behaviour by the letter of the C++ standard and in the model. -/
def invert (eps : K) (a : Dense K) : Outcome (Dense K) :=
  if a.rows ≠ a.cols then .exn (.mml "MatrixDimensionError")
  else do
    let ab ← gaussJordan .ub eps a ⟨a.rows, 0, []⟩
    .ret ab.1

end Verif.LinAlg
