import Verif.LinAlg.LU
import Mathlib.Analysis.SpecialFunctions.Sqrt

/-!
# Model of the QR solver

`QRSolver` (`mml/core/LinAlgEqSolvers/LinAlgQR.h`) for real elements, exact.  `eps` is `std::numeric_limits<Real>::epsilon()`.
The arguments of `std::sqrt` are sums of squares.
-/

set_option autoImplicit false

namespace Verif.LinAlg

open Verif.Mat

/-- The members of a `QRSolver` (LinAlgQR.h:32-38): `_m` and `_n` are the dimensions of `qr`. -/
structure QR where
  qr : Dense ℝ
  c : List ℝ
  d : List ℝ
  sing : Bool
  refl : ℕ

namespace QR

/-- The largest absolute value in column `k` from the diagonal down (LinAlgQR.h:68-70). -/
noncomputable def colScale (m : ℕ) (a : Dense ℝ) (k : ℕ) : Outcome ℝ :=
  forFromTo k m (0 : ℝ) (fun s i => do
    let x ← a.get i k
    .ret (max s |x|))

/-- The scaling of column `k` (LinAlgQR.h:81-82). -/
noncomputable def divCol (m : ℕ) (a : Dense ℝ) (k : ℕ) (scale : ℝ) : Outcome (Dense ℝ) :=
  forFromTo k m a (fun a i => do
    let x ← a.get i k
    a.set i k (x / scale))

/-- The sum of products of columns `k` and `j` from row `k` on (LinAlgQR.h:84-86, 100-102). -/
noncomputable def colDot (m : ℕ) (a : Dense ℝ) (k j : ℕ) : Outcome ℝ :=
  forFromTo k m (0 : ℝ) (fun s i => do
    let x ← a.get i k
    let y ← a.get i j
    .ret (s + x * y))

/-- The transformation of column `j` (LinAlgQR.h:100-107). -/
noncomputable def applyCol (m k : ℕ) (ck : ℝ) (a : Dense ℝ) (j : ℕ) : Outcome (Dense ℝ) := do
  let sum ← colDot m a k j
  let tau ← divU sum ck
  forFromTo k m a (fun a i => do
    let y ← a.get i j
    let x ← a.get i k
    a.set i j (y - tau * x))

/-- `sigma` (LinAlgQR.h:89). -/
noncomputable def sigma (v sum : ℝ) : ℝ := if v ≥ 0 then Real.sqrt sum else -Real.sqrt sum

/-- The branch of a column that is not zero (LinAlgQR.h:80-109). -/
noncomputable def reflect (m n : ℕ) (scale : ℝ) (s : QR) (k : ℕ) : Outcome QR := do
  let a ← divCol m s.qr k scale
  let sum ← colDot m a k k
  let v ← a.get k k
  let a ← a.set k k (v + sigma v sum)
  let c ← Outcome.store s.c k (sigma v sum * (v + sigma v sum))
  let d ← Outcome.store s.d k (-scale * sigma v sum)
  let a ← forFromTo (k + 1) n a (applyCol m k (sigma v sum * (v + sigma v sum)))
  .ret ⟨a, c, d, s.sing, s.refl + 1⟩

/-- One column of the reduction (LinAlgQR.h:67-109). -/
noncomputable def step (eps : ℝ) (m n : ℕ) (s : QR) (k : ℕ) : Outcome QR := do
  let scale ← colScale m s.qr k
  if scale < eps then do
    let c ← Outcome.store s.c k 0
    let d ← Outcome.store s.d k 0
    .ret ⟨s.qr, c, d, true, s.refl⟩
  else reflect m n scale s k

/-- The number of reflections (LinAlgQR.h:64). -/
def ncols (m n : ℕ) : ℕ := if m = n then n - 1 else n

/-- `norm_a` (LinAlgQR.h:117-121). -/
noncomputable def maxAbs (m n : ℕ) (a : Dense ℝ) : Outcome ℝ :=
  forRange m (0 : ℝ) (fun s i => forRange n s (fun s j => do
    let x ← a.get i j
    .ret (if |x| > s then |x| else s)))

/-- The last diagonal element of a square matrix (LinAlgQR.h:115-124).  For `n = 0` the index is -1. -/
noncomputable def last (eps : ℝ) (n : ℕ) (a : Dense ℝ) (s : QR) : Outcome QR :=
  if n = 0 then .ub
  else do
    let x ← s.qr.get (n - 1) (n - 1)
    let d ← Outcome.store s.d (n - 1) x
    let norm ← maxAbs n n a
    .ret { s with d := d, sing := if |x| < eps * norm * n then true else s.sing }

/-- The constructor (LinAlgQR.h:52-126). -/
noncomputable def new (eps : ℝ) (a : Dense ℝ) : Outcome QR :=
  if a.rows < a.cols then .exn (.mml "MatrixDimensionError")
  else do
    let s ← forRange (ncols a.rows a.cols) (⟨a, List.replicate a.cols 0, List.replicate a.cols 0, false, 0⟩ : QR)
      (step eps a.rows a.cols)
    if a.rows = a.cols then last eps a.rows a s else .ret s

/-- One reflection of a vector (LinAlgQR.h:219-229, 248-258). -/
noncomputable def reflectVec (s : QR) (m : ℕ) (x : List ℝ) (k : ℕ) : Outcome (List ℝ) := do
  let ck ← Outcome.index s.c k
  if ck ≠ 0 then do
    let sum ← forFromTo k m (0 : ℝ) (fun sum i => do
      let w ← s.qr.get i k
      let y ← Outcome.index x i
      .ret (sum + w * y))
    forFromTo k m x (fun x i => do
      let y ← Outcome.index x i
      let w ← s.qr.get i k
      Outcome.store x i (y - sum / ck * w))
  else .ret x

/-- `QtMultiply` (LinAlgQR.h:206-231). -/
noncomputable def qtMultiply (s : QR) (b : List ℝ) : Outcome (List ℝ) :=
  if b.length ≠ s.qr.rows then .exn (.mml "VectorDimensionError")
  else forRange (ncols s.qr.rows s.qr.cols) b (reflectVec s s.qr.rows)

/-- `QMultiply` (LinAlgQR.h:235-260). -/
noncomputable def qMultiply (s : QR) (b : List ℝ) : Outcome (List ℝ) :=
  if b.length ≠ s.qr.rows then .exn (.mml "VectorDimensionError")
  else forDown 0 (ncols s.qr.rows s.qr.cols) b (reflectVec s s.qr.rows)

/-- One round of the back substitution (LinAlgQR.h:195-200). -/
noncomputable def backStep (s : QR) (n : ℕ) (x : List ℝ) (i : ℕ) : Outcome (List ℝ) := do
  let sum ← Outcome.index x i
  let sum ← forFromTo (i + 1) n sum (fun sum j => do
    let y ← s.qr.get i j
    let z ← Outcome.index x j
    .ret (sum - y * z))
  let d ← Outcome.index s.d i
  let q ← divU sum d
  Outcome.store x i q

/-- `RSolve` (LinAlgQR.h:183-202). -/
noncomputable def rSolve (s : QR) (b : List ℝ) : Outcome (List ℝ) :=
  if b.length ≠ s.qr.cols then .exn (.mml "VectorDimensionError")
  else if s.sing then .exn (.mml "SingularMatrixError")
  else forDown 0 s.qr.cols b (backStep s s.qr.cols)

/-- `Solve` (LinAlgQR.h:130-151). -/
noncomputable def solve (s : QR) (b : List ℝ) : Outcome (List ℝ) :=
  if s.qr.rows ≠ s.qr.cols then .exn (.mml "MatrixDimensionError")
  else if b.length ≠ s.qr.rows then .exn (.mml "VectorDimensionError")
  else if s.sing then .exn (.mml "SingularMatrixError")
  else do
    let x ← qtMultiply s b
    rSolve s x

/-- `LeastSquaresSolve` (LinAlgQR.h:155-179).  The first `n ≤ m` elements of the product are copied. -/
noncomputable def leastSquares (s : QR) (b : List ℝ) : Outcome (List ℝ) :=
  if b.length ≠ s.qr.rows then .exn (.mml "VectorDimensionError")
  else if s.sing then .exn (.mml "SingularMatrixError")
  else do
    let y ← qtMultiply s b
    rSolve s (y.take s.qr.cols)

/-- `GetR` (LinAlgQR.h:263-277). -/
noncomputable def getR (s : QR) : Outcome (Dense ℝ) := do
  let r ← Dense.new (s.qr.cols : ℤ) (s.qr.cols : ℤ)
  forRange s.qr.cols r (fun r i => forRange s.qr.cols r (fun r j =>
    if i ≤ j then
      (if i = j then do
        let x ← Outcome.index s.d i
        r.set i j x
      else do
        let x ← s.qr.get i j
        r.set i j x)
    else r.set i j 0))

/-- One reflection of column `j` of `Q` (LinAlgQR.h:296-303). -/
noncomputable def qCol (s : QR) (m k : ℕ) (ck : ℝ) (q : Dense ℝ) (j : ℕ) : Outcome (Dense ℝ) := do
  let sum ← forFromTo k m (0 : ℝ) (fun sum i => do
    let w ← s.qr.get i k
    let y ← q.get i j
    .ret (sum + w * y))
  forFromTo k m q (fun q i => do
    let y ← q.get i j
    let w ← s.qr.get i k
    q.set i j (y - sum / ck * w))

/-- One reflection of `Q` (LinAlgQR.h:292-305). -/
noncomputable def qStep (s : QR) (q : Dense ℝ) (k : ℕ) : Outcome (Dense ℝ) := do
  let ck ← Outcome.index s.c k
  if ck ≠ 0 then forRange s.qr.cols q (qCol s s.qr.rows k ck) else .ret q

/-- `GetQ` (LinAlgQR.h:280-308). -/
noncomputable def getQ (s : QR) : Outcome (Dense ℝ) := do
  let q ← Dense.new (s.qr.rows : ℤ) (s.qr.cols : ℤ)
  let q ← forRange s.qr.rows q (fun q i => forRange s.qr.cols q (fun q j => q.set i j (if i = j then 1 else 0)))
  forDown 0 s.qr.cols q (qStep s)

/-- `det` (LinAlgQR.h:312-329). -/
noncomputable def det (s : QR) : Outcome ℝ :=
  if s.qr.rows ≠ s.qr.cols then .exn (.mml "MatrixDimensionError")
  else if s.sing then .ret 0
  else do
    let dd ← forRange s.qr.cols (1 : ℝ) (fun dd i => do
      let x ← Outcome.index s.d i
      .ret (dd * x))
    .ret (if s.refl % 2 = 1 then -dd else dd)

/-- One column of `inverse` (LinAlgQR.h:346-358). -/
noncomputable def invCol (s : QR) (n : ℕ) (m : Dense ℝ) (j : ℕ) : Outcome (Dense ℝ) := do
  let col ← solve s (tab n (fun i => if i = j then 1 else 0))
  forRange n m (fun m i => do
    let x ← Outcome.index col i
    m.set i j x)

/-- `inverse(ainv)` (LinAlgQR.h:335-360).  The unit vector is written out; the loop at 349-350 assigns all its elements. -/
noncomputable def inverse (s : QR) (ainv : Dense ℝ) : Outcome (Dense ℝ) :=
  if s.qr.rows ≠ s.qr.cols then .exn (.mml "MatrixDimensionError")
  else if s.sing then .exn (.mml "SingularMatrixError")
  else do
    let m ← ainv.resize s.qr.cols s.qr.cols false
    forRange s.qr.cols m (invCol s s.qr.cols)

end QR

end Verif.LinAlg
