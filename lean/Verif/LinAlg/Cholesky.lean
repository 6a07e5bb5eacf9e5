import Verif.LinAlg.LU

/-!
# Model of the Cholesky solver

`CholeskySolver` (`mml/core/LinAlgEqSolvers/LinAlgDirect.h`), for real elements in an exact ordered field.  `sqrt` and
`log` are the functions of those names.
-/

set_option autoImplicit false

namespace Verif.LinAlg

open Verif.Mat

variable {K : Type} [Field K] [LinearOrder K]

/-- The members of the solver (LinAlgDirect.h:889-891): `n` is `el.rows`. -/
structure Chol (K : Type) where
  el : Dense K

namespace Chol

/-- One round of the inner loop (LinAlgDirect.h:916-934). -/
def inner (sqrt : K → K) (i : ℕ) (el : Dense K) (j : ℕ) : Outcome (Dense K) := do
  let sum ← el.get i j
  let sum ← forRange i sum (fun sum k => do
    let x ← el.get i k
    let y ← el.get j k
    .ret (sum - x * y))
  if i = j then
    if sum ≤ 0 then .exn (.mml "SingularMatrixError")
    else el.set i i (sqrt sum)
  else do
    let p ← el.get i i
    let q ← divU sum p
    el.set j i q

/-- The constructor (LinAlgDirect.h:901-942).  `symTol` is `Defaults::IsMatrixSymmetricTolerance`. -/
def new (sqrt : K → K) (symTol : K) (a : Dense K) : Outcome (Chol K) :=
  if a.rows ≠ a.cols then .exn (.mml "MatrixDimensionError")
  else if a.rows = 0 then .exn (.mml "MatrixDimensionError")
  else do
    let sym ← a.isSymmetric symTol
    if !sym then .exn (.mml "MatrixDimensionError")
    else do
      let n := a.rows
      let el ← forRange n a (fun el i => forFromTo i n el (inner sqrt i))
      let el ← forRange n el (fun el i => forFromTo (i + 1) n el (fun el j => el.set i j 0))
      .ret ⟨el⟩

/-- One round of the forward substitution (LinAlgDirect.h:963-969). -/
def forwardStep (s : Chol K) (b : List K) (x : List K) (i : ℕ) : Outcome (List K) := do
  let sum ← Outcome.index b i
  let sum ← forRange i sum (fun sum k => do
    let y ← s.el.get i k
    let z ← Outcome.index x k
    .ret (sum - y * z))
  let p ← s.el.get i i
  let q ← divU sum p
  Outcome.store x i q

/-- One round of the backward substitution (LinAlgDirect.h:972-978). -/
def backStep (s : Chol K) (n : ℕ) (x : List K) (i : ℕ) : Outcome (List K) := do
  let sum ← Outcome.index x i
  let sum ← forFromTo (i + 1) n sum (fun sum k => do
    let y ← s.el.get k i
    let z ← Outcome.index x k
    .ret (sum - y * z))
  let p ← s.el.get i i
  let q ← divU sum p
  Outcome.store x i q

/-- `Solve(b, x)` (LinAlgDirect.h:949-979) for two distinct vectors: the new value of `x`.  `Resize`
(Vector.h:163-166) cuts the vector off or fills it with zeros. -/
def solveInto (s : Chol K) (b x : List K) : Outcome (List K) :=
  if b.length ≠ s.el.rows then .exn (.mml "VectorDimensionError")
  else do
    let n := s.el.rows
    let x ← forRange n (x.take n ++ List.replicate (n - x.length) 0) (forwardStep s b)
    forDown 0 n x (backStep s n)

/-- `Solve(b)` (LinAlgDirect.h:984-989). -/
def solve (s : Chol K) (b : List K) : Outcome (List K) := solveInto s b (List.replicate b.length 0)

/-- One round of the loop of `inverse` (LinAlgDirect.h:1002-1014); the state holds `ainv`, `ei` and `col`. -/
def inverseStep (s : Chol K) (n : ℕ) (t : Dense K × List K × List K) (j : ℕ) :
    Outcome (Dense K × List K × List K) := do
  let ei ← forRange n t.2.1 (fun ei i => Outcome.store ei i (if i = j then 1 else 0))
  let col ← solveInto s ei t.2.2
  let m ← forRange n t.1 (fun m i => do
    let x ← Outcome.index col i
    m.set i j x)
  .ret (m, ei, col)

/-- `inverse(ainv)` (LinAlgDirect.h:993-1015): the new `ainv`. -/
def inverse (s : Chol K) (ainv : Dense K) : Outcome (Dense K) := do
  let n := s.el.rows
  let m ← ainv.resize n n false
  let t ← forRange n (m, List.replicate n 0, List.replicate n 0) (inverseStep s n)
  .ret t.1

/-- `logdet()` (LinAlgDirect.h:1019-1028). -/
def logdet (log : K → K) (s : Chol K) : Outcome K := do
  let sum ← forRange s.el.rows (0 : K) (fun sum i => do
    let x ← s.el.get i i
    .ret (sum + log x))
  .ret (2 * sum)

end Chol

end Verif.LinAlg
