import Verif.Mat.Packed
import Verif.LinAlg.LU

/-!
# Model of the tridiagonal solver

`TridiagonalMatrix::Solve` (`mml/base/Matrix/MatrixTriDiag.h`), for real elements in an exact ordered field.  `eps` is
`std::numeric_limits<Real>::epsilon()`.
-/

set_option autoImplicit false

namespace Verif.LinAlg.Tri

open Verif.Mat

variable {K : Type} [Field K] [LinearOrder K]

/-- `tol` (MatrixTriDiag.h:218-226). -/
def tolerance (eps : K) (n : ℕ) (diag : List K) : Outcome K := do
  let mx ← forRange n (0 : K) (fun mx i => do
    let d ← Outcome.index diag i
    .ret (if |d| > mx then |d| else mx))
  .ret (if mx * eps < eps then eps else mx * eps)

/-- The local variables of `Solve`. -/
structure State (K : Type) where
  sol : List K
  gam : List K
  bet : K

/-- One round of the forward loop (MatrixTriDiag.h:233-241). -/
def forwardStep (m : Tri K) (tol : K) (rhs : List K) (s : State K) (j : ℕ) : Outcome (State K) := do
  let a ← Outcome.index m.above (j - 1)
  let g ← divU a s.bet
  let gam ← Outcome.store s.gam j g
  let d ← Outcome.index m.diag j
  let b ← Outcome.index m.below j
  let bet := d - b * g
  if |bet| < tol then .exn (.mml "SingularMatrixError")
  else do
    let r ← Outcome.index rhs j
    let p ← Outcome.index s.sol (j - 1)
    let q ← divU (r - b * p) bet
    let sol ← Outcome.store s.sol j q
    .ret ⟨sol, gam, bet⟩

/-- One round of the backward loop (MatrixTriDiag.h:242-243). -/
def backStep (gam : List K) (sol : List K) (j : ℕ) : Outcome (List K) := do
  let x ← Outcome.index sol j
  let g ← Outcome.index gam (j + 1)
  let y ← Outcome.index sol (j + 1)
  Outcome.store sol j (x - g * y)

/-- `Solve(rhs, sol)` (MatrixTriDiag.h:212-244) for two distinct vectors: the new value of `sol`. -/
def solveInto (eps : K) (m : Tri K) (rhs sol : List K) : Outcome (List K) := do
  let n := m.below.length
  let tol ← tolerance eps n m.diag
  let d ← Outcome.index m.diag 0
  if |d| < tol then .exn (.mml "SingularMatrixError")
  else do
    let r ← Outcome.index rhs 0
    let q ← divU r d
    let sol ← Outcome.store sol 0 q
    let s ← forFromTo 1 n (⟨sol, List.replicate n 0, d⟩ : State K) (forwardStep m tol rhs)
    forDown 0 (n - 1) s.sol (backStep s.gam)

/-- `Solve(rhs)` (MatrixTriDiag.h:245-250). -/
def solve (eps : K) (m : Tri K) (rhs : List K) : Outcome (List K) :=
  solveInto eps m rhs (List.replicate rhs.length 0)

end Verif.LinAlg.Tri
