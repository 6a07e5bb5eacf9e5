import Verif.Mat.Dense
import Verif.Loops
import Mathlib.Data.Complex.Basic
import Mathlib.Analysis.Complex.Norm

/-!
# Matrix operations of `mml/base/BaseUtils/MatrixOps.h`

The functions on `Matrix<Real>` over any field, the functions on `Matrix<Complex>` over `ℂ`.
The matrix class itself is modelled in `Verif.Mat.Dense`.
-/

set_option autoImplicit false

namespace Verif.Mat.Ops

open Verif.Mat

section
variable {K : Type} [Field K]

open Classical in
/-- `operator/(scalar)` (Matrix.h:1016-1022).  Division by zero is not modelled: it is `.ub`. -/
noncomputable def divS (m : Dense K) (c : K) : Outcome (Dense K) :=
  if c = 0 then .ub else m.mapData (· / c)

/-- `Commutator` (MatrixOps.h:155-158). -/
def commutator (a b : Dense K) : Outcome (Dense K) := do
  let x ← a.mul b
  let y ← b.mul a
  x.sub y

/-- `AntiCommutator` (MatrixOps.h:166-169). -/
def antiCommutator (a b : Dense K) : Outcome (Dense K) := do
  let x ← a.mul b
  let y ← b.mul a
  x.add y

/-- `MatrixDecomposeToSymAntisym` (MatrixOps.h:179-189); the result is `(outSym, outAntiSym)`. -/
def symAntisym (m : Dense K) : Outcome (Dense K × Dense K) :=
  if m.rows ≠ m.cols then .exn (.mml "MatrixDimensionError")
  else do
    let t ← m.transpose
    let s ← m.add t
    let s ← s.scale 0.5
    let d ← m.sub t
    let d ← d.scale 0.5
    .ret (s, d)

/-- The state of the series loops: `ret`, `a_pow_n` and `fact`. -/
structure St (K : Type) where
  ret : Dense K
  pow : Dense K
  fact : K

/-- The body of the loop of `Exp` (MatrixOps.h:210-216). -/
noncomputable def expStep (a : Dense K) (s : St K) (i : ℕ) : Outcome (St K) := do
  let fact := s.fact * (i : K)
  let t ← divS s.pow fact
  let ret ← s.ret.addAssign t
  let pow ← s.pow.mul a
  .ret ⟨ret, pow, fact⟩

/-- `Exp` (MatrixOps.h:202-219).  The loop counter does not overflow (`n` below the largest `int`). -/
noncomputable def exp (a : Dense K) (n : ℤ) : Outcome (Dense K) := do
  let ret ← Dense.new (a.rows : ℤ) (a.cols : ℤ)
  let ret ← ret.makeUnit
  let s ← forFromTo 1 (n.toNat + 1) ⟨ret, a, 1⟩ (expStep a)
  .ret s.ret

/-- The body of the loop of `Sin` (MatrixOps.h:235-241). -/
noncomputable def sinStep (a : Dense K) (s : St K) (i : ℕ) : Outcome (St K) := do
  let t ← divS s.pow s.fact
  let ret ← s.ret.addAssign t
  let p ← s.pow.scale (-1)
  let p ← p.mul a
  let p ← p.mul a
  .ret ⟨ret, p, s.fact * (((i + 1 : ℕ) : K) * ((i + 2 : ℕ) : K))⟩

/-- `Sin` (MatrixOps.h:228-243). -/
noncomputable def sin (a : Dense K) (n : ℤ) : Outcome (Dense K) := do
  let ret ← Dense.new (a.rows : ℤ) (a.cols : ℤ)
  let s ← forStep 1 (n.toNat + 1) 2 ⟨ret, a, 1⟩ (sinStep a)
  .ret s.ret

/-- The body of the loop of `Cos` (MatrixOps.h:261-267). -/
noncomputable def cosStep (a : Dense K) (s : St K) (i : ℕ) : Outcome (St K) := do
  let p ← s.pow.scale (-1)
  let p ← p.mul a
  let p ← p.mul a
  let fact := s.fact * ((i : K) * ((i + 1 : ℕ) : K))
  let t ← divS p fact
  let ret ← s.ret.addAssign t
  .ret ⟨ret, p, fact⟩

/-- `Cos` (MatrixOps.h:252-269). -/
noncomputable def cos (a : Dense K) (n : ℤ) : Outcome (Dense K) := do
  let ret ← Dense.new (a.rows : ℤ) (a.cols : ℤ)
  let p ← Dense.new (a.rows : ℤ) (a.cols : ℤ)
  let ret ← ret.makeUnit
  let p ← p.makeUnit
  let s ← forStep 1 (n.toNat + 1) 2 ⟨ret, p, 1⟩ (cosStep a)
  .ret s.ret

/-- The body of the loop of `Sinh` (MatrixOps.h:285-291). -/
noncomputable def sinhStep (a : Dense K) (s : St K) (i : ℕ) : Outcome (St K) := do
  let t ← divS s.pow s.fact
  let ret ← s.ret.addAssign t
  let p ← s.pow.mul a
  let p ← p.mul a
  .ret ⟨ret, p, s.fact * (((i + 1 : ℕ) : K) * ((i + 2 : ℕ) : K))⟩

/-- `Sinh` (MatrixOps.h:277-293). -/
noncomputable def sinh (a : Dense K) (n : ℤ) : Outcome (Dense K) := do
  let ret ← Dense.new (a.rows : ℤ) (a.cols : ℤ)
  let s ← forStep 1 (n.toNat + 1) 2 ⟨ret, a, 1⟩ (sinhStep a)
  .ret s.ret

/-- The body of the loop of `Cosh` (MatrixOps.h:311-317). -/
noncomputable def coshStep (a : Dense K) (s : St K) (i : ℕ) : Outcome (St K) := do
  let p ← s.pow.mul a
  let p ← p.mul a
  let fact := s.fact * (((i - 1 : ℕ) : K) * (i : K))
  let t ← divS p fact
  let ret ← s.ret.addAssign t
  .ret ⟨ret, p, fact⟩

/-- `Cosh` (MatrixOps.h:301-319). -/
noncomputable def cosh (a : Dense K) (n : ℤ) : Outcome (Dense K) := do
  let ret ← Dense.new (a.rows : ℤ) (a.cols : ℤ)
  let p ← Dense.new (a.rows : ℤ) (a.cols : ℤ)
  let ret ← ret.makeUnit
  let p ← p.makeUnit
  let s ← forStep 2 (n.toNat + 1) 2 ⟨ret, p, 1⟩ (coshStep a)
  .ret s.ret

end

/-- `IsOrthogonal` (MatrixOps.h:330-338). -/
def isOrthogonal {K : Type} [Field K] [LinearOrder K] (m : Dense K) (eps : K) : Outcome Bool :=
  if m.rows ≠ m.cols then .exn (.mml "MatrixDimensionError")
  else do
    let t ← m.transpose
    let p ← m.mul t
    p.isIdentity eps

/-- `GetRealPart` (MatrixOps.h:347-357). -/
def realPart (a : Dense ℂ) : Outcome (Dense ℝ) := do
  let ret ← Dense.new (a.rows : ℤ) (a.cols : ℤ)
  forRange ret.rows ret (fun r i => forRange ret.cols r (fun r j => do
    let x ← a.get i j
    r.set i j x.re))

/-- `GetImagPart` (MatrixOps.h:362-372). -/
def imagPart (a : Dense ℂ) : Outcome (Dense ℝ) := do
  let ret ← Dense.new (a.rows : ℤ) (a.cols : ℤ)
  forRange ret.rows ret (fun r i => forRange ret.cols r (fun r j => do
    let x ← a.get i j
    r.set i j x.im))

/-- `GetConjugateTranspose` (MatrixOps.h:378-387). -/
noncomputable def conjTranspose (m : Dense ℂ) : Outcome (Dense ℂ) := do
  let ret ← Dense.new (m.cols : ℤ) (m.rows : ℤ)
  forRange m.rows ret (fun r i => forRange m.cols r (fun r j => do
    let x ← m.get i j
    r.set j i (starRingEnd ℂ x)))

/-- `CmplxMatFromRealMat` (MatrixOps.h:392-401). -/
def ofReal (m : Dense ℝ) : Outcome (Dense ℂ) := do
  let ret ← Dense.new (m.rows : ℤ) (m.cols : ℤ)
  forRange m.rows ret (fun r i => forRange m.cols r (fun r j => do
    let x ← m.get i j
    r.set i j ⟨x, 0⟩))

open Classical in
/-- `IsComplexMatReal` (MatrixOps.h:406-414). -/
noncomputable def isReal (m : Dense ℂ) : Outcome Bool :=
  Dense.allEntries m.rows (fun _ => 0) (fun _ => m.cols) (fun i j => do
    let x ← m.get i j
    .ret (decide (¬ x.im ≠ 0)))

open Classical in
/-- `IsHermitian` (MatrixOps.h:421-431).  The inner loop starts at `i + 1`. -/
noncomputable def isHermitian (m : Dense ℂ) : Outcome Bool :=
  if m.rows ≠ m.cols then .exn (.mml "MatrixDimensionError")
  else Dense.allEntries m.rows (fun i => i + 1) (fun _ => m.cols) (fun i j => do
    let x ← m.get i j
    let y ← m.get j i
    .ret (decide (¬ x ≠ starRingEnd ℂ y)))

open Classical in
/-- `isIdentity(eps)` (Matrix.h:645-659) for complex elements, where `Abs` is the modulus. -/
noncomputable def isIdentityC (m : Dense ℂ) (eps : ℝ) : Outcome Bool :=
  if m.rows ≠ m.cols then .ret false
  else Dense.allEntries m.rows (fun _ => 0) (fun _ => m.cols) (fun i j => do
    let x ← m.get i j
    if i = j then .ret (decide (¬ ‖x - 1‖ > eps)) else .ret (decide (¬ ‖x‖ > eps)))

/-- `IsUnitary` (MatrixOps.h:438-447); `eps` is the default tolerance of `isIdentity`. -/
noncomputable def isUnitary (m : Dense ℂ) (eps : ℝ) : Outcome Bool :=
  if m.rows ≠ m.cols then .exn (.mml "MatrixDimensionError")
  else do
    let t ← conjTranspose m
    let p ← m.mul t
    isIdentityC p eps

end Verif.Mat.Ops
