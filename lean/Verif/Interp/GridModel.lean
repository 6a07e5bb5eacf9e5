import Verif.Interp.Model
import Verif.Mat.Dense

/-!
# Model of interpolation on a grid (Interpolation2DFunction.h)

Numbers are exact reals.  `BilinearInterp2D` keeps a reference to the matrix; the model keeps its value, so it describes evaluations
made while the matrix exists and is unchanged.
-/

set_option autoImplicit false

namespace Verif.Interp

open Verif

/-- `BilinearInterp2D::locate` (Interpolation2DFunction.h:65-78).  The search is the one of `RealFunctionInterpolated`; the read of the
last element needs one, and subtraction of naturals stops at zero, like `max(0, ...)`. -/
noncomputable def locate2 (xs : List ℝ) (x : ℝ) : Outcome ℕ :=
  if xs.length = 0 then .ub else .ret (min (xs.length - 2) (search xs x))

/-- The members of `BilinearInterp2D` (Interpolation2DFunction.h:56-58). -/
structure Bilinear where
  x1 : List ℝ
  x2 : List ℝ
  z : Mat.Dense ℝ

/-- The constructor (Interpolation2DFunction.h:87-95). -/
def Bilinear.new (x1 x2 : List ℝ) (z : Mat.Dense ℝ) : Outcome Bilinear :=
  if z.rows ≠ x1.length ∨ z.cols ≠ x2.length then .exn (.mml "RealFuncInterpInitError") else .ret ⟨x1, x2, z⟩

/-- The normalised coordinate (Interpolation2DFunction.h:107-108, 126-130) with the width of the cell. -/
noncomputable def unitCoord (xs : List ℝ) (i : ℕ) (x : ℝ) : Outcome (ℝ × ℝ) := do
  let b ← Outcome.index xs (i + 1)
  let a ← Outcome.index xs i
  .ret (b - a, if b - a ≠ 0 then (x - a) / (b - a) else 0)

/-- The four values of a cell. -/
structure Corners where
  c00 : ℝ
  c10 : ℝ
  c01 : ℝ
  c11 : ℝ

/-- The reads of the matrix (Interpolation2DFunction.h:111-112, 133). -/
def Bilinear.corners (f : Bilinear) (i j : ℕ) : Outcome Corners := do
  let c00 ← f.z.get i j
  let c10 ← f.z.get (i + 1) j
  let c01 ← f.z.get i (j + 1)
  let c11 ← f.z.get (i + 1) (j + 1)
  .ret ⟨c00, c10, c01, c11⟩

/-- The formula (Interpolation2DFunction.h:111-112, 133). -/
noncomputable def Corners.blend (c : Corners) (t u : ℝ) : ℝ :=
  (1 - t) * (1 - u) * c.c00 + t * (1 - u) * c.c10 + (1 - t) * u * c.c01 + t * u * c.c11

/-- `operator()` (Interpolation2DFunction.h:102-113). -/
noncomputable def Bilinear.eval (f : Bilinear) (x1 x2 : ℝ) : Outcome ℝ := do
  let i ← locate2 f.x1 x1
  let j ← locate2 f.x2 x2
  let t ← unitCoord f.x1 i x1
  let u ← unitCoord f.x2 j x2
  let c ← f.corners i j
  .ret (c.blend t.2 u.2)

/-- The first partial derivative (Interpolation2DFunction.h:136-140). -/
noncomputable def Corners.d1 (c : Corners) (dx u : ℝ) : ℝ :=
  if dx ≠ 0 then ((1 - u) * (c.c10 - c.c00) + u * (c.c11 - c.c01)) / dx else 0

/-- The second partial derivative (Interpolation2DFunction.h:142-146). -/
noncomputable def Corners.d2 (c : Corners) (dx t : ℝ) : ℝ :=
  if dx ≠ 0 then ((1 - t) * (c.c01 - c.c00) + t * (c.c11 - c.c10)) / dx else 0

/-- `interpWithDerivatives` (Interpolation2DFunction.h:122-147): the three results. -/
noncomputable def Bilinear.withDerivs (f : Bilinear) (x1 x2 : ℝ) : Outcome (ℝ × ℝ × ℝ) := do
  let i ← locate2 f.x1 x1
  let j ← locate2 f.x2 x2
  let t ← unitCoord f.x1 i x1
  let u ← unitCoord f.x2 j x2
  let c ← f.corners i j
  .ret (c.blend t.2 u.2, c.d1 t.1 u.2, c.d2 u.1 t.2)

/-- The members of `BicubicSplineInterp2D` that are read later (Interpolation2DFunction.h:179-182); `_m` is the length of `x1`. -/
structure Bicubic where
  x1 : List ℝ
  rows : List Spline

/-- The number that stands for a natural end: the default arguments of `SplineInterpRealFunc` (InterpolatedRealFunction.h:345). -/
noncomputable def naturalEnd : ℝ := 10 ^ 99

/-- One entry of a row (Interpolation2DFunction.h:204-205). -/
def rowStep (z : Mat.Dense ℝ) (i : ℕ) (row : List ℝ) (j : ℕ) : Outcome (List ℝ) := do
  let v ← z.get i j
  Outcome.store row j v

/-- The spline of one row (Interpolation2DFunction.h:202-207).  The slots of `_rowSplines` are filled in order, hence appending. -/
noncomputable def rowSplineStep (x2 : List ℝ) (z : Mat.Dense ℝ) (rows : List Spline) (i : ℕ) : Outcome (List Spline) := do
  let row ← forRange x2.length (List.replicate x2.length 0) (rowStep z i)
  let s ← Spline.new x2 row naturalEnd naturalEnd
  .ret (rows ++ [s])

/-- The constructor (Interpolation2DFunction.h:191-208). -/
noncomputable def Bicubic.new (x1 x2 : List ℝ) (z : Mat.Dense ℝ) : Outcome Bicubic :=
  if z.rows ≠ x1.length ∨ z.cols ≠ x2.length then .exn (.mml "RealFuncInterpInitError")
  else do
    let rows ← forRange x1.length [] (rowSplineStep x2 z)
    .ret ⟨x1, rows⟩

/-- The value of one row (Interpolation2DFunction.h:227-228, 246). -/
noncomputable def Bicubic.valueStep (f : Bicubic) (x2 : ℝ) (yv : List ℝ) (i : ℕ) : Outcome (List ℝ) := do
  let s ← Outcome.index f.rows i
  let v ← s.eval x2
  Outcome.store yv i v

/-- The derivative of one row (Interpolation2DFunction.h:247). -/
noncomputable def Bicubic.slopeStep (f : Bicubic) (x2 : ℝ) (yv : List ℝ) (i : ℕ) : Outcome (List ℝ) := do
  let s ← Outcome.index f.rows i
  let v ← s.derivative x2
  Outcome.store yv i v

/-- `operator()` (Interpolation2DFunction.h:224-233). -/
noncomputable def Bicubic.eval (f : Bicubic) (x1 x2 : ℝ) : Outcome ℝ := do
  let yv ← forRange f.x1.length (List.replicate f.x1.length 0) (f.valueStep x2)
  let s ← Spline.new f.x1 yv naturalEnd naturalEnd
  s.eval x1

/-- `interpWithDerivatives` (Interpolation2DFunction.h:242-258).  The loop that fills two vectors is split in two. -/
noncomputable def Bicubic.withDerivs (f : Bicubic) (x1 x2 : ℝ) : Outcome (ℝ × ℝ × ℝ) := do
  let yv ← forRange f.x1.length (List.replicate f.x1.length 0) (f.valueStep x2)
  let dv ← forRange f.x1.length (List.replicate f.x1.length 0) (f.slopeStep x2)
  let s ← Spline.new f.x1 yv naturalEnd naturalEnd
  let z ← s.eval x1
  let d1 ← s.derivative x1
  let t ← Spline.new f.x1 dv naturalEnd naturalEnd
  let d2 ← t.eval x1
  .ret (z, d1, d2)

end Verif.Interp
