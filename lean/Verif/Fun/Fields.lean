import Verif.Common
import Mathlib.Analysis.Real.Sqrt

/-!
# Model of the predefined fields (`mml/core/Fields.h`)

A point is given by its three coordinates, a vector is a triple.  `Real` is exact.  A division by zero has the value 0 in
the model; the theorems are about points where no divisor is zero.  `tol` is `Singularity::DEFAULT_SINGULARITY_TOL`.
-/

set_option autoImplicit false

namespace Verif.Fields

/-- `VectorN<Real, 3>::NormL2` (`mml/base/Vector/VectorN.h:298-310`). -/
noncomputable def norm3 (x y z : ℝ) : ℝ := Real.sqrt (x * x + y * y + z * z)

/-- `mml/core/Fields.h:63`, `InverseRadialPotentialFieldCart`; line 61 is the case `C = 1`. -/
noncomputable def potential (C x y z : ℝ) : ℝ := C / norm3 x y z

/-- `mml/core/Fields.h:83-86`, `InverseRadialPotentialForceFieldCart`; lines 78-81 are the case `C = 1`. -/
noncomputable def force (C x y z : ℝ) : ℝ × ℝ × ℝ :=
  (-C * x / norm3 x y z ^ 3, -C * y / norm3 x y z ^ 3, -C * z / norm3 x y z ^ 3)

/-- `mml/core/Fields.h:108`, `InverseRadialFieldCart::operator()`. -/
noncomputable def radialField (C x y z : ℝ) : ℝ := C * potential 1 x y z

/-- `mml/core/Fields.h:133`, `InverseRadialForceFieldCart::operator()`. -/
noncomputable def radialForce (C x y z : ℝ) : ℝ × ℝ × ℝ :=
  (C * (force 1 x y z).1, C * (force 1 x y z).2.1, C * (force 1 x y z).2.2)

open Classical in
/-- `mml/core/Fields.h:168-175`, `InfiniteLineCurrentField::operator()`. -/
noncomputable def lineCurrent (tol C x y _z : ℝ) : ℝ × ℝ × ℝ :=
  if x * x + y * y < tol * tol then (0, 0, 0)
  else (-(C / (x * x + y * y)) * y, C / (x * x + y * y) * x, 0)

/-- `mml/core/Fields.h:269-277`, `VortexField::operator()`. -/
def vortex (w0 w1 w2 x y z : ℝ) : ℝ × ℝ × ℝ := (w1 * z - w2 * y, w2 * x - w0 * z, w0 * y - w1 * x)

/-- `mml/core/Fields.h:339-342`, `SaddleField::operator()`. -/
def saddle (k x y _z : ℝ) : ℝ × ℝ × ℝ := (k * x, -k * y, 0)

open Classical in
/-- `mml/core/Fields.h:364-371`, `SourceSinkField::operator()`. -/
noncomputable def sourceSink (tol Q c0 c1 c2 x y z : ℝ) : ℝ × ℝ × ℝ :=
  if norm3 (x - c0) (y - c1) (z - c2) < tol then (0, 0, 0)
  else
    let n := norm3 (x - c0) (y - c1) (z - c2)
    let factor := Q / (n * n * n)
    (factor * (x - c0), factor * (y - c1), factor * (z - c2))

open Classical in
/-- `mml/core/Fields.h:392-408`, `DipoleField::operator()`. -/
noncomputable def dipole (tol p0 p1 p2 c0 c1 c2 x y z : ℝ) : ℝ × ℝ × ℝ :=
  let r0 := x - c0
  let r1 := y - c1
  let r2 := z - c2
  let rSq := r0 * r0 + r1 * r1 + r2 * r2
  if rSq < tol * tol then (0, 0, 0)
  else
    let r5 := rSq * rSq * Real.sqrt rSq
    let pr := p0 * r0 + p1 * r1 + p2 * r2
    ((3 * pr * r0 - rSq * p0) / r5, (3 * pr * r1 - rSq * p1) / r5, (3 * pr * r2 - rSq * p2) / r5)

/-- `mml/core/Fields.h:295-296`, the axis the full constructor of `PotentialVortexField` stores.  For the axis 0 the code divides
0 by 0 and stores NaN; the theorems leave that case out. -/
noncomputable def vortexAxis (a0 a1 a2 : ℝ) : ℝ × ℝ × ℝ :=
  let n := Real.sqrt (a0 * a0 + a1 * a1 + a2 * a2)
  (a0 / n, a1 / n, a2 / n)

open Classical in
/-- `mml/core/Fields.h:299-321`, `PotentialVortexField::operator()`, with the axis the constructor has stored. -/
noncomputable def potentialVortex (tol C a0 a1 a2 x y z : ℝ) : ℝ × ℝ × ℝ :=
  let proj := x * a0 + y * a1 + z * a2
  let r0 := x - proj * a0
  let r1 := y - proj * a1
  let r2 := z - proj * a2
  let rSq := r0 * r0 + r1 * r1 + r2 * r2
  if rSq < tol * tol then (0, 0, 0)
  else
    let factor := C / rSq
    (factor * (a1 * r2 - a2 * r1), factor * (a2 * r0 - a0 * r2), factor * (a0 * r1 - a1 * r0))

open Classical in
/-- `mml/core/Fields.h:196-215`, `InfiniteLineCurrentFieldGeneral::operator()` for the line through `p` with the stored direction
`d`.  The nearest point is `mml/base/Geometry/Geometry3DCore/Geometry3DLines.h:201-210`, the unit vector
`mml/base/Vector/VectorTypes.h:373-380` and the vector product lines 556-565 there.  Simplified: for the direction 0, which the
constructor of `Line3D` refuses, the code divides by 0; the theorems leave that case out. -/
noncomputable def lineCurrentGeneral (tol C p0 p1 p2 d0 d1 d2 x y z : ℝ) : ℝ × ℝ × ℝ :=
  let t := ((x - p0) * d0 + (y - p1) * d1 + (z - p2) * d2) / norm3 d0 d1 d2 ^ 2
  let r0 := x - (p0 + t * d0)
  let r1 := y - (p1 + t * d1)
  let r2 := z - (p2 + t * d2)
  let n := norm3 r0 r1 r2
  let rSq := n * n
  if rSq < tol * tol then (0, 0, 0)
  else
    let u : ℝ × ℝ × ℝ := if n = 0 then (0, 0, 0) else (r0 / n, r1 / n, r2 / n)
    let factor := C / Real.sqrt rSq
    (factor * (d1 * u.2.2 - d2 * u.2.1), factor * (d2 * u.1 - d0 * u.2.2), factor * (d0 * u.2.1 - d1 * u.1))

open Classical in
/-- `mml/core/Fields.h:243-248`, `InfinitePlaneCurrentField::operator()`. -/
noncomputable def planeCurrent (C d0 d1 d2 _x _y z : ℝ) : ℝ × ℝ × ℝ :=
  let sign : ℝ := if z ≥ 0 then 1 else -1
  (sign * C * d0, sign * C * d1, sign * C * d2)

end Verif.Fields
