import Verif.Geom.Shapes2D
import Mathlib.Analysis.SpecialFunctions.Artanh
import Mathlib.Analysis.SpecialFunctions.Pow.Real

/-!
# Model of the solids given by lengths only

`Geometry3DShapes.h`.  As in `Shapes2D`, `Quat.sqrtU` is `sqrt` and `Interp.fdiv` a division; roots whose argument is a sum of squares are
`Real.sqrt`.  Accessors are not repeated; the members that return a `Circle` are given by its radius, which is a member of the solid.
-/

set_option autoImplicit false

namespace Verif.Geom.Shp

/-- `cbrt`, the real cube root (used in Geometry3DShapes.h:60). -/
noncomputable def cbrt (x : ℝ) : ℝ := if 0 ≤ x then x ^ (1 / 3 : ℝ) else -(-x) ^ (1 / 3 : ℝ)

/-- `atanh`, infinite or NaN outside `(-1, 1)`, modelled as undefined behaviour (used in Geometry3DShapes.h:322). -/
noncomputable def atanhU (x : ℝ) : Outcome ℝ := if x ≤ -1 ∨ 1 ≤ x then .ub else .ret (Real.artanh x)

/-- `asin`, NaN outside `[-1, 1]` (used in Geometry3DShapes.h:326). -/
noncomputable def asinU (x : ℝ) : Outcome ℝ := if x < -1 ∨ 1 < x then .ub else .ret (Real.arcsin x)

/-! ## Sphere -/

/-- `SphereGeom::Volume` (Geometry3DShapes.h:47). -/
noncomputable def sphereVolume (r : ℝ) : ℝ := 4 / 3 * Real.pi * r * r * r

/-- `SphereGeom::SurfaceArea` (Geometry3DShapes.h:48). -/
noncomputable def sphereSurface (r : ℝ) : ℝ := 4 * Real.pi * r * r

/-- `SphereGeom::CapArea` (Geometry3DShapes.h:54). -/
noncomputable def capArea (r h : ℝ) : ℝ := 2 * Real.pi * r * h

/-- `SphereGeom::CapVolume` (Geometry3DShapes.h:55). -/
noncomputable def capVolume (r h : ℝ) : ℝ := Real.pi * h * h * (3 * r - h) / 3

/-- `SphereGeom::ZoneArea` (Geometry3DShapes.h:58). -/
noncomputable def zoneArea (r h : ℝ) : ℝ := 2 * Real.pi * r * h

/-- `SphereGeom::FromVolume` (Geometry3DShapes.h:60). -/
noncomputable def sphereFromVolume (vol : ℝ) : ℝ := cbrt (3 * vol / (4 * Real.pi))

/-- `SphereGeom::FromSurfaceArea` (Geometry3DShapes.h:61). -/
noncomputable def sphereFromSurface (area : ℝ) : Outcome ℝ := Quat.sqrtU (area / (4 * Real.pi))

/-- `SphereGeom::Circumscribed` (Geometry3DShapes.h:62-65). -/
noncomputable def sphereCircumscribed (w h depth : ℝ) : ℝ := Real.sqrt (w * w + h * h + depth * depth) / 2

/-! ## Cylinder, cone, frustum -/

/-- `CylinderGeom::Volume` (Geometry3DShapes.h:92). -/
noncomputable def cylVolume (r h : ℝ) : ℝ := Real.pi * r * r * h

/-- `CylinderGeom::LateralArea` (Geometry3DShapes.h:94). -/
noncomputable def cylLateral (r h : ℝ) : ℝ := 2 * Real.pi * r * h

/-- `BaseArea` of a cylinder and a cone (Geometry3DShapes.h:95, 133). -/
noncomputable def baseArea (r : ℝ) : ℝ := Real.pi * r * r

/-- `CylinderGeom::SurfaceArea` (Geometry3DShapes.h:96). -/
noncomputable def cylSurface (r h : ℝ) : ℝ := cylLateral r h + 2 * baseArea r

/-- `CylinderGeom::FromVolume` (Geometry3DShapes.h:100-103): the height. -/
noncomputable def cylFromVolume (vol r : ℝ) : Outcome ℝ := Interp.fdiv vol (Real.pi * r * r)

/-- `ConeGeom::SlantHeight` (Geometry3DShapes.h:129). -/
noncomputable def coneSlant (r h : ℝ) : ℝ := Real.sqrt (r * r + h * h)

/-- `ConeGeom::Volume` (Geometry3DShapes.h:130). -/
noncomputable def coneVolume (r h : ℝ) : ℝ := Real.pi * r * r * h / 3

/-- `ConeGeom::LateralArea` (Geometry3DShapes.h:132). -/
noncomputable def coneLateral (r h : ℝ) : ℝ := Real.pi * r * coneSlant r h

/-- `ConeGeom::SurfaceArea` (Geometry3DShapes.h:134). -/
noncomputable def coneSurface (r h : ℝ) : ℝ := coneLateral r h + baseArea r

/-- `ConeGeom::ApexAngle` (Geometry3DShapes.h:137). -/
noncomputable def apexAngle (r h : ℝ) : Outcome ℝ := do
  let q ← Interp.fdiv r h
  .ret (Real.arctan q)

/-- `ConeGeom::FromSlantHeight` (Geometry3DShapes.h:141-144): the height. -/
noncomputable def coneFromSlant (r slant : ℝ) : Outcome ℝ := Quat.sqrtU (slant * slant - r * r)

/-- `Frustum::SlantHeight` (Geometry3DShapes.h:174-177). -/
noncomputable def frustumSlant (r1 r2 h : ℝ) : ℝ := Real.sqrt ((r1 - r2) * (r1 - r2) + h * h)

/-- `Frustum::Volume` (Geometry3DShapes.h:179). -/
noncomputable def frustumVolume (r1 r2 h : ℝ) : ℝ := Real.pi * h * (r1 * r1 + r1 * r2 + r2 * r2) / 3

/-- `Frustum::LateralArea` (Geometry3DShapes.h:181). -/
noncomputable def frustumLateral (r1 r2 h : ℝ) : ℝ := Real.pi * (r1 + r2) * frustumSlant r1 r2 h

/-- `Frustum::SurfaceArea` (Geometry3DShapes.h:183). -/
noncomputable def frustumSurface (r1 r2 h : ℝ) : ℝ := frustumLateral r1 r2 h + Real.pi * (r1 * r1 + r2 * r2)

/-! ## Tetrahedron -/

/-- The members of `Tetrahedron` (Geometry3DShapes.h:195-196). -/
structure Tet where
  ab : ℝ
  ac : ℝ
  ad : ℝ
  bc : ℝ
  bd : ℝ
  cd : ℝ

/-- `Tetrahedron::IsRegular` (Geometry3DShapes.h:230-233). -/
noncomputable def Tet.isRegular (t : Tet) (eps : ℝ) : Bool := near t.ab t.ac eps && near t.ab t.ad eps && near t.ab t.bc eps && near t.ab t.bd eps && near t.ab t.cd eps

/-- The sum of the five terms in `Tetrahedron::Volume`, of the squared lengths (Geometry3DShapes.h:241-247). -/
def tetDet (a2 b2 c2 d2 e2 f2 : ℝ) : ℝ :=
  a2 * f2 * (b2 + c2 + d2 + e2 - a2 - f2) + b2 * e2 * (a2 + c2 + d2 + f2 - b2 - e2) + c2 * d2 * (a2 + b2 + e2 + f2 - c2 - d2) +
    (-a2 * b2 * f2 - a2 * c2 * e2 - b2 * c2 * d2) + -d2 * e2 * f2

/-- `Tetrahedron::Volume` (Geometry3DShapes.h:236-249). -/
noncomputable def Tet.volume (t : Tet) : ℝ :=
  Real.sqrt |tetDet (t.ab * t.ab) (t.ac * t.ac) (t.ad * t.ad) (t.bc * t.bc) (t.bd * t.bd) (t.cd * t.cd)| / 12

/-- `Tetrahedron::SurfaceArea` (Geometry3DShapes.h:252-258). -/
noncomputable def Tet.surface (t : Tet) : Outcome ℝ := do
  let a ← (⟨t.ab, t.ac, t.bc⟩ : Tri).area
  let b ← (⟨t.ab, t.ad, t.bd⟩ : Tri).area
  let c ← (⟨t.ac, t.ad, t.cd⟩ : Tri).area
  let d ← (⟨t.bc, t.bd, t.cd⟩ : Tri).area
  .ret (a + b + c + d)

/-- `Tetrahedron::Inradius` (Geometry3DShapes.h:267). -/
noncomputable def Tet.inradius (t : Tet) : Outcome ℝ := do
  let s ← t.surface
  Interp.fdiv (3 * t.volume) s

/-- `Tetrahedron::Circumradius` (Geometry3DShapes.h:269-273), with the tolerance as a parameter. -/
noncomputable def Tet.circumradius (t : Tet) (eps : ℝ) : ℝ := if t.isRegular eps then t.ab * Real.sqrt 6 / 4 else 0

/-! ## Spheroid -/

/-- `Spheroid::Volume` (Geometry3DShapes.h:301). -/
noncomputable def spheroidVolume (a c : ℝ) : ℝ := 4 / 3 * Real.pi * a * a * c

/-- `Spheroid::Flattening` (Geometry3DShapes.h:304). -/
noncomputable def flattening (a c : ℝ) : Outcome ℝ := Interp.fdiv (a - c) a

/-- `sqrt(1.0 - (y * y) / (x * x))` (Geometry3DShapes.h:309, 311). -/
noncomputable def eccOf (x y : ℝ) : Outcome ℝ := do
  let q ← Interp.fdiv (y * y) (x * x)
  Quat.sqrtU (1 - q)

open Classical in
/-- `Spheroid::Eccentricity` (Geometry3DShapes.h:307-312). -/
noncomputable def spheroidEcc (a c : ℝ) : Outcome ℝ := if c < a then eccOf a c else eccOf c a

/-- The oblate case of `Spheroid::SurfaceArea` (Geometry3DShapes.h:321-322). -/
noncomputable def oblateArea (a c : ℝ) : Outcome ℝ := do
  let e ← spheroidEcc a c
  let q ← Interp.fdiv (1 - e * e) e
  let x ← atanhU e
  .ret (2 * Real.pi * a * a * (1 + q * x))

/-- The prolate case of `Spheroid::SurfaceArea` (Geometry3DShapes.h:325-326). -/
noncomputable def prolateArea (a c : ℝ) : Outcome ℝ := do
  let e ← spheroidEcc a c
  let q ← Interp.fdiv c (a * e)
  let x ← asinU e
  .ret (2 * Real.pi * a * a * (1 + q * x))

open Classical in
/-- `Spheroid::SurfaceArea` (Geometry3DShapes.h:315-328), with the tolerance of `IsSphere` (297) as a parameter. -/
noncomputable def spheroidArea (a c eps : ℝ) : Outcome ℝ :=
  if near a c eps then .ret (4 * Real.pi * a * a) else if c < a then oblateArea a c else prolateArea a c

/-! ## Torus -/

/-- `TorusGeom::Volume` (Geometry3DShapes.h:362). -/
noncomputable def torusVolume (R r : ℝ) : ℝ := 2 * Real.pi * Real.pi * R * r * r

/-- `TorusGeom::SurfaceArea` (Geometry3DShapes.h:363). -/
noncomputable def torusSurface (R r : ℝ) : ℝ := 4 * Real.pi * Real.pi * R * r

end Verif.Geom.Shp
