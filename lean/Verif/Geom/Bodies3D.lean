import Verif.Geom.Surf3D
import Verif.Geom.Bound3D

/-!
# Model of the solid bodies (Geometry3DBodyBase.h, Geometry3DCubes.h, Geometry3DSpherePyramid.h, Geometry3DTorusCylinder.h)

A `for` loop that calls `emplace_back` in every pass is the list of the values passed, in order.  The division of `2 PI` by an `int` that is zero is
undefined behaviour.  `ToString` and the plain accessors are not modelled.
-/

set_option autoImplicit false

namespace Verif.Geom.Bod

open S3 (Tri RectSurf TriSurf)
open B3 (Box Sph)

/-! ## Boundary functions and composed solids -/

/-- The members of `ISolidBodyWithBoundary` (Geometry3DBodyBase.h:89-95). -/
structure Bounded where
  x1 : ℝ
  x2 : ℝ
  y1 : ℝ → ℝ
  y2 : ℝ → ℝ
  z1 : ℝ → ℝ → ℝ
  z2 : ℝ → ℝ → ℝ

open Classical in
/-- `IsInside` (Geometry3DBodyBase.h:117-132). -/
noncomputable def Bounded.isInside (b : Bounded) (p : V3 ℝ) : Bool :=
  if b.x1 < p.x ∧ p.x < b.x2 then
    if b.y1 p.x < p.y ∧ p.y < b.y2 p.x then
      if b.z1 p.x p.y < p.z ∧ p.z < b.z2 p.x p.y then true else false
    else false
  else false

/-- `cx`, `midX` (Geometry3DBodyBase.h:148, 160). -/
noncomputable def Bounded.midX (b : Bounded) : ℝ := (b.x1 + b.x2) / 2
/-- `cy`, `midY` (Geometry3DBodyBase.h:149, 161). -/
noncomputable def Bounded.midY (b : Bounded) : ℝ := (b.y1 b.midX + b.y2 b.midX) / 2

/-- `GetCenter` (Geometry3DBodyBase.h:146-152). -/
noncomputable def Bounded.getCenter (b : Bounded) : V3 ℝ := ⟨b.midX, b.midY, (b.z1 b.midX b.midY + b.z2 b.midX b.midY) / 2⟩

/-- `minY` (Geometry3DBodyBase.h:157). -/
noncomputable def Bounded.minY (b : Bounded) : ℝ := min (b.y1 b.x1) (b.y1 b.x2)
/-- `maxY` (Geometry3DBodyBase.h:158). -/
noncomputable def Bounded.maxY (b : Bounded) : ℝ := max (b.y2 b.x1) (b.y2 b.x2)
/-- `minZ` (Geometry3DBodyBase.h:162). -/
noncomputable def Bounded.minZ (b : Bounded) : ℝ := min (b.z1 b.x1 b.midY) (min (b.z1 b.x2 b.midY) (b.z1 b.midX b.minY))
/-- `maxZ` (Geometry3DBodyBase.h:163). -/
noncomputable def Bounded.maxZ (b : Bounded) : ℝ := max (b.z2 b.x1 b.midY) (max (b.z2 b.x2 b.midY) (b.z2 b.midX b.maxY))

/-- `GetBoundingBox` (Geometry3DBodyBase.h:154-166). -/
noncomputable def Bounded.box (b : Bounded) : Box := Box.ofCorners ⟨b.x1, b.minY, b.minZ⟩ ⟨b.x2, b.maxY, b.maxZ⟩

/-- `GetBoundingSphere` (Geometry3DBodyBase.h:168-179). -/
noncomputable def Bounded.sphere (b : Bounded) : Outcome Sph :=
  Sph.new b.getCenter (1 / 2 * Real.sqrt ((b.box.hi.x - b.box.lo.x) * (b.box.hi.x - b.box.lo.x) + (b.box.hi.y - b.box.lo.y) * (b.box.hi.y - b.box.lo.y) +
    (b.box.hi.z - b.box.lo.z) * (b.box.hi.z - b.box.lo.z)))

/-- `GetSurface` (Geometry3DBodyBase.h:239-243, 269-273). -/
def getSurface {α : Type} (surfaces : List α) (index : Int) : Outcome α :=
  if index < 0 ∨ (surfaces.length : Int) ≤ index then .exn (.mml "IndexError") else Outcome.index surfaces index.toNat

/-- `ComposedSolidSurfaces3D::IsInside` (Geometry3DBodyBase.h:309-315).  A component is its `IsInside` function; a null pointer is `none`. -/
def composedInside : List (Option (V3 ℝ → Bool)) → V3 ℝ → Bool
  | [], _ => false
  | none :: l, p => composedInside l p
  | some f :: l, p => if f p = true then true else composedInside l p

/-! ## Cubes -/

/-- The members `_a` and `_center` of `Cube3D` and `CubeWithTriangles3D` (Geometry3DCubes.h:41-42, 158-159). -/
structure Cube where
  a : ℝ
  center : V3 ℝ

/-- The eight vertices (Geometry3DCubes.h:79-86; the same at 216-223 with `h = a / 2`), numbered from 0. -/
noncomputable def Cube.vert (c : Cube) : Fin 8 → V3 ℝ :=
  ![⟨c.center.x + c.a / 2, c.center.y - c.a / 2, c.center.z - c.a / 2⟩, ⟨c.center.x + c.a / 2, c.center.y + c.a / 2, c.center.z - c.a / 2⟩,
    ⟨c.center.x - c.a / 2, c.center.y + c.a / 2, c.center.z - c.a / 2⟩, ⟨c.center.x - c.a / 2, c.center.y - c.a / 2, c.center.z - c.a / 2⟩,
    ⟨c.center.x + c.a / 2, c.center.y - c.a / 2, c.center.z + c.a / 2⟩, ⟨c.center.x + c.a / 2, c.center.y + c.a / 2, c.center.z + c.a / 2⟩,
    ⟨c.center.x - c.a / 2, c.center.y + c.a / 2, c.center.z + c.a / 2⟩, ⟨c.center.x - c.a / 2, c.center.y - c.a / 2, c.center.z + c.a / 2⟩]

/-- The eight vertices of the constructors without a centre (Geometry3DCubes.h:53-60, 172-179). -/
noncomputable def cubeVert0 (a : ℝ) : Fin 8 → V3 ℝ :=
  ![⟨a / 2, -a / 2, -a / 2⟩, ⟨a / 2, a / 2, -a / 2⟩, ⟨-a / 2, a / 2, -a / 2⟩, ⟨-a / 2, -a / 2, -a / 2⟩,
    ⟨a / 2, -a / 2, a / 2⟩, ⟨a / 2, a / 2, a / 2⟩, ⟨-a / 2, a / 2, a / 2⟩, ⟨-a / 2, -a / 2, a / 2⟩]

/-- The faces of `Cube3D` (Geometry3DCubes.h:63-68, 89-94); `pnt1` is the vertex 0. -/
noncomputable def rectFaces (v : Fin 8 → V3 ℝ) : Outcome (List RectSurf) := do
  let f1 ← RectSurf.new (v 0) (v 3) (v 2) (v 1)
  let f2 ← RectSurf.new (v 4) (v 5) (v 6) (v 7)
  let f3 ← RectSurf.new (v 0) (v 1) (v 5) (v 4)
  let f4 ← RectSurf.new (v 3) (v 7) (v 6) (v 2)
  let f5 ← RectSurf.new (v 0) (v 4) (v 7) (v 3)
  let f6 ← RectSurf.new (v 1) (v 2) (v 6) (v 5)
  .ret [f1, f2, f3, f4, f5, f6]

/-- The faces of `CubeWithTriangles3D` (Geometry3DCubes.h:183-204, 227-248). -/
def triFaces (v : Fin 8 → V3 ℝ) : List Tri :=
  [⟨v 0, v 3, v 2⟩, ⟨v 0, v 2, v 1⟩, ⟨v 4, v 5, v 6⟩, ⟨v 4, v 6, v 7⟩, ⟨v 1, v 2, v 6⟩, ⟨v 1, v 6, v 5⟩,
   ⟨v 0, v 4, v 7⟩, ⟨v 0, v 7, v 3⟩, ⟨v 3, v 7, v 6⟩, ⟨v 3, v 6, v 2⟩, ⟨v 0, v 1, v 5⟩, ⟨v 0, v 5, v 4⟩]

open Classical in
/-- `IsInside` (Geometry3DCubes.h:101-105, 255-259). -/
noncomputable def Cube.isInside (c : Cube) (p : V3 ℝ) : Bool :=
  decide (c.center.x - c.a / 2 ≤ p.x ∧ p.x ≤ c.center.x + c.a / 2 ∧ c.center.y - c.a / 2 ≤ p.y ∧ p.y ≤ c.center.y + c.a / 2 ∧
    c.center.z - c.a / 2 ≤ p.z ∧ p.z ≤ c.center.z + c.a / 2)

/-- `Volume` (Geometry3DCubes.h:113, 267). -/
noncomputable def Cube.volume (c : Cube) : ℝ := c.a * c.a * c.a
/-- `SurfaceArea` (Geometry3DCubes.h:117, 271). -/
noncomputable def Cube.surfaceArea (c : Cube) : ℝ := 6 * c.a * c.a

/-- `GetBoundingBox` (Geometry3DCubes.h:121-126, 275-280). -/
noncomputable def Cube.box (c : Cube) : Box :=
  Box.ofCorners ⟨c.center.x - c.a / 2, c.center.y - c.a / 2, c.center.z - c.a / 2⟩ ⟨c.center.x + c.a / 2, c.center.y + c.a / 2, c.center.z + c.a / 2⟩

/-- `GetBoundingSphere` of `Cube3D` (Geometry3DCubes.h:130-133). -/
noncomputable def Cube.sphere (c : Cube) : Outcome Sph := Sph.new c.center (c.a * Real.sqrt 3 / 2)
/-- `GetBoundingSphere` of `CubeWithTriangles3D` (Geometry3DCubes.h:284-287). -/
noncomputable def Cube.sphereT (c : Cube) : Outcome Sph := Sph.new c.center (c.a / 2 * Real.sqrt 3)

/-! ## Spheres -/

/-- The members of `Sphere3D` (Geometry3DSpherePyramid.h:42-45). -/
structure Ball where
  R : ℝ
  center : V3 ℝ
  nLat : Int
  nLon : Int

/-- `spherePoint` (Geometry3DSpherePyramid.h:121-126). -/
noncomputable def Ball.point (s : Ball) (theta phi : ℝ) : V3 ℝ :=
  ⟨s.center.x + s.R * Real.sin theta * Real.cos phi, s.center.y + s.R * Real.sin theta * Real.sin phi, s.center.z + s.R * Real.cos theta⟩

/-- The triangles of one patch (Geometry3DSpherePyramid.h:96-112); `t1`, `t2`, `f1`, `f2` are the angles. -/
noncomputable def Ball.patch (s : Ball) (i : ℕ) (t1 t2 f1 f2 : ℝ) : List Tri :=
  if i = 0 then [⟨s.point t1 f1, s.point t2 f1, s.point t2 f2⟩]
  else if (i : Int) = s.nLat - 1 then [⟨s.point t1 f1, s.point t1 f2, s.point t2 f2⟩]
  else [⟨s.point t1 f1, s.point t1 f2, s.point t2 f2⟩, ⟨s.point t1 f1, s.point t2 f2, s.point t2 f1⟩]

/-- The loops (Geometry3DSpherePyramid.h:88-114). -/
noncomputable def Ball.patches (s : Ball) (dT dP : ℝ) : List Tri :=
  (List.range s.nLat.toNat).flatMap fun (i : ℕ) => (List.range s.nLon.toNat).flatMap fun (j : ℕ) =>
    s.patch i (i * dT) ((i + 1) * dT) (j * dP) ((j + 1) * dP)

/-- `constructSurfaces` (Geometry3DSpherePyramid.h:83-115). -/
noncomputable def Ball.surfaces (s : Ball) : Outcome (List Tri) := do
  let dT ← Interp.fdiv Real.pi (s.nLat : ℝ)
  let dP ← Interp.fdiv (2 * Real.pi) (s.nLon : ℝ)
  .ret (s.patches dT dP)

open Classical in
/-- `IsInside` (Geometry3DSpherePyramid.h:132-138). -/
noncomputable def Ball.isInside (s : Ball) (p : V3 ℝ) : Bool :=
  decide ((p.x - s.center.x) * (p.x - s.center.x) + (p.y - s.center.y) * (p.y - s.center.y) + (p.z - s.center.z) * (p.z - s.center.z) ≤ s.R * s.R)

/-- `Volume` (Geometry3DSpherePyramid.h:146). -/
noncomputable def Ball.volume (s : Ball) : ℝ := 4 / 3 * Real.pi * s.R * s.R * s.R

/-- `GetBoundingBox` (Geometry3DSpherePyramid.h:154-158). -/
noncomputable def Ball.box (s : Ball) : Box :=
  Box.ofCorners ⟨s.center.x - s.R, s.center.y - s.R, s.center.z - s.R⟩ ⟨s.center.x + s.R, s.center.y + s.R, s.center.z + s.R⟩

/-- `GetBoundingSphere` (Geometry3DSpherePyramid.h:162). -/
noncomputable def Ball.sphere (s : Ball) : Outcome Sph := Sph.new s.center s.R

/-! ## Pyramids -/

/-- The members of `Pyramid3D` (Geometry3DSpherePyramid.h:189-191). -/
structure Pyr where
  a : ℝ
  h : ℝ
  center : V3 ℝ

/-- A face: the `TriangleSurface3D` is stored as a `Triangle3D`, so that only its vertices, rotated by the constructor, remain
(Geometry3DSpherePyramid.h:210). -/
noncomputable def face (p q r : V3 ℝ) : Outcome Tri := do
  let s ← TriSurf.new p q r
  .ret s.tri

/-- The surfaces; both constructors build the same ones (Geometry3DSpherePyramid.h:200-216, 223-226). -/
noncomputable def Pyr.surfaces (P : Pyr) : Outcome (List Tri) := do
  let f1 ← face ⟨P.a / 2, -P.a / 2, -P.a / 2⟩ ⟨-P.a / 2, -P.a / 2, -P.a / 2⟩ ⟨-P.a / 2, P.a / 2, -P.a / 2⟩
  let f2 ← face ⟨P.a / 2, -P.a / 2, -P.a / 2⟩ ⟨-P.a / 2, P.a / 2, -P.a / 2⟩ ⟨P.a / 2, P.a / 2, -P.a / 2⟩
  let f3 ← face ⟨0, 0, P.h⟩ ⟨P.a / 2, -P.a / 2, -P.a / 2⟩ ⟨P.a / 2, P.a / 2, -P.a / 2⟩
  let f4 ← face ⟨0, 0, P.h⟩ ⟨P.a / 2, P.a / 2, -P.a / 2⟩ ⟨-P.a / 2, P.a / 2, -P.a / 2⟩
  let f5 ← face ⟨0, 0, P.h⟩ ⟨-P.a / 2, P.a / 2, -P.a / 2⟩ ⟨-P.a / 2, -P.a / 2, -P.a / 2⟩
  let f6 ← face ⟨0, 0, P.h⟩ ⟨-P.a / 2, -P.a / 2, -P.a / 2⟩ ⟨P.a / 2, -P.a / 2, -P.a / 2⟩
  .ret [f1, f2, f3, f4, f5, f6]

open Classical in
/-- `IsInside` (Geometry3DSpherePyramid.h:232-246). -/
noncomputable def Pyr.isInside (P : Pyr) (p : V3 ℝ) : Outcome Bool :=
  if p.z - P.center.z < 0 ∨ P.h < p.z - P.center.z then .ret false else do
    let q ← Interp.fdiv (p.z - P.center.z) P.h
    .ret (decide (|p.x - P.center.x| ≤ P.a / 2 * (1 - q) ∧ |p.y - P.center.y| ≤ P.a / 2 * (1 - q)))

/-- `Volume` (Geometry3DSpherePyramid.h:254). -/
noncomputable def Pyr.volume (P : Pyr) : ℝ := P.a * P.a * P.h / 3

/-- `SurfaceArea` (Geometry3DSpherePyramid.h:258-261). -/
noncomputable def Pyr.surfaceArea (P : Pyr) : ℝ := P.a * P.a + 2 * P.a * Real.sqrt (P.h * P.h + P.a / 2 * (P.a / 2))

/-- `GetCenter` (Geometry3DSpherePyramid.h:265). -/
noncomputable def Pyr.getCenter (P : Pyr) : V3 ℝ := ⟨P.center.x, P.center.y, P.center.z + P.h / 4⟩

/-- `GetBoundingBox` (Geometry3DSpherePyramid.h:267-272). -/
noncomputable def Pyr.box (P : Pyr) : Box :=
  Box.ofCorners ⟨P.center.x - P.a / 2, P.center.y - P.a / 2, P.center.z⟩ ⟨P.center.x + P.a / 2, P.center.y + P.a / 2, P.center.z + P.h⟩

/-- `GetBoundingSphere` (Geometry3DSpherePyramid.h:274-286). -/
noncomputable def Pyr.sphere (P : Pyr) : Outcome Sph :=
  Sph.new P.getCenter (max (Real.sqrt (P.a / 2 * (P.a / 2) + P.a / 2 * (P.a / 2) + P.h / 4 * (P.h / 4))) (3 * P.h / 4))

/-- The constructors of `PyramidEquilateral3D` (Geometry3DSpherePyramid.h:314-315, 321-322). -/
noncomputable def Pyr.equilateral (a : ℝ) (c : V3 ℝ) : Pyr := ⟨a, a / Real.sqrt 3, c⟩

/-! ## Torus -/

/-- The members of `Torus3D` (Geometry3DTorusCylinder.h:41-45). -/
structure Torus where
  R : ℝ
  r : ℝ
  center : V3 ℝ
  numU : Int
  numV : Int

/-- `torusPoint` (Geometry3DTorusCylinder.h:114-119). -/
noncomputable def Torus.point (T : Torus) (u v : ℝ) : V3 ℝ :=
  ⟨T.center.x + (T.R + T.r * Real.cos v) * Real.cos u, T.center.y + (T.R + T.r * Real.cos v) * Real.sin u, T.center.z + T.r * Real.sin v⟩

/-- The corners of the patches, in the order of the loops (Geometry3DTorusCylinder.h:92-107). -/
noncomputable def Torus.corners (T : Torus) (du dv : ℝ) : List (V3 ℝ × V3 ℝ × V3 ℝ × V3 ℝ) :=
  (List.range T.numU.toNat).flatMap fun (i : ℕ) => (List.range T.numV.toNat).map fun (j : ℕ) =>
    (T.point (i * du) (j * dv), T.point ((i + 1) * du) (j * dv), T.point ((i + 1) * du) ((j + 1) * dv), T.point (i * du) ((j + 1) * dv))

/-- The loops: the first patch refused ends them with its exception (Geometry3DTorusCylinder.h:105). -/
noncomputable def rects : List (V3 ℝ × V3 ℝ × V3 ℝ × V3 ℝ) → Outcome (List RectSurf)
  | [] => .ret []
  | c :: l => do
    let s ← RectSurf.new c.1 c.2.1 c.2.2.1 c.2.2.2
    let t ← rects l
    .ret (s :: t)

/-- `constructSurfaces` (Geometry3DTorusCylinder.h:87-108). -/
noncomputable def Torus.surfaces (T : Torus) : Outcome (List RectSurf) := do
  let du ← Interp.fdiv (2 * Real.pi) (T.numU : ℝ)
  let dv ← Interp.fdiv (2 * Real.pi) (T.numV : ℝ)
  rects (T.corners du dv)

/-- `d` (Geometry3DTorusCylinder.h:132). -/
noncomputable def axisDist (x y : ℝ) : ℝ := Real.sqrt (x * x + y * y)

open Classical in
/-- `IsInside` (Geometry3DTorusCylinder.h:125-138). -/
noncomputable def Torus.isInside (T : Torus) (p : V3 ℝ) : Bool :=
  decide (Real.sqrt ((axisDist (p.x - T.center.x) (p.y - T.center.y) - T.R) * (axisDist (p.x - T.center.x) (p.y - T.center.y) - T.R) +
    (p.z - T.center.z) * (p.z - T.center.z)) ≤ T.r)

/-- `Volume` (Geometry3DTorusCylinder.h:146). -/
noncomputable def Torus.volume (T : Torus) : ℝ := 2 * Real.pi * Real.pi * T.R * T.r * T.r

/-- `GetBoundingBox` (Geometry3DTorusCylinder.h:154-159). -/
noncomputable def Torus.box (T : Torus) : Box :=
  Box.ofCorners ⟨T.center.x - (T.R + T.r), T.center.y - (T.R + T.r), T.center.z - T.r⟩ ⟨T.center.x + (T.R + T.r), T.center.y + (T.R + T.r), T.center.z + T.r⟩

/-- `GetBoundingSphere` (Geometry3DTorusCylinder.h:163-166). -/
noncomputable def Torus.sphere (T : Torus) : Outcome Sph := Sph.new T.center (T.R + T.r)

/-! ## Cylinder -/

/-- The members of `Cylinder3D` (Geometry3DTorusCylinder.h:197-200); the centre is that of the bottom. -/
structure Cyl where
  R : ℝ
  H : ℝ
  center : V3 ℝ
  n : Int

/-- The constructor without a centre (Geometry3DTorusCylinder.h:210-216). -/
noncomputable def Cyl.atOrigin (R H : ℝ) (n : Int) : Cyl := ⟨R, H, ⟨0, 0, -H / 2⟩, n⟩

/-- The points `b1`, `b2` of the bottom circle (Geometry3DTorusCylinder.h:250-251). -/
noncomputable def Cyl.bot (c : Cyl) (t : ℝ) : V3 ℝ := ⟨c.center.x + c.R * Real.cos t, c.center.y + c.R * Real.sin t, c.center.z⟩
/-- The points `t1`, `t2` of the top circle (Geometry3DTorusCylinder.h:254-255). -/
noncomputable def Cyl.top (c : Cyl) (t : ℝ) : V3 ℝ := ⟨c.center.x + c.R * Real.cos t, c.center.y + c.R * Real.sin t, c.center.z + c.H⟩

/-- The triangles of one segment (Geometry3DTorusCylinder.h:258-265). -/
noncomputable def Cyl.segment (c : Cyl) (t1 t2 : ℝ) : List Tri :=
  [⟨⟨c.center.x, c.center.y, c.center.z⟩, c.bot t2, c.bot t1⟩, ⟨⟨c.center.x, c.center.y, c.center.z + c.H⟩, c.top t1, c.top t2⟩,
   ⟨c.bot t1, c.bot t2, c.top t2⟩, ⟨c.bot t1, c.top t2, c.top t1⟩]

/-- `constructSurfaces` (Geometry3DTorusCylinder.h:238-267). -/
noncomputable def Cyl.surfaces (c : Cyl) : Outcome (List Tri) := do
  let st ← Interp.fdiv (2 * Real.pi) (c.n : ℝ)
  .ret ((List.range c.n.toNat).flatMap fun (i : ℕ) => c.segment (i * st) ((i + 1) * st))

open Classical in
/-- `IsInside` (Geometry3DTorusCylinder.h:273-285). -/
noncomputable def Cyl.isInside (c : Cyl) (p : V3 ℝ) : Bool :=
  if p.z - c.center.z < 0 ∨ c.H < p.z - c.center.z then false
  else decide ((p.x - c.center.x) * (p.x - c.center.x) + (p.y - c.center.y) * (p.y - c.center.y) ≤ c.R * c.R)

/-- `Volume` (Geometry3DTorusCylinder.h:293). -/
noncomputable def Cyl.volume (c : Cyl) : ℝ := Real.pi * c.R * c.R * c.H

/-- `GetCenter` (Geometry3DTorusCylinder.h:301). -/
noncomputable def Cyl.getCenter (c : Cyl) : V3 ℝ := ⟨c.center.x, c.center.y, c.center.z + c.H / 2⟩

/-- `GetBoundingBox` (Geometry3DTorusCylinder.h:303-307). -/
noncomputable def Cyl.box (c : Cyl) : Box :=
  Box.ofCorners ⟨c.center.x - c.R, c.center.y - c.R, c.center.z⟩ ⟨c.center.x + c.R, c.center.y + c.R, c.center.z + c.H⟩

/-- `GetBoundingSphere` (Geometry3DTorusCylinder.h:311-316). -/
noncomputable def Cyl.sphere (c : Cyl) : Outcome Sph := Sph.new c.getCenter (Real.sqrt (c.R * c.R + c.H / 2 * (c.H / 2)))

end Verif.Geom.Bod
