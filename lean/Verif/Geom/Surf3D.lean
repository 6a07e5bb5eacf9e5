import Verif.Geom.Plane3D

/-!
# Model of `Triangle3D`, `TriangleSurface3D` and `RectSurface3D` (Geometry3DSurfaces.h)

The tolerances `Triangle3D…Tolerance` are all `1e-10` for `double` (MMLPrecision.h:129-132), which is `geomEps`; they are parameters here.
-/

set_option autoImplicit false

namespace Verif.Geom.S3

open Verif.CompGeo (geomEps)
open L3 (Line vec unitVec pdist)
open P3 (Plane)

/-- The members of `Triangle3D` (Geometry3DSurfaces.h:34). -/
structure Tri where
  p1 : V3 ℝ
  p2 : V3 ℝ
  p3 : V3 ℝ

/-- `A` (Geometry3DSurfaces.h:46). -/
noncomputable def Tri.a (t : Tri) : ℝ := pdist t.p1 t.p2
/-- `B` (Geometry3DSurfaces.h:48). -/
noncomputable def Tri.b (t : Tri) : ℝ := pdist t.p2 t.p3
/-- `C` (Geometry3DSurfaces.h:50). -/
noncomputable def Tri.c (t : Tri) : ℝ := pdist t.p3 t.p1

/-- `s` (Geometry3DSurfaces.h:68). -/
noncomputable def Tri.s (t : Tri) : ℝ := (t.a + t.b + t.c) / 2

open Classical in
/-- `Area` (Geometry3DSurfaces.h:66-70); the root of a negative number is undefined behaviour. -/
noncomputable def Tri.area (t : Tri) : Outcome ℝ :=
  if t.s * (t.s - t.a) * (t.s - t.b) * (t.s - t.c) < 0 then .ub else .ret (Real.sqrt (t.s * (t.s - t.a) * (t.s - t.b) * (t.s - t.c)))

open Classical in
/-- `IsRight` (Geometry3DSurfaces.h:73-80). -/
noncomputable def Tri.isRight (t : Tri) (eps : ℝ) : Bool :=
  decide (|t.a * t.a + t.b * t.b - t.c * t.c| < eps ∨ |t.a * t.a + t.c * t.c - t.b * t.b| < eps ∨ |t.b * t.b + t.c * t.c - t.a * t.a| < eps)

open Classical in
/-- `IsIsosceles` (Geometry3DSurfaces.h:83-87). -/
noncomputable def Tri.isIsosceles (t : Tri) (eps : ℝ) : Bool := decide (|t.a - t.b| < eps ∨ |t.a - t.c| < eps ∨ |t.b - t.c| < eps)

open Classical in
/-- `IsEquilateral` (Geometry3DSurfaces.h:90-94). -/
noncomputable def Tri.isEquilateral (t : Tri) (eps : ℝ) : Bool := decide (|t.a - t.b| < eps ∧ |t.a - t.c| < eps)

/-- `Centroid` (Geometry3DSurfaces.h:97-100). -/
noncomputable def Tri.centroid (t : Tri) : V3 ℝ :=
  ⟨(t.p1.x + t.p2.x + t.p3.x) / 3, (t.p1.y + t.p2.y + t.p3.y) / 3, (t.p1.z + t.p2.z + t.p3.z) / 3⟩

/-- `getDefinedPlane` (Geometry3DSurfaces.h:103-106). -/
noncomputable def Tri.plane (t : Tri) : Outcome Plane := Plane.through t.p1 t.p2 t.p3

/-- `denom` (Geometry3DSurfaces.h:119-124); `e` and `f` are `v0` and `v1`. -/
noncomputable def gram (e f : V3 ℝ) : ℝ := V3.dot e e * V3.dot f f - V3.dot e f * V3.dot e f

open Classical in
/-- The tests of the two coordinates (Geometry3DSurfaces.h:131-139).  The second is computed only if the first is in range. -/
noncomputable def inRange (v : ℝ) (w : Outcome ℝ) (eps : ℝ) : Outcome Bool :=
  if v < 0 ∨ 1 < v then .ret false else do
    let w ← w
    if w < 0 ∨ 1 < w then .ret false else .ret (decide (v + w ≤ 1 + eps))

open Classical in
/-- `IsPointInside` (Geometry3DSurfaces.h:112-140), with `v0`, `v1`, `v2` given. -/
noncomputable def insideVec (e f g : V3 ℝ) (eps : ℝ) : Outcome Bool :=
  if gram e f = 0 then .ret false else do
    let v ← Interp.fdiv (V3.dot f f * V3.dot g e - V3.dot e f * V3.dot g f) (gram e f)
    inRange v (Interp.fdiv (V3.dot e e * V3.dot g f - V3.dot e f * V3.dot g e) (gram e f)) eps

/-- `IsPointInside` (Geometry3DSurfaces.h:112-140). -/
noncomputable def Tri.inside (t : Tri) (p : V3 ℝ) (eps : ℝ) : Outcome Bool := insideVec (vec t.p1 t.p2) (vec t.p1 t.p3) (vec t.p1 p) eps

/-- The members of `TriangleSurface3D` (Geometry3DSurfaces.h:150-155, 34) without `_minX` and `_minY`, which are 0 (Geometry3DSurfaces.h:209, 211). -/
structure TriSurf where
  tri : Tri
  maxX : ℝ
  maxY : ℝ
  origin : V3 ℝ
  center : V3 ℝ
  localX : V3 ℝ
  localY : V3 ℝ
  normal : V3 ℝ
  x3 : ℝ

open Classical in
/-- The rotation of the vertices that makes the longest side the first (Geometry3DSurfaces.h:165-188). -/
noncomputable def rotate (t : Tri) : Tri :=
  if t.b ≤ t.a ∧ t.c ≤ t.a then t
  else if t.a ≤ t.b ∧ t.c ≤ t.b then ⟨t.p2, t.p3, t.p1⟩
  else ⟨t.p3, t.p1, t.p2⟩

/-- The members, once `lineX` and the foot of the perpendicular are computed (Geometry3DSurfaces.h:190-217). -/
noncomputable def surfOf (t : Tri) (foot : V3 ℝ) : TriSurf where
  tri := t
  maxX := pdist t.p1 t.p2
  maxY := pdist foot t.p3
  origin := t.p1
  center := t.centroid
  localX := unitVec (vec t.p1 t.p2)
  localY := unitVec (vec foot t.p3)
  normal := unitVec (V3.cross (unitVec (vec t.p1 t.p2)) (unitVec (vec foot t.p3)))
  x3 := pdist foot t.p1

/-- The constructor after the rotation (Geometry3DSurfaces.h:190-217). -/
noncomputable def TriSurf.ofRotated (t : Tri) : Outcome TriSurf := do
  let l ← Line.through t.p1 t.p2
  let foot ← l.nearest t.p3
  .ret (surfOf t foot)

/-- The constructor (Geometry3DSurfaces.h:162-218). -/
noncomputable def TriSurf.new (p1 p2 p3 : V3 ℝ) : Outcome TriSurf := TriSurf.ofRotated (rotate ⟨p1, p2, p3⟩)

open Classical in
/-- `getMaxW` (Geometry3DSurfaces.h:227-234). -/
noncomputable def TriSurf.maxW (s : TriSurf) (u : ℝ) : Outcome ℝ :=
  if u < s.x3 then do
    let q ← Interp.fdiv u s.x3
    .ret (0 + q * (s.maxY - 0))
  else do
    let q ← Interp.fdiv (s.maxX - u) (s.maxX - s.x3)
    .ret (0 + q * (s.maxY - 0))

/-- `operator()` (Geometry3DSurfaces.h:240-244). -/
noncomputable def TriSurf.at (s : TriSurf) (u w : ℝ) : V3 ℝ := V3.add (V3.add s.origin (V3.scale s.localX u)) (V3.scale s.localY w)

/-- The members of `RectSurface3D` (Geometry3DSurfaces.h:255-258); the bounds are symmetric (Geometry3DSurfaces.h:280-283), so only the upper ones are kept. -/
structure RectSurf where
  p1 : V3 ℝ
  p2 : V3 ℝ
  p3 : V3 ℝ
  p4 : V3 ℝ
  maxX : ℝ
  maxY : ℝ
  center : V3 ℝ
  localX : V3 ℝ
  localY : V3 ℝ

/-- The constructor (Geometry3DSurfaces.h:269-291). -/
noncomputable def RectSurf.new (p1 p2 p3 p4 : V3 ℝ) : Outcome RectSurf := do
  let P ← Plane.through p1 p2 p3
  if (!P.onPlane p4 geomEps) = true then .exn (.mml "GeometryError")
  else .ret ⟨p1, p2, p3, p4, pdist p1 p2 / 2, pdist p1 p4 / 2,
    ⟨(p1.x + p2.x + p3.x + p4.x) / 4, (p1.y + p2.y + p3.y + p4.y) / 4, (p1.z + p2.z + p3.z + p4.z) / 4⟩,
    unitVec (vec p1 p2), unitVec (vec p1 p4)⟩

/-- `getNormal` (Geometry3DSurfaces.h:303-305). -/
noncomputable def RectSurf.normal (s : RectSurf) : V3 ℝ := unitVec (V3.cross (vec s.p1 s.p2) (vec s.p1 s.p4))

/-- `getArea` (Geometry3DSurfaces.h:311-313). -/
noncomputable def RectSurf.area (s : RectSurf) : ℝ := V3.norm (V3.cross (vec s.p1 s.p2) (vec s.p1 s.p4))

/-- `operator()` (Geometry3DSurfaces.h:319-322). -/
noncomputable def RectSurf.at (s : RectSurf) (u w : ℝ) : V3 ℝ := V3.add (V3.add s.center (V3.scale s.localX u)) (V3.scale s.localY w)

end Verif.Geom.S3
