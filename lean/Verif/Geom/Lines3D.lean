import Verif.Geom.Vec
import Verif.CompGeo.HullModel
import Verif.Interp.Model

/-!
# Model of `Line3D` and `SegmentLine3D` (Geometry3DLines.h)

Points and vectors of space are both `V3 ℝ`.  `t * v` and `v * t` are both `V3.scale v t`.  The tolerances `Line3D…Tolerance` are all `1e-10` for `double`
(MMLPrecision.h:121-125), the value of `GEOMETRY_EPSILON` (MMLBase.h:126), which is `geomEps`.
-/

set_option autoImplicit false

namespace Verif.Geom.L3

open Verif.CompGeo (geomEps)

/-- `Vector3Cartesian(a, b)`, the vector from the point `a` to the point `b` (VectorTypes.h:334-339). -/
noncomputable def vec (a b : V3 ℝ) : V3 ℝ := V3.sub b a

/-- `Point3Cartesian::Dist` (GeometryPoints.h:200). -/
noncomputable def pdist (a b : V3 ℝ) : ℝ := Real.sqrt ((b.x - a.x) ^ 2 + (b.y - a.y) ^ 2 + (b.z - a.z) ^ 2)

open Classical in
/-- `Vector3Cartesian::GetAsUnitVector` (VectorTypes.h:373-380). -/
noncomputable def unitVec (v : V3 ℝ) : V3 ℝ :=
  if V3.norm v = 0 then ⟨0, 0, 0⟩ else ⟨v.x / V3.norm v, v.y / V3.norm v, v.z / V3.norm v⟩

open Classical in
/-- `Vector3Cartesian::IsEqualTo` (VectorTypes.h:467-470). -/
noncomputable def eqTo (a b : V3 ℝ) (eps : ℝ) : Bool := decide (|a.x - b.x| < eps ∧ |a.y - b.y| < eps ∧ |a.z - b.z| < eps)

/-- The members of `Line3D` (Geometry3DLines.h:73-74). -/
structure Line where
  point : V3 ℝ
  dir : V3 ℝ

open Classical in
/-- The constructor from a point and a direction (Geometry3DLines.h:84-92). -/
noncomputable def Line.new (p d : V3 ℝ) : Outcome Line :=
  if d.x = 0 ∧ d.y = 0 ∧ d.z = 0 then .exn (.mml "GeometryError") else .ret ⟨p, unitVec d⟩

open Classical in
/-- The constructor from two points (Geometry3DLines.h:98-107); `a == b` compares the coordinates (GeometryPoints.h:203). -/
noncomputable def Line.through (a b : V3 ℝ) : Outcome Line :=
  if a.x = b.x ∧ a.y = b.y ∧ a.z = b.z then .exn (.mml "GeometryError") else .ret ⟨a, unitVec (vec a b)⟩

/-- `operator()` (Geometry3DLines.h:121). -/
noncomputable def Line.at (l : Line) (t : ℝ) : V3 ℝ := V3.add l.point (V3.scale l.dir t)

open Classical in
/-- `IsPointOnLine` (Geometry3DLines.h:162-172). -/
noncomputable def Line.onLine (l : Line) (p : V3 ℝ) (eps : ℝ) : Bool :=
  if p.x = l.point.x ∧ p.y = l.point.y ∧ p.z = l.point.z then true
  else decide (V3.norm (V3.cross (vec l.point p) l.dir) < eps)

/-- `IsParallel` (Geometry3DLines.h:153-157). -/
noncomputable def Line.parallel (l m : Line) (eps : ℝ) : Bool := eqTo l.dir m.dir eps || eqTo l.dir (V3.neg m.dir) eps

/-- `AreEqual` (Geometry3DLines.h:129-137); `operator==` (Geometry3DLines.h:140-143) is this function with `eps = 1e-10`. -/
noncomputable def Line.areEqual (l m : Line) (eps : ℝ) : Bool :=
  if (!l.onLine m.point geomEps || !m.onLine l.point geomEps) = true then false
  else eqTo l.dir m.dir eps || eqTo l.dir (V3.neg m.dir) eps

open Classical in
/-- `IsPerpendicular` (Geometry3DLines.h:146-149). -/
noncomputable def Line.perpendicular (l m : Line) (eps : ℝ) : Bool := decide (V3.dot l.dir m.dir < eps)

/-- `numer` (Geometry3DLines.h:192). -/
noncomputable def Line.numer (l : Line) (p : V3 ℝ) : ℝ :=
  ((p.x - l.point.x) * l.dir.y - (p.y - l.point.y) * l.dir.x) ^ 2 + ((p.y - l.point.y) * l.dir.z - (p.z - l.point.z) * l.dir.y) ^ 2 +
    ((p.z - l.point.z) * l.dir.x - (p.x - l.point.x) * l.dir.z) ^ 2

/-- `Dist(pnt)` (Geometry3DLines.h:177-196).  The quotient is not negative, so the root is of a number `≥ 0`. -/
noncomputable def Line.dist (l : Line) (p : V3 ℝ) : Outcome ℝ := do
  let q ← Interp.fdiv (l.numer p) (l.dir.x * l.dir.x + l.dir.y * l.dir.y + l.dir.z * l.dir.z)
  .ret (Real.sqrt q)

/-- `NearestPointOnLine` (Geometry3DLines.h:201-210). -/
noncomputable def Line.nearest (l : Line) (p : V3 ℝ) : Outcome (V3 ℝ) := do
  let t ← Interp.fdiv (V3.dot (vec l.point p) l.dir) (V3.norm l.dir ^ 2)
  .ret (V3.add l.point (V3.scale l.dir t))

/-- `n` (Geometry3DLines.h:224). -/
noncomputable def Line.normal (l m : Line) : V3 ℝ := V3.cross l.dir m.dir

/-- `isZero` (VectorN.h:187-194). -/
def isZero (v : V3 ℝ) : Prop := v.x = 0 ∧ v.y = 0 ∧ v.z = 0

/-- The branch of parallel lines (Geometry3DLines.h:229, 258). -/
noncomputable def Line.distPar (l m : Line) : Outcome ℝ := Interp.fdiv (V3.dot (vec l.point m.point) l.dir) (V3.norm m.dir)

/-- The branch of skew lines (Geometry3DLines.h:234, 264). -/
noncomputable def Line.distSkew (l m : Line) : Outcome ℝ :=
  Interp.fdiv |V3.dot (l.normal m) (vec l.point m.point)| (V3.norm (l.normal m))

open Classical in
/-- `Dist(line)` (Geometry3DLines.h:215-236). -/
noncomputable def Line.distLine (l m : Line) : Outcome ℝ := if isZero (l.normal m) then l.distPar m else l.distSkew m

/-- The distance and the two points, for lines that are not parallel (Geometry3DLines.h:263-271). -/
noncomputable def Line.nearestSkew (l m : Line) : Outcome (ℝ × V3 ℝ × V3 ℝ) := do
  let d ← l.distSkew m
  let t1 ← Interp.fdiv (V3.dot (V3.cross m.dir (l.normal m)) (vec l.point m.point)) (V3.norm (l.normal m) ^ 2)
  let t2 ← Interp.fdiv (V3.dot (V3.cross l.dir (l.normal m)) (vec l.point m.point)) (V3.norm (l.normal m) ^ 2)
  .ret (d, V3.add l.point (V3.scale l.dir t1), V3.add m.point (V3.scale m.dir t2))

open Classical in
/-- `Dist(line, out_dist, out_line1_pnt, out_line2_pnt)` (Geometry3DLines.h:244-274): the returned value is whether the points are set; with them the
distance. -/
noncomputable def Line.distPoints (l m : Line) : Outcome (ℝ × Option (V3 ℝ × V3 ℝ)) :=
  if isZero (l.normal m) then do
    let d ← l.distPar m
    .ret (d, none)
  else do
    let r ← l.nearestSkew m
    .ret (r.1, some r.2)

/-- `LineIntersectionType3D` (Geometry3DLines.h:29-34). -/
inductive MeetType where
  | point
  | parallel
  | coincident
  | skew
  deriving DecidableEq

/-- `LineIntersection3D` (Geometry3DLines.h:37-43). -/
structure LineMeet where
  type : MeetType
  point1 : V3 ℝ
  point2 : V3 ℝ
  t1 : ℝ
  t2 : ℝ
  distance : ℝ

open Classical in
/-- The result for lines that are nearly parallel (Geometry3DLines.h:282-283, 295-301); `w` is the vector from the second point to the first. -/
noncomputable def parallelMeet (d1 w : V3 ℝ) : LineMeet :=
  ⟨if V3.norm (V3.cross d1 w) < geomEps then .coincident else .parallel, ⟨0, 0, 0⟩, ⟨0, 0, 0⟩, 0, 0, 0⟩

open Classical in
/-- The result for the parameters `t1` and `t2` (Geometry3DLines.h:314-324). -/
noncomputable def meetAt (l m : Line) (t1 t2 : ℝ) : LineMeet :=
  ⟨if pdist (l.at t1) (m.at t2) < geomEps then .point else .skew, l.at t1, m.at t2, t1, t2, pdist (l.at t1) (m.at t2)⟩

/-- The parameters (Geometry3DLines.h:304-312). -/
noncomputable def Line.params (l m : Line) : Outcome (ℝ × ℝ) := do
  let t1 ← Interp.fdiv (V3.dot l.dir m.dir * V3.dot m.dir (vec m.point l.point) - V3.dot m.dir m.dir * V3.dot l.dir (vec m.point l.point))
    (V3.dot l.dir l.dir * V3.dot m.dir m.dir - V3.dot l.dir m.dir * V3.dot l.dir m.dir)
  let t2 ← Interp.fdiv (V3.dot l.dir l.dir * V3.dot m.dir (vec m.point l.point) - V3.dot l.dir m.dir * V3.dot l.dir (vec m.point l.point))
    (V3.dot l.dir l.dir * V3.dot m.dir m.dir - V3.dot l.dir m.dir * V3.dot l.dir m.dir)
  .ret (t1, t2)

open Classical in
/-- `Intersection` (Geometry3DLines.h:280-326). -/
noncomputable def Line.intersection (l m : Line) : Outcome LineMeet :=
  if V3.norm (l.normal m) * V3.norm (l.normal m) < geomEps * geomEps then .ret (parallelMeet l.dir (vec m.point l.point)) else do
    let t ← l.params m
    .ret (meetAt l m t.1 t.2)

/-- `Intersects` (Geometry3DLines.h:332-344): the returned value is whether the point is set. -/
noncomputable def Line.intersects (l m : Line) : Outcome (Option (V3 ℝ)) := do
  let r ← l.intersection m
  match r.type with
  | .point => .ret (some r.point1)
  | .coincident => .ret (some l.point)
  | _ => .ret none

/-- `PerpendicularLineThroughPoint` (Geometry3DLines.h:350-356). -/
noncomputable def Line.perpThrough (l : Line) (p : V3 ℝ) : Outcome Line :=
  if l.onLine p geomEps = true then .exn (.mml "GeometryError") else do
    let q ← l.nearest p
    Line.new p (unitVec (vec p q))

/-- The members of `SegmentLine3D` (Geometry3DLines.h:365-366). -/
structure Seg where
  p1 : V3 ℝ
  p2 : V3 ℝ

/-- The constructor from a point, a direction and `t` (Geometry3DLines.h:380-384). -/
noncomputable def Seg.new (p d : V3 ℝ) (t : ℝ) : Seg := ⟨p, V3.add p (V3.scale d t)⟩

/-- `Length` (Geometry3DLines.h:408). -/
noncomputable def Seg.length (s : Seg) : ℝ := pdist s.p1 s.p2

/-- `Direction` (Geometry3DLines.h:410). -/
noncomputable def Seg.dir (s : Seg) : V3 ℝ := vec s.p1 s.p2

open Classical in
/-- `operator()` (Geometry3DLines.h:399-405). -/
noncomputable def Seg.at (s : Seg) (t : ℝ) : Outcome (V3 ℝ) :=
  if t < 0 ∨ 1 < t then .exn (.mml "GeometryError") else .ret (V3.add s.p1 (V3.scale s.dir t))

open Classical in
/-- The part of `Dist` after the parameter (Geometry3DLines.h:428-437). -/
noncomputable def Seg.distAt (s : Seg) (p : V3 ℝ) (t : ℝ) : ℝ :=
  if t < 0 then pdist s.p1 p else if 1 < t then pdist s.p2 p else pdist (V3.add s.p1 (V3.scale s.dir t)) p

open Classical in
/-- `Dist` (Geometry3DLines.h:415-438). -/
noncomputable def Seg.dist (s : Seg) (p : V3 ℝ) : Outcome ℝ :=
  if s.length = 0 then .ret (pdist s.p1 p) else do
    let t ← Interp.fdiv (V3.dot (vec s.p1 p) s.dir) (s.length * s.length)
    .ret (s.distAt p t)

end Verif.Geom.L3
