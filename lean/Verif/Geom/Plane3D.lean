import Verif.Geom.Lines3D
import Mathlib.Analysis.SpecialFunctions.Trigonometric.Inverse
import Mathlib.Data.EReal.Basic

/-!
# Model of `Plane3D` (Geometry3DPlane.h)

Points and vectors of space are both `V3 ℝ`.  The default tolerances are all `1e-10` (MMLPrecision.h:111, 124, 127), which is `geomEps`.
-/

set_option autoImplicit false

namespace Verif.Geom.P3

open Verif.CompGeo (geomEps)
open L3 (Line vec unitVec isZero)

/-- The members of `Plane3D` (Geometry3DPlane.h:32). -/
structure Plane where
  A : ℝ
  B : ℝ
  C : ℝ
  D : ℝ

open Classical in
/-- The constructor from a point and a normal (Geometry3DPlane.h:39-50). -/
noncomputable def Plane.new (a n : V3 ℝ) : Outcome Plane :=
  if isZero n then .exn (.mml "GeometryError")
  else .ret ⟨(unitVec n).x, (unitVec n).y, (unitVec n).z, -(a.x * (unitVec n).x + a.y * (unitVec n).y + a.z * (unitVec n).z)⟩

/-- The constructor from three points (Geometry3DPlane.h:56-59). -/
noncomputable def Plane.through (a b c : V3 ℝ) : Outcome Plane := Plane.new a (V3.cross (vec a b) (vec a c))

/-- The constructor in Hesse normal form (Geometry3DPlane.h:66-72). -/
noncomputable def Plane.hesse (alpha beta gamma d : ℝ) : Plane := ⟨Real.cos alpha, Real.cos beta, Real.cos gamma, -d⟩

open Classical in
/-- The constructor from the intercepts (Geometry3DPlane.h:79-88). -/
noncomputable def Plane.intercepts (sx sy sz : ℝ) : Outcome Plane :=
  if sx = 0 ∨ sy = 0 ∨ sz = 0 then .exn (.mml "GeometryError") else .ret ⟨1 / sx, 1 / sy, 1 / sz, -1⟩

/-- `Normal` (Geometry3DPlane.h:115). -/
def Plane.normal (P : Plane) : V3 ℝ := ⟨P.A, P.B, P.C⟩

open Classical in
/-- `GetPointOnPlane` (Geometry3DPlane.h:118-125). -/
noncomputable def Plane.somePoint (P : Plane) : Outcome (V3 ℝ) :=
  if P.A ≠ 0 then .ret ⟨-P.D / P.A, 0, 0⟩
  else if P.B ≠ 0 then .ret ⟨0, -P.D / P.B, 0⟩
  else do
    let z ← Interp.fdiv (-P.D) P.C
    .ret ⟨0, 0, z⟩

open Classical in
/-- One output of `GetCoordAxisSegments` (Geometry3DPlane.h:133-136). -/
noncomputable def axisSeg (a D : ℝ) : EReal := if a ≠ 0 then ((-D / a : ℝ) : EReal) else ⊤

/-- `GetCoordAxisSegments` (Geometry3DPlane.h:131-147). -/
noncomputable def Plane.axisSegs (P : Plane) : EReal × EReal × EReal := (axisSeg P.A P.D, axisSeg P.B P.D, axisSeg P.C P.D)

/-- The left side of the equation of the plane (Geometry3DPlane.h:154, 160). -/
noncomputable def Plane.val (P : Plane) (p : V3 ℝ) : ℝ := P.A * p.x + P.B * p.y + P.C * p.z + P.D

open Classical in
/-- `IsPointOnPlane` (Geometry3DPlane.h:152-155). -/
noncomputable def Plane.onPlane (P : Plane) (p : V3 ℝ) (eps : ℝ) : Bool := decide (|P.val p| < eps)

/-- `DistToPoint` (Geometry3DPlane.h:158-164). -/
noncomputable def Plane.dist (P : Plane) (p : V3 ℝ) : Outcome ℝ := do
  let q ← Interp.fdiv (P.val p) (Real.sqrt (P.A * P.A + P.B * P.B + P.C * P.C))
  .ret |q|

open Classical in
/-- `ProjectionToPlane` (Geometry3DPlane.h:170-183). -/
noncomputable def Plane.project (P : Plane) (p : V3 ℝ) : Outcome (V3 ℝ) :=
  if V3.norm P.normal * V3.norm P.normal = 0 then .exn (.mml "GeometryError") else do
    let t ← Interp.fdiv (V3.dot P.normal p + P.D) (V3.norm P.normal * V3.norm P.normal)
    .ret (V3.sub p (V3.scale P.normal t))

/-- `IsLineOnPlane` (Geometry3DPlane.h:186-196). -/
noncomputable def Plane.lineOn (P : Plane) (l : Line) : Bool := P.onPlane l.point geomEps && P.onPlane (l.at 1) geomEps

/-- `std::numeric_limits<double>::epsilon()` (VectorTypes.h:529-530). -/
noncomputable def machEps : ℝ := 1 / 2 ^ 52

open Classical in
/-- `Vector3Cartesian::AngleToVector` (VectorTypes.h:526-536). -/
noncomputable def angleTo (a b : V3 ℝ) : Outcome ℝ :=
  if V3.norm a < machEps ∨ V3.norm b < machEps then .exn (.mml "DivisionByZeroError") else do
    let c ← Interp.fdiv (V3.dot a b) (V3.norm a * V3.norm b)
    .ret (Real.arccos (max (-1) (min 1 c)))

/-- `AngleToLine` (Geometry3DPlane.h:200-204). -/
noncomputable def Plane.angleLine (P : Plane) (l : Line) : Outcome ℝ := do
  let a ← angleTo l.dir P.normal
  .ret (Real.pi / 2 - a)

open Classical in
/-- `IntersectionWithLine` (Geometry3DPlane.h:210-227): the returned value is whether the point is set. -/
noncomputable def Plane.meetLine (P : Plane) (l : Line) (eps : ℝ) : Outcome (Option (V3 ℝ)) :=
  if |V3.dot l.dir P.normal| < eps then .ret none else do
    let t ← Interp.fdiv (-(V3.dot P.normal l.point + P.D)) (V3.dot l.dir P.normal)
    .ret (some (V3.add l.point (V3.scale l.dir t)))

open Classical in
/-- `Vector3Cartesian::IsParallelTo` (VectorTypes.h:480-488).  The division by the length of a null vector, whose NaNs make the comparisons false, is
undefined behaviour here. -/
noncomputable def parallelTo (a b : V3 ℝ) (eps : ℝ) : Outcome Bool :=
  if V3.norm a = 0 ∨ V3.norm b = 0 then .ub
  else .ret (decide (|a.x / V3.norm a - b.x / V3.norm b| < eps ∧ |a.y / V3.norm a - b.y / V3.norm b| < eps ∧ |a.z / V3.norm a - b.z / V3.norm b| < eps))

/-- `IsParallelToPlane` (Geometry3DPlane.h:230-236). -/
noncomputable def Plane.parallel (P Q : Plane) : Outcome Bool := parallelTo P.normal Q.normal geomEps

open Classical in
/-- `IsPerpendicularToPlane` (Geometry3DPlane.h:239-245), `Vector3Cartesian::IsPerpendicularTo` (VectorTypes.h:492-498); the default tolerance
`OrthogonalityTolerance` is a parameter. -/
noncomputable def Plane.perpendicular (P Q : Plane) (eps : ℝ) : Bool := decide (|V3.dot P.normal Q.normal| < eps)

/-- `AngleToPlane` (Geometry3DPlane.h:249-253). -/
noncomputable def Plane.anglePlane (P Q : Plane) : Outcome ℝ := angleTo P.normal Q.normal

/-- `DistToPlane` (Geometry3DPlane.h:257-266). -/
noncomputable def Plane.distPlane (P Q : Plane) : Outcome ℝ := do
  let par ← P.parallel Q
  if par = true then do
    let q ← Q.somePoint
    P.dist q
  else .ret 0

/-- The point of `IntersectionWithPlane` (Geometry3DPlane.h:285-289). -/
noncomputable def Plane.meetPoint (P Q : Plane) : Outcome (V3 ℝ) :=
  V3.div (V3.cross (V3.sub (V3.scale P.normal (-Q.D)) (V3.scale Q.normal (-P.D))) (V3.cross P.normal Q.normal))
    (V3.norm (V3.cross P.normal Q.normal) ^ 2)

open Classical in
/-- `IntersectionWithPlane` (Geometry3DPlane.h:272-293): the returned value is whether the line is set. -/
noncomputable def Plane.meetPlane (P Q : Plane) : Outcome (Option Line) :=
  if V3.norm (V3.cross P.normal Q.normal) < geomEps then .ret none else do
    let p ← P.meetPoint Q
    let l ← Line.new p (unitVec (V3.cross P.normal Q.normal))
    .ret (some l)

open Classical in
/-- `not_parallel` of `GetPerpendicularVectors` (VectorTypes.h:509-515). -/
noncomputable def notParallel (v : V3 ℝ) : V3 ℝ :=
  if |v.x| ≤ |v.y| ∧ |v.x| ≤ |v.z| then ⟨1, 0, 0⟩ else if |v.y| ≤ |v.x| ∧ |v.y| ≤ |v.z| then ⟨0, 1, 0⟩ else ⟨0, 0, 1⟩

open Classical in
/-- `GetPerpendicularVectors` (VectorTypes.h:503-521): the returned value is whether the two vectors are set. -/
noncomputable def perpVectors (v : V3 ℝ) : Option (V3 ℝ × V3 ℝ) :=
  if isZero v then none
  else some (unitVec (V3.cross v (notParallel v)), unitVec (V3.cross v (unitVec (V3.cross v (notParallel v)))))

end Verif.Geom.P3
