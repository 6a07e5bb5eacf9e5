import Verif.CompGeo.Closest
import Verif.Interp.Model
import Mathlib.Data.List.Sort

/-!
# Model of `Line2D` and `SegmentLine2D` (Geometry2DLines.h)

Points and vectors are pairs of coordinates.
-/

set_option autoImplicit false

namespace Verif.CompGeo.Lines

/-- A point or a vector of the plane: `Point2Cartesian` (GeometryPoints.h:21-130), `Vector2Cartesian` (VectorTypes.h:30-215). -/
abbrev Pt := ℝ × ℝ

/-- `NormL2` of a vector with two components (VectorN.h:298-311). -/
noncomputable def norm2 (d : Pt) : ℝ := Real.sqrt (d.1 * d.1 + d.2 * d.2)

open Classical in
/-- `Vector2Cartesian::GetAsUnitVector` (VectorTypes.h:162-169). -/
noncomputable def unitVec (d : Pt) : Pt := if norm2 d = 0 then (0, 0) else (d.1 / norm2 d, d.2 / norm2 d)

/-- The members of `Line2D` (Geometry2DLines.h:97-98). -/
structure Line where
  point : Pt
  dir : Pt

/-- The constructor from a point and a direction (Geometry2DLines.h:104-108). -/
noncomputable def Line.new (p d : Pt) : Line := ⟨p, unitVec d⟩

/-- The constructor from two points (Geometry2DLines.h:113-118). -/
noncomputable def Line.through (a b : Pt) : Line := ⟨a, unitVec (b.1 - a.1, b.2 - a.2)⟩

/-- `operator()` (Geometry2DLines.h:133-138). -/
noncomputable def Line.at (l : Line) (t : ℝ) : Pt := (l.point.1 + t * l.dir.1, l.point.2 + t * l.dir.2)

/-- `DistanceToPoint` (Geometry2DLines.h:143-149). -/
noncomputable def Line.dist (l : Line) (p : Pt) : ℝ := |(p.1 - l.point.1) * l.dir.2 - (p.2 - l.point.2) * l.dir.1|

/-- `ClosestPoint` (Geometry2DLines.h:154-160). -/
noncomputable def Line.closest (l : Line) (p : Pt) : Pt := l.at ((p.1 - l.point.1) * l.dir.1 + (p.2 - l.point.2) * l.dir.2)

/-- `Perpendicular` (Geometry2DLines.h:165-170). -/
noncomputable def Line.perpendicular (l : Line) (p : Pt) : Line := Line.new p (-l.dir.2, l.dir.1)

open Classical in
/-- `Contains` (Geometry2DLines.h:176-179). -/
noncomputable def Line.contains (l : Line) (p : Pt) (eps : ℝ) : Bool := decide (l.dist p < eps)

/-- `LineIntersectionType2D` (Geometry2DLines.h:38-42) with the data of `LineIntersection2D` (Geometry2DLines.h:45-49) that are valid for it: point,
`t1`, `t2`. -/
inductive LineMeet where
  | point (p : Pt) (t1 t2 : ℝ)
  | parallel
  | coincident

/-- The numerators of the parameters (Geometry2DLines.h:195, 203, 207): `(other.point - point) × d`. -/
noncomputable def Line.num (l m : Line) (d : Pt) : ℝ := (m.point.1 - l.point.1) * d.2 - (m.point.2 - l.point.2) * d.1

/-- The cross product of the directions (Geometry2DLines.h:189). -/
noncomputable def Line.det (l m : Line) : ℝ := l.dir.1 * m.dir.2 - l.dir.2 * m.dir.1

open Classical in
/-- `Line2D::Intersection` (Geometry2DLines.h:185-209). -/
noncomputable def Line.intersection (l m : Line) : Outcome LineMeet :=
  if |l.det m| < geomEps then
    if |l.num m l.dir| < geomEps then .ret .coincident else .ret .parallel
  else do
    let t ← Interp.fdiv (l.num m m.dir) (l.det m)
    let t2 ← Interp.fdiv (l.num m l.dir) (l.det m)
    .ret (.point (l.at t) t t2)

/-- `Line2D::Intersects` (Geometry2DLines.h:215-221): the returned value and what is stored at the pointer, if anything. -/
noncomputable def Line.intersects (l m : Line) : Outcome (Bool × Option Pt) := do
  let r ← l.intersection m
  match r with
  | .point p _ _ => .ret (true, some p)
  | _ => .ret (false, none)

/-- The members of `SegmentLine2D` (Geometry2DLines.h:231-232). -/
structure Seg where
  p : Pt
  q : Pt

/-- The constructor from a point, a direction and a length (Geometry2DLines.h:245-248). -/
noncomputable def Seg.new (p d : Pt) (t : ℝ) : Seg := ⟨p, (p.1 + d.1 * t, p.2 + d.2 * t)⟩

open Classical in
/-- `PointOnSegment` (Geometry2DLines.h:264-272). -/
noncomputable def Seg.at (s : Seg) (t : ℝ) : Outcome Pt :=
  if t < 0 ∨ 1 < t then .exn (.mml "GeometryError")
  else .ret (s.p.1 + t * (s.q.1 - s.p.1), s.p.2 + t * (s.q.2 - s.p.2))

/-- `Length` (Geometry2DLines.h:275). -/
noncomputable def Seg.length (s : Seg) : ℝ := dist2 s.p s.q

/-- `Midpoint` (Geometry2DLines.h:280-284). -/
noncomputable def Seg.mid (s : Seg) : Pt := ((s.p.1 + s.q.1) / 2, (s.p.2 + s.q.2) / 2)

/-- `lenSq` (Geometry2DLines.h:294, 314). -/
noncomputable def Seg.lenSq (s : Seg) : ℝ := norm2 (s.q.1 - s.p.1, s.q.2 - s.p.2) * norm2 (s.q.1 - s.p.1, s.q.2 - s.p.2)

/-- The projection, clamped to the segment (Geometry2DLines.h:299-302, 318-321). -/
noncomputable def Seg.project (s : Seg) (p : Pt) : Outcome Pt := do
  let t ← Interp.fdiv ((p.1 - s.p.1) * (s.q.1 - s.p.1) + (p.2 - s.p.2) * (s.q.2 - s.p.2)) s.lenSq
  .ret (s.p.1 + (s.q.1 - s.p.1) * max 0 (min t 1), s.p.2 + (s.q.2 - s.p.2) * max 0 (min t 1))

open Classical in
/-- `SegmentLine2D::DistanceToPoint` (Geometry2DLines.h:289-304). -/
noncomputable def Seg.dist (s : Seg) (p : Pt) : Outcome ℝ :=
  if s.lenSq < geomEps then .ret (dist2 s.p p) else do
    let c ← s.project p
    .ret (dist2 p c)

open Classical in
/-- `SegmentLine2D::ClosestPoint` (Geometry2DLines.h:309-322). -/
noncomputable def Seg.closest (s : Seg) (p : Pt) : Outcome Pt :=
  if s.lenSq < geomEps then .ret s.p else s.project p

open Classical in
/-- `OnSegment` (Geometry2DLines.h:331-336). -/
noncomputable def onSegment (p q r : Pt) : Bool :=
  decide (q.1 ≤ max p.1 r.1 + geomEps) && decide (min p.1 r.1 - geomEps ≤ q.1) && decide (q.2 ≤ max p.2 r.2 + geomEps) &&
    decide (min p.2 r.2 - geomEps ≤ q.2)

/-- `SegmentIntersectionType` (Geometry2DLines.h:66-71) with the data of `SegmentIntersection` (Geometry2DLines.h:74-78) that are valid for it. -/
inductive Meet where
  | none
  | point (p : Pt)
  | collinear
  | overlap (a b : Pt)

/-- The candidates for the ends of an overlap (Geometry2DLines.h:386-390). -/
noncomputable def candidates (s o : Seg) : List Pt :=
  (if onSegment s.p o.p s.q then [o.p] else []) ++ (if onSegment s.p o.q s.q then [o.q] else []) ++
    (if onSegment o.p s.p o.q then [s.p] else []) ++ (if onSegment o.p s.q o.q then [s.q] else [])

open Classical in
/-- Sorting by the parameter along the first segment (Geometry2DLines.h:393-402), by abscissas if they differ and else by ordinates; equal ordinates
mean a division by zero. -/
noncomputable def sortAlong (s : Seg) (l : List Pt) : Outcome (List Pt) :=
  if geomEps < |s.q.1 - s.p.1| then
    .ret (l.insertionSort fun a b => (a.1 - s.p.1) / (s.q.1 - s.p.1) ≤ (b.1 - s.p.1) / (s.q.1 - s.p.1))
  else if s.q.2 - s.p.2 = 0 then .ub
  else .ret (l.insertionSort fun a b => (a.2 - s.p.2) / (s.q.2 - s.p.2) ≤ (b.2 - s.p.2) / (s.q.2 - s.p.2))

open Classical in
/-- The result from the first and the last candidate (Geometry2DLines.h:404-413). -/
noncomputable def overlapOf (a b : Pt) : Meet := if dist2 a b < geomEps then .point a else .overlap a b

/-- The case of collinear segments (Geometry2DLines.h:379-418). -/
noncomputable def collinearCase (s o : Seg) : Outcome Meet :=
  if 2 ≤ (candidates s o).length then do
    let l ← sortAlong s (candidates s o)
    let a ← Outcome.index l 0
    let b ← Outcome.index l (l.length - 1)
    .ret (overlapOf a b)
  else .ret .collinear

/-- The crossing point (Geometry2DLines.h:361-373). -/
noncomputable def crossPoint (s o : Seg) : Outcome Meet := do
  let t ← Interp.fdiv ((o.p.1 - s.p.1) * (o.q.2 - o.p.2) - (o.p.2 - s.p.2) * (o.q.1 - o.p.1))
    ((s.q.1 - s.p.1) * (o.q.2 - o.p.2) - (s.q.2 - s.p.2) * (o.q.1 - o.p.1))
  .ret (.point (s.p.1 + t * (s.q.1 - s.p.1), s.p.2 + t * (s.q.2 - s.p.2)))

/-- The tests for touching ends (Geometry2DLines.h:421-442). -/
noncomputable def touch (s o : Seg) (d1 d2 d3 d4 : ℝ) : Meet :=
  open Classical in
  if |d1| ≤ geomEps ∧ onSegment o.p s.p o.q = true then .point s.p
  else if |d2| ≤ geomEps ∧ onSegment o.p s.q o.q = true then .point s.q
  else if |d3| ≤ geomEps ∧ onSegment s.p o.p s.q = true then .point o.p
  else if |d4| ≤ geomEps ∧ onSegment s.p o.q s.q = true then .point o.q
  else .none

/-- Two numbers of opposite sign beyond the tolerance (Geometry2DLines.h:359-360). -/
def opposite (a b : ℝ) : Prop := geomEps < a ∧ b < -geomEps ∨ a < -geomEps ∧ geomEps < b

open Classical in
/-- The case distinction of `Intersection` (Geometry2DLines.h:358-442) for the numbers `d1` to `d4`. -/
noncomputable def intersectionOf (s o : Seg) (d1 d2 d3 d4 : ℝ) : Outcome Meet :=
  if opposite d1 d2 ∧ opposite d3 d4 then crossPoint s o
  else if |d1| ≤ geomEps ∧ |d2| ≤ geomEps then collinearCase s o
  else .ret (touch s o d1 d2 d3 d4)

/-- `SegmentLine2D::Intersection` (Geometry2DLines.h:343-443); `Cross` (326-328) is that of the convex hull. -/
noncomputable def Seg.intersection (s o : Seg) : Outcome Meet :=
  intersectionOf s o (cross o.p o.q s.p) (cross o.p o.q s.q) (cross s.p s.q o.p) (cross s.p s.q o.q)

/-- `SegmentLine2D::Intersects` (Geometry2DLines.h:449-455): the returned value and what is stored at the pointer, if anything. -/
noncomputable def Seg.intersects (s o : Seg) : Outcome (Bool × Option Pt) := do
  let r ← s.intersection o
  match r with
  | .point p => .ret (true, some p)
  | .overlap _ _ => .ret (true, none)
  | _ => .ret (false, none)

end Verif.CompGeo.Lines
