import Verif.CompGeo.Triangle
import Verif.CompGeo.Lines
import Mathlib.Analysis.SpecialFunctions.Trigonometric.Basic

/-!
# Model of `Circle2D` and `Box2D`

Models `/repo/mml/base/Geometry/Geometry2DCore/Geometry2DCircleBox.h`, lines 31-467.  `Real` is the field of real numbers.
-/

set_option autoImplicit false

namespace Verif.CompGeo.CB

/-- A point (`Point2Cartesian`). -/
abbrev Pt := ℝ × ℝ

/-- The members of `Circle2D` (Geometry2DCircleBox.h:34-35). -/
structure Circle where
  center : Pt
  radius : ℝ

open Classical in
/-- The constructors from centre and radius (Geometry2DCircleBox.h:44-48,54-58). -/
noncomputable def Circle.new (c : Pt) (r : ℝ) : Outcome Circle := if r < 0 then .exn (.mml "GeometryError") else .ret ⟨c, r⟩

/-- `FromDiameter` (Geometry2DCircleBox.h:61-66). -/
noncomputable def Circle.fromDiameter (p q : Pt) : Outcome Circle := Circle.new ((p.1 + q.1) / 2, (p.2 + q.2) / 2) (dist2 p q / 2)

/-- `FromThreePoints` (Geometry2DCircleBox.h:69-74).  The arguments are evaluated in either order; the exceptions are of the same class. -/
noncomputable def Circle.fromThreePoints (p q r : Pt) : Outcome Circle := do
  let c ← Tri.circumcenter (Tri.new p q r)
  let s ← Tri.circumRadius (Tri.new p q r)
  Circle.new c s

/-- `Diameter` (Geometry2DCircleBox.h:88). -/
def Circle.diameter (c : Circle) : ℝ := 2 * c.radius

/-- `Area` (Geometry2DCircleBox.h:91). -/
noncomputable def Circle.area (c : Circle) : ℝ := Real.pi * c.radius * c.radius

/-- `Circumference` and `Perimeter` (Geometry2DCircleBox.h:93,95). -/
noncomputable def Circle.circumference (c : Circle) : ℝ := 2 * Real.pi * c.radius

/-- `PointAt` (Geometry2DCircleBox.h:99-103). -/
noncomputable def Circle.pointAt (c : Circle) (θ : ℝ) : Pt := (c.center.1 + c.radius * Real.cos θ, c.center.2 + c.radius * Real.sin θ)

/-- `ArcLength` (Geometry2DCircleBox.h:107). -/
noncomputable def Circle.arcLength (c : Circle) (θ : ℝ) : ℝ := c.radius * |θ|

/-- `SectorArea` (Geometry2DCircleBox.h:111). -/
noncomputable def Circle.sectorArea (c : Circle) (θ : ℝ) : ℝ := 0.5 * c.radius * c.radius * |θ|

/-- `ChordLength` (Geometry2DCircleBox.h:115). -/
noncomputable def Circle.chordLength (c : Circle) (θ : ℝ) : ℝ := 2 * c.radius * Real.sin (|θ| / 2)

/-- `DistanceFromCenter` (Geometry2DCircleBox.h:118). -/
noncomputable def Circle.distFromCenter (c : Circle) (p : Pt) : ℝ := dist2 c.center p

/-- `SignedDistance` (Geometry2DCircleBox.h:122). -/
noncomputable def Circle.signedDist (c : Circle) (p : Pt) : ℝ := c.distFromCenter p - c.radius

/-- `DistanceToPoint` (Geometry2DCircleBox.h:124). -/
noncomputable def Circle.dist (c : Circle) (p : Pt) : ℝ := |c.signedDist p|

open Classical in
/-- `Contains` (Geometry2DCircleBox.h:129-132). -/
noncomputable def Circle.contains (c : Circle) (p : Pt) (eps : ℝ) : Bool := decide (c.distFromCenter p ≤ c.radius + eps)

open Classical in
/-- `IsOnBoundary` (Geometry2DCircleBox.h:137-140). -/
noncomputable def Circle.isOnBoundary (c : Circle) (p : Pt) (eps : ℝ) : Bool := decide (|c.distFromCenter p - c.radius| < eps)

/-- The point at distance `_radius` in the direction of `p`, for the factor `scale` (Geometry2DCircleBox.h:154-156). -/
def Circle.scaleTo (c : Circle) (p : Pt) (scale : ℝ) : Pt := (c.center.1 + scale * (p.1 - c.center.1), c.center.2 + scale * (p.2 - c.center.2))

open Classical in
/-- `ClosestPoint` (Geometry2DCircleBox.h:145-157). -/
noncomputable def Circle.closest (c : Circle) (p : Pt) : Outcome Pt :=
  if c.distFromCenter p < geomEps then .ret (c.pointAt 0)
  else do
    let scale ← Interp.fdiv c.radius (c.distFromCenter p)
    .ret (c.scaleTo p scale)

/-- `TangentAt` (Geometry2DCircleBox.h:162-165). -/
noncomputable def Circle.tangentAt (_ : Circle) (θ : ℝ) : Pt := (-Real.sin θ, Real.cos θ)

open Classical in
/-- `Intersects` for circles (Geometry2DCircleBox.h:168-172). -/
noncomputable def Circle.intersects (c o : Circle) : Bool :=
  decide (dist2 c.center o.center ≤ c.radius + o.radius) && decide (|c.radius - o.radius| ≤ dist2 c.center o.center)

open Classical in
/-- `Intersects` for a line (Geometry2DCircleBox.h:175-178). -/
noncomputable def Circle.intersectsLine (c : Circle) (l : Lines.Line) : Bool := decide (l.dist c.center ≤ c.radius)

/-- `Translated` (Geometry2DCircleBox.h:193-196). -/
noncomputable def Circle.translated (c : Circle) (v : Pt) : Outcome Circle := Circle.new (c.center.1 + v.1, c.center.2 + v.2) c.radius

open Classical in
/-- `Scaled` (Geometry2DCircleBox.h:201-206). -/
noncomputable def Circle.scaled (c : Circle) (f : ℝ) : Outcome Circle :=
  if f ≤ 0 then .exn (.mml "GeometryError") else Circle.new c.center (c.radius * f)

/-- The members of `Box2D` (Geometry2DCircleBox.h:216-217). -/
structure Box where
  lo : Pt
  hi : Pt

/-- `GetBoundingBox` of a circle (Geometry2DCircleBox.h:181-189); `Polygon2D::BoundingBox` is a box by its four numbers. -/
def Circle.boundingBox (c : Circle) : Box := ⟨(c.center.1 - c.radius, c.center.2 - c.radius), (c.center.1 + c.radius, c.center.2 + c.radius)⟩

open Classical in
/-- The first swap of `Normalize` (Geometry2DCircleBox.h:284). -/
noncomputable def swapX (b : Box) : Box := if b.hi.1 < b.lo.1 then ⟨(b.hi.1, b.lo.2), (b.lo.1, b.hi.2)⟩ else b

open Classical in
/-- The second swap of `Normalize` (Geometry2DCircleBox.h:285). -/
noncomputable def swapY (b : Box) : Box := if b.hi.2 < b.lo.2 then ⟨(b.lo.1, b.hi.2), (b.hi.1, b.lo.2)⟩ else b

/-- `Normalize` (Geometry2DCircleBox.h:282-286). -/
noncomputable def normalize (b : Box) : Box := swapY (swapX b)

/-- The constructors (Geometry2DCircleBox.h:226-229,236-239). -/
noncomputable def Box.new (a b c d : ℝ) : Box := normalize ⟨(a, b), (c, d)⟩

/-- `FromCenterAndSize` (Geometry2DCircleBox.h:242-248). -/
noncomputable def Box.fromCenterAndSize (c : Pt) (w h : ℝ) : Box := Box.new (c.1 - w / 2) (c.2 - h / 2) (c.1 + w / 2) (c.2 + h / 2)

/-- `FromCenterAndHalfExtents` (Geometry2DCircleBox.h:251-255). -/
noncomputable def Box.fromCenterAndHalfExtents (c : Pt) (w h : ℝ) : Box := Box.new (c.1 - w) (c.2 - h) (c.1 + w) (c.2 + h)

/-- A round of the loop of `FromPoints` (Geometry2DCircleBox.h:267-273). -/
noncomputable def include1 (b : Box) (p : Pt) : Box := ⟨(min b.lo.1 p.1, min b.lo.2 p.2), (max b.hi.1 p.1, max b.hi.2 p.2)⟩

/-- `FromPoints` (Geometry2DCircleBox.h:259-276). -/
noncomputable def Box.fromPoints : List Pt → Outcome Box
  | [] => .exn (.mml "GeometryError")
  | p :: l => .ret (normalize (l.foldl include1 ⟨p, p⟩))

/-- `Width` (Geometry2DCircleBox.h:307). -/
def Box.width (b : Box) : ℝ := b.hi.1 - b.lo.1

/-- `Height` (Geometry2DCircleBox.h:309). -/
def Box.height (b : Box) : ℝ := b.hi.2 - b.lo.2

/-- `HalfExtents` (Geometry2DCircleBox.h:313). -/
noncomputable def Box.halfExtents (b : Box) : Pt := (b.width / 2, b.height / 2)

/-- `Diagonal` (Geometry2DCircleBox.h:315). -/
noncomputable def Box.diagonal (b : Box) : ℝ := Real.sqrt (b.width * b.width + b.height * b.height)

/-- `Area` (Geometry2DCircleBox.h:320). -/
def Box.area (b : Box) : ℝ := b.width * b.height

/-- `Perimeter` (Geometry2DCircleBox.h:322). -/
def Box.perimeter (b : Box) : ℝ := 2 * (b.width + b.height)

/-- `Center` (Geometry2DCircleBox.h:325-328). -/
noncomputable def Box.center (b : Box) : Pt := ((b.lo.1 + b.hi.1) / 2, (b.lo.2 + b.hi.2) / 2)

/-- `Corners` (Geometry2DCircleBox.h:331-343). -/
def Box.corners (b : Box) : List Pt := [b.lo, (b.hi.1, b.lo.2), b.hi, (b.lo.1, b.hi.2)]

open Classical in
/-- `Contains` for a point (Geometry2DCircleBox.h:354-358). -/
noncomputable def Box.contains (b : Box) (p : Pt) (eps : ℝ) : Bool :=
  decide (b.lo.1 - eps ≤ p.1) && decide (p.1 ≤ b.hi.1 + eps) && decide (b.lo.2 - eps ≤ p.2) && decide (p.2 ≤ b.hi.2 + eps)

open Classical in
/-- `Contains` for a box (Geometry2DCircleBox.h:363-367). -/
noncomputable def Box.containsBox (b o : Box) (eps : ℝ) : Bool :=
  decide (b.lo.1 - eps ≤ o.lo.1) && decide (o.hi.1 ≤ b.hi.1 + eps) && decide (b.lo.2 - eps ≤ o.lo.2) && decide (o.hi.2 ≤ b.hi.2 + eps)

/-- `DistanceToPoint` (Geometry2DCircleBox.h:372-377). -/
noncomputable def Box.dist (b : Box) (p : Pt) : ℝ :=
  Real.sqrt (max (max (b.lo.1 - p.1) 0) (p.1 - b.hi.1) * max (max (b.lo.1 - p.1) 0) (p.1 - b.hi.1) +
    max (max (b.lo.2 - p.2) 0) (p.2 - b.hi.2) * max (max (b.lo.2 - p.2) 0) (p.2 - b.hi.2))

open Classical in
/-- `std::clamp` (used in Geometry2DCircleBox.h:384-385); undefined if the bounds are in the wrong order. -/
noncomputable def clamp (x lo hi : ℝ) : Outcome ℝ := if hi < lo then .ub else .ret (if x < lo then lo else if hi < x then hi else x)

/-- `ClosestPoint` (Geometry2DCircleBox.h:382-386). -/
noncomputable def Box.closest (b : Box) (p : Pt) : Outcome Pt := do
  let x ← clamp p.1 b.lo.1 b.hi.1
  let y ← clamp p.2 b.lo.2 b.hi.2
  .ret (x, y)

open Classical in
/-- `Intersects` for boxes (Geometry2DCircleBox.h:389-393). -/
noncomputable def Box.intersects (b o : Box) : Bool :=
  decide (b.lo.1 ≤ o.hi.1) && decide (o.lo.1 ≤ b.hi.1) && decide (b.lo.2 ≤ o.hi.2) && decide (o.lo.2 ≤ b.hi.2)

open Classical in
/-- `Intersection` (Geometry2DCircleBox.h:397-408). -/
noncomputable def Box.intersection (b o : Box) : Box :=
  if min b.hi.1 o.hi.1 < max b.lo.1 o.lo.1 ∨ min b.hi.2 o.hi.2 < max b.lo.2 o.lo.2 then Box.new 0 0 0 0
  else Box.new (max b.lo.1 o.lo.1) (max b.lo.2 o.lo.2) (min b.hi.1 o.hi.1) (min b.hi.2 o.hi.2)

/-- `Union` (Geometry2DCircleBox.h:412-418). -/
noncomputable def Box.union (b o : Box) : Box := Box.new (min b.lo.1 o.lo.1) (min b.lo.2 o.lo.2) (max b.hi.1 o.hi.1) (max b.hi.2 o.hi.2)

/-- `ExpandToInclude` (Geometry2DCircleBox.h:422-428). -/
noncomputable def Box.expandToInclude (b : Box) (p : Pt) : Box := ⟨(min b.lo.1 p.1, min b.lo.2 p.2), (max b.hi.1 p.1, max b.hi.2 p.2)⟩

/-- `Expanded` (Geometry2DCircleBox.h:432-436). -/
noncomputable def Box.expanded (b : Box) (m : ℝ) : Box := Box.new (b.lo.1 - m) (b.lo.2 - m) (b.hi.1 + m) (b.hi.2 + m)

open Classical in
/-- `IsDegenerate` (Geometry2DCircleBox.h:440-443). -/
noncomputable def Box.isDegenerate (b : Box) (eps : ℝ) : Bool := decide (b.width < eps) || decide (b.height < eps)

/-- `Translated` (Geometry2DCircleBox.h:447-450). -/
noncomputable def Box.translated (b : Box) (v : Pt) : Box := Box.new (b.lo.1 + v.1) (b.lo.2 + v.2) (b.hi.1 + v.1) (b.hi.2 + v.2)

/-- `Scaled` (Geometry2DCircleBox.h:454-459). -/
noncomputable def Box.scaled (b : Box) (f : ℝ) : Box := Box.fromCenterAndHalfExtents b.center (b.halfExtents.1 * f) (b.halfExtents.2 * f)

open Classical in
/-- `Intersects` for a box and a circle (Geometry2DCircleBox.h:462-466). -/
noncomputable def Box.intersectsCircle (b : Box) (c : Circle) : Outcome Bool := do
  let p ← b.closest c.center
  .ret (decide (dist2 c.center p ≤ c.radius))

end Verif.CompGeo.CB
