import Verif.Geom.Lines3D
import Verif.CompGeo.CircleBox

/-!
# Model of `BoundingSphere3D` and `Box3D` (Geometry3DBounding.h)
-/

set_option autoImplicit false

namespace Verif.Geom.B3

open L3 (pdist)
open Verif.CompGeo.CB (clamp)

/-- The members of `BoundingSphere3D` (Geometry3DBounding.h:46-47). -/
structure Sph where
  center : V3 ℝ
  radius : ℝ

/-- The default constructor (Geometry3DBounding.h:55-57). -/
noncomputable def Sph.default : Sph := ⟨⟨0, 0, 0⟩, 0⟩

open Classical in
/-- The constructor (Geometry3DBounding.h:64-69). -/
noncomputable def Sph.new (c : V3 ℝ) (r : ℝ) : Outcome Sph := if r < 0 then .exn (.mml "ArgumentError") else .ret ⟨c, r⟩

/-- `Volume` (Geometry3DBounding.h:80). -/
noncomputable def Sph.volume (s : Sph) : ℝ := 4 / 3 * Real.pi * s.radius * s.radius * s.radius

open Classical in
/-- `Contains` (Geometry3DBounding.h:86). -/
noncomputable def Sph.contains (s : Sph) (p : V3 ℝ) : Bool := decide (pdist s.center p ≤ s.radius)

open Classical in
/-- `Intersects` (Geometry3DBounding.h:92-95). -/
noncomputable def Sph.intersects (s o : Sph) : Bool := decide (pdist s.center o.center ≤ s.radius + o.radius)

open Classical in
/-- `ExpandToInclude` (Geometry3DBounding.h:101-105). -/
noncomputable def Sph.expandToInclude (s : Sph) (p : V3 ℝ) : Sph :=
  if s.radius < pdist s.center p then { s with radius := pdist s.center p } else s

/-- The members of `Box3D` (Geometry3DBounding.h:130-131). -/
structure Box where
  lo : V3 ℝ
  hi : V3 ℝ

open Classical in
/-- The swap of one pair of coordinates (Geometry3DBounding.h:236-237). -/
noncomputable def swap (a b : ℝ) : ℝ × ℝ := if b < a then (b, a) else (a, b)

/-- `Normalize` (Geometry3DBounding.h:235-242). -/
noncomputable def normalize (b : Box) : Box :=
  ⟨⟨(swap b.lo.x b.hi.x).1, (swap b.lo.y b.hi.y).1, (swap b.lo.z b.hi.z).1⟩, ⟨(swap b.lo.x b.hi.x).2, (swap b.lo.y b.hi.y).2, (swap b.lo.z b.hi.z).2⟩⟩

/-- The default constructor (Geometry3DBounding.h:139-141). -/
noncomputable def Box.default : Box := ⟨⟨0, 0, 0⟩, ⟨1, 1, 1⟩⟩

/-- The constructor from two corners (Geometry3DBounding.h:148-152). -/
noncomputable def Box.ofCorners (a b : V3 ℝ) : Box := normalize ⟨a, b⟩

/-- The constructor from coordinates (Geometry3DBounding.h:158-162). -/
noncomputable def Box.new (x1 y1 z1 x2 y2 z2 : ℝ) : Box := normalize ⟨⟨x1, y1, z1⟩, ⟨x2, y2, z2⟩⟩

/-- `FromCenterAndSize` (Geometry3DBounding.h:174-180). -/
noncomputable def Box.fromCenterAndSize (c : V3 ℝ) (w h d : ℝ) : Box :=
  Box.new (c.x - w / 2) (c.y - h / 2) (c.z - d / 2) (c.x + w / 2) (c.y + h / 2) (c.z + d / 2)

/-- `FromCenterAndHalfExtents` (Geometry3DBounding.h:184-187). -/
noncomputable def Box.fromCenterAndHalfExtents (c : V3 ℝ) (w h d : ℝ) : Box := Box.new (c.x - w) (c.y - h) (c.z - d) (c.x + w) (c.y + h) (c.z + d)

/-- The body of the loop of `FromPoints` (Geometry3DBounding.h:209-214). -/
noncomputable def include1 (b : Box) (p : V3 ℝ) : Box :=
  ⟨⟨min b.lo.x p.x, min b.lo.y p.y, min b.lo.z p.z⟩, ⟨max b.hi.x p.x, max b.hi.y p.y, max b.hi.z p.z⟩⟩

/-- `FromPoints` (Geometry3DBounding.h:200-218). -/
noncomputable def Box.fromPoints : List (V3 ℝ) → Outcome Box
  | [] => .exn (.mml "GeometryError")
  | p :: l => .ret (normalize (l.foldl include1 ⟨p, p⟩))

/-- `Width` (Geometry3DBounding.h:261). -/
noncomputable def Box.width (b : Box) : ℝ := b.hi.x - b.lo.x
/-- `Height` (Geometry3DBounding.h:262). -/
noncomputable def Box.height (b : Box) : ℝ := b.hi.y - b.lo.y
/-- `Depth` (Geometry3DBounding.h:263). -/
noncomputable def Box.depth (b : Box) : ℝ := b.hi.z - b.lo.z
/-- `HalfExtents` (Geometry3DBounding.h:265). -/
noncomputable def Box.halfExtents (b : Box) : V3 ℝ := ⟨b.width / 2, b.height / 2, b.depth / 2⟩
/-- `Diagonal` (Geometry3DBounding.h:266). -/
noncomputable def Box.diagonal (b : Box) : ℝ := Real.sqrt (b.width * b.width + b.height * b.height + b.depth * b.depth)
/-- `Volume` (Geometry3DBounding.h:274). -/
noncomputable def Box.volume (b : Box) : ℝ := b.width * b.height * b.depth
/-- `SurfaceArea` (Geometry3DBounding.h:277). -/
noncomputable def Box.surfaceArea (b : Box) : ℝ := 2 * (b.width * b.height + b.height * b.depth + b.depth * b.width)
/-- `Center` (Geometry3DBounding.h:281). -/
noncomputable def Box.center (b : Box) : V3 ℝ := ⟨(b.lo.x + b.hi.x) / 2, (b.lo.y + b.hi.y) / 2, (b.lo.z + b.hi.z) / 2⟩

/-- `Corners` (Geometry3DBounding.h:288-303). -/
def Box.corners (b : Box) : List (V3 ℝ) :=
  [b.lo, ⟨b.hi.x, b.lo.y, b.lo.z⟩, ⟨b.lo.x, b.hi.y, b.lo.z⟩, ⟨b.hi.x, b.hi.y, b.lo.z⟩,
   ⟨b.lo.x, b.lo.y, b.hi.z⟩, ⟨b.hi.x, b.lo.y, b.hi.z⟩, ⟨b.lo.x, b.hi.y, b.hi.z⟩, b.hi]

open Classical in
/-- `Contains(point)` (Geometry3DBounding.h:313-316). -/
noncomputable def Box.contains (b : Box) (p : V3 ℝ) (eps : ℝ) : Bool :=
  decide (b.lo.x - eps ≤ p.x ∧ p.x ≤ b.hi.x + eps ∧ b.lo.y - eps ≤ p.y ∧ p.y ≤ b.hi.y + eps ∧ b.lo.z - eps ≤ p.z ∧ p.z ≤ b.hi.z + eps)

open Classical in
/-- `Contains(box)` (Geometry3DBounding.h:322-325). -/
noncomputable def Box.containsBox (b o : Box) (eps : ℝ) : Bool :=
  decide (b.lo.x - eps ≤ o.lo.x ∧ o.hi.x ≤ b.hi.x + eps ∧ b.lo.y - eps ≤ o.lo.y ∧ o.hi.y ≤ b.hi.y + eps ∧ b.lo.z - eps ≤ o.lo.z ∧ o.hi.z ≤ b.hi.z + eps)

/-- `dx`, `dy`, `dz` (Geometry3DBounding.h:332-334). -/
noncomputable def outside (lo hi x : ℝ) : ℝ := max (max (lo - x) 0) (x - hi)

/-- `DistanceToPoint` (Geometry3DBounding.h:331-336). -/
noncomputable def Box.dist (b : Box) (p : V3 ℝ) : ℝ :=
  Real.sqrt (outside b.lo.x b.hi.x p.x * outside b.lo.x b.hi.x p.x + outside b.lo.y b.hi.y p.y * outside b.lo.y b.hi.y p.y +
    outside b.lo.z b.hi.z p.z * outside b.lo.z b.hi.z p.z)

/-- `ClosestPoint` (Geometry3DBounding.h:342-345). -/
noncomputable def Box.closest (b : Box) (p : V3 ℝ) : Outcome (V3 ℝ) := do
  let x ← clamp p.x b.lo.x b.hi.x
  let y ← clamp p.y b.lo.y b.hi.y
  let z ← clamp p.z b.lo.z b.hi.z
  .ret ⟨x, y, z⟩

open Classical in
/-- `Intersects` (Geometry3DBounding.h:351-354). -/
noncomputable def Box.intersects (b o : Box) : Bool :=
  decide (b.lo.x ≤ o.hi.x ∧ o.lo.x ≤ b.hi.x ∧ b.lo.y ≤ o.hi.y ∧ o.lo.y ≤ b.hi.y ∧ b.lo.z ≤ o.hi.z ∧ o.lo.z ≤ b.hi.z)

open Classical in
/-- `Intersection` (Geometry3DBounding.h:364-376). -/
noncomputable def Box.intersection (b o : Box) : Box :=
  if min b.hi.x o.hi.x < max b.lo.x o.lo.x ∨ min b.hi.y o.hi.y < max b.lo.y o.lo.y ∨ min b.hi.z o.hi.z < max b.lo.z o.lo.z then Box.new 0 0 0 0 0 0
  else Box.new (max b.lo.x o.lo.x) (max b.lo.y o.lo.y) (max b.lo.z o.lo.z) (min b.hi.x o.hi.x) (min b.hi.y o.hi.y) (min b.hi.z o.hi.z)

/-- `Union` (Geometry3DBounding.h:382-385). -/
noncomputable def Box.union (b o : Box) : Box :=
  Box.new (min b.lo.x o.lo.x) (min b.lo.y o.lo.y) (min b.lo.z o.lo.z) (max b.hi.x o.hi.x) (max b.hi.y o.hi.y) (max b.hi.z o.hi.z)

/-- `ExpandToInclude` (Geometry3DBounding.h:390-397). -/
noncomputable def Box.expandToInclude (b : Box) (p : V3 ℝ) : Box :=
  ⟨⟨min b.lo.x p.x, min b.lo.y p.y, min b.lo.z p.z⟩, ⟨max b.hi.x p.x, max b.hi.y p.y, max b.hi.z p.z⟩⟩

/-- `Expanded` (Geometry3DBounding.h:402-404). -/
noncomputable def Box.expanded (b : Box) (m : ℝ) : Box := Box.new (b.lo.x - m) (b.lo.y - m) (b.lo.z - m) (b.hi.x + m) (b.hi.y + m) (b.hi.z + m)

open Classical in
/-- `IsDegenerate` (Geometry3DBounding.h:413-415). -/
noncomputable def Box.isDegenerate (b : Box) (eps : ℝ) : Bool := decide (b.width < eps ∨ b.height < eps ∨ b.depth < eps)

/-- `Translated` (Geometry3DBounding.h:420). -/
noncomputable def Box.translated (b : Box) (v : V3 ℝ) : Box := Box.ofCorners (V3.add b.lo v) (V3.add b.hi v)

/-- `Scaled` (Geometry3DBounding.h:425-429). -/
noncomputable def Box.scaled (b : Box) (f : ℝ) : Box :=
  Box.fromCenterAndHalfExtents b.center (b.halfExtents.x * f) (b.halfExtents.y * f) (b.halfExtents.z * f)

end Verif.Geom.B3
