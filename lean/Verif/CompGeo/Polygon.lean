import Verif.CompGeo.Closest
import Verif.Loops
import Verif.Interp.Model

/-!
# Model of `Polygon2D` (Geometry2DPolygon.h)

A polygon is the list of its vertices.  `operator[]` on it is unchecked (`Outcome.index`).  Loops that return from inside carry the result in an
`Option`: once it is there, the remaining rounds do nothing.
-/

set_option autoImplicit false

namespace Verif.CompGeo.Poly

/-- A point of the plane: `Point2Cartesian` (GeometryPoints.h:21-130). -/
abbrev Pt := ℝ × ℝ

/-- `Vertex` (Geometry2DPolygon.h:84-88). -/
def vertex (v : List Pt) (i : ℤ) : Outcome Pt :=
  if i < 0 ∨ (v.length : ℤ) ≤ i then .exn (.mml "VectorAccessBoundsError") else Outcome.index v i.toNat

/-- `Edge` (Geometry2DPolygon.h:99-103): start and end of the segment. -/
def edge (v : List Pt) (i : ℤ) : Outcome (Pt × Pt) :=
  if i < 0 ∨ (v.length : ℤ) ≤ i then .exn (.mml "VectorAccessBoundsError") else do
    let p ← Outcome.index v i.toNat
    let q ← Outcome.index v ((i.toNat + 1) % v.length)
    .ret (p, q)

/-- One round of the loop of `Perimeter` (Geometry2DPolygon.h:111-113). -/
noncomputable def perimeterStep (v : List Pt) (s : ℝ) (i : ℕ) : Outcome ℝ := do
  let p ← Outcome.index v i
  let q ← Outcome.index v ((i + 1) % v.length)
  .ret (s + dist2 p q)

/-- `Perimeter` (Geometry2DPolygon.h:106-115). -/
noncomputable def perimeter (v : List Pt) : Outcome ℝ :=
  if v.length < 2 then .ret 0 else forRange v.length 0 (perimeterStep v)

/-- One round of the loop of `SignedArea` (Geometry2DPolygon.h:124-127). -/
noncomputable def areaStep (v : List Pt) (s : ℝ) (i : ℕ) : Outcome ℝ := do
  let p ← Outcome.index v i
  let q ← Outcome.index v ((i + 1) % v.length)
  .ret (s + p.1 * q.2 - p.2 * q.1)

/-- `SignedArea` (Geometry2DPolygon.h:119-129). -/
noncomputable def signedArea (v : List Pt) : Outcome ℝ :=
  if v.length < 3 then .ret 0 else do
    let a ← forRange v.length 0 (areaStep v)
    .ret (a / 2)

/-- `Area` (Geometry2DPolygon.h:132-134). -/
noncomputable def area (v : List Pt) : Outcome ℝ := do
  let a ← signedArea v
  .ret |a|

/-- The sums `signedArea`, `cx`, `cy` of `Centroid` (Geometry2DPolygon.h:150-151). -/
structure Moments where
  a : ℝ
  x : ℝ
  y : ℝ

/-- One round of the loop of `Centroid` (Geometry2DPolygon.h:154-160). -/
noncomputable def centroidStep (v : List Pt) (s : Moments) (i : ℕ) : Outcome Moments := do
  let p ← Outcome.index v i
  let q ← Outcome.index v ((i + 1) % v.length)
  .ret ⟨s.a + (p.1 * q.2 - q.1 * p.2), s.x + (p.1 + q.1) * (p.1 * q.2 - q.1 * p.2), s.y + (p.2 + q.2) * (p.1 * q.2 - q.1 * p.2)⟩

open Classical in
/-- The end of `Centroid` (Geometry2DPolygon.h:162-169). -/
noncomputable def centroidOf (s : Moments) : Outcome Pt :=
  if |s.a / 2| < geomEps then .exn (.mml "GeometryError") else do
    let x ← Interp.fdiv s.x (6 * (s.a / 2))
    let y ← Interp.fdiv s.y (6 * (s.a / 2))
    .ret (x, y)

/-- `Centroid` (Geometry2DPolygon.h:138-170). -/
noncomputable def centroid (v : List Pt) : Outcome Pt :=
  if v.length = 0 then .exn (.mml "GeometryError")
  else if v.length = 1 then Outcome.index v 0
  else if v.length = 2 then do
    let p ← Outcome.index v 0
    let q ← Outcome.index v 1
    .ret ((p.1 + q.1) / 2, (p.2 + q.2) / 2)
  else do
    let s ← forRange v.length ⟨0, 0, 0⟩ (centroidStep v)
    centroidOf s

/-- `BoundingBox` (Geometry2DPolygon.h:173-182). -/
structure Box where
  minX : ℝ
  maxX : ℝ
  minY : ℝ
  maxY : ℝ

/-- One round of the loop of `GetBoundingBox` (Geometry2DPolygon.h:194-199). -/
noncomputable def boxStep (v : List Pt) (b : Box) (i : ℕ) : Outcome Box := do
  let p ← Outcome.index v i
  .ret ⟨min b.minX p.1, max b.maxX p.1, min b.minY p.2, max b.maxY p.2⟩

/-- `GetBoundingBox` (Geometry2DPolygon.h:186-202). -/
noncomputable def boundingBox (v : List Pt) : Outcome Box :=
  if v.length = 0 then .exn (.mml "GeometryError") else do
    let p ← Outcome.index v 0
    forFromTo 1 v.length ⟨p.1, p.1, p.2, p.2⟩ (boxStep v)

open Classical in
/-- `IsCounterClockwise` (Geometry2DPolygon.h:205-207). -/
noncomputable def isCounterClockwise (v : List Pt) : Outcome Bool := do
  let a ← signedArea v
  .ret (decide (0 < a))

open Classical in
/-- `IsClockwise` (Geometry2DPolygon.h:210-212). -/
noncomputable def isClockwise (v : List Pt) : Outcome Bool := do
  let a ← signedArea v
  .ret (decide (a < 0))

/-- `Reverse` (Geometry2DPolygon.h:215-217). -/
def reverse (v : List Pt) : List Pt := v.reverse

/-- The four numbers `d1` to `d4` of `SegmentsIntersect` (Geometry2DPolygon.h:45-48): `turn a b c` is the one for the point `c` and the segment
from `a` to `b`. -/
noncomputable def turn (a b c : Pt) : ℝ := (c.1 - a.1) * (b.2 - a.2) - (c.2 - a.2) * (b.1 - a.1)

open Classical in
/-- The lambda `sign` of `SegmentsIntersect` (Geometry2DPolygon.h:42). -/
noncomputable def sgn (x : ℝ) : ℤ := (if 0 < x then 1 else 0) - (if x < 0 then 1 else 0)

/-- `SegmentsIntersect` (Geometry2DPolygon.h:39-55). -/
noncomputable def segmentsIntersect (p1 p2 p3 p4 : Pt) : Bool :=
  decide (sgn (turn p1 p2 p3) * sgn (turn p1 p2 p4) < 0) && decide (sgn (turn p3 p4 p1) * sgn (turn p3 p4 p2) < 0)

/-- One round of the inner loop of `IsSimple` (Geometry2DPolygon.h:230-239). -/
noncomputable def simplePair (v : List Pt) (i : ℕ) (p1 p2 : Pt) (s : Option Bool) (j : ℕ) : Outcome (Option Bool) :=
  if s.isSome then .ret s
  else if j = (i + v.length - 1) % v.length then .ret none
  else do
    let p3 ← Outcome.index v j
    let p4 ← Outcome.index v ((j + 1) % v.length)
    .ret (if segmentsIntersect p1 p2 p3 p4 = true then some false else none)

/-- One round of the outer loop of `IsSimple` (Geometry2DPolygon.h:225-240). -/
noncomputable def simpleEdge (v : List Pt) (s : Option Bool) (i : ℕ) : Outcome (Option Bool) :=
  if s.isSome then .ret s
  else do
    let p1 ← Outcome.index v i
    let p2 ← Outcome.index v ((i + 1) % v.length)
    forFromTo (i + 2) v.length none (simplePair v i p1 p2)

/-- `IsSimple` (Geometry2DPolygon.h:220-243). -/
noncomputable def isSimple (v : List Pt) : Outcome Bool :=
  if v.length < 3 then .ret false else do
    let r ← forRange v.length none (simpleEdge v)
    .ret (r.getD true)

/-- The state of the loop of `IsConvex` (Geometry2DPolygon.h:250-251) and the value returned from inside, if any. -/
structure Turns where
  pos : Bool
  neg : Bool
  result : Option Bool

open Classical in
/-- The treatment of one cross product in `IsConvex` (Geometry2DPolygon.h:263-268). -/
noncomputable def convexTurn (s : Turns) (cross : ℝ) : Turns :=
  ⟨s.pos || decide (geomEps < cross), s.neg || decide (cross < -geomEps),
    if (s.pos || decide (geomEps < cross)) && (s.neg || decide (cross < -geomEps)) then some false else none⟩

/-- One round of the loop of `IsConvex` (Geometry2DPolygon.h:253-269). -/
noncomputable def convexStep (v : List Pt) (s : Turns) (i : ℕ) : Outcome Turns :=
  if s.result.isSome then .ret s
  else do
    let p0 ← Outcome.index v i
    let p1 ← Outcome.index v ((i + 1) % v.length)
    let p2 ← Outcome.index v ((i + 2) % v.length)
    .ret (convexTurn s ((p1.1 - p0.1) * (p2.2 - p1.2) - (p1.2 - p0.2) * (p2.1 - p1.1)))

/-- `IsConvex` (Geometry2DPolygon.h:246-272). -/
noncomputable def isConvex (v : List Pt) : Outcome Bool :=
  if v.length < 3 then .ret false else do
    let s ← forRange v.length ⟨false, false, none⟩ (convexStep v)
    .ret (s.result.getD true)

open Classical in
/-- The body of the loop of `Contains` for the edge from `p1` to `p2` (Geometry2DPolygon.h:290-296). -/
noncomputable def crossing (pt p1 p2 : Pt) (n : ℕ) : Outcome ℕ :=
  if decide (pt.2 < p1.2) ≠ decide (pt.2 < p2.2) then do
    let q ← Interp.fdiv ((pt.2 - p1.2) * (p2.1 - p1.1)) (p2.2 - p1.2)
    if pt.1 < p1.1 + q then .ret (n + 1) else .ret n
  else .ret n

/-- One round of the loop of `Contains` (Geometry2DPolygon.h:285-297). -/
noncomputable def containsStep (v : List Pt) (pt : Pt) (n : ℕ) (i : ℕ) : Outcome ℕ := do
  let p1 ← Outcome.index v i
  let p2 ← Outcome.index v ((i + 1) % v.length)
  crossing pt p1 p2 n

/-- `Contains` (Geometry2DPolygon.h:278-301). -/
noncomputable def contains (v : List Pt) (pt : Pt) : Outcome Bool :=
  if v.length < 3 then .ret false else do
    let n ← forRange v.length 0 (containsStep v pt)
    .ret (n % 2 == 1)

/-- The cross product in `WindingNumber` (Geometry2DPolygon.h:320, 328). -/
noncomputable def side (p1 p2 pt : Pt) : ℝ := (p2.1 - p1.1) * (pt.2 - p1.2) - (pt.1 - p1.1) * (p2.2 - p1.2)

open Classical in
/-- The body of the loop of `WindingNumber` for the edge from `p1` to `p2` (Geometry2DPolygon.h:317-333): what is added to `wn`. -/
noncomputable def winds (pt p1 p2 : Pt) : ℤ :=
  if p1.2 ≤ pt.2 then
    if pt.2 < p2.2 then if 0 < side p1 p2 pt then 1 else 0 else 0
  else if p2.2 ≤ pt.2 then if side p1 p2 pt < 0 then -1 else 0 else 0

/-- One round of the loop of `WindingNumber` (Geometry2DPolygon.h:313-334). -/
noncomputable def windingStep (v : List Pt) (pt : Pt) (s : ℤ) (i : ℕ) : Outcome ℤ := do
  let p1 ← Outcome.index v i
  let p2 ← Outcome.index v ((i + 1) % v.length)
  .ret (s + winds pt p1 p2)

/-- `WindingNumber` (Geometry2DPolygon.h:307-337). -/
noncomputable def windingNumber (v : List Pt) (pt : Pt) : Outcome ℤ :=
  if v.length < 3 then .ret 0 else forRange v.length 0 (windingStep v pt)

/-- A triangle by its corners (Geometry2DTriangle.h): only what `Triangularization` needs. -/
structure Tri where
  a : Pt
  b : Pt
  c : Pt

/-- One round of the loop of `Triangularization` (Geometry2DPolygon.h:354-356). -/
def fanStep (v : List Pt) (s : List Tri) (i : ℕ) : Outcome (List Tri) := do
  let a ← Outcome.index v 0
  let b ← Outcome.index v i
  let c ← Outcome.index v (i + 1)
  .ret (s ++ [⟨a, b, c⟩])

/-- `Triangularization` (Geometry2DPolygon.h:342-359). -/
def triangularization (v : List Pt) : Outcome (List Tri) :=
  if v.length < 3 then .ret []
  else if v.length = 3 then do
    let a ← Outcome.index v 0
    let b ← Outcome.index v 1
    let c ← Outcome.index v 2
    .ret [⟨a, b, c⟩]
  else forFromTo 1 (v.length - 1) [] (fanStep v)

end Verif.CompGeo.Poly
