import Verif.Common
import Verif.Interp.Model
import Verif.CompGeo.HullModel
import Verif.CompGeo.Closest
import Mathlib.Analysis.SpecialFunctions.Trigonometric.Inverse

/-!
# Model of `Triangle2D`

Models `/repo/mml/base/Geometry/Geometry2DCore/Geometry2DTriangle.h`, lines 29-259.  `Real` is the field of real numbers; a division by zero and
the square root of a negative number are undefined.  `dist2` is `Point2Cartesian::Dist`.
-/

set_option autoImplicit false

namespace Verif.CompGeo.Tri

/-- A point (`Point2Cartesian`). -/
abbrev Pt := ℝ × ℝ

/-- The members of `Triangle2D` (Geometry2DTriangle.h:32-34). -/
structure Tri where
  p1 : Pt
  p2 : Pt
  p3 : Pt
  a : ℝ
  b : ℝ
  c : ℝ
  computed : Bool

/-- The constructor (Geometry2DTriangle.h:52-54). -/
def new (p1 p2 p3 : Pt) : Tri := ⟨p1, p2, p3, 0, 0, 0, false⟩

/-- `ComputeSides` (Geometry2DTriangle.h:37-45). -/
noncomputable def sides (t : Tri) : Tri :=
  if t.computed = false then { t with a := dist2 t.p1 t.p2, b := dist2 t.p2 t.p3, c := dist2 t.p3 t.p1, computed := true } else t

/-- What a program may do to a triangle: `ref` calls one of the members `Pnt1`, `Pnt2`, `Pnt3` that return a reference (Geometry2DTriangle.h:59,63,67);
`write1` to `write3` store a point through a reference obtained before; `read` calls a member that uses the lengths of the sides. -/
inductive Op where
  | ref
  | write1 (x : Pt)
  | write2 (x : Pt)
  | write3 (x : Pt)
  | read

/-- The effect of an operation on the members (Geometry2DTriangle.h:59,63,67 for `ref`, 37-45 for `read`). -/
noncomputable def step (t : Tri) : Op → Tri
  | .ref => { t with computed := false }
  | .write1 x => { t with p1 := x }
  | .write2 x => { t with p2 := x }
  | .write3 x => { t with p3 := x }
  | .read => sides t

/-- The effect of a sequence of operations (Geometry2DTriangle.h:59,63,67,37-45). -/
noncomputable def run (t : Tri) (ops : List Op) : Tri := ops.foldl step t

/-- `A` (Geometry2DTriangle.h:70). -/
noncomputable def A (t : Tri) : ℝ := (sides t).a

/-- `B` (Geometry2DTriangle.h:72). -/
noncomputable def B (t : Tri) : ℝ := (sides t).b

/-- `C` (Geometry2DTriangle.h:74). -/
noncomputable def C (t : Tri) : ℝ := (sides t).c

/-- `Perimeter` (Geometry2DTriangle.h:77). -/
noncomputable def perimeter (t : Tri) : ℝ := A t + B t + C t

/-- Heron's formula (Geometry2DTriangle.h:83-84) for the half perimeter `s`. -/
noncomputable def heron (a b c s : ℝ) : Outcome ℝ :=
  open Classical in if s * (s - a) * (s - b) * (s - c) < 0 then .ub else .ret (Real.sqrt (s * (s - a) * (s - b) * (s - c)))

/-- `Area` (Geometry2DTriangle.h:80-85). -/
noncomputable def area (t : Tri) : Outcome ℝ := heron (A t) (B t) (C t) ((A t + B t + C t) / 2)

/-- `SignedArea` (Geometry2DTriangle.h:88-93). -/
noncomputable def signedArea (t : Tri) : ℝ := ((t.p2.1 - t.p1.1) * (t.p3.2 - t.p1.2) - (t.p3.1 - t.p1.1) * (t.p2.2 - t.p1.2)) / 2

/-- `Centroid` (Geometry2DTriangle.h:97-101). -/
noncomputable def centroid (t : Tri) : Pt := ((t.p1.1 + t.p2.1 + t.p3.1) / 3, (t.p1.2 + t.p2.2 + t.p3.2) / 3)

/-- The number `D` (Geometry2DTriangle.h:107-109). -/
def bigD (t : Tri) : ℝ := 2 * (t.p1.1 * (t.p2.2 - t.p3.2) + t.p2.1 * (t.p3.2 - t.p1.2) + t.p3.1 * (t.p1.2 - t.p2.2))

/-- The square of the distance of a point from the origin (Geometry2DTriangle.h:114-116). -/
def sq (p : Pt) : ℝ := p.1 * p.1 + p.2 * p.2

open Classical in
/-- `Circumcenter` (Geometry2DTriangle.h:105-127). -/
noncomputable def circumcenter (t : Tri) : Outcome Pt :=
  if |bigD t| < geomEps then .exn (.mml "GeometryError")
  else do
    let ux ← Interp.fdiv (sq t.p1 * (t.p2.2 - t.p3.2) + sq t.p2 * (t.p3.2 - t.p1.2) + sq t.p3 * (t.p1.2 - t.p2.2)) (bigD t)
    let uy ← Interp.fdiv (sq t.p1 * (t.p3.1 - t.p2.1) + sq t.p2 * (t.p1.1 - t.p3.1) + sq t.p3 * (t.p2.1 - t.p1.1)) (bigD t)
    .ret (ux, uy)

open Classical in
/-- `CircumRadius` (Geometry2DTriangle.h:131-140). -/
noncomputable def circumRadius (t : Tri) : Outcome ℝ := do
  let s ← area t
  if s < geomEps then .exn (.mml "GeometryError") else Interp.fdiv (A t * B t * C t) (4 * s)

open Classical in
/-- `Incenter` (Geometry2DTriangle.h:144-156). -/
noncomputable def incenter (t : Tri) : Outcome Pt :=
  if A t + B t + C t < geomEps then .exn (.mml "GeometryError")
  else do
    let x ← Interp.fdiv (A t * t.p3.1 + B t * t.p1.1 + C t * t.p2.1) (A t + B t + C t)
    let y ← Interp.fdiv (A t * t.p3.2 + B t * t.p1.2 + C t * t.p2.2) (A t + B t + C t)
    .ret (x, y)

open Classical in
/-- `InRadius` (Geometry2DTriangle.h:160-169). -/
noncomputable def inRadius (t : Tri) : Outcome ℝ := do
  let s ← area t
  if perimeter t / 2 < geomEps then .exn (.mml "GeometryError") else Interp.fdiv s (perimeter t / 2)

/-- The law of cosines (Geometry2DTriangle.h:176-177): the angle between the sides `b` and `c`. -/
noncomputable def lawOfCosines (a b c : ℝ) : Outcome ℝ := do
  let x ← Interp.fdiv (b * b + c * c - a * a) (2 * b * c)
  .ret (Real.arccos (max (-1) (min x 1)))

/-- `AngleA` (Geometry2DTriangle.h:172-178). -/
noncomputable def angleA (t : Tri) : Outcome ℝ := lawOfCosines (A t) (B t) (C t)

/-- `AngleB` (Geometry2DTriangle.h:181-186). -/
noncomputable def angleB (t : Tri) : Outcome ℝ := lawOfCosines (B t) (A t) (C t)

/-- `AngleC` (Geometry2DTriangle.h:189-194). -/
noncomputable def angleC (t : Tri) : Outcome ℝ := lawOfCosines (C t) (A t) (B t)

/-- The denominator of the barycentric coordinates (Geometry2DTriangle.h:203-204). -/
def denom (t : Tri) : ℝ := (t.p2.2 - t.p3.2) * (t.p1.1 - t.p3.1) + (t.p3.1 - t.p2.1) * (t.p1.2 - t.p3.2)

open Classical in
/-- `Contains` (Geometry2DTriangle.h:200-219). -/
noncomputable def contains (t : Tri) (p : Pt) (eps : ℝ) : Outcome Bool :=
  if |denom t| < eps then .ret false
  else do
    let a ← Interp.fdiv ((t.p2.2 - t.p3.2) * (p.1 - t.p3.1) + (t.p3.1 - t.p2.1) * (p.2 - t.p3.2)) (denom t)
    let b ← Interp.fdiv ((t.p3.2 - t.p1.2) * (p.1 - t.p3.1) + (t.p1.1 - t.p3.1) * (p.2 - t.p3.2)) (denom t)
    .ret (decide (-eps ≤ a) && decide (-eps ≤ b) && decide (-eps ≤ 1 - a - b))

open Classical in
/-- `AreEqual` (Geometry2DLines.h:29-31). -/
noncomputable def areEqual (a b eps : ℝ) : Bool := decide (|a - b| < eps)

/-- `IsRight` (Geometry2DTriangle.h:223-231). -/
noncomputable def isRight (t : Tri) (eps : ℝ) : Bool :=
  areEqual (A t * A t + B t * B t) (C t * C t) eps || areEqual (A t * A t + C t * C t) (B t * B t) eps ||
    areEqual (B t * B t + C t * C t) (A t * A t) eps

/-- `IsIsosceles` (Geometry2DTriangle.h:235-239). -/
noncomputable def isIsosceles (t : Tri) (eps : ℝ) : Bool := areEqual (A t) (B t) eps || areEqual (A t) (C t) eps || areEqual (B t) (C t) eps

/-- `IsEquilateral` (Geometry2DTriangle.h:243-247). -/
noncomputable def isEquilateral (t : Tri) (eps : ℝ) : Bool := areEqual (A t) (B t) eps && areEqual (A t) (C t) eps

open Classical in
/-- `IsCounterClockwise` (Geometry2DTriangle.h:250-253). -/
noncomputable def isCounterClockwise (t : Tri) : Bool := decide (0 < signedArea t)

open Classical in
/-- `IsClockwise` (Geometry2DTriangle.h:256-259). -/
noncomputable def isClockwise (t : Tri) : Bool := decide (signedArea t < 0)

end Verif.CompGeo.Tri
