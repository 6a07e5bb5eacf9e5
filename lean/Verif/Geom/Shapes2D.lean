import Verif.Interp.Model
import Verif.Geom.Quat
import Mathlib.Analysis.SpecialFunctions.Trigonometric.Arctan
import Verif.CompGeo.CircleBox

/-!
# Model of the plane figures given by lengths and angles only

`Geometry2DShapes.h`.  `Quat.sqrtU` is `sqrt`, undefined for a negative argument, `Interp.fdiv` a division, undefined for the divisor 0.  Accessors and
the named polygons, which only fix the number of sides, are not repeated.  The members that return a `Circle` are given by its radius.
-/

set_option autoImplicit false

namespace Verif.Geom.Shp

/-- `std::acos`, whose value outside `[-1, 1]` is NaN, modelled as undefined behaviour. -/
noncomputable def acosU (x : ℝ) : Outcome ℝ := if x < -1 ∨ 1 < x then .ub else .ret (Real.arccos x)

/-- A comparison with a tolerance, as in the `Is...` members (Geometry2DShapes.h:90-91). -/
noncomputable def near (a b eps : ℝ) : Bool := decide (|a - b| < eps)

/-! ## Triangle -/

/-- The members of `Triangle` (Geometry2DShapes.h:31-33). -/
structure Tri where
  a : ℝ
  b : ℝ
  c : ℝ

namespace Tri

/-- `IsValid` (Geometry2DShapes.h:55). -/
noncomputable def isValid (t : Tri) : Bool :=
  decide (0 < t.a) && decide (0 < t.b) && decide (0 < t.c) && decide (t.c < t.a + t.b) && decide (t.b < t.a + t.c) && decide (t.a < t.b + t.c)

/-- `Perimeter` (Geometry2DShapes.h:58). -/
noncomputable def perimeter (t : Tri) : ℝ := t.a + t.b + t.c

/-- `Semiperimeter` (Geometry2DShapes.h:59). -/
noncomputable def semi (t : Tri) : ℝ := (t.a + t.b + t.c) / 2

/-- `Area` (Geometry2DShapes.h:61-64). -/
noncomputable def area (t : Tri) : Outcome ℝ := Quat.sqrtU (t.semi * (t.semi - t.a) * (t.semi - t.b) * (t.semi - t.c))

/-- The law of cosines (Geometry2DShapes.h:67): the angle opposite to `x` between `y` and `z`. -/
noncomputable def angle (x y z : ℝ) : Outcome ℝ := do
  let q ← Interp.fdiv (y * y + z * z - x * x) (2 * y * z)
  let k ← CompGeo.CB.clamp q (-1) 1
  acosU k

/-- `AngleA` (Geometry2DShapes.h:67). -/
noncomputable def angleA (t : Tri) : Outcome ℝ := angle t.a t.b t.c

/-- `AngleB` (Geometry2DShapes.h:68). -/
noncomputable def angleB (t : Tri) : Outcome ℝ := angle t.b t.a t.c

/-- `AngleC` (Geometry2DShapes.h:69). -/
noncomputable def angleC (t : Tri) : Outcome ℝ := angle t.c t.a t.b

/-- The altitude to the side `x` (Geometry2DShapes.h:72-74). -/
noncomputable def altitude (t : Tri) (x : ℝ) : Outcome ℝ := do
  let s ← t.area
  Interp.fdiv (2 * s) x

/-- `AltitudeToA` (Geometry2DShapes.h:72). -/
noncomputable def altitudeA (t : Tri) : Outcome ℝ := t.altitude t.a

/-- `AltitudeToB` (Geometry2DShapes.h:73). -/
noncomputable def altitudeB (t : Tri) : Outcome ℝ := t.altitude t.b

/-- `AltitudeToC` (Geometry2DShapes.h:74). -/
noncomputable def altitudeC (t : Tri) : Outcome ℝ := t.altitude t.c

/-- The median to the side `x` (Geometry2DShapes.h:77-79). -/
noncomputable def median (x y z : ℝ) : Outcome ℝ := do
  let r ← Quat.sqrtU (2 * y * y + 2 * z * z - x * x)
  .ret (0.5 * r)

/-- `MedianToA` (Geometry2DShapes.h:77). -/
noncomputable def medianA (t : Tri) : Outcome ℝ := median t.a t.b t.c

/-- `MedianToB` (Geometry2DShapes.h:78). -/
noncomputable def medianB (t : Tri) : Outcome ℝ := median t.b t.a t.c

/-- `MedianToC` (Geometry2DShapes.h:79). -/
noncomputable def medianC (t : Tri) : Outcome ℝ := median t.c t.a t.b

/-- `Inradius` (Geometry2DShapes.h:82), also the radius of `Circle::Inscribed` (Geometry2DShapes.h:138). -/
noncomputable def inradius (t : Tri) : Outcome ℝ := do
  let s ← t.area
  Interp.fdiv s t.semi

/-- `Circumradius` (Geometry2DShapes.h:83), also the radius of `Circle::Circumscribed` (Geometry2DShapes.h:139). -/
noncomputable def circumradius (t : Tri) : Outcome ℝ := do
  let s ← t.area
  Interp.fdiv (t.a * t.b * t.c) (4 * s)

/-- `IsRight` (Geometry2DShapes.h:86-89). -/
noncomputable def isRight (t : Tri) (eps : ℝ) : Bool :=
  decide (|t.a * t.a + t.b * t.b - t.c * t.c| < eps) || decide (|t.a * t.a + t.c * t.c - t.b * t.b| < eps) || decide (|t.b * t.b + t.c * t.c - t.a * t.a| < eps)

/-- `IsAcute` (Geometry2DShapes.h:92-95). -/
noncomputable def isAcute (t : Tri) : Bool :=
  decide (t.c * t.c < t.a * t.a + t.b * t.b) && decide (t.b * t.b < t.a * t.a + t.c * t.c) && decide (t.a * t.a < t.b * t.b + t.c * t.c)

/-- `IsObtuse` (Geometry2DShapes.h:96-99). -/
noncomputable def isObtuse (t : Tri) : Bool :=
  decide (t.a * t.a + t.b * t.b < t.c * t.c) || decide (t.a * t.a + t.c * t.c < t.b * t.b) || decide (t.b * t.b + t.c * t.c < t.a * t.a)

/-- `IsIsosceles` (Geometry2DShapes.h:90). -/
noncomputable def isIsosceles (t : Tri) (eps : ℝ) : Bool := near t.a t.b eps || near t.a t.c eps || near t.b t.c eps

/-- `IsEquilateral` (Geometry2DShapes.h:91). -/
noncomputable def isEquilateral (t : Tri) (eps : ℝ) : Bool := near t.a t.b eps && near t.a t.c eps

/-- `IsScalene` (Geometry2DShapes.h:100). -/
noncomputable def isScalene (t : Tri) (eps : ℝ) : Bool := decide (eps < |t.a - t.b|) && decide (eps < |t.a - t.c|) && decide (eps < |t.b - t.c|)

end Tri

/-! ## Circle, sector, segment, annulus: `r` is the radius, `θ` the central angle -/

/-- `Circle::Area` (Geometry2DShapes.h:121). -/
noncomputable def circleArea (r : ℝ) : ℝ := Real.pi * r * r

/-- `Circle::Circumference` and `Perimeter` (Geometry2DShapes.h:122-123). -/
noncomputable def circumference (r : ℝ) : ℝ := 2 * Real.pi * r

/-- `ArcLength` (Geometry2DShapes.h:126, 244, 282). -/
noncomputable def arcLength (r θ : ℝ) : ℝ := r * θ

/-- `SectorArea` (Geometry2DShapes.h:127) and `CircularSector::Area` (Geometry2DShapes.h:241). -/
noncomputable def sectorArea (r θ : ℝ) : ℝ := 0.5 * r * r * θ

/-- `ChordLength` (Geometry2DShapes.h:130, 250, 283). -/
noncomputable def chordLength (r θ : ℝ) : ℝ := 2 * r * Real.sin (θ / 2)

/-- `SegmentArea` (Geometry2DShapes.h:133) and `CircularSegment::Area` (Geometry2DShapes.h:281). -/
noncomputable def segmentArea (r θ : ℝ) : ℝ := 0.5 * r * r * (θ - Real.sin θ)

/-- `Circle::FromArea`: the radius (Geometry2DShapes.h:136). -/
noncomputable def circleFromArea (s : ℝ) : Outcome ℝ := Quat.sqrtU (s / Real.pi)

/-- `Circle::FromCircumference`: the radius (Geometry2DShapes.h:137). -/
noncomputable def circleFromCircumference (s : ℝ) : ℝ := s / (2 * Real.pi)

/-- `CircularSector::Perimeter` (Geometry2DShapes.h:247). -/
noncomputable def sectorPerimeter (r θ : ℝ) : ℝ := 2 * r + arcLength r θ

/-- `CircularSegment::FromSagitta`: the angle (Geometry2DShapes.h:274-277). -/
noncomputable def segmentFromSagitta (r s : ℝ) : Outcome ℝ := do
  let q ← Interp.fdiv s r
  let k ← acosU (1 - q)
  .ret (2 * k)

/-- `CircularSegment::Sagitta` (Geometry2DShapes.h:284). -/
noncomputable def sagitta (r θ : ℝ) : ℝ := r * (1 - Real.cos (θ / 2))

/-- `CircularSegment::Perimeter` (Geometry2DShapes.h:285). -/
noncomputable def segmentPerimeter (r θ : ℝ) : ℝ := arcLength r θ + chordLength r θ

/-- `Annulus::Area` (Geometry2DShapes.h:311). -/
noncomputable def annulusArea (i o : ℝ) : ℝ := Real.pi * (o * o - i * i)

/-- `Annulus::MeanCircumference` (Geometry2DShapes.h:315). -/
noncomputable def meanCircumference (i o : ℝ) : ℝ := Real.pi * (i + o)

/-! ## Ellipse with the semi-axes `a` and `b` -/

/-- `IsValid` (Geometry2DShapes.h:164). -/
noncomputable def ellipseValid (a b : ℝ) : Bool := decide (0 < a) && decide (0 < b)

/-- `Area` (Geometry2DShapes.h:167). -/
noncomputable def ellipseArea (a b : ℝ) : ℝ := Real.pi * a * b

open Classical in
/-- `Eccentricity` (Geometry2DShapes.h:177-181). -/
noncomputable def eccentricity (a b : ℝ) : Outcome ℝ := if a = 0 then .ret 0 else do
  let q ← Interp.fdiv (b * b) (a * a)
  Quat.sqrtU (1 - q)

/-- `LinearEccentricity` (Geometry2DShapes.h:184). -/
noncomputable def linearEccentricity (a b : ℝ) : Outcome ℝ := Quat.sqrtU (a * a - b * b)

/-- `FocalDistance` (Geometry2DShapes.h:187). -/
noncomputable def focalDistance (a b : ℝ) : Outcome ℝ := do
  let c ← linearEccentricity a b
  .ret (2 * c)

/-- `SemiLatusRectum` (Geometry2DShapes.h:190). -/
noncomputable def semiLatusRectum (a b : ℝ) : Outcome ℝ := Interp.fdiv (b * b) a

/-- `DirectrixDistance` (Geometry2DShapes.h:193). -/
noncomputable def directrixDistance (a b : ℝ) : Outcome ℝ := do
  let e ← eccentricity a b
  Interp.fdiv a e

/-- `FromFoci`: the semi-axes (Geometry2DShapes.h:195-200). -/
noncomputable def ellipseFromFoci (focal major : ℝ) : Outcome (ℝ × ℝ) := do
  let b ← Quat.sqrtU (major / 2 * (major / 2) - focal / 2 * (focal / 2))
  .ret (major / 2, b)

/-! ## Regular polygon with `n` sides of length `s` -/

/-- `InteriorAngle` (Geometry2DShapes.h:343). -/
noncomputable def interiorAngle (n : ℤ) : ℝ := (n - 2) * Real.pi / n

/-- `CentralAngle` and `ExteriorAngle` (Geometry2DShapes.h:344-345). -/
noncomputable def centralAngle (n : ℤ) : ℝ := 2 * Real.pi / n

/-- `Perimeter` (Geometry2DShapes.h:347). -/
noncomputable def polyPerimeter (n : ℤ) (s : ℝ) : ℝ := n * s

/-- `Area` (Geometry2DShapes.h:349). -/
noncomputable def polyArea (n : ℤ) (s : ℝ) : Outcome ℝ := Interp.fdiv (0.25 * n * s * s) (Real.tan (Real.pi / n))

/-- `Apothem` and `Inradius` (Geometry2DShapes.h:352, 358). -/
noncomputable def apothem (n : ℤ) (s : ℝ) : Outcome ℝ := Interp.fdiv s (2 * Real.tan (Real.pi / n))

/-- `Circumradius` (Geometry2DShapes.h:355). -/
noncomputable def polyCircumradius (n : ℤ) (s : ℝ) : Outcome ℝ := Interp.fdiv s (2 * Real.sin (Real.pi / n))

/-- `FromCircumradius`: the side (Geometry2DShapes.h:364-367). -/
noncomputable def polyFromCircumradius (n : ℤ) (R : ℝ) : ℝ := 2 * R * Real.sin (Real.pi / n)

/-- `FromInradius`: the side (Geometry2DShapes.h:369-372). -/
noncomputable def polyFromInradius (n : ℤ) (r : ℝ) : ℝ := 2 * r * Real.tan (Real.pi / n)

/-- `FromArea`: the side (Geometry2DShapes.h:374-377). -/
noncomputable def polyFromArea (n : ℤ) (s : ℝ) : Outcome ℝ := Quat.sqrtU (4 * s * Real.tan (Real.pi / n) / n)

/-! ## Quadrilaterals -/

/-- `Rectangle::Area` (Geometry2DShapes.h:414). -/
noncomputable def rectArea (w h : ℝ) : ℝ := w * h

/-- `Rectangle::Diagonal` (Geometry2DShapes.h:416). -/
noncomputable def rectDiagonal (w h : ℝ) : ℝ := Real.sqrt (w * w + h * h)

/-- `Rectangle::InscribedCircleRadius` (Geometry2DShapes.h:422). -/
noncomputable def rectInscribed (w h : ℝ) : ℝ := min w h / 2

/-- `Rectangle::CircumscribedCircleRadius` (Geometry2DShapes.h:423). -/
noncomputable def rectCircumscribed (w h : ℝ) : ℝ := rectDiagonal w h / 2

/-- `Rectangle::GoldenRectangle`: width and height (Geometry2DShapes.h:426). -/
noncomputable def goldenRectangle (w : ℝ) : ℝ × ℝ := (w, w / ((1 + Real.sqrt 5) / 2))

/-- `Rectangle::FromDiagonalAndRatio`: width and height (Geometry2DShapes.h:427-431). -/
noncomputable def rectFromDiagonal (d q : ℝ) : ℝ × ℝ := (d / Real.sqrt (1 + q * q) * q, d / Real.sqrt (1 + q * q))

/-- The members of `Parallelogram` (Geometry2DShapes.h:436-440). -/
structure Par where
  a : ℝ
  b : ℝ
  angle : ℝ

/-- `Area` (Geometry2DShapes.h:465). -/
noncomputable def Par.area (p : Par) : ℝ := p.a * p.b * Real.sin p.angle

/-- `Perimeter` (Geometry2DShapes.h:466). -/
noncomputable def Par.perimeter (p : Par) : ℝ := 2 * (p.a + p.b)

/-- `HeightToA` (Geometry2DShapes.h:469). -/
noncomputable def Par.heightA (p : Par) : ℝ := p.b * Real.sin p.angle

/-- `HeightToB` (Geometry2DShapes.h:470). -/
noncomputable def Par.heightB (p : Par) : ℝ := p.a * Real.sin p.angle

/-- `DiagonalP` (Geometry2DShapes.h:473). -/
noncomputable def Par.diagP (p : Par) : Outcome ℝ := Quat.sqrtU (p.a * p.a + p.b * p.b - 2 * p.a * p.b * Real.cos p.angle)

/-- `DiagonalQ` (Geometry2DShapes.h:474). -/
noncomputable def Par.diagQ (p : Par) : Outcome ℝ := Quat.sqrtU (p.a * p.a + p.b * p.b + 2 * p.a * p.b * Real.cos p.angle)

/-- `FromDiagonals` (Geometry2DShapes.h:480-486). -/
noncomputable def Par.fromDiagonals (p q γ : ℝ) : Outcome Par := do
  let ra ← Quat.sqrtU (p * p + q * q + 2 * p * q * Real.cos γ)
  let rb ← Quat.sqrtU (p * p + q * q - 2 * p * q * Real.cos γ)
  let k ← Interp.fdiv (0.5 * ra * (0.5 * ra) + 0.5 * rb * (0.5 * rb) - 0.25 * p * p) (2 * (0.5 * ra) * (0.5 * rb))
  let angle ← acosU k
  .ret ⟨0.5 * ra, 0.5 * rb, angle⟩

/-- The members of `Rhombus` (Geometry2DShapes.h:491-495). -/
structure Rho where
  side : ℝ
  d1 : ℝ
  d2 : ℝ

/-- The constructor from the diagonals (Geometry2DShapes.h:511-515). -/
noncomputable def Rho.new (d1 d2 : ℝ) : Rho := ⟨Real.sqrt (d1 * d1 + d2 * d2) / 2, d1, d2⟩

/-- `FromSideAndDiagonal` (Geometry2DShapes.h:517-521). -/
noncomputable def Rho.fromSideAndDiagonal (s d : ℝ) : Outcome Rho := do
  let h ← Quat.sqrtU (s * s - d / 2 * (d / 2))
  .ret (Rho.new d (2 * h))

/-- `FromSideAndAngle` (Geometry2DShapes.h:523-527). -/
noncomputable def Rho.fromSideAndAngle (s θ : ℝ) : Rho := Rho.new (2 * s * Real.sin (θ / 2)) (2 * s * Real.cos (θ / 2))

/-- `Area` (Geometry2DShapes.h:532). -/
noncomputable def Rho.area (r : Rho) : ℝ := 0.5 * r.d1 * r.d2

/-- `AcuteAngle` (Geometry2DShapes.h:536). -/
noncomputable def Rho.acute (r : Rho) : Outcome ℝ := do
  let q ← Interp.fdiv (min r.d1 r.d2) (max r.d1 r.d2)
  .ret (2 * Real.arctan q)

/-- `Height` (Geometry2DShapes.h:540). -/
noncomputable def Rho.height (r : Rho) : Outcome ℝ := Interp.fdiv r.area r.side

/-- `Inradius` (Geometry2DShapes.h:543). -/
noncomputable def Rho.inradius (r : Rho) : Outcome ℝ := Interp.fdiv (r.d1 * r.d2) (2 * Real.sqrt (r.d1 * r.d1 + r.d2 * r.d2))

/-- `Trapezoid::Area` (Geometry2DShapes.h:575). -/
noncomputable def trapArea (a b h : ℝ) : ℝ := 0.5 * (a + b) * h

/-- `Trapezoid::Median` (Geometry2DShapes.h:578). -/
noncomputable def trapMedian (a b : ℝ) : ℝ := 0.5 * (a + b)

/-- `Trapezoid::Isosceles`: the height (Geometry2DShapes.h:581-584). -/
noncomputable def trapIsosceles (base top leg : ℝ) : Outcome ℝ := Quat.sqrtU (leg * leg - 0.25 * (base - top) ^ 2)

end Verif.Geom.Shp
