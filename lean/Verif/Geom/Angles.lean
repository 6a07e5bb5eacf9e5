import Verif.While
import Verif.Interp.Model
import Verif.Geom.Lines3D
import Verif.Geom.Quat

/-!
# Model of points in polar, spherical and cylindrical coordinates and of the angle utilities

`GeometryPoints.h`, `AngleCoordUtils.h`, `GeometrySpherical.h` and the angle functions of `MMLBase.h`.  Points and vectors of the plane are pairs, those of
space `V3 ℝ`; a point in other coordinates has its own structure.  `Quat.sqrtU` is `sqrt`, undefined for a negative argument.  `hypot(x, hypot(y, z))` is
the root of the sum of the squares.
-/

set_option autoImplicit false

namespace Verif.Geom.Ang

/-! ## Angles -/

/-- `DegToRad` (AngleCoordUtils.h:28). -/
noncomputable def degToRad (a : ℝ) : ℝ := a * Real.pi / 180

/-- `RadToDeg` (AngleCoordUtils.h:33). -/
noncomputable def radToDeg (a : ℝ) : ℝ := a * 180 / Real.pi

/-- Degrees, minutes and seconds: the output parameters of `AngleDegToExplicit` (AngleCoordUtils.h:40). -/
structure Dms where
  deg : ℝ
  min : ℝ
  sec : ℝ

/-- `AngleDegToExplicit` (AngleCoordUtils.h:40-45). -/
noncomputable def degToExplicit (angle : ℝ) : Dms :=
  ⟨⌊angle⌋, ⌊(angle - ⌊angle⌋) * 60⌋, (angle - ⌊angle⌋ - ⌊(angle - ⌊angle⌋) * 60⌋ / 60) * 3600⟩

/-- `AngleRadToExplicit` (AngleCoordUtils.h:52-55). -/
noncomputable def radToExplicit (angle : ℝ) : Dms := degToExplicit (angle * 180 / Real.pi)

/-- `ExplicitToAngleDeg` (AngleCoordUtils.h:62-65). -/
noncomputable def explicitToDeg (d : Dms) : ℝ := d.deg + d.min / 60 + d.sec / 3600

/-- `ExplicitToAngleRad` (AngleCoordUtils.h:72-75). -/
noncomputable def explicitToRad (d : Dms) : ℝ := explicitToDeg d * Real.pi / 180

open Classical in
/-- The first loop of the two range functions (AngleCoordUtils.h:82-83, 94-95), with the lower end `lo`. -/
noncomputable def raise (lo r : ℝ) : Option ℝ := if r < lo then some (r + 2 * Real.pi) else none

open Classical in
/-- The second loop of the two range functions (AngleCoordUtils.h:84-85, 96-97), with the upper end `hi`. -/
noncomputable def lower (hi r : ℝ) : Option ℝ := if hi ≤ r then some (r - 2 * Real.pi) else none

/-- `AngleTo2PiRange` (AngleCoordUtils.h:80-87). -/
noncomputable def to2Pi (r : ℝ) : Outcome ℝ := do
  let r ← whileLoop (raise 0) r
  whileLoop (lower (2 * Real.pi)) r

/-- `AngleToPiPiRange` (AngleCoordUtils.h:92-99). -/
noncomputable def toPiPi (r : ℝ) : Outcome ℝ := do
  let r ← whileLoop (raise (-Real.pi)) r
  whileLoop (lower Real.pi) r

/-- `std::fmod` for a divisor that is not zero: the quotient is rounded towards zero. -/
noncomputable def fmod (x y : ℝ) : ℝ := x - (if 0 ≤ x / y then (⌊x / y⌋ : ℝ) else ⌈x / y⌉) * y

/-- The correction after `fmod` (MMLBase.h:168-170). -/
noncomputable def fromMod (r : ℝ) : ℝ := (if r < 0 then r + 2 * Real.pi else r) - Real.pi

/-- `normalizeAngle` (MMLBase.h:166-171). -/
noncomputable def normalizeAngle (r : ℝ) : ℝ := fromMod (fmod (r + Real.pi) (2 * Real.pi))

open Classical in
/-- `AnglesAreEqual` (MMLBase.h:180-183). -/
noncomputable def anglesAreEqual (a b eps : ℝ) : Bool := decide (|normalizeAngle (a - b)| < eps)

/-! ## Points -/

/-- The members of `Point2Polar` (GeometryPoints.h:112). -/
@[ext] structure Pol where
  r : ℝ
  phi : ℝ

/-- The constructor from a Cartesian point (GeometryPoints.h:136-139); `CartesianToPolar` (AngleCoordUtils.h:125-129) computes the same. -/
noncomputable def Pol.ofCart (p : ℝ × ℝ) : Pol := ⟨Real.sqrt (p.1 * p.1 + p.2 * p.2), Quat.atan2 p.2 p.1⟩

/-- `TransfToCart` (GeometryPoints.h:153); `PolarToCartesian` (AngleCoordUtils.h:136-140) computes the same. -/
noncomputable def Pol.toCart (p : Pol) : ℝ × ℝ := (p.r * Real.cos p.phi, p.r * Real.sin p.phi)

/-- `Dist` (GeometryPoints.h:158). -/
noncomputable def Pol.dist (p b : Pol) : Outcome ℝ := Quat.sqrtU (p.r * p.r + b.r * b.r - 2 * p.r * b.r * Real.cos (b.phi - p.phi))

open Classical in
/-- `IsEqualTo` (GeometryPoints.h:149). -/
noncomputable def Pol.isEqualTo (p b : Pol) (eps : ℝ) : Outcome Bool := do
  let d ← p.dist b
  .ret (decide (d < eps))

/-- The members of `Point3Spherical` (GeometryPoints.h:264). -/
@[ext] structure Sphr where
  r : ℝ
  theta : ℝ
  phi : ℝ

/-- The constructor from a Cartesian point (GeometryPoints.h:295-299). -/
noncomputable def Sphr.ofCart (p : V3 ℝ) : Sphr :=
  ⟨Real.sqrt (p.x * p.x + p.y * p.y + p.z * p.z), Quat.atan2 (Real.sqrt (p.x * p.x + p.y * p.y)) p.z, Quat.atan2 p.y p.x⟩

/-- `TransfToCart` (GeometryPoints.h:313-315); `CartesianFromSpherical` (GeometrySpherical.h:90-95) and `SphericalToCartesian`
(AngleCoordUtils.h:168-173) compute the same. -/
noncomputable def Sphr.toCart (p : Sphr) : V3 ℝ :=
  ⟨p.r * Real.sin p.theta * Real.cos p.phi, p.r * Real.sin p.theta * Real.sin p.phi, p.r * Real.cos p.theta⟩

/-- The cosine of the angle between the directions (GeometryPoints.h:321). -/
noncomputable def Sphr.cosGamma (p b : Sphr) : ℝ :=
  Real.cos p.theta * Real.cos b.theta + Real.sin p.theta * Real.sin b.theta * Real.cos (b.phi - p.phi)

/-- `Dist` (GeometryPoints.h:320-324). -/
noncomputable def Sphr.dist (p b : Sphr) : Outcome ℝ :=
  Quat.sqrtU (p.r * p.r + b.r * b.r - 2 * p.r * b.r * max (-1) (min (p.cosGamma b) 1))

open Classical in
/-- `IsEqualTo` (GeometryPoints.h:309). -/
noncomputable def Sphr.isEqualTo (p b : Sphr) (eps : ℝ) : Outcome Bool := do
  let d ← p.dist b
  .ret (decide (d < eps))

/-- The members of `Point3Cylindrical` (GeometryPoints.h:335). -/
@[ext] structure Cylr where
  r : ℝ
  phi : ℝ
  z : ℝ

/-- The constructor from a Cartesian point (GeometryPoints.h:366-370); `CartesianToCylindrical` (AngleCoordUtils.h:182-187) computes the same. -/
noncomputable def Cylr.ofCart (p : V3 ℝ) : Cylr := ⟨Real.sqrt (p.x * p.x + p.y * p.y), Quat.atan2 p.y p.x, p.z⟩

/-- `TransfToCart` (GeometryPoints.h:384); `CylindricalToCartesian` (AngleCoordUtils.h:196-201) computes the same. -/
noncomputable def Cylr.toCart (p : Cylr) : V3 ℝ := ⟨p.r * Real.cos p.phi, p.r * Real.sin p.phi, p.z⟩

/-- `Dist` (GeometryPoints.h:389-391). -/
noncomputable def Cylr.dist (p b : Cylr) : Outcome ℝ :=
  Quat.sqrtU (p.r * p.r + b.r * b.r - 2 * p.r * b.r * Real.cos (b.phi - p.phi) + (b.z - p.z) * (b.z - p.z))

open Classical in
/-- `IsEqualTo` (GeometryPoints.h:380). -/
noncomputable def Cylr.isEqualTo (p b : Cylr) (eps : ℝ) : Outcome Bool := do
  let d ← p.dist b
  .ret (decide (d < eps))

/-- The radius (AngleCoordUtils.h:151, GeometrySpherical.h:78-81). -/
noncomputable def radius (p : V3 ℝ) : ℝ := Real.sqrt (p.x * p.x + p.y * p.y + p.z * p.z)

open Classical in
/-- `CartesianToSpherical` (AngleCoordUtils.h:149-159). -/
noncomputable def cartToSph (p : V3 ℝ) : Outcome Sphr :=
  if radius p = 0 then .ret ⟨radius p, 0, 0⟩ else do
    let q ← Interp.fdiv p.z (radius p)
    .ret ⟨radius p, Real.arccos q, Quat.atan2 p.y p.x⟩

/-! ## The globe -/

/-- `SphericalFromLatLong` (GeometrySpherical.h:103-110). -/
noncomputable def ofLatLong (lat long : ℝ) : Sphr := ⟨1, Real.pi / 2 - degToRad lat, degToRad long⟩

/-- The law of cosines (GeometrySpherical.h:132-134). -/
noncomputable def cosAngle (p q : Sphr) : ℝ := Real.cos p.theta * Real.cos q.theta + Real.sin p.theta * Real.sin q.theta * Real.cos (p.phi - q.phi)

/-- `DistanceBetweenLatLong`, the angle (GeometrySpherical.h:126-138). -/
noncomputable def angularDist (lat1 long1 lat2 long2 : ℝ) : ℝ := Real.arccos (max (-1) (min 1 (cosAngle (ofLatLong lat1 long1) (ofLatLong lat2 long2))))

/-- `DistanceBetweenLatLong` with a radius (GeometrySpherical.h:149-153). -/
noncomputable def arcDist (radius lat1 long1 lat2 long2 : ℝ) : ℝ := radius * angularDist lat1 long1 lat2 long2

end Verif.Geom.Ang
