import Verif.Geom.Vec
import Mathlib.Analysis.SpecialFunctions.Trigonometric.Inverse
import Mathlib.Analysis.SpecialFunctions.Complex.Arg

/-!
# Model of the quaternion class

`Quaternion` (`mml/base/Quaternions.h`).  The algebraic operations are modelled over any commutative ring, the others
over the real numbers.
-/

set_option autoImplicit false

namespace Verif.Geom

/-- `Quaternion` (Quaternions.h:59-81): its array `[w, x, y, z]`. -/
@[ext] structure Quat (K : Type) where
  w : K
  x : K
  y : K
  z : K
  deriving DecidableEq

/-- A 3×3 matrix `MatrixNM<Real, 3, 3>` (MatrixNM.h:96-99): its elements by row and column. -/
abbrev M3 (K : Type) := Fin 3 → Fin 3 → K

namespace M3

variable {K : Type} [CommRing K]

/-- Matrix times vector (MatrixNM.h:507-518), the two loops written out. -/
def mulVec (m : M3 K) (b : V3 K) : V3 K :=
  ⟨0 + m 0 0 * b.x + m 0 1 * b.y + m 0 2 * b.z, 0 + m 1 0 * b.x + m 1 1 * b.y + m 1 2 * b.z,
    0 + m 2 0 * b.x + m 2 1 * b.y + m 2 2 * b.z⟩

end M3

namespace Quat

/-- `PrecisionValues<double>::QuaternionZeroThreshold` (MMLPrecision.h:143). -/
noncomputable def zeroThreshold : ℝ := 1 / 10 ^ 12

/-- `PrecisionValues<double>::DefaultTolerance` (MMLPrecision.h:146). -/
noncomputable def defaultTolerance : ℝ := 1 / 10 ^ 6

section Algebra

variable {K : Type} [CommRing K]

/-- `Identity()` and the default constructor (Quaternions.h:66, 84-87). -/
def identity : Quat K := ⟨1, 0, 0, 0⟩

/-- `Quaternion(Real, Vec3Cart)` (Quaternions.h:72-73). -/
def ofParts (w : K) (v : V3 K) : Quat K := ⟨w, v.x, v.y, v.z⟩

/-- `Quaternion(Vec3Cart)` (Quaternions.h:76-77). -/
def ofVec (v : V3 K) : Quat K := ⟨0, v.x, v.y, v.z⟩

/-- `Vector()` (Quaternions.h:175-178). -/
def vector (q : Quat K) : V3 K := ⟨q.x, q.y, q.z⟩

/-- `operator+`, `operator+=` (Quaternions.h:181-187, 233-240). -/
def add (p q : Quat K) : Quat K := ⟨p.w + q.w, p.x + q.x, p.y + q.y, p.z + q.z⟩

/-- `operator-` with two operands, `operator-=` (Quaternions.h:190-196, 243-250). -/
def sub (p q : Quat K) : Quat K := ⟨p.w - q.w, p.x - q.x, p.y - q.y, p.z - q.z⟩

/-- `operator-` with one operand (Quaternions.h:199-202). -/
def neg (q : Quat K) : Quat K := ⟨-q.w, -q.x, -q.y, -q.z⟩

/-- `operator*(Real)`, `operator*=(Real)`, `operator*(Real, Quaternion)` (Quaternions.h:205-211, 253-260, 605-608). -/
def scale (q : Quat K) (s : K) : Quat K := ⟨q.w * s, q.x * s, q.y * s, q.z * s⟩

/-- `operator*(Quaternion)`, `operator*=(Quaternion)` (Quaternions.h:222-230, 263-267). -/
def mul (p q : Quat K) : Quat K :=
  ⟨p.w * q.w - p.x * q.x - p.y * q.y - p.z * q.z, p.w * q.x + p.x * q.w + p.y * q.z - p.z * q.y,
    p.w * q.y - p.x * q.z + p.y * q.w + p.z * q.x, p.w * q.z + p.x * q.y - p.y * q.x + p.z * q.w⟩

/-- `Conjugate()` (Quaternions.h:271-274). -/
def conj (q : Quat K) : Quat K := ⟨q.w, -q.x, -q.y, -q.z⟩

/-- `NormSquared()` (Quaternions.h:277-283). -/
def normSq (q : Quat K) : K := q.w * q.w + q.x * q.x + q.y * q.y + q.z * q.z

/-- `Dot` (Quaternions.h:344-350). -/
def dot (p q : Quat K) : K := p.w * q.w + p.x * q.x + p.y * q.y + p.z * q.z

/-- `Rotate` (Quaternions.h:356-369). -/
def rotate (q : Quat K) (v : V3 K) : V3 K :=
  let u : V3 K := ⟨q.x, q.y, q.z⟩
  let uv := u.cross v
  let uuv := u.cross uv
  (v.add (uv.scale (2 * q.w))).add (uuv.scale 2)

/-- `ToRotationMatrix()` (Quaternions.h:438-460). -/
def toRotationMatrix (q : Quat K) : M3 K :=
  ![![1 - 2 * (q.y * q.y + q.z * q.z), 2 * (q.x * q.y - q.w * q.z), 2 * (q.x * q.z + q.w * q.y)],
    ![2 * (q.x * q.y + q.w * q.z), 1 - 2 * (q.x * q.x + q.z * q.z), 2 * (q.y * q.z - q.w * q.x)],
    ![2 * (q.x * q.z - q.w * q.y), 2 * (q.y * q.z + q.w * q.x), 1 - 2 * (q.x * q.x + q.y * q.y)]]

/-- `Lerp` (Quaternions.h:517-520). -/
def lerp (q1 q2 : Quat K) (t : K) : Quat K := (q1.scale (1 - t)).add (q2.scale t)

/-- `operator==` (Quaternions.h:564-570); `operator!=` (573-576) is its negation. -/
def eqb [DecidableEq K] (p q : Quat K) : Bool := p.w = q.w && p.x = q.x && p.y = q.y && p.z = q.z

end Algebra

/-- `operator/(Real)` (Quaternions.h:214-218); a zero divisor is undefined behaviour, see `V3.div`. -/
def divScalar {K : Type} [Field K] [DecidableEq K] (q : Quat K) (s : K) : Outcome (Quat K) :=
  if s = 0 then .ub else .ret (q.scale (1 / s))

/-- `Norm()` (Quaternions.h:286-289). -/
noncomputable def norm (q : Quat ℝ) : ℝ := Real.sqrt q.normSq

/-- `Inverse()` (Quaternions.h:293-304). -/
noncomputable def inverse (q : Quat ℝ) : Outcome (Quat ℝ) :=
  if q.normSq < zeroThreshold then .exn (.mml "QuaternionError")
  else .ret ⟨q.w * (1 / q.normSq), -q.x * (1 / q.normSq), -q.y * (1 / q.normSq), -q.z * (1 / q.normSq)⟩

/-- `Normalize()`, `Normalized()` (Quaternions.h:307-326). -/
noncomputable def normalized (q : Quat ℝ) : Outcome (Quat ℝ) :=
  if q.norm < zeroThreshold then .exn (.mml "QuaternionError")
  else .ret ⟨q.w * (1 / q.norm), q.x * (1 / q.norm), q.y * (1 / q.norm), q.z * (1 / q.norm)⟩

/-- `isUnit` (Quaternions.h:329-332). -/
noncomputable def isUnit (q : Quat ℝ) (tol : ℝ := defaultTolerance) : Bool := |q.normSq - 1| < tol

/-- `isIdentity` (Quaternions.h:335-341). -/
noncomputable def isIdentity (q : Quat ℝ) (tol : ℝ := defaultTolerance) : Bool :=
  |q.w - 1| < tol && |q.x| < tol && |q.y| < tol && |q.z| < tol

/-- `isApprox` (Quaternions.h:579-585). -/
noncomputable def isApprox (p q : Quat ℝ) (tol : ℝ := defaultTolerance) : Bool :=
  |p.w - q.w| < tol && |p.x - q.x| < tol && |p.y - q.y| < tol && |p.z - q.z| < tol

/-- `FromAxisAngle` (Quaternions.h:92-102). -/
noncomputable def fromAxisAngle (axis : V3 ℝ) (angle : ℝ) : Quat ℝ :=
  ⟨Real.cos (angle / 2), axis.x * Real.sin (angle / 2), axis.y * Real.sin (angle / 2), axis.z * Real.sin (angle / 2)⟩

/-- `FromEulerZYX` (Quaternions.h:109-124). -/
noncomputable def fromEulerZYX (yaw pitch roll : ℝ) : Quat ℝ :=
  let cy := Real.cos (yaw * (1 / 2))
  let sy := Real.sin (yaw * (1 / 2))
  let cp := Real.cos (pitch * (1 / 2))
  let sp := Real.sin (pitch * (1 / 2))
  let cr := Real.cos (roll * (1 / 2))
  let sr := Real.sin (roll * (1 / 2))
  ⟨cr * cp * cy + sr * sp * sy, sr * cp * cy - cr * sp * sy, cr * sp * cy + sr * cp * sy, cr * cp * sy - sr * sp * cy⟩

/-- `FromEulerXYZ` (Quaternions.h:131-146). -/
noncomputable def fromEulerXYZ (roll pitch yaw : ℝ) : Quat ℝ :=
  let cr := Real.cos (roll * (1 / 2))
  let sr := Real.sin (roll * (1 / 2))
  let cp := Real.cos (pitch * (1 / 2))
  let sp := Real.sin (pitch * (1 / 2))
  let cy := Real.cos (yaw * (1 / 2))
  let sy := Real.sin (yaw * (1 / 2))
  ⟨cr * cp * cy - sr * sp * sy, sr * cp * cy + cr * sp * sy, cr * sp * cy - sr * cp * sy, cr * cp * sy + sr * sp * cy⟩

/-- `GetRotationAxis()` (Quaternions.h:373-385). -/
noncomputable def rotationAxis (q : Quat ℝ) : Outcome (V3 ℝ) :=
  if q.isIdentity then .ret ⟨0, 0, 1⟩
  else if q.vector.norm < zeroThreshold then .ret ⟨0, 0, 1⟩
  else q.vector.div q.vector.norm

/-- The clamping of `w` (Quaternions.h:391-395). -/
noncomputable def clamp (w : ℝ) : ℝ :=
  let w := if w > 1 then 1 else w
  if w < -1 then -1 else w

/-- `GetRotationAngle()` (Quaternions.h:389-398). -/
noncomputable def rotationAngle (q : Quat ℝ) : ℝ := 2 * Real.arccos (clamp q.w)

/-- `ToAxisAngle` (Quaternions.h:403-407): axis and angle. -/
noncomputable def toAxisAngle (q : Quat ℝ) : Outcome (V3 ℝ × ℝ) := do
  let axis ← q.rotationAxis
  .ret (axis, q.rotationAngle)

/-- `std::atan2(y, x)`, without signed zeros. -/
noncomputable def atan2 (y x : ℝ) : ℝ := Complex.arg ⟨x, y⟩

/-- The pitch of `ToEulerZYX` (Quaternions.h:421-426); `copysign` of `π / 2` with a nonzero number. -/
noncomputable def pitchOf (sinp : ℝ) : ℝ :=
  if |sinp| ≥ 1 then (if sinp < 0 then -(Real.pi / 2) else Real.pi / 2) else Real.arcsin sinp

/-- `ToEulerZYX()` (Quaternions.h:411-434): the vector `(yaw, pitch, roll)`. -/
noncomputable def toEulerZYX (q : Quat ℝ) : V3 ℝ :=
  ⟨atan2 (2 * (q.w * q.z + q.x * q.y)) (1 - 2 * (q.y * q.y + q.z * q.z)), pitchOf (2 * (q.w * q.y - q.z * q.x)),
    atan2 (2 * (q.w * q.x + q.y * q.z)) (1 - 2 * (q.x * q.x + q.y * q.y))⟩

/-- The quotient of `a` by the nonzero `s`; see `V3.div`. -/
noncomputable def quot (a s : ℝ) : Outcome ℝ := if s = 0 then .ub else .ret (a / s)

/-- `std::sqrt`, whose value for a negative argument is NaN, modelled as undefined behaviour. -/
noncomputable def sqrtU (a : ℝ) : Outcome ℝ := if a < 0 then .ub else .ret (Real.sqrt a)

/-- The branch of `FromRotationMatrix` in which `w` is the largest component (Quaternions.h:472-478). -/
noncomputable def fromMatrixW (m : M3 ℝ) : Outcome (Quat ℝ) := do
  let r ← sqrtU (m 0 0 + m 1 1 + m 2 2 + 1)
  let x ← quot (m 2 1 - m 1 2) (r * 2)
  let y ← quot (m 0 2 - m 2 0) (r * 2)
  let z ← quot (m 1 0 - m 0 1) (r * 2)
  .ret ⟨1 / 4 * (r * 2), x, y, z⟩

/-- The branch in which `x` is the largest component (Quaternions.h:482-488). -/
noncomputable def fromMatrixX (m : M3 ℝ) : Outcome (Quat ℝ) := do
  let r ← sqrtU (1 + m 0 0 - m 1 1 - m 2 2)
  let w ← quot (m 2 1 - m 1 2) (r * 2)
  let y ← quot (m 0 1 + m 1 0) (r * 2)
  let z ← quot (m 0 2 + m 2 0) (r * 2)
  .ret ⟨w, 1 / 4 * (r * 2), y, z⟩

/-- The branch in which `y` is the largest component (Quaternions.h:492-498). -/
noncomputable def fromMatrixY (m : M3 ℝ) : Outcome (Quat ℝ) := do
  let r ← sqrtU (1 + m 1 1 - m 0 0 - m 2 2)
  let w ← quot (m 0 2 - m 2 0) (r * 2)
  let x ← quot (m 0 1 + m 1 0) (r * 2)
  let z ← quot (m 1 2 + m 2 1) (r * 2)
  .ret ⟨w, x, 1 / 4 * (r * 2), z⟩

/-- The branch in which `z` is the largest component (Quaternions.h:502-508). -/
noncomputable def fromMatrixZ (m : M3 ℝ) : Outcome (Quat ℝ) := do
  let r ← sqrtU (1 + m 2 2 - m 0 0 - m 1 1)
  let w ← quot (m 1 0 - m 0 1) (r * 2)
  let x ← quot (m 0 2 + m 2 0) (r * 2)
  let y ← quot (m 1 2 + m 2 1) (r * 2)
  .ret ⟨w, x, y, 1 / 4 * (r * 2)⟩

/-- `FromRotationMatrix` (Quaternions.h:466-510). -/
noncomputable def fromRotationMatrix (m : M3 ℝ) : Outcome (Quat ℝ) :=
  if m 0 0 + m 1 1 + m 2 2 > 0 then fromMatrixW m
  else if m 0 0 > m 1 1 ∧ m 0 0 > m 2 2 then fromMatrixX m
  else if m 1 1 > m 2 2 then fromMatrixY m
  else fromMatrixZ m

/-- `Slerp` after the choice of the shorter path (Quaternions.h:541-560); `dot` is the scalar product, not negative. -/
noncomputable def slerpShort (q1 q2 : Quat ℝ) (dot t : ℝ) : Outcome (Quat ℝ) :=
  if dot > 0.9995 then (lerp q1 q2 t).normalized
  else if |Real.sin (Real.arccos dot)| < 1 / 10 ^ 6 then (lerp q1 q2 t).normalized
  else .ret ((q1.scale (Real.sin ((1 - t) * Real.arccos dot) / Real.sin (Real.arccos dot))).add
    (q2.scale (Real.sin (t * Real.arccos dot) / Real.sin (Real.arccos dot))))

/-- `Slerp` (Quaternions.h:527-561). -/
noncomputable def slerp (q1 q2 : Quat ℝ) (t : ℝ) : Outcome (Quat ℝ) :=
  if q1.dot q2 < 0 then slerpShort q1 q2.neg (-(q1.dot q2)) t else slerpShort q1 q2 (q1.dot q2) t

end Quat

end Verif.Geom
