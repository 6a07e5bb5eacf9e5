import Verif.Geom.Quat
import Verif.LinAlg.GaussJordan

/-!
# Model of the coordinate transformations

`mml/core/CoordTransf/*.h`.  `transf` and `transfInverse` of each class; the component functions returned by `coordTransfFunc` and
`inverseCoordTransfFunc` are the components of these, unless stated.  `eps` is `std::numeric_limits<Real>::epsilon()`.
`Quat.atan2` is `std::atan2` without signed zeros.
-/

set_option autoImplicit false

namespace Verif.Coord

open Verif.Geom

/-! ## The plane -/

/-- A point of the plane: `Vector2Cartesian` (VectorTypes.h:30-130) or `Vector2Polar` with `(R, Phi)`. -/
@[ext] structure V2 where
  x : ℝ
  y : ℝ

/-- `CoordTransfPolarToCartesian2D::transf` (CoordTransf2D.h:35-40, 65) of `(r, φ)`. -/
noncomputable def polarToCart (q : V2) : V2 := ⟨q.x * Real.cos q.y, q.x * Real.sin q.y⟩

/-- `CoordTransfPolarToCartesian2D::transfInverse` (CoordTransf2D.h:47-52, 70). -/
noncomputable def cartToPolar (q : V2) : V2 := ⟨Real.sqrt (q.x * q.x + q.y * q.y), Quat.atan2 q.y q.x⟩

/-- `CoordTransfCart2DRotation::transf` (CoordTransf2D.h:111-114, 125-130, 145), the product with the matrix written out. -/
noncomputable def rot2 (a : ℝ) (q : V2) : V2 :=
  ⟨Real.cos a * q.x + -Real.sin a * q.y, 0 + Real.sin a * q.x + Real.cos a * q.y⟩

/-- `CoordTransfCart2DRotation::transfInverse` (CoordTransf2D.h:116-119, 135-140, 150). -/
noncomputable def rot2Inv (a : ℝ) (q : V2) : V2 :=
  ⟨0 + Real.cos a * q.x + Real.sin a * q.y, 0 + -Real.sin a * q.x + Real.cos a * q.y⟩

/-- The constructors of `CoordTransfObliqueToCartesian2D` and `CoordTransfCartesianToOblique2D` (CoordTransf2D.h:184-193, 248-257). -/
noncomputable def oblique2 (eps a : ℝ) : Outcome Unit := if |Real.sin a| < eps then .exn (.mml "ArgumentError") else .ret ()

/-- `CoordTransfObliqueToCartesian2D::transf`, `CoordTransfCartesianToOblique2D::transfInverse` (CoordTransf2D.h:198-203, 215;
272-277, 280). -/
noncomputable def obliqueToCart (a : ℝ) (q : V2) : V2 := ⟨q.x + q.y * Real.cos a, q.y * Real.sin a⟩

/-- `CoordTransfObliqueToCartesian2D::transfInverse`, `CoordTransfCartesianToOblique2D::transf` (CoordTransf2D.h:208-213, 216; 262-267,
279).  The constructor has refused angles with a zero sine. -/
noncomputable def cartToOblique (a : ℝ) (q : V2) : V2 := ⟨q.x - q.y / Real.sin a * Real.cos a, q.y / Real.sin a⟩

/-! ## Cylindrical and spherical coordinates -/

/-- `CoordTransfCylindricalToCartesian::transf`, `CoordTransfCartesianToCylindrical::transfInverse` (CoordTransfCylindrical.h:60-63, 82;
109-110, 124) of `(r, φ, z)`. -/
noncomputable def cylToCart (q : V3 ℝ) : V3 ℝ := ⟨q.x * Real.cos q.y, q.x * Real.sin q.y, q.z⟩

/-- The other direction (CoordTransfCylindrical.h:68-69, 84; 100-104, 122). -/
noncomputable def cartToCyl (q : V3 ℝ) : V3 ℝ := ⟨Real.sqrt (q.x * q.x + q.y * q.y), Quat.atan2 q.y q.x, q.z⟩

/-- `CoordTransfSphericalToCartesian::transf`, `CoordTransfCartesianToSpherical::transfInverse` (CoordTransfSpherical.h:72-76, 103;
205-207, 222) of `(r, θ, φ)`. -/
noncomputable def sphToCart (q : V3 ℝ) : V3 ℝ :=
  ⟨q.x * Real.sin q.y * Real.cos q.z, q.x * Real.sin q.y * Real.sin q.z, q.x * Real.cos q.y⟩

/-- The radius (CoordTransfSpherical.h:82, 192). -/
noncomputable def radius (q : V3 ℝ) : ℝ := Real.sqrt (q.x * q.x + q.y * q.y + q.z * q.z)

/-- `std::clamp(v, -1, 1)`. -/
noncomputable def clamp1 (v : ℝ) : ℝ := if v < -1 then -1 else if 1 < v then 1 else v

/-- The polar angle (CoordTransfSpherical.h:84-88, 194-198). -/
noncomputable def theta (eps : ℝ) (q : V3 ℝ) : ℝ :=
  if radius q < eps * 100 then 0 else Real.arccos (clamp1 (q.z / radius q))

/-- `CoordTransfSphericalToCartesian::transfInverse`, `CoordTransfCartesianToSpherical::transf` (CoordTransfSpherical.h:82-90, 105;
192-200, 220). -/
noncomputable def cartToSph (eps : ℝ) (q : V3 ℝ) : V3 ℝ := ⟨radius q, theta eps q, Quat.atan2 q.y q.x⟩

/-- `CoordTransfSphericalToCartesian::getBasisVec` (CoordTransfSpherical.h:113-126). -/
noncomputable def sphBasis (ind : ℕ) (q : V3 ℝ) : V3 ℝ :=
  match ind with
  | 0 => ⟨Real.sin q.y * Real.cos q.z, Real.sin q.y * Real.sin q.z, Real.cos q.y⟩
  | 1 => ⟨q.x * Real.cos q.y * Real.cos q.z, q.x * Real.cos q.y * Real.sin q.z, -q.x * Real.sin q.y⟩
  | 2 => ⟨-q.x * Real.sin q.y * Real.sin q.z, q.x * Real.sin q.y * Real.cos q.z, 0⟩
  | _ => ⟨0, 0, 0⟩

/-- `getUnitBasisVec` (CoordTransfSpherical.h:131-144). -/
noncomputable def sphUnit (ind : ℕ) (q : V3 ℝ) : V3 ℝ :=
  match ind with
  | 0 => ⟨Real.sin q.y * Real.cos q.z, Real.sin q.y * Real.sin q.z, Real.cos q.y⟩
  | 1 => ⟨Real.cos q.y * Real.cos q.z, Real.cos q.y * Real.sin q.z, -Real.sin q.y⟩
  | 2 => ⟨-Real.sin q.z, Real.cos q.z, 0⟩
  | _ => ⟨0, 0, 0⟩

/-- `getInverseBasisVec` (CoordTransfSpherical.h:149-162). -/
noncomputable def sphInverseBasis (ind : ℕ) (q : V3 ℝ) : V3 ℝ :=
  match ind with
  | 0 => ⟨Real.sin q.y * Real.cos q.z, q.x * Real.cos q.y * Real.cos q.z, -q.x * Real.sin q.y * Real.sin q.z⟩
  | 1 => ⟨Real.sin q.y * Real.sin q.z, q.x * Real.cos q.y * Real.sin q.z, q.x * Real.sin q.y * Real.cos q.z⟩
  | 2 => ⟨Real.cos q.y, -q.x * Real.sin q.y, 0⟩
  | _ => ⟨0, 0, 0⟩

/-- `getInverseUnitBasisVec` (CoordTransfSpherical.h:166-179). -/
noncomputable def sphInverseUnit (ind : ℕ) (q : V3 ℝ) : V3 ℝ :=
  match ind with
  | 0 => ⟨Real.sin q.y * Real.cos q.z, Real.cos q.y * Real.cos q.z, -Real.sin q.z⟩
  | 1 => ⟨Real.sin q.y * Real.sin q.z, Real.cos q.y * Real.sin q.z, Real.cos q.z⟩
  | 2 => ⟨Real.cos q.y, -Real.sin q.y, 0⟩
  | _ => ⟨0, 0, 0⟩

/-! ## Rotations -/

/-- `CoordTransfCart3DRotationXAxis::transf` (CoordTransf3D.h:66-76, 82). -/
noncomputable def rotX (a : ℝ) (q : V3 ℝ) : V3 ℝ :=
  ⟨q.x, q.y * Real.cos a - q.z * Real.sin a, q.y * Real.sin a + q.z * Real.cos a⟩

/-- `CoordTransfCart3DRotationXAxis::transfInverse` (CoordTransf3D.h:78-80, 83). -/
noncomputable def rotXInv (a : ℝ) (q : V3 ℝ) : V3 ℝ :=
  ⟨q.x, q.y * Real.cos a + q.z * Real.sin a, -q.y * Real.sin a + q.z * Real.cos a⟩

/-- `CoordTransfCart3DRotationYAxis::transf` (CoordTransf3D.h:135-137, 143). -/
noncomputable def rotY (a : ℝ) (q : V3 ℝ) : V3 ℝ :=
  ⟨q.x * Real.cos a + q.z * Real.sin a, q.y, -q.x * Real.sin a + q.z * Real.cos a⟩

/-- `CoordTransfCart3DRotationYAxis::transfInverse` (CoordTransf3D.h:139-141, 144). -/
noncomputable def rotYInv (a : ℝ) (q : V3 ℝ) : V3 ℝ :=
  ⟨q.x * Real.cos a - q.z * Real.sin a, q.y, q.x * Real.sin a + q.z * Real.cos a⟩

/-- `CoordTransfCart3DRotationZAxis::transf` (CoordTransf3D.h:196-198, 204). -/
noncomputable def rotZ (a : ℝ) (q : V3 ℝ) : V3 ℝ :=
  ⟨q.x * Real.cos a - q.y * Real.sin a, q.x * Real.sin a + q.y * Real.cos a, q.z⟩

/-- `CoordTransfCart3DRotationZAxis::transfInverse` (CoordTransf3D.h:200-202, 205). -/
noncomputable def rotZInv (a : ℝ) (q : V3 ℝ) : V3 ℝ :=
  ⟨q.x * Real.cos a + q.y * Real.sin a, -q.x * Real.sin a + q.y * Real.cos a, q.z⟩

/-- `buildEulerZYZMatrix` (CoordTransf3D.h:244-261). -/
noncomputable def eulerMatrix (α β γ : ℝ) : M3 ℝ :=
  ![![Real.cos α * Real.cos β * Real.cos γ - Real.sin α * Real.sin γ, -Real.cos α * Real.cos β * Real.sin γ - Real.sin α * Real.cos γ,
      Real.cos α * Real.sin β],
    ![Real.sin α * Real.cos β * Real.cos γ + Real.cos α * Real.sin γ, -Real.sin α * Real.cos β * Real.sin γ + Real.cos α * Real.cos γ,
      Real.sin α * Real.sin β],
    ![-Real.sin β * Real.cos γ, Real.sin β * Real.sin γ, Real.cos β]]

/-- `CoordTransfCart3DRotationEuler::transf` (CoordTransf3D.h:270, 280-282, 288-291). -/
noncomputable def euler (α β γ : ℝ) (q : V3 ℝ) : V3 ℝ := (eulerMatrix α β γ).mulVec q

/-- `CoordTransfCart3DRotationEuler::transfInverse` (CoordTransf3D.h:271, 284-286, 292-295). -/
noncomputable def eulerInv (α β γ : ℝ) (q : V3 ℝ) : V3 ℝ := (eulerMatrix (-γ) (-β) (-α)).mulVec q

/-! ## Other bases -/

/-- `PrecisionValues<double>::OrthogonalityTolerance` (MMLPrecision.h:155). -/
noncomputable def orthTol : ℝ := 1 / 10 ^ 10

/-- `PrecisionValues<double>::LinearDependenceTolerance` (MMLPrecision.h:156). -/
noncomputable def depTol : ℝ := 1 / 10 ^ 12

/-- A transformation by a matrix, with the matrix of its inverse. -/
structure Linear where
  fwd : M3 ℝ
  bwd : M3 ℝ

/-- The constructor of `CoordTransf3DCartOrthogonal` (CoordTransf3D.h:341-374); `transf` and `transfInverse` multiply by the two
matrices (327-333, 379-380). -/
noncomputable def orthogonal (b1 b2 b3 : V3 ℝ) : Outcome Linear :=
  if |b1.dot b2| > orthTol ∨ |b1.dot b3| > orthTol ∨ |b2.dot b3| > orthTol then .exn (.mml "GeometryError")
  else .ret ⟨![![b1.x, b1.y, b1.z], ![b2.x, b2.y, b2.z], ![b3.x, b3.y, b3.z]],
    ![![b1.x, b2.x, b3.x], ![b1.y, b2.y, b3.y], ![b1.z, b2.z, b3.z]]⟩

/-- `CoordTransf3DCartOrthogonal::IsRightHanded`, `CoordTransf3DCartGeneral::IsRightHanded`,
`CoordTransfCartesianToOblique3D::IsRightHanded` (CoordTransf3D.h:395-402, 476-483, 587-594). -/
noncomputable def isRightHanded (b1 b2 b3 : V3 ℝ) : Bool := decide ((b1.cross b2).dot b3 > 0)

/-- The rows of a matrix one after the other (`MatrixNM` and `Matrix` store them in that order, MatrixNM.h:99, Matrix.h:75-82). -/
def M3.toDense (m : M3 ℝ) : Mat.Dense ℝ := ⟨3, 3, [m 0 0, m 0 1, m 0 2, m 1 0, m 1 1, m 1 2, m 2 0, m 2 1, m 2 2]⟩

/-- Back from the rows. -/
noncomputable def M3.ofDense (d : Mat.Dense ℝ) : M3 ℝ := fun i j => d.data.getD (3 * i.1 + j.1) 0

/-- `MatrixNM<Real, 3, 3>::GetInverse` (MatrixNM.h:612-702): the same elimination as `Matrix::Invert` (Matrix.h:1090-1163), with a right-hand
side that is not used. -/
noncomputable def M3.inverse (eps : ℝ) (m : M3 ℝ) : Outcome (M3 ℝ) := do
  let d ← LinAlg.invert eps (M3.toDense m)
  .ret (M3.ofDense d)

/-- The constructor of `CoordTransf3DCartGeneral` (CoordTransf3D.h:435-455); `transf` and `transfInverse` multiply by the two
matrices (423-429, 460-461). -/
noncomputable def general (eps : ℝ) (m : M3 ℝ) : Outcome Linear := do
  let v ← M3.inverse eps m
  .ret ⟨m, v⟩

/-- `CoordTransfCartesianToOblique3D` (CoordTransf3D.h:491-497): the base, its dual and the matrix of the base. -/
structure Oblique where
  base : Fin 3 → V3 ℝ
  dual : Fin 3 → V3 ℝ
  mat : M3 ℝ

/-- The matrix with the base vectors as columns (CoordTransf3D.h:526-530). -/
def columns (b : Fin 3 → V3 ℝ) : M3 ℝ := ![fun i => (b i).x, fun i => (b i).y, fun i => (b i).z]

/-- The volume of the base (CoordTransf3D.h:532). -/
def volume (b : Fin 3 → V3 ℝ) : ℝ := (b 0).dot ((b 1).cross (b 2))

/-- The constructor of `CoordTransfCartesianToOblique3D` (CoordTransf3D.h:516-543).  The inverse matrix is computed but not used. -/
noncomputable def oblique3 (eps : ℝ) (b : Fin 3 → V3 ℝ) : Outcome Oblique :=
  if |volume b| < depTol then .exn (.mml "SingularMatrixError")
  else do
    let _ ← M3.inverse eps (columns b)
    .ret ⟨b, ![((b 1).cross (b 2)).scale (1 / volume b), ((b 2).cross (b 0)).scale (1 / volume b), ((b 0).cross (b 1)).scale (1 / volume b)],
      columns b⟩

/-- `CoordTransfCartesianToOblique3D::transf` (CoordTransf3D.h:556-564). -/
def Oblique.transf (t : Oblique) (q : V3 ℝ) : V3 ℝ := ⟨q.dot (t.dual 0), q.dot (t.dual 1), q.dot (t.dual 2)⟩

/-- `CoordTransfCartesianToOblique3D::transfInverse` (CoordTransf3D.h:569-572). -/
def Oblique.transfInverse (t : Oblique) (q : V3 ℝ) : V3 ℝ := t.mat.mulVec q

/-! ## Rotation by a quaternion -/

/-- The constructor of `CoordTransfCart3DRotationQuaternion` (CoordTransf3D.h:643-656, 660-670): the quaternion kept. -/
noncomputable def quatRot (q : Quat ℝ) : Outcome (Quat ℝ) := if q.isUnit then .ret q else q.normalized

/-- The component functions (CoordTransf3D.h:650, 715-728) together. -/
noncomputable def quatFunc (q : Quat ℝ) (v : V3 ℝ) : V3 ℝ := q.toRotationMatrix.mulVec v

/-- The component functions of the inverse (CoordTransf3D.h:654-655, 731-744) together. -/
noncomputable def quatFuncInverse (q : Quat ℝ) (v : V3 ℝ) : V3 ℝ := q.conj.toRotationMatrix.mulVec v

/-- `transf` (CoordTransf3D.h:747-750). -/
def quatTransf (q : Quat ℝ) (v : V3 ℝ) : V3 ℝ := q.rotate v

/-- `transfInverse` (CoordTransf3D.h:753-756). -/
def quatTransfInverse (q : Quat ℝ) (v : V3 ℝ) : V3 ℝ := q.conj.rotate v

/-- `Compose` (CoordTransf3D.h:784-788). -/
noncomputable def quatCompose (q other : Quat ℝ) : Outcome (Quat ℝ) := quatRot (other.mul q)

/-! ## Space-time -/

/-- `Vector4Minkowski` (VectorTypes.h:902-925). -/
@[ext] structure V4 where
  t : ℝ
  x : ℝ
  y : ℝ
  z : ℝ

namespace V4

/-- `ScalarProduct` (VectorTypes.h:931-934). -/
def dot (a b : V4) : ℝ := a.t * b.t - a.x * b.x - a.y * b.y - a.z * b.z

/-- `isTimelike` (VectorTypes.h:960-963). -/
noncomputable def isTimelike (a : V4) : Bool := decide (-a.t * a.t + a.x * a.x + a.y * a.y + a.z * a.z < 0)

/-- `isSpacelike` (VectorTypes.h:965-968). -/
noncomputable def isSpacelike (a : V4) : Bool := decide (-a.t * a.t + a.x * a.x + a.y * a.y + a.z * a.z > 0)

/-- `isLightlike` (VectorTypes.h:970-973). -/
noncomputable def isLightlike (a : V4) : Bool := decide (a.t * a.t - a.x * a.x - a.y * a.y - a.z * a.z = 0)

/-- `Norm` (VectorTypes.h:937-950). -/
noncomputable def norm (a : V4) : ℝ :=
  if a.t = 0 ∧ a.x = 0 ∧ a.y = 0 ∧ a.z = 0 then 0
  else if a.isTimelike then Real.sqrt (a.t * a.t - a.x * a.x - a.y * a.y - a.z * a.z)
  else if a.isSpacelike then -Real.sqrt (a.x * a.x + a.y * a.y + a.z * a.z - a.t * a.t)
  else 0

/-- `Distance` (VectorTypes.h:953-957); NaN is undefined behaviour here. -/
noncomputable def distance (a b : V4) : Outcome ℝ :=
  Quat.sqrtU ((a.t - b.t) * (a.t - b.t) - (a.x - b.x) * (a.x - b.x) - (a.y - b.y) * (a.y - b.y) - (a.z - b.z) * (a.z - b.z))

end V4

/-- The Lorentz factor (CoordTransfLorentz.h:62). -/
noncomputable def gamma (β : ℝ) : ℝ := 1 / Real.sqrt (1 - β * β)

/-- The constructor of `CoordTransfLorentzXAxis` (CoordTransfLorentz.h:49-78); `std::range_error` is thrown. -/
noncomputable def lorentz (β : ℝ) : Outcome ℝ := if β < 0 ∨ β ≥ 1 then .exn (.mml "std::range_error") else .ret β

/-- `CoordTransfLorentzXAxis::transf` (CoordTransfLorentz.h:65-70, 81-84, 95), the product with the matrix written out; the elements that are
not set are zero (MatrixNM.h:99). -/
noncomputable def boost (β : ℝ) (q : V4) : V4 :=
  ⟨0 + gamma β * q.t + -β * gamma β * q.x + 0 * q.y + 0 * q.z, 0 + -β * gamma β * q.t + gamma β * q.x + 0 * q.y + 0 * q.z,
    0 + 0 * q.t + 0 * q.x + 1 * q.y + 0 * q.z, 0 + 0 * q.t + 0 * q.x + 0 * q.y + 1 * q.z⟩

/-- `CoordTransfLorentzXAxis::transfInverse` (CoordTransfLorentz.h:72-77, 87-90, 99-101). -/
noncomputable def boostInv (β : ℝ) (q : V4) : V4 :=
  ⟨0 + gamma β * q.t + β * gamma β * q.x + 0 * q.y + 0 * q.z, 0 + β * gamma β * q.t + gamma β * q.x + 0 * q.y + 0 * q.z,
    0 + 0 * q.t + 0 * q.x + 1 * q.y + 0 * q.z, 0 + 0 * q.t + 0 * q.x + 0 * q.y + 1 * q.z⟩

end Verif.Coord
