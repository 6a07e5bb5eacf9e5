import Verif.Coord.Transf
import Verif.Geom.QuatProps
import Verif.LinAlg.GJProps
import Mathlib.Tactic
import Mathlib.Analysis.SpecialFunctions.Trigonometric.Deriv

/-!
# Coordinate transformations are inverted by their inverses (C101)
-/

set_option autoImplicit false

namespace Verif.Coord

open Verif.Geom

/-! ## The plane -/

theorem sqrt_norm (x y : ℝ) : Real.sqrt (x * x + y * y) = ‖(⟨x, y⟩ : ℂ)‖ := by
  rw [Complex.norm_def, Complex.normSq_mk]

theorem polar_cos (x y : ℝ) : Real.sqrt (x * x + y * y) * Real.cos (Quat.atan2 y x) = x := by
  rw [sqrt_norm, Quat.atan2, Complex.norm_mul_cos_arg]

theorem polar_sin (x y : ℝ) : Real.sqrt (x * x + y * y) * Real.sin (Quat.atan2 y x) = y := by
  rw [sqrt_norm, Quat.atan2, Complex.norm_mul_sin_arg]

theorem atan2_polar {r φ : ℝ} (hr : 0 < r) (h : φ ∈ Set.Ioc (-Real.pi) Real.pi) : Quat.atan2 (r * Real.sin φ) (r * Real.cos φ) = φ := by
  have e : (⟨r * Real.cos φ, r * Real.sin φ⟩ : ℂ) = r * (Complex.cos φ + Complex.sin φ * Complex.I) := by
    apply Complex.ext
    · simp [Complex.cos_ofReal_re, Complex.sin_ofReal_im]
    · simp [Complex.cos_ofReal_im, Complex.sin_ofReal_re]
  rw [Quat.atan2, e, Complex.arg_mul_cos_add_sin_mul_I hr h]

theorem sqrt_polar {r φ : ℝ} (hr : 0 ≤ r) : Real.sqrt (r * Real.cos φ * (r * Real.cos φ) + r * Real.sin φ * (r * Real.sin φ)) = r := by
  rw [show r * Real.cos φ * (r * Real.cos φ) + r * Real.sin φ * (r * Real.sin φ) = r ^ 2 * (Real.sin φ ^ 2 + Real.cos φ ^ 2) by ring,
    Real.sin_sq_add_cos_sq, mul_one, Real.sqrt_sq hr]

/-- Polar coordinates: every point comes back, the radius is not negative and the angle is in `(-π, π]`; coordinates in that range come
back unless the radius is zero. -/
theorem polar_inverse (p q : V2) :
    polarToCart (cartToPolar p) = p ∧ 0 ≤ (cartToPolar p).x ∧ (cartToPolar p).y ∈ Set.Ioc (-Real.pi) Real.pi ∧
    (0 < q.x → q.y ∈ Set.Ioc (-Real.pi) Real.pi → cartToPolar (polarToCart q) = q) := by
  refine ⟨V2.ext (polar_cos _ _) (polar_sin _ _), Real.sqrt_nonneg _, Complex.arg_mem_Ioc _, fun h1 h2 => ?_⟩
  exact V2.ext (sqrt_polar h1.le) (atan2_polar h1 h2)

/-- Rotations of the plane: inverse in both orders, lengths are kept, angles add, and a quarter of a turn takes the first axis to the
second. -/
theorem rot2_inverse (a b : ℝ) (q : V2) :
    rot2Inv a (rot2 a q) = q ∧ rot2 a (rot2Inv a q) = q ∧ rot2 a (rot2 b q) = rot2 (a + b) q ∧
    (rot2 a q).x ^ 2 + (rot2 a q).y ^ 2 = q.x ^ 2 + q.y ^ 2 ∧ rot2 (Real.pi / 2) ⟨1, 0⟩ = ⟨0, 1⟩ := by
  have h := Real.sin_sq_add_cos_sq a
  refine ⟨?_, ?_, ?_, ?_, ?_⟩
  · ext <;> simp only [rot2, rot2Inv]
    · linear_combination q.x * h
    · linear_combination q.y * h
  · ext <;> simp only [rot2, rot2Inv]
    · linear_combination q.x * h
    · linear_combination q.y * h
  · ext <;> simp only [rot2, Real.cos_add, Real.sin_add] <;> ring
  · simp only [rot2]
    linear_combination (q.x ^ 2 + q.y ^ 2) * h
  · ext <;> simp [rot2]

/-- Rotating a point given in polar coordinates adds to its angle. -/
theorem rot2_polar (a : ℝ) (q : V2) : rot2 a (polarToCart q) = polarToCart ⟨q.x, q.y + a⟩ := by
  ext <;> simp only [rot2, polarToCart, Real.cos_add, Real.sin_add] <;> ring

/-- Oblique coordinates of the plane: inverse in both orders for every angle accepted; the coordinate vectors are the unit vectors at the
angles 0 and `a`; angles with a sine below `eps` are refused. -/
theorem oblique2_inverse {eps a : ℝ} (he : 0 < eps) :
    (oblique2 eps a = .ret () → ∀ q, obliqueToCart a (cartToOblique a q) = q ∧ cartToOblique a (obliqueToCart a q) = q) ∧
    (∀ q, obliqueToCart a q = ⟨q.x * 1 + q.y * Real.cos a, q.x * 0 + q.y * Real.sin a⟩) ∧
    (oblique2 eps a = .exn (.mml "ArgumentError") ↔ |Real.sin a| < eps) ∧ (Real.sin a = 0 → oblique2 eps a ≠ .ret ()) := by
  refine ⟨fun h q => ?_, fun q => by simp [obliqueToCart], ?_, fun h => ?_⟩
  · have hs : Real.sin a ≠ 0 := by
      intro h0
      rw [oblique2, h0, abs_zero, if_pos he] at h
      simp at h
    constructor
    · ext <;> simp only [obliqueToCart, cartToOblique] <;> field_simp <;> ring
    · ext <;> simp only [obliqueToCart, cartToOblique] <;> field_simp <;> ring
  · rw [oblique2]
    split_ifs with h <;> simp [h]
  · rw [oblique2, h, abs_zero, if_pos he]
    simp

/-! ## Cylindrical and spherical coordinates -/

/-- Cylindrical coordinates. -/
theorem cylindrical_inverse (p q : V3 ℝ) :
    cylToCart (cartToCyl p) = p ∧ 0 ≤ (cartToCyl p).x ∧ (cartToCyl p).y ∈ Set.Ioc (-Real.pi) Real.pi ∧
    (0 < q.x → q.y ∈ Set.Ioc (-Real.pi) Real.pi → cartToCyl (cylToCart q) = q) := by
  refine ⟨V3.ext (polar_cos _ _) (polar_sin _ _) rfl, Real.sqrt_nonneg _, Complex.arg_mem_Ioc _, fun h1 h2 => ?_⟩
  exact V3.ext (sqrt_polar h1.le) (atan2_polar h1 h2) rfl

theorem radius_sq (p : V3 ℝ) : radius p * radius p = p.x * p.x + p.y * p.y + p.z * p.z :=
  Real.mul_self_sqrt (add_nonneg (add_nonneg (mul_self_nonneg _) (mul_self_nonneg _)) (mul_self_nonneg _))

theorem clamp1_eq {v : ℝ} (h : -1 ≤ v ∧ v ≤ 1) : clamp1 v = v := by
  rw [clamp1, if_neg (by linarith), if_neg (by linarith)]

theorem abs_z_le (p : V3 ℝ) : |p.z| ≤ radius p := by
  rw [radius, ← Real.sqrt_mul_self_eq_abs]
  exact Real.sqrt_le_sqrt (by nlinarith [mul_self_nonneg p.x, mul_self_nonneg p.y])

theorem quotient_mem {p : V3 ℝ} (h : 0 < radius p) : -1 ≤ p.z / radius p ∧ p.z / radius p ≤ 1 := by
  have := abs_le.1 (abs_z_le p)
  exact ⟨by rw [le_div_iff₀ h]; linarith, by rw [div_le_iff₀ h]; linarith⟩

/-- Spherical coordinates of points: the radius is the distance from the origin, the angles are in `[0, π]` and `(-π, π]`.  A point at least
`100 eps` from the origin, and the origin, come back; every other comes back at the same distance from the origin. -/
theorem spherical_inverse {eps : ℝ} (he : 0 < eps) (p : V3 ℝ) :
    (cartToSph eps p).x = p.norm ∧ (cartToSph eps p).y ∈ Set.Icc 0 Real.pi ∧ (cartToSph eps p).z ∈ Set.Ioc (-Real.pi) Real.pi ∧
    (100 * eps ≤ p.norm ∨ p = ⟨0, 0, 0⟩ → sphToCart (cartToSph eps p) = p) ∧ (sphToCart (cartToSph eps p)).norm = p.norm := by
  have hr : radius p = p.norm := by rw [radius, V3.norm, zero_add]
  refine ⟨hr, ?_, Complex.arg_mem_Ioc _, ?_, ?_⟩
  · rw [cartToSph, theta]
    split_ifs
    · exact ⟨le_rfl, Real.pi_pos.le⟩
    · exact ⟨Real.arccos_nonneg _, Real.arccos_le_pi _⟩
  · rintro (h | rfl)
    · have h0 : 0 < radius p := by rw [hr]; linarith
      have hc := quotient_mem h0
      have e : theta eps p = Real.arccos (p.z / radius p) := by
        rw [theta, if_neg (by rw [hr]; linarith), clamp1_eq hc]
      have hs : radius p * Real.sin (theta eps p) = Real.sqrt (p.x * p.x + p.y * p.y) := by
        rw [e, Real.sin_arccos]
        nth_rewrite 1 [← Real.sqrt_sq h0.le]
        rw [← Real.sqrt_mul (sq_nonneg _)]
        congr 1
        have := radius_sq p
        field_simp
        linarith
      ext
      · show radius p * Real.sin (theta eps p) * Real.cos (Quat.atan2 p.y p.x) = p.x
        rw [hs, polar_cos]
      · show radius p * Real.sin (theta eps p) * Real.sin (Quat.atan2 p.y p.x) = p.y
        rw [hs, polar_sin]
      · show radius p * Real.cos (theta eps p) = p.z
        rw [e, Real.cos_arccos hc.1 hc.2]
        field_simp
    · ext <;> simp [sphToCart, cartToSph, radius]
  · have hn : 0 ≤ radius p := Real.sqrt_nonneg _
    rw [← hr]
    have : (sphToCart (cartToSph eps p)).norm = Real.sqrt (radius p ^ 2) := by
      rw [V3.norm]
      congr 1
      simp only [sphToCart, cartToSph]
      have h1 := Real.sin_sq_add_cos_sq (theta eps p)
      have h2 := Real.sin_sq_add_cos_sq (Quat.atan2 p.y p.x)
      linear_combination (radius p ^ 2) * h1 + radius p ^ 2 * Real.sin (theta eps p) ^ 2 * h2
    rw [this, Real.sqrt_sq hn]

/-- Spherical coordinates in range come back, away from the origin and the axis. -/
theorem spherical_inverse' {eps : ℝ} (he : 0 < eps) {q : V3 ℝ} (h1 : 100 * eps ≤ q.x) (h2 : q.y ∈ Set.Ioo 0 Real.pi)
    (h3 : q.z ∈ Set.Ioc (-Real.pi) Real.pi) : cartToSph eps (sphToCart q) = q := by
  have h0 : 0 < q.x := by linarith
  have hr : radius (sphToCart q) = q.x := by
    rw [radius]
    have : (sphToCart q).x * (sphToCart q).x + (sphToCart q).y * (sphToCart q).y + (sphToCart q).z * (sphToCart q).z = q.x ^ 2 := by
      simp only [sphToCart]
      have h1 := Real.sin_sq_add_cos_sq q.y
      have h2 := Real.sin_sq_add_cos_sq q.z
      linear_combination (q.x ^ 2) * h1 + q.x ^ 2 * Real.sin q.y ^ 2 * h2
    rw [this, Real.sqrt_sq h0.le]
  ext
  · exact hr
  · show theta eps (sphToCart q) = q.y
    have hz : (sphToCart q).z / q.x = Real.cos q.y := by
      show q.x * Real.cos q.y / q.x = _
      field_simp
    rw [theta, hr, if_neg (by linarith), hz, clamp1_eq ⟨Real.neg_one_le_cos _, Real.cos_le_one _⟩, Real.arccos_cos h2.1.le h2.2.le]
  · exact atan2_polar (mul_pos h0 (Real.sin_pos_of_pos_of_lt_pi h2.1 h2.2)) h3

/-- A point closer to the origin than `100 eps` does not come back unless it is on the positive axis. -/
theorem spherical_tiny : sphToCart (cartToSph 1 ⟨1, 0, 0⟩) = ⟨0, 0, 1⟩ := by
  have : radius ⟨1, 0, 0⟩ = 1 := by norm_num [radius]
  ext <;> simp [sphToCart, cartToSph, theta, this]

/-- The vectors `getBasisVec` returns are the partial derivatives of the point. -/
theorem sphBasis_deriv (r θ φ : ℝ) :
    (HasDerivAt (fun s => (sphToCart ⟨s, θ, φ⟩).x) (sphBasis 0 ⟨r, θ, φ⟩).x r ∧
      HasDerivAt (fun s => (sphToCart ⟨s, θ, φ⟩).y) (sphBasis 0 ⟨r, θ, φ⟩).y r ∧
      HasDerivAt (fun s => (sphToCart ⟨s, θ, φ⟩).z) (sphBasis 0 ⟨r, θ, φ⟩).z r) ∧
    (HasDerivAt (fun s => (sphToCart ⟨r, s, φ⟩).x) (sphBasis 1 ⟨r, θ, φ⟩).x θ ∧
      HasDerivAt (fun s => (sphToCart ⟨r, s, φ⟩).y) (sphBasis 1 ⟨r, θ, φ⟩).y θ ∧
      HasDerivAt (fun s => (sphToCart ⟨r, s, φ⟩).z) (sphBasis 1 ⟨r, θ, φ⟩).z θ) ∧
    HasDerivAt (fun s => (sphToCart ⟨r, θ, s⟩).x) (sphBasis 2 ⟨r, θ, φ⟩).x φ ∧
      HasDerivAt (fun s => (sphToCart ⟨r, θ, s⟩).y) (sphBasis 2 ⟨r, θ, φ⟩).y φ ∧
      HasDerivAt (fun s => (sphToCart ⟨r, θ, s⟩).z) (sphBasis 2 ⟨r, θ, φ⟩).z φ := by
  have id' := hasDerivAt_id r
  have sθ := Real.hasDerivAt_sin θ
  have cθ := Real.hasDerivAt_cos θ
  have sφ := Real.hasDerivAt_sin φ
  have cφ := Real.hasDerivAt_cos φ
  refine ⟨⟨?_, ?_, ?_⟩, ⟨?_, ?_, ?_⟩, ?_, ?_, ?_⟩ <;> simp only [sphToCart, sphBasis]
  · exact ((id'.mul_const _).mul_const _).congr_deriv (by ring)
  · exact ((id'.mul_const _).mul_const _).congr_deriv (by ring)
  · exact (id'.mul_const _).congr_deriv (by ring)
  · exact (sθ.const_mul r).mul_const _
  · exact (sθ.const_mul r).mul_const _
  · exact (cθ.const_mul r).congr_deriv (by ring)
  · exact (cφ.const_mul (r * Real.sin θ)).congr_deriv (by ring)
  · exact (sφ.const_mul (r * Real.sin θ))
  · exact hasDerivAt_const φ _

/-- The unit vectors are orthonormal and right-handed, and the basis vectors are multiples of them. -/
theorem sphUnit_orthonormal (q : V3 ℝ) :
    (∀ i < 3, (sphUnit i q).dot (sphUnit i q) = 1) ∧ (sphUnit 0 q).cross (sphUnit 1 q) = sphUnit 2 q ∧
    (sphUnit 0 q).dot (sphUnit 1 q) = 0 ∧ (sphUnit 0 q).dot (sphUnit 2 q) = 0 ∧ (sphUnit 1 q).dot (sphUnit 2 q) = 0 ∧
    sphBasis 0 q = sphUnit 0 q ∧ sphBasis 1 q = (sphUnit 1 q).scale q.x ∧ sphBasis 2 q = (sphUnit 2 q).scale (q.x * Real.sin q.y) := by
  have h1 := Real.sin_sq_add_cos_sq q.y
  have h2 := Real.sin_sq_add_cos_sq q.z
  refine ⟨fun i hi => ?_, ?_, ?_, ?_, ?_, rfl, ?_, ?_⟩
  · interval_cases i <;> simp only [sphUnit, V3.dot]
    · linear_combination h1 + Real.sin q.y ^ 2 * h2
    · linear_combination h1 + Real.cos q.y ^ 2 * h2
    · linear_combination h2
  · ext <;> simp only [sphUnit, V3.cross]
    · linear_combination -Real.sin q.z * h1
    · linear_combination Real.cos q.z * h1
    · ring
  · simp only [sphUnit, V3.dot]
    linear_combination Real.sin q.y * Real.cos q.y * h2
  · simp only [sphUnit, V3.dot]; ring
  · simp only [sphUnit, V3.dot]; ring
  · ext <;> simp only [sphUnit, sphBasis, V3.scale] <;> ring
  · ext <;> simp only [sphUnit, sphBasis, V3.scale] <;> ring

/-- `getInverseUnitBasisVec` gives the Cartesian unit vectors in terms of the spherical ones. -/
theorem sphInverseUnit_spec (q : V3 ℝ) (i : ℕ) (hi : i < 3) :
    let c := sphInverseUnit i q
    (((sphUnit 0 q).scale c.x).add ((sphUnit 1 q).scale c.y)).add ((sphUnit 2 q).scale c.z) =
      (match i with | 0 => ⟨1, 0, 0⟩ | 1 => ⟨0, 1, 0⟩ | _ => ⟨0, 0, 1⟩ : V3 ℝ) := by
  have h1 := Real.sin_sq_add_cos_sq q.y
  have h2 := Real.sin_sq_add_cos_sq q.z
  interval_cases i <;> simp only [sphUnit, sphInverseUnit, V3.scale, V3.add] <;> ext <;> simp only
  · linear_combination h2 + Real.cos q.z ^ 2 * h1
  · linear_combination Real.cos q.z * Real.sin q.z * h1
  · ring
  · linear_combination Real.cos q.z * Real.sin q.z * h1
  · linear_combination h2 + Real.sin q.z ^ 2 * h1
  · ring
  · ring
  · ring
  · linear_combination h1

/-- **Disagreement.**  `getInverseBasisVec`, documented as the dual basis, returns the rows of the matrix whose columns are the basis vectors, which
do not give the Cartesian vectors: at radius 2 on the first axis, the third row is `(0, -2, 0)` and `-2` times the second basis vector
is `(0, 0, 4)`. -/
theorem sphInverseBasis_not_dual :
    let q : V3 ℝ := ⟨2, Real.pi / 2, 0⟩
    let c := sphInverseBasis 2 q
    (((sphBasis 0 q).scale c.x).add ((sphBasis 1 q).scale c.y)).add ((sphBasis 2 q).scale c.z) = ⟨0, 0, 4⟩ := by
  ext <;> simp [sphBasis, sphInverseBasis, V3.scale, V3.add] <;> norm_num

/-! ## Rotations -/

/-- The rotations about the axes are those of the quaternions. -/
theorem rot_quaternion (a : ℝ) (v : V3 ℝ) :
    rotX a v = (Quat.fromAxisAngle ⟨1, 0, 0⟩ a).rotate v ∧ rotY a v = (Quat.fromAxisAngle ⟨0, 1, 0⟩ a).rotate v ∧
    rotZ a v = (Quat.fromAxisAngle ⟨0, 0, 1⟩ a).rotate v := by
  have hs : Real.sin a = 2 * Real.sin (a / 2) * Real.cos (a / 2) := by rw [← Real.sin_two_mul]; congr 1; ring
  have hc : Real.cos a = 1 - 2 * Real.sin (a / 2) ^ 2 := by
    have h1 : Real.cos a = 2 * Real.cos (a / 2) ^ 2 - 1 := by rw [← Real.cos_two_mul]; congr 1; ring
    have h2 := Real.sin_sq_add_cos_sq (a / 2)
    linarith
  refine ⟨?_, ?_, ?_⟩ <;> ext <;> simp only [rotX, rotY, rotZ, Quat.fromAxisAngle, Quat.rotate, V3.cross, V3.add, V3.scale, hs, hc] <;> ring

/-- Rotations about the axes: inverse in both orders, and angles add. -/
theorem rot_inverse (a b : ℝ) (v : V3 ℝ) :
    (rotXInv a (rotX a v) = v ∧ rotX a (rotXInv a v) = v ∧ rotX a (rotX b v) = rotX (a + b) v) ∧
    (rotYInv a (rotY a v) = v ∧ rotY a (rotYInv a v) = v ∧ rotY a (rotY b v) = rotY (a + b) v) ∧
    rotZInv a (rotZ a v) = v ∧ rotZ a (rotZInv a v) = v ∧ rotZ a (rotZ b v) = rotZ (a + b) v := by
  have h := Real.sin_sq_add_cos_sq a
  refine ⟨⟨?_, ?_, ?_⟩, ⟨?_, ?_, ?_⟩, ?_, ?_, ?_⟩ <;> ext <;>
    simp only [rotX, rotXInv, rotY, rotYInv, rotZ, rotZInv, Real.cos_add, Real.sin_add] <;>
    first
    | ring1
    | linear_combination v.x * h
    | linear_combination v.y * h
    | linear_combination v.z * h

/-- Rotations keep scalar products and orientation. -/
theorem rot_isometry (a : ℝ) (u v : V3 ℝ) :
    ((rotX a u).dot (rotX a v) = u.dot v ∧ (rotX a u).cross (rotX a v) = rotX a (u.cross v)) ∧
    ((rotY a u).dot (rotY a v) = u.dot v ∧ (rotY a u).cross (rotY a v) = rotY a (u.cross v)) ∧
    (rotZ a u).dot (rotZ a v) = u.dot v ∧ (rotZ a u).cross (rotZ a v) = rotZ a (u.cross v) := by
  have h : ∀ n : V3 ℝ, n.dot n = 1 → (Quat.fromAxisAngle n a).normSq = 1 := by
    intro n hn
    have h1 := Real.sin_sq_add_cos_sq (a / 2)
    simp only [V3.dot] at hn
    simp only [Quat.fromAxisAngle, Quat.normSq]
    linear_combination h1 + Real.sin (a / 2) ^ 2 * hn
  have hx := h ⟨1, 0, 0⟩ (by norm_num [V3.dot])
  have hy := h ⟨0, 1, 0⟩ (by norm_num [V3.dot])
  have hz := h ⟨0, 0, 1⟩ (by norm_num [V3.dot])
  simp only [(rot_quaternion a _).1, (rot_quaternion a _).2.1, (rot_quaternion a _).2.2]
  exact ⟨⟨Quat.rotate_dot _ _ _ hx, Quat.rotate_cross _ _ _ hx⟩, ⟨Quat.rotate_dot _ _ _ hy, Quat.rotate_cross _ _ _ hy⟩,
    Quat.rotate_dot _ _ _ hz, Quat.rotate_cross _ _ _ hz⟩

/-- The Euler transformation is the rotation by `γ` about the third axis, then `β` about the second, then `α` about the third; and its inverse
undoes it in both orders. -/
theorem euler_inverse (α β γ : ℝ) (v : V3 ℝ) :
    euler α β γ v = rotZ α (rotY β (rotZ γ v)) ∧ eulerInv α β γ (euler α β γ v) = v ∧ euler α β γ (eulerInv α β γ v) = v := by
  have key : ∀ (α β γ : ℝ) (v : V3 ℝ), euler α β γ v = rotZ α (rotY β (rotZ γ v)) := by
    intro α β γ v
    ext <;> simp [euler, eulerMatrix, M3.mulVec, rotZ, rotY] <;> ring
  have zero : ∀ v : V3 ℝ, rotZ 0 v = v ∧ rotY 0 v = v := by
    intro v
    constructor <;> ext <;> simp [rotZ, rotY]
  have hI : ∀ v, eulerInv α β γ v = rotZ (-γ) (rotY (-β) (rotZ (-α) v)) := fun v => key (-γ) (-β) (-α) v
  refine ⟨key α β γ v, ?_, ?_⟩
  · rw [hI, key, (rot_inverse _ _ _).2.2.2.2, neg_add_cancel, (zero _).1, (rot_inverse _ _ _).2.1.2.2, neg_add_cancel, (zero _).2,
      (rot_inverse _ _ _).2.2.2.2, neg_add_cancel, (zero _).1]
  · rw [hI, key, (rot_inverse _ _ _).2.2.2.2, add_neg_cancel, (zero _).1, (rot_inverse _ _ _).2.1.2.2, add_neg_cancel, (zero _).2,
      (rot_inverse _ _ _).2.2.2.2, add_neg_cancel, (zero _).1]

/-! ## Other bases -/

/-- Orthonormal bases: accepted, the coordinates are the scalar products with the base vectors, and the inverse undoes the transformation in
both orders. -/
theorem orthogonal_inverse {b1 b2 b3 : V3 ℝ} (h12 : b1.dot b2 = 0) (h13 : b1.dot b3 = 0) (h23 : b2.dot b3 = 0) (h1 : b1.dot b1 = 1)
    (h2 : b2.dot b2 = 1) (h3 : b3.dot b3 = 1) :
    ∃ t, orthogonal b1 b2 b3 = .ret t ∧ (∀ v, t.fwd.mulVec v = ⟨b1.dot v, b2.dot v, b3.dot v⟩) ∧
      (∀ v, t.fwd.mulVec (t.bwd.mulVec v) = v) ∧ ∀ v, t.bwd.mulVec (t.fwd.mulVec v) = v := by
  have hp : (0 : ℝ) ≤ orthTol := by norm_num [orthTol]
  refine ⟨_, by rw [orthogonal, h12, h13, h23, abs_zero, if_neg (by simp [hp])], ?_, ?_, ?_⟩
  · intro v
    ext <;> simp [M3.mulVec, V3.dot]
  · intro v
    simp only [V3.dot] at *
    ext <;> simp [M3.mulVec]
    · linear_combination v.x * h1 + v.y * h12 + v.z * h13
    · linear_combination v.x * h12 + v.y * h2 + v.z * h23
    · linear_combination v.x * h13 + v.y * h23 + v.z * h3
  · have hB : (!![b1.x, b1.y, b1.z; b2.x, b2.y, b2.z; b3.x, b3.y, b3.z] : Matrix (Fin 3) (Fin 3) ℝ) *
        !![b1.x, b2.x, b3.x; b1.y, b2.y, b3.y; b1.z, b2.z, b3.z] = 1 := by
      simp only [V3.dot] at *
      ext i j
      fin_cases i <;> fin_cases j <;> simp [Matrix.mul_apply, Fin.sum_univ_three] <;> linarith
    have hB' := mul_eq_one_comm.1 hB
    intro v
    have e : ∀ i j : Fin 3, (∑ k, (!![b1.x, b2.x, b3.x; b1.y, b2.y, b3.y; b1.z, b2.z, b3.z] : Matrix (Fin 3) (Fin 3) ℝ) i k *
        (!![b1.x, b1.y, b1.z; b2.x, b2.y, b2.z; b3.x, b3.y, b3.z] : Matrix (Fin 3) (Fin 3) ℝ) k j) = if i = j then 1 else 0 := by
      intro i j
      rw [← Matrix.mul_apply, hB', Matrix.one_apply]
    have e00 := e 0 0
    have e01 := e 0 1
    have e02 := e 0 2
    have e10 := e 1 0
    have e11 := e 1 1
    have e12 := e 1 2
    have e20 := e 2 0
    have e21 := e 2 1
    have e22 := e 2 2
    simp [Fin.sum_univ_three] at e00 e01 e02 e10 e11 e12 e20 e21 e22
    ext <;> simp [M3.mulVec]
    · linear_combination v.x * e00 + v.y * e01 + v.z * e02
    · linear_combination v.x * e10 + v.y * e11 + v.z * e12
    · linear_combination v.x * e20 + v.y * e21 + v.z * e22

/-- Bases with a scalar product above the tolerance are refused. -/
theorem orthogonal_refuses (b1 b2 b3 : V3 ℝ) :
    orthogonal b1 b2 b3 = .exn (.mml "GeometryError") ↔ |b1.dot b2| > orthTol ∨ |b1.dot b3| > orthTol ∨ |b2.dot b3| > orthTol := by
  rw [orthogonal]
  split_ifs with h <;> simp [h]

/-- **Disagreement.**  Lengths are not looked at: the basis of vectors twice as long is accepted, and transforming forth and back multiplies
by four. -/
theorem orthogonal_scaled :
    ∃ t, orthogonal ⟨2, 0, 0⟩ ⟨0, 2, 0⟩ ⟨0, 0, 2⟩ = .ret t ∧ t.bwd.mulVec (t.fwd.mulVec ⟨1, 1, 1⟩) = ⟨4, 4, 4⟩ := by
  have hp : (0 : ℝ) ≤ orthTol := by norm_num [orthTol]
  refine ⟨_, by rw [orthogonal, if_neg (by simp [V3.dot, hp])], ?_⟩
  ext <;> simp [M3.mulVec] <;> norm_num

/-- The matrix of a dense matrix function. -/
def fn3 (m : M3 ℝ) (i j : ℕ) : ℝ := if h : i < 3 ∧ j < 3 then m ⟨i, h.1⟩ ⟨j, h.2⟩ else 0

theorem shape33 : Mat.Dense.Shape 3 3 := Or.inr (by norm_num)

theorem toDense_eq (m : M3 ℝ) : M3.toDense m = Mat.Dense.ofFn 3 3 (fn3 m) := by
  simp only [M3.toDense, Mat.Dense.ofFn, Mat.Dense.mk.injEq, true_and]
  rfl

theorem ofDense_ofFn (f : ℕ → ℕ → ℝ) (i j : Fin 3) : M3.ofDense (Mat.Dense.ofFn 3 3 f) i j = f i j := by
  fin_cases i <;> fin_cases j <;> rfl

theorem inverse_spec {eps : ℝ} (he : 0 < eps) {m : M3 ℝ} (hm : m ≠ 0) :
    M3.inverse eps m ≠ .ub ∧ (∀ e, M3.inverse eps m = .exn e → e = .mml "SingularMatrixError") ∧
    (∀ v, M3.inverse eps m = .ret v → Matrix.of m * Matrix.of v = 1) ∧
    ((Matrix.of m).det = 0 → M3.inverse eps m = .exn (.mml "SingularMatrixError")) := by
  have hI : Mat.Dense.Is (M3.toDense m) 3 3 (fn3 m) := by
    rw [toDense_eq]
    exact Mat.Dense.is_ofFn shape33 _
  have hne : ∃ r < 3, ∃ c < 3, fn3 m r c ≠ 0 := by
    by_contra hn
    push Not at hn
    apply hm
    funext i j
    have := hn i i.2 j j.2
    simpa [fn3] using this
  obtain ⟨h1, h2, h3⟩ := LinAlg.invert_correct_partial eps he _ 3 _ hI hne
  have hr : ∀ v, M3.inverse eps m = .ret v → Matrix.of m * Matrix.of v = 1 := by
    intro v hv
    rw [M3.inverse] at hv
    cases h : LinAlg.invert eps (M3.toDense m) with
    | ub => exact absurd h h1
    | exn e => rw [h] at hv; simp at hv
    | ret d =>
      rw [h, Outcome.bind_ret] at hv
      obtain ⟨hd, ⟨e, he1, he2⟩, e', he3, he4⟩ := h3 d h
      obtain ⟨r, c, f, hs, rfl⟩ := hd.exists_ofFn
      rw [toDense_eq] at he1 he3
      have hr3 : r = 3 := by
        by_contra hn
        rw [Mat.Dense.mul, if_pos (by simp only [Mat.Dense.ofFn_rows, Mat.Dense.ofFn_cols]; omega)] at he1
        simp at he1
      have hc3 : c = 3 := by
        by_contra hn
        rw [Mat.Dense.mul, if_pos (by simp only [Mat.Dense.ofFn_rows, Mat.Dense.ofFn_cols]; omega)] at he3
        simp at he3
      subst hr3 hc3
      rw [Mat.Dense.mul_ofFn shape33] at he1
      rw [← Outcome.ret.inj he1] at he2
      rw [← Outcome.ret.inj hv]
      ext i j
      have hg := he2.2.2.2 i i.2 j j.2
      rw [Mat.Dense.get_ofFn _ i.2 j.2] at hg
      have hg := Outcome.ret.inj hg
      rw [Matrix.mul_apply, Matrix.one_apply]
      simp only [Matrix.of_apply, ofDense_ofFn]
      rw [Finset.sum_range] at hg
      rw [LinAlg.δ] at hg
      simp only [Fin.val_inj] at hg
      rw [← hg]
      refine Finset.sum_congr rfl fun k _ => ?_
      simp [fn3]
  refine ⟨?_, ?_, hr, ?_⟩
  · rw [M3.inverse]
    cases h : LinAlg.invert eps (M3.toDense m) with
    | ub => exact absurd h h1
    | exn e => simp
    | ret d => simp
  · intro e h
    rw [M3.inverse] at h
    cases h' : LinAlg.invert eps (M3.toDense m) with
    | ub => exact absurd h' h1
    | exn e' =>
      rw [h', Outcome.bind_exn] at h
      rw [← Outcome.exn.inj h]
      exact h2 e' h'
    | ret d => rw [h'] at h; simp at h
  · intro hd
    rw [M3.inverse, (LinAlg.invert_decides eps he _ 3 _ (fn3 m) hI).1 ?_ hne, Outcome.bind_exn]
    obtain ⟨v, hv, hv0⟩ := Matrix.exists_vecMul_eq_zero_iff.2 hd
    obtain ⟨k, hk⟩ := Function.ne_iff.1 hv
    refine ⟨fun i => if h : i < 3 then v ⟨i, h⟩ else 0, ⟨k, k.2, by simpa using hk⟩, fun c hc => ?_⟩
    have := congrFun hv0 ⟨c, hc⟩
    rw [Finset.sum_range]
    simp only [Matrix.vecMul, dotProduct, Pi.zero_apply] at this
    rw [← this]
    refine Finset.sum_congr rfl fun i _ => ?_
    simp [fn3, hc]

theorem mulVec_of (m : M3 ℝ) (v : V3 ℝ) : ![(m.mulVec v).x, (m.mulVec v).y, (m.mulVec v).z] = (Matrix.of m).mulVec ![v.x, v.y, v.z] := by
  funext i
  fin_cases i <;> simp [M3.mulVec, Matrix.mulVec, dotProduct, Fin.sum_univ_three]

theorem mulVec_inv {a b : M3 ℝ} (h : Matrix.of a * Matrix.of b = 1) (v : V3 ℝ) : a.mulVec (b.mulVec v) = v := by
  have e := mulVec_of a (b.mulVec v)
  rw [mulVec_of b v, Matrix.mulVec_mulVec, h, Matrix.one_mulVec] at e
  ext
  · exact congrFun e 0
  · exact congrFun e 1
  · exact congrFun e 2

/-- A transformation by any matrix but zero: the constructor returns or throws `SingularMatrixError`, which it does for every singular matrix; what
it returns multiplies by the matrix, and the inverse undoes this in both orders. -/
theorem general_inverse {eps : ℝ} (he : 0 < eps) {m : M3 ℝ} (hm : m ≠ 0) :
    general eps m ≠ .ub ∧ (∀ e, general eps m = .exn e → e = .mml "SingularMatrixError") ∧
    ((Matrix.of m).det = 0 → general eps m = .exn (.mml "SingularMatrixError")) ∧
    ∀ t, general eps m = .ret t → t.fwd = m ∧ ∀ v, t.fwd.mulVec (t.bwd.mulVec v) = v ∧ t.bwd.mulVec (t.fwd.mulVec v) = v := by
  obtain ⟨h1, h2, h3, h4⟩ := inverse_spec he hm
  rw [general]
  cases h : M3.inverse eps m with
  | ub => exact absurd h h1
  | exn e =>
    have h2 := h2 e h
    rw [h] at h4
    refine ⟨by simp, fun e' he' => ?_, fun hd => by simpa using h4 hd, by simp⟩
    rw [Outcome.bind_exn] at he'
    rw [← Outcome.exn.inj he']
    exact h2
  | ret w =>
    rw [h] at h4
    have hw := h3 w h
    refine ⟨by simp, by simp, fun hd => by simpa using h4 hd, fun t ht => ?_⟩
    rw [← Outcome.ret.inj ht]
    exact ⟨rfl, fun v => ⟨mulVec_inv hw v, mulVec_inv (mul_eq_one_comm.1 hw) v⟩⟩

theorem columns_ne {b : Fin 3 → V3 ℝ} (h : volume b ≠ 0) : columns b ≠ 0 := by
  intro h0
  apply h
  have e : ∀ i, (b i).x = 0 ∧ (b i).y = 0 ∧ (b i).z = 0 := by
    intro i
    refine ⟨?_, ?_, ?_⟩
    · simpa [columns] using congrFun (congrFun h0 0) i
    · simpa [columns] using congrFun (congrFun h0 1) i
    · simpa [columns] using congrFun (congrFun h0 2) i
  simp [volume, V3.dot, (e 0).1, (e 0).2.1, (e 0).2.2]

/-- Oblique bases: the constructor returns or throws `SingularMatrixError`, which it does for every linearly dependent basis; a point is the sum of
the base vectors times its coordinates, the inverse undoes the transformation in both orders, and the dual base is dual. -/
theorem oblique3_inverse {eps : ℝ} (he : 0 < eps) (b : Fin 3 → V3 ℝ) :
    oblique3 eps b ≠ .ub ∧ (∀ e, oblique3 eps b = .exn e → e = .mml "SingularMatrixError") ∧
    (volume b = 0 → oblique3 eps b = .exn (.mml "SingularMatrixError")) ∧
    ∀ t, oblique3 eps b = .ret t →
      (∀ i j, (t.dual i).dot (b j) = if i = j then 1 else 0) ∧
      ∀ v, t.transfInverse v = (((b 0).scale v.x).add ((b 1).scale v.y)).add ((b 2).scale v.z) ∧
        t.transfInverse (t.transf v) = v ∧ t.transf (t.transfInverse v) = v := by
  have hp : (0 : ℝ) < depTol := by norm_num [depTol]
  rw [oblique3]
  split_ifs with hV
  · simp
  · have hV0 : volume b ≠ 0 := by
      intro h0
      rw [h0, abs_zero] at hV
      exact hV hp
    obtain ⟨h1, h2, h3, h4⟩ := inverse_spec he (columns_ne hV0)
    cases h : M3.inverse eps (columns b) with
    | ub => exact absurd h h1
    | exn e =>
      rw [h] at h2
      refine ⟨by simp, fun e' he' => ?_, fun h0 => absurd h0 hV0, by simp⟩
      rw [Outcome.bind_exn] at he'
      rw [← Outcome.exn.inj he']
      exact h2 e rfl
    | ret w =>
      refine ⟨by simp, by simp, fun h0 => absurd h0 hV0, fun t ht => ?_⟩
      rw [Outcome.bind_ret] at ht
      rw [← Outcome.ret.inj ht]
      have hw : 1 / volume b * volume b = 1 := by field_simp
      generalize 1 / volume b = w at hw
      simp only [volume, V3.dot, V3.cross] at hw
      refine ⟨fun i j => ?_, fun v => ⟨?_, ?_, ?_⟩⟩
      · fin_cases i <;> fin_cases j <;> simp [V3.dot, V3.cross, V3.scale] <;> first | ring1 | linear_combination hw
      · ext <;> simp [Oblique.transfInverse, M3.mulVec, columns, V3.add, V3.scale] <;> ring
      · ext <;> simp [Oblique.transfInverse, Oblique.transf, M3.mulVec, columns, V3.dot, V3.cross, V3.scale]
        · linear_combination v.x * hw
        · linear_combination v.y * hw
        · linear_combination v.z * hw
      · ext <;> simp [Oblique.transfInverse, Oblique.transf, M3.mulVec, columns, V3.dot, V3.cross, V3.scale]
        · linear_combination v.x * hw
        · linear_combination v.y * hw
        · linear_combination v.z * hw

/-- A basis is reported right-handed if and only if the determinant of the matrix with these rows is positive. -/
theorem rightHanded_iff (b1 b2 b3 : V3 ℝ) :
    isRightHanded b1 b2 b3 = true ↔ 0 < (!![b1.x, b1.y, b1.z; b2.x, b2.y, b2.z; b3.x, b3.y, b3.z] : Matrix (Fin 3) (Fin 3) ℝ).det := by
  rw [isRightHanded, decide_eq_true_iff, gt_iff_lt, Matrix.det_fin_three]
  simp only [V3.dot, V3.cross, Matrix.of_apply, Matrix.cons_val', Matrix.cons_val_zero, Matrix.cons_val_one, Matrix.cons_val]
  refine lt_iff_lt_of_cmp_eq_cmp (congrArg _ ?_)
  ring

/-! ## Rotation by a quaternion -/

/-- The component functions are those of `transf` and `transfInverse`.  For a unit quaternion, and for every quaternion that the constructor
normalises, the transformation is a rotation undone by its inverse in both orders; composition is "this, then the other". -/
theorem quatRot_inverse (q : Quat ℝ) :
    (∀ p v, quatFunc p v = quatTransf p v ∧ quatFuncInverse p v = quatTransfInverse p v) ∧
    ∀ p, quatRot q = .ret p → (q.normSq = 1 ∨ q.isUnit = false) →
      p.normSq = 1 ∧ (∃ s : ℝ, 0 < s ∧ p = q.scale s) ∧
      (∀ u v, (quatTransf p u).dot (quatTransf p v) = u.dot v) ∧
      (∀ v, quatTransfInverse p (quatTransf p v) = v ∧ quatTransf p (quatTransfInverse p v) = v) ∧
      ∀ p', p'.normSq = 1 → ∃ r, quatCompose p p' = .ret r ∧ ∀ v, quatTransf r v = quatTransf p' (quatTransf p v) := by
  refine ⟨fun p v => ⟨Quat.rotationMatrix_rotate _ _, Quat.rotationMatrix_rotate _ _⟩, fun p hp hq => ?_⟩
  have key : p.normSq = 1 ∧ ∃ s : ℝ, 0 < s ∧ p = q.scale s := by
    rw [quatRot] at hp
    by_cases hu : q.isUnit = true
    · rw [if_pos hu] at hp
      rcases hq with hq | hq
      · rw [← Outcome.ret.inj hp]
        exact ⟨hq, 1, one_pos, by ext <;> simp [Quat.scale]⟩
      · rw [hq] at hu
        simp at hu
    · rw [if_neg hu, Quat.normalized] at hp
      split_ifs at hp with hz
      have hn : 0 < q.norm := lt_of_lt_of_le (by norm_num [Quat.zeroThreshold]) (not_lt.1 hz)
      have hsq : q.norm * q.norm = q.normSq := Real.mul_self_sqrt (by
        rw [Quat.normSq]
        exact add_nonneg (add_nonneg (add_nonneg (mul_self_nonneg _) (mul_self_nonneg _)) (mul_self_nonneg _)) (mul_self_nonneg _))
      rw [← Outcome.ret.inj hp]
      refine ⟨?_, 1 / q.norm, by positivity, rfl⟩
      have : q.normSq * (1 / q.norm * (1 / q.norm)) = 1 := by rw [← hsq]; field_simp
      simp only [Quat.normSq] at *
      linear_combination this
  obtain ⟨h1, h2⟩ := key
  have hc : p.conj.normSq = 1 := by rw [← h1]; simp [Quat.normSq, Quat.conj]
  have hcc : p.conj.conj = p := by ext <;> simp [Quat.conj]
  refine ⟨h1, h2, fun u v => Quat.rotate_dot p u v h1, fun v => ⟨(Quat.rotate_laws p p v v 1 h1 h1).2.2.2.2.2.2.2, ?_⟩, fun p' hp' => ?_⟩
  · have := (Quat.rotate_laws p.conj p.conj v v 1 hc hc).2.2.2.2.2.2.2
    rw [hcc] at this
    exact this
  · have hm : (p'.mul p).normSq = 1 := by
      have e : (p'.mul p).normSq = p'.normSq * p.normSq := by
        simp only [Quat.normSq, Quat.mul]; ring
      rw [e, h1, hp', one_mul]
    refine ⟨p'.mul p, ?_, fun v => Quat.rotate_mul p' p v hp' h1⟩
    rw [quatCompose, quatRot, if_pos]
    rw [Quat.isUnit, hm, sub_self, abs_zero, decide_eq_true_iff]
    norm_num [Quat.defaultTolerance]

/-- **Disagreement.**  A quaternion within `1e-6` of unit length is kept as it is, and then the inverse does not undo the transformation: forth and
back with `(1, 0, 0, 5e-4)` leaves the second axis `(0, 1, 0)` longer than it was. -/
theorem quatRot_nearUnit :
    quatRot ⟨1, 0, 0, 1 / 2000⟩ = .ret ⟨1, 0, 0, 1 / 2000⟩ ∧
    (quatTransfInverse ⟨1, 0, 0, 1 / 2000⟩ (quatTransf ⟨1, 0, 0, 1 / 2000⟩ ⟨0, 1, 0⟩)).y > 1 := by
  constructor
  · rw [quatRot, if_pos]
    rw [Quat.isUnit, decide_eq_true_iff]
    norm_num [Quat.normSq, Quat.defaultTolerance, abs_lt]
  · norm_num [quatTransfInverse, quatTransf, Quat.rotate, Quat.conj, V3.add, V3.cross, V3.scale]

/-! ## Lorentz transformations -/

theorem gamma_sq {β : ℝ} (h : β * β < 1) : gamma β * gamma β * (1 - β * β) = 1 ∧ 0 < gamma β := by
  have h1 : 0 < Real.sqrt (1 - β * β) := Real.sqrt_pos.2 (by linarith)
  have h2 : Real.sqrt (1 - β * β) * Real.sqrt (1 - β * β) = 1 - β * β := Real.mul_self_sqrt (by linarith)
  refine ⟨?_, by rw [gamma]; positivity⟩
  rw [gamma]
  generalize Real.sqrt (1 - β * β) = s at h1 h2
  rw [← h2]
  field_simp

/-- The velocities accepted are those in `[0, 1)`. -/
theorem lorentz_accepts (β : ℝ) :
    (lorentz β = .ret β ↔ 0 ≤ β ∧ β < 1) ∧ (lorentz β = .exn (.mml "std::range_error") ↔ β < 0 ∨ 1 ≤ β) := by
  rw [lorentz]
  split_ifs with h
  · simp only [ge_iff_le] at h
    simp [h]
    intro h0
    rcases h with h | h <;> linarith
  · simp only [ge_iff_le] at h
    push Not at h
    simp [h]

/-- The transformation is undone by its inverse in both orders, keeps the scalar product, takes a body moving with the velocity to rest, leaves the
other directions alone, and two of them are one with the sum of the velocities by Einstein's law. -/
theorem lorentz_inverse {β : ℝ} (h : lorentz β = .ret β) :
    (∀ q, boostInv β (boost β q) = q ∧ boost β (boostInv β q) = q) ∧
    (∀ p q, (boost β p).dot (boost β q) = p.dot q) ∧
    (∀ q, (boost β q).y = q.y ∧ (boost β q).z = q.z) ∧
    (∀ t, (boost β ⟨t, β * t, 0, 0⟩).x = 0) ∧
    (∀ β', lorentz β' = .ret β' → ∀ q, boost β' (boost β q) = boost ((β + β') / (1 + β * β')) q) := by
  obtain ⟨b0, b1⟩ := (lorentz_accepts β).1.1 h
  have hb : β * β < 1 := by nlinarith
  obtain ⟨g, gp⟩ := gamma_sq hb
  refine ⟨fun q => ⟨?_, ?_⟩, fun p q => ?_, fun q => ⟨?_, ?_⟩, fun t => ?_, fun β' h' q => ?_⟩
  · ext <;> simp only [boost, boostInv]
    · linear_combination q.t * g
    · linear_combination q.x * g
    · ring
    · ring
  · ext <;> simp only [boost, boostInv]
    · linear_combination q.t * g
    · linear_combination q.x * g
    · ring
    · ring
  · simp only [boost, V4.dot]
    linear_combination (p.t * q.t - p.x * q.x) * g
  · simp only [boost]; ring
  · simp only [boost]; ring
  · simp only [boost]; ring
  · obtain ⟨c0, c1⟩ := (lorentz_accepts β').1.1 h'
    have hb' : β' * β' < 1 := by nlinarith
    obtain ⟨g', gp'⟩ := gamma_sq hb'
    have hd : 0 < 1 + β * β' := by positivity
    have hv0 : 0 ≤ (β + β') / (1 + β * β') := by positivity
    have hv1 : (β + β') / (1 + β * β') < 1 := by
      rw [div_lt_one hd]
      nlinarith
    obtain ⟨G, Gp⟩ := gamma_sq (show (β + β') / (1 + β * β') * ((β + β') / (1 + β * β')) < 1 by nlinarith)
    have hG : gamma ((β + β') / (1 + β * β')) = gamma β * gamma β' * (1 + β * β') := by
      have e : (1 - (β + β') / (1 + β * β') * ((β + β') / (1 + β * β'))) * ((1 + β * β') * (1 + β * β')) = (1 - β * β) * (1 - β' * β') := by
        field_simp
        ring
      have hne : (1 - (β + β') / (1 + β * β') * ((β + β') / (1 + β * β'))) ≠ 0 := by
        intro h0
        rw [h0, mul_zero] at G
        exact zero_ne_one G
      have hsq : gamma ((β + β') / (1 + β * β')) * gamma ((β + β') / (1 + β * β')) =
          gamma β * gamma β' * (1 + β * β') * (gamma β * gamma β' * (1 + β * β')) := by
        apply mul_right_cancel₀ hne
        rw [G]
        linear_combination -(gamma β * gamma β' * (gamma β * gamma β')) * e - g * (gamma β' * gamma β' * (1 - β' * β')) - g'
      exact (mul_self_eq_mul_self_iff.1 hsq).resolve_right (fun hn => by
        have : 0 < gamma β * gamma β' * (1 + β * β') := by positivity
        linarith)
    have hvG : (β + β') / (1 + β * β') * gamma ((β + β') / (1 + β * β')) = gamma β * gamma β' * (β + β') := by
      rw [hG]
      field_simp
    ext <;> simp only [boost]
    · linear_combination -q.t * hG + q.x * hvG
    · linear_combination -q.x * hG + q.t * hvG
    · ring
    · ring

/-- The kinds of vectors: exactly one of the three holds, the sign of the scalar product with itself decides, so that a Lorentz transformation
changes neither the kind nor the norm; and the norm has the sign and, squared, the size of that product. -/
theorem minkowski_kinds (q : V4) :
    (q.isTimelike = true ↔ 0 < q.dot q) ∧ (q.isSpacelike = true ↔ q.dot q < 0) ∧ (q.isLightlike = true ↔ q.dot q = 0) ∧
    q.norm * |q.norm| = q.dot q := by
  have e1 : q.isTimelike = true ↔ 0 < q.dot q := by
    rw [V4.isTimelike, decide_eq_true_iff, V4.dot]
    constructor <;> intro h <;> linarith
  have e2 : q.isSpacelike = true ↔ q.dot q < 0 := by
    rw [V4.isSpacelike, decide_eq_true_iff, V4.dot]
    constructor <;> intro h <;> linarith
  have e3 : q.isLightlike = true ↔ q.dot q = 0 := by rw [V4.isLightlike, decide_eq_true_iff, V4.dot]
  refine ⟨e1, e2, e3, ?_⟩
  rw [V4.norm]
  split_ifs with h0 h1 h2
  · simp [V4.dot, h0.1, h0.2.1, h0.2.2.1, h0.2.2.2]
  · have := e1.1 h1
    rw [V4.dot] at this ⊢
    rw [abs_of_nonneg (Real.sqrt_nonneg _), Real.mul_self_sqrt this.le]
  · have := e2.1 h2
    rw [V4.dot] at this ⊢
    rw [abs_neg, abs_of_nonneg (Real.sqrt_nonneg _), neg_mul, Real.mul_self_sqrt (by linarith)]
    ring
  · have h1' := fun h => h1 (e1.2 h)
    have h2' := fun h => h2 (e2.2 h)
    simp only [zero_mul]
    linarith [not_lt.1 h1', not_lt.1 h2']

theorem minkowski_invariant {β : ℝ} (h : lorentz β = .ret β) (q : V4) :
    (boost β q).isTimelike = q.isTimelike ∧ (boost β q).isSpacelike = q.isSpacelike ∧ (boost β q).isLightlike = q.isLightlike ∧
    (boost β q).norm = q.norm := by
  have hd := (lorentz_inverse h).2.1 q q
  have m1 := minkowski_kinds q
  have m2 := minkowski_kinds (boost β q)
  rw [hd] at m2
  refine ⟨Bool.eq_iff_iff.2 (m2.1.trans m1.1.symm), Bool.eq_iff_iff.2 (m2.2.1.trans m1.2.1.symm),
    Bool.eq_iff_iff.2 (m2.2.2.1.trans m1.2.2.1.symm), ?_⟩
  have e : (boost β q).norm * |(boost β q).norm| = q.norm * |q.norm| := m2.2.2.2.trans m1.2.2.2.symm
  rcases abs_cases (boost β q).norm with ⟨a, ha⟩ | ⟨a, ha⟩ <;> rcases abs_cases q.norm with ⟨b, hb⟩ | ⟨b, hb⟩ <;> rw [a, b] at e <;> nlinarith

/-- `Distance` is a number exactly when the difference is not spacelike (otherwise the code returns NaN). -/
theorem minkowski_distance (a b : V4) :
    V4.distance a b = .ub ↔ (V4.mk (a.t - b.t) (a.x - b.x) (a.y - b.y) (a.z - b.z)).isSpacelike = true := by
  rw [(minkowski_kinds _).2.1, V4.distance, Quat.sqrtU, V4.dot]
  split_ifs with h <;> simp [h]

/-! ## The hypotheses are met -/

example : lorentz (3 / 5) = .ret (3 / 5) := (lorentz_accepts _).1.2 (by norm_num)

example : gamma (3 / 5) = 5 / 4 := by
  rw [gamma, show (1 - 3 / 5 * (3 / 5) : ℝ) = (4 / 5) ^ 2 by norm_num, Real.sqrt_sq (by norm_num)]
  norm_num

example : (⟨3 / 5, 4 / 5, 0⟩ : V3 ℝ).dot ⟨-4 / 5, 3 / 5, 0⟩ = 0 ∧ (⟨3 / 5, 4 / 5, 0⟩ : V3 ℝ).dot ⟨3 / 5, 4 / 5, 0⟩ = 1 := by norm_num [V3.dot]

/-- A shear is accepted as a general transformation. -/
example : ∃ t, general (1 / 2 ^ 52) ![![1, 1, 0], ![0, 1, 0], ![0, 0, 1]] = .ret t := by
  have hm : (![![1, 1, 0], ![0, 1, 0], ![0, 0, 1]] : M3 ℝ) ≠ 0 := fun h => by
    have := congrFun (congrFun h 0) 0
    simp at this
  have hw : LinAlg.WellConditioned (1 / 2 ^ 52 : ℝ) 3 (fn3 ![![1, 1, 0], ![0, 1, 0], ![0, 0, 1]]) (fn3 ![![1, -1, 0], ![0, 1, 0], ![0, 0, 1]]) := by
    refine ⟨fun r hr c hc => ?_, 1, zero_le_one, fun r hr c hc => ?_, fun j hj => ?_⟩
    · interval_cases r <;> interval_cases c <;> simp [Finset.sum_range_succ, fn3, LinAlg.δ]
    · interval_cases r <;> interval_cases c <;> simp [fn3]
    · interval_cases j <;> simp [Finset.sum_range_succ, fn3] <;> norm_num
  obtain ⟨v, hv⟩ := (LinAlg.invert_decides (1 / 2 ^ 52 : ℝ) (by norm_num) _ 3 _ _ (toDense_eq _ ▸ Mat.Dense.is_ofFn shape33 _)).2 (by norm_num) hw
  exact ⟨⟨_, M3.ofDense v⟩, by rw [general, M3.inverse, hv]; rfl⟩

end Verif.Coord
