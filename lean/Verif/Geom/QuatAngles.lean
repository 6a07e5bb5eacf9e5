import Verif.Geom.QuatConv
import Mathlib.Analysis.Real.Pi.Bounds

/-!
# Quaternions, angles and interpolation (C66, C67)
-/

set_option autoImplicit false

namespace Verif.Geom.Quat

/-! ## Axis and angle -/

theorem cos_half (a : ℝ) : Real.cos a = 1 - 2 * Real.sin (a / 2) ^ 2 := by
  have h := Real.cos_two_mul (a / 2)
  have hs := Real.sin_sq_add_cos_sq (a / 2)
  rw [show 2 * (a / 2) = a by ring] at h
  linear_combination h + 2 * hs

theorem sin_half (a : ℝ) : Real.sin a = 2 * Real.sin (a / 2) * Real.cos (a / 2) := by
  have h := Real.sin_two_mul (a / 2)
  rwa [show 2 * (a / 2) = a by ring] at h

/-- C66: a unit axis gives a unit quaternion that rotates about the axis by the angle (Rodrigues' formula). -/
theorem fromAxisAngle_rotates (u : V3 ℝ) (angle : ℝ) (v : V3 ℝ) (hu : u.dot u = 1) :
    (fromAxisAngle u angle).normSq = 1 ∧ (fromAxisAngle u angle).rotate v =
      ((v.scale (Real.cos angle)).add ((u.cross v).scale (Real.sin angle))).add
        (u.scale (u.dot v * (1 - Real.cos angle))) := by
  have hs := Real.sin_sq_add_cos_sq (angle / 2)
  rw [cos_half angle, sin_half angle]
  simp only [V3.dot] at hu
  constructor
  · simp only [normSq, fromAxisAngle]
    linear_combination hs + Real.sin (angle / 2) ^ 2 * hu
  · ext <;> simp only [fromAxisAngle, rotate, V3.add, V3.scale, V3.cross, V3.dot]
    · linear_combination (-2 * Real.sin (angle / 2) ^ 2 * v.x) * hu
    · linear_combination (-2 * Real.sin (angle / 2) ^ 2 * v.y) * hu
    · linear_combination (-2 * Real.sin (angle / 2) ^ 2 * v.z) * hu

example : (⟨3 / 5, 0, 4 / 5⟩ : V3 ℝ).dot ⟨3 / 5, 0, 4 / 5⟩ = 1 := by norm_num [V3.dot]

theorem clamp_of_mem {w : ℝ} (h1 : -1 ≤ w) (h2 : w ≤ 1) : clamp w = w := by
  simp only [clamp]
  rw [if_neg (not_lt.mpr h2), if_neg (not_lt.mpr h1)]

theorem abs_w_le (q : Quat ℝ) (hq : q.normSq = 1) : -1 ≤ q.w ∧ q.w ≤ 1 := by
  simp only [normSq] at hq
  have h : q.w * q.w ≤ 1 := by nlinarith [mul_self_nonneg q.x, mul_self_nonneg q.y, mul_self_nonneg q.z]
  constructor <;> nlinarith

/-- `GetRotationAngle` of a unit quaternion lies between 0 and 2π, and the length of the vector part is the sine of
half of it. -/
theorem rotationAngle_spec (q : Quat ℝ) (hq : q.normSq = 1) :
    0 ≤ q.rotationAngle ∧ q.rotationAngle ≤ 2 * Real.pi ∧ Real.cos (q.rotationAngle / 2) = q.w ∧
      Real.sin (q.rotationAngle / 2) = q.vector.norm := by
  obtain ⟨h1, h2⟩ := abs_w_le q hq
  simp only [rotationAngle, clamp_of_mem h1 h2]
  have e : 2 * Real.arccos q.w / 2 = Real.arccos q.w := by ring
  rw [e, Real.cos_arccos h1 h2, Real.sin_arccos]
  refine ⟨by linarith [Real.arccos_nonneg q.w], by linarith [Real.arccos_le_pi q.w], rfl, ?_⟩
  simp only [V3.norm, vector]
  simp only [normSq] at hq
  congr 1
  linear_combination -hq

/-- C66: a unit quaternion whose vector part is not negligible is recovered exactly from its axis and angle; the axis
has length one. -/
theorem toAxisAngle_roundtrip (q : Quat ℝ) (hq : q.normSq = 1) (hi : q.isIdentity = false)
    (hv : zeroThreshold ≤ q.vector.norm) :
    ∃ u a, q.toAxisAngle = .ret (u, a) ∧ u.dot u = 1 ∧ fromAxisAngle u a = q := by
  have hn : q.vector.norm ≠ 0 := (lt_of_lt_of_le zeroThreshold_pos hv).ne'
  obtain ⟨_, _, hc, hs⟩ := rotationAngle_spec q hq
  refine ⟨⟨q.x / q.vector.norm, q.y / q.vector.norm, q.z / q.vector.norm⟩, q.rotationAngle, ?_, ?_, ?_⟩
  · simp only [toAxisAngle, rotationAxis, hi, Bool.false_eq_true, if_false, if_neg (not_lt.mpr hv), V3.div, if_neg hn,
      Outcome.bind_ret]
    rfl
  · have h : q.vector.norm * q.vector.norm = 0 + q.x * q.x + q.y * q.y + q.z * q.z := by
      refine Real.mul_self_sqrt ?_
      nlinarith [mul_self_nonneg q.vector.x, mul_self_nonneg q.vector.y, mul_self_nonneg q.vector.z]
    simp only [V3.dot]
    field_simp
    linear_combination -h
  · ext <;> simp only [fromAxisAngle, hc, hs] <;> field_simp

/-- C66: conversely axis and angle are recovered from the quaternion, for angles strictly between 0 and 2π that are
not too close to them. -/
theorem fromAxisAngle_roundtrip (u : V3 ℝ) (a : ℝ) (hu : u.dot u = 1) (h0 : 0 < a) (h1 : a < 2 * Real.pi)
    (hi : (fromAxisAngle u a).isIdentity = false) (hv : zeroThreshold ≤ Real.sin (a / 2)) :
    (fromAxisAngle u a).toAxisAngle = .ret (u, a) := by
  have hs0 : 0 < Real.sin (a / 2) := lt_of_lt_of_le zeroThreshold_pos hv
  have hn : (fromAxisAngle u a).vector.norm = Real.sin (a / 2) := by
    have : (fromAxisAngle u a).vector.norm = Real.sqrt (Real.sin (a / 2) ^ 2) := by
      simp only [V3.norm, vector, fromAxisAngle]
      simp only [V3.dot] at hu
      congr 1
      linear_combination Real.sin (a / 2) ^ 2 * hu
    rw [this, Real.sqrt_sq hs0.le]
  have hang : (fromAxisAngle u a).rotationAngle = a := by
    simp only [rotationAngle, fromAxisAngle]
    rw [clamp_of_mem (Real.neg_one_le_cos _) (Real.cos_le_one _), Real.arccos_cos (by linarith) (by linarith)]
    ring
  simp only [toAxisAngle, rotationAxis, hi, Bool.false_eq_true, if_false, hn, if_neg (not_lt.mpr hv), V3.div,
    if_neg hs0.ne', Outcome.bind_ret, hang]
  have e : (⟨(fromAxisAngle u a).vector.x / Real.sin (a / 2), (fromAxisAngle u a).vector.y / Real.sin (a / 2),
      (fromAxisAngle u a).vector.z / Real.sin (a / 2)⟩ : V3 ℝ) = u := by
    ext <;> simp [vector, fromAxisAngle, hs0.ne']
  rw [e]

/-- A quarter turn meets the hypotheses. -/
example : (fromAxisAngle ⟨0, 1, 0⟩ (Real.pi / 2)).isIdentity = false ∧
    zeroThreshold ≤ Real.sin (Real.pi / 2 / 2) := by
  have e : Real.pi / 2 / 2 = Real.pi / 4 := by ring
  have h2 : 1 ≤ Real.sqrt 2 := Real.one_le_sqrt.mpr (by norm_num)
  constructor
  · simp only [isIdentity, fromAxisAngle, e, Real.sin_pi_div_four, defaultTolerance]
    simp only [Bool.and_eq_false_iff, decide_eq_false_iff_not, not_lt]
    left; right
    rw [one_mul, abs_of_nonneg (by positivity)]
    linarith
  · rw [e, Real.sin_pi_div_four, zeroThreshold]
    linarith

/-! ## Euler angles -/

/-- The rotation about the `x` axis. -/
noncomputable def Rx (a : ℝ) : Matrix (Fin 3) (Fin 3) ℝ :=
  !![1, 0, 0; 0, Real.cos a, -Real.sin a; 0, Real.sin a, Real.cos a]

/-- The rotation about the `y` axis. -/
noncomputable def Ry (a : ℝ) : Matrix (Fin 3) (Fin 3) ℝ :=
  !![Real.cos a, 0, Real.sin a; 0, 1, 0; -Real.sin a, 0, Real.cos a]

/-- The rotation about the `z` axis. -/
noncomputable def Rz (a : ℝ) : Matrix (Fin 3) (Fin 3) ℝ :=
  !![Real.cos a, -Real.sin a, 0; Real.sin a, Real.cos a, 0; 0, 0, 1]

theorem matrix_eq_of_rotate (q : Quat ℝ) (m : Matrix (Fin 3) (Fin 3) ℝ)
    (h : ∀ v, q.rotate v = M3.mulVec m v) : Matrix.of q.toRotationMatrix = m := by
  ext i j
  have hj := h ⟨if j = 0 then 1 else 0, if j = 1 then 1 else 0, if j = 2 then 1 else 0⟩
  rw [← rotationMatrix_rotate] at hj
  have hx := congrArg V3.x hj; have hy := congrArg V3.y hj; have hz := congrArg V3.z hj
  fin_cases i <;> fin_cases j <;> simp [M3.mulVec] at hx hy hz <;> simpa

theorem fromAxisAngle_axes (a : ℝ) :
    Matrix.of (fromAxisAngle ⟨1, 0, 0⟩ a).toRotationMatrix = Rx a ∧
      Matrix.of (fromAxisAngle ⟨0, 1, 0⟩ a).toRotationMatrix = Ry a ∧
      Matrix.of (fromAxisAngle ⟨0, 0, 1⟩ a).toRotationMatrix = Rz a := by
  refine ⟨?_, ?_, ?_⟩ <;> refine matrix_eq_of_rotate _ _ (fun v => ?_) <;>
    rw [(fromAxisAngle_rotates _ a v (by norm_num [V3.dot])).2] <;>
    ext <;> simp [V3.add, V3.scale, V3.cross, V3.dot, M3.mulVec, Rx, Ry, Rz] <;> ring

/-- The matrix of a product of unit quaternions is the product of the matrices. -/
theorem toRotationMatrix_mul (p q : Quat ℝ) (hp : p.normSq = 1) (hq : q.normSq = 1) :
    Matrix.of (p.mul q).toRotationMatrix = Matrix.of p.toRotationMatrix * Matrix.of q.toRotationMatrix := by
  refine matrix_eq_of_rotate _ _ (fun v => ?_)
  rw [rotate_mul p q v hp hq, ← rotationMatrix_rotate, ← rotationMatrix_rotate]
  ext <;> simp [M3.mulVec, Matrix.mul_apply, Fin.sum_univ_three] <;> ring

/-- C66: the ZYX quaternion is a unit quaternion, the product of the rotations about the three axes, and its matrix is
`Rz(yaw) Ry(pitch) Rx(roll)`. -/
theorem fromEulerZYX_spec (yaw pitch roll : ℝ) :
    (fromEulerZYX yaw pitch roll).normSq = 1 ∧
      fromEulerZYX yaw pitch roll =
        ((fromAxisAngle ⟨0, 0, 1⟩ yaw).mul (fromAxisAngle ⟨0, 1, 0⟩ pitch)).mul (fromAxisAngle ⟨1, 0, 0⟩ roll) ∧
      Matrix.of (fromEulerZYX yaw pitch roll).toRotationMatrix = Rz yaw * Ry pitch * Rx roll := by
  have e : fromEulerZYX yaw pitch roll =
      ((fromAxisAngle ⟨0, 0, 1⟩ yaw).mul (fromAxisAngle ⟨0, 1, 0⟩ pitch)).mul (fromAxisAngle ⟨1, 0, 0⟩ roll) := by
    ext <;> simp only [fromEulerZYX, mul, fromAxisAngle, ← div_eq_mul_one_div] <;> ring
  have hz := (fromAxisAngle_rotates ⟨0, 0, 1⟩ yaw ⟨0, 0, 0⟩ (by norm_num [V3.dot])).1
  have hy := (fromAxisAngle_rotates ⟨0, 1, 0⟩ pitch ⟨0, 0, 0⟩ (by norm_num [V3.dot])).1
  have hx := (fromAxisAngle_rotates ⟨1, 0, 0⟩ roll ⟨0, 0, 0⟩ (by norm_num [V3.dot])).1
  have hzy := (mul_laws (fromAxisAngle ⟨0, 0, 1⟩ yaw) (fromAxisAngle ⟨0, 1, 0⟩ pitch) identity).2.2.2.2.2.1
  rw [hz, hy, one_mul] at hzy
  refine ⟨?_, e, ?_⟩
  · rw [e, (mul_laws _ _ identity).2.2.2.2.2.1, hzy, hx, one_mul]
  · rw [e, toRotationMatrix_mul _ _ hzy hx, toRotationMatrix_mul _ _ hz hy, (fromAxisAngle_axes _).1,
      (fromAxisAngle_axes _).2.1, (fromAxisAngle_axes _).2.2]

/-- C66: the same for the XYZ convention, `Rx(roll) Ry(pitch) Rz(yaw)`. -/
theorem fromEulerXYZ_spec (roll pitch yaw : ℝ) :
    (fromEulerXYZ roll pitch yaw).normSq = 1 ∧
      fromEulerXYZ roll pitch yaw =
        ((fromAxisAngle ⟨1, 0, 0⟩ roll).mul (fromAxisAngle ⟨0, 1, 0⟩ pitch)).mul (fromAxisAngle ⟨0, 0, 1⟩ yaw) ∧
      Matrix.of (fromEulerXYZ roll pitch yaw).toRotationMatrix = Rx roll * Ry pitch * Rz yaw := by
  have e : fromEulerXYZ roll pitch yaw =
      ((fromAxisAngle ⟨1, 0, 0⟩ roll).mul (fromAxisAngle ⟨0, 1, 0⟩ pitch)).mul (fromAxisAngle ⟨0, 0, 1⟩ yaw) := by
    ext <;> simp only [fromEulerXYZ, mul, fromAxisAngle, ← div_eq_mul_one_div] <;> ring
  have hz := (fromAxisAngle_rotates ⟨0, 0, 1⟩ yaw ⟨0, 0, 0⟩ (by norm_num [V3.dot])).1
  have hy := (fromAxisAngle_rotates ⟨0, 1, 0⟩ pitch ⟨0, 0, 0⟩ (by norm_num [V3.dot])).1
  have hx := (fromAxisAngle_rotates ⟨1, 0, 0⟩ roll ⟨0, 0, 0⟩ (by norm_num [V3.dot])).1
  have hxy := (mul_laws (fromAxisAngle ⟨1, 0, 0⟩ roll) (fromAxisAngle ⟨0, 1, 0⟩ pitch) identity).2.2.2.2.2.1
  rw [hx, hy, one_mul] at hxy
  refine ⟨?_, e, ?_⟩
  · rw [e, (mul_laws _ _ identity).2.2.2.2.2.1, hxy, hz, one_mul]
  · rw [e, toRotationMatrix_mul _ _ hxy hz, toRotationMatrix_mul _ _ hx hy, (fromAxisAngle_axes _).1,
      (fromAxisAngle_axes _).2.1, (fromAxisAngle_axes _).2.2]

/-- The elements of the ZYX matrix. -/
theorem zyx_entries (y p r : ℝ) : Rz y * Ry p * Rx r =
    !![Real.cos y * Real.cos p, Real.cos y * Real.sin p * Real.sin r - Real.sin y * Real.cos r,
        Real.cos y * Real.sin p * Real.cos r + Real.sin y * Real.sin r;
      Real.sin y * Real.cos p, Real.sin y * Real.sin p * Real.sin r + Real.cos y * Real.cos r,
        Real.sin y * Real.sin p * Real.cos r - Real.cos y * Real.sin r;
      -Real.sin p, Real.cos p * Real.sin r, Real.cos p * Real.cos r] := by
  ext i j
  fin_cases i <;> fin_cases j <;> simp [Rx, Ry, Rz, Matrix.mul_apply, Fin.sum_univ_three] <;> ring

theorem atan2_polar {r a : ℝ} (hr : 0 < r) (h1 : -Real.pi < a) (h2 : a ≤ Real.pi) :
    atan2 (Real.sin a * r) (Real.cos a * r) = a := by
  have h := Complex.arg_mul_cos_add_sin_mul_I hr (show a ∈ Set.Ioc (-Real.pi) Real.pi from ⟨h1, h2⟩)
  rw [atan2]
  convert h using 2
  apply Complex.ext <;> simp [Complex.cos_ofReal_re, Complex.sin_ofReal_re] <;> ring

/-- C66: yaw, pitch and roll in their principal ranges are recovered from the quaternion. -/
theorem fromEulerZYX_roundtrip (y p r : ℝ) (hy : -Real.pi < y ∧ y ≤ Real.pi) (hp : |p| < Real.pi / 2)
    (hr : -Real.pi < r ∧ r ≤ Real.pi) : (fromEulerZYX y p r).toEulerZYX = ⟨y, p, r⟩ := by
  have hm := (fromEulerZYX_spec y p r).2.2
  rw [zyx_entries] at hm
  have e (i j : Fin 3) := congrFun (congrFun hm i) j
  have e00 := e 0 0; have e10 := e 1 0; have e20 := e 2 0; have e21 := e 2 1; have e22 := e 2 2
  simp [toRotationMatrix] at e00 e10 e20 e21 e22
  obtain ⟨hp1, hp2⟩ := abs_lt.mp hp
  have hc : 0 < Real.cos p := Real.cos_pos_of_mem_Ioo ⟨hp1, hp2⟩
  have hs : |Real.sin p| < 1 := by
    rw [← sq_lt_one_iff_abs_lt_one]
    nlinarith [Real.sin_sq_add_cos_sq p]
  generalize fromEulerZYX y p r = q at *
  ext
  · simp only [toEulerZYX]
    rw [e00, show 2 * (q.w * q.z + q.x * q.y) = Real.sin y * Real.cos p by linarith]
    exact atan2_polar hc hy.1 hy.2
  · simp only [toEulerZYX]
    rw [show 2 * (q.w * q.y - q.z * q.x) = Real.sin p by linarith, pitchOf, if_neg (not_le.mpr hs)]
    exact Real.arcsin_sin hp1.le hp2.le
  · simp only [toEulerZYX]
    rw [e22, show 2 * (q.w * q.x + q.y * q.z) = Real.sin r * Real.cos p by linarith, mul_comm (Real.cos p)]
    exact atan2_polar hc hr.1 hr.2


example : (-Real.pi < (3 : ℝ) ∧ (3 : ℝ) ≤ Real.pi) ∧ |(-1 : ℝ)| < Real.pi / 2 := by
  have := Real.pi_gt_three
  refine ⟨⟨by linarith, this.le⟩, ?_⟩
  rw [abs_neg, abs_one]
  linarith

theorem atan2_spec (y x : ℝ) :
    Real.sqrt (x * x + y * y) * Real.cos (atan2 y x) = x ∧ Real.sqrt (x * x + y * y) * Real.sin (atan2 y x) = y := by
  have h : ‖(⟨x, y⟩ : ℂ)‖ = Real.sqrt (x * x + y * y) := by
    rw [Complex.norm_def, Complex.normSq_mk]
  have h1 := Complex.norm_mul_cos_arg (⟨x, y⟩ : ℂ)
  have h2 := Complex.norm_mul_sin_arg (⟨x, y⟩ : ℂ)
  rw [h] at h1 h2
  exact ⟨h1, h2⟩

theorem isRotation_of_unit (q : Quat ℝ) (hq : q.normSq = 1) : IsRotation q.toRotationMatrix :=
  ⟨(rotationMatrix_special_orthogonal q hq).1, (rotationMatrix_special_orthogonal q hq).2.2⟩

/-- C66 (partial): away from the gimbal lock a unit quaternion is recovered from its Euler angles up to its sign, so
the rotation is recovered exactly.  What is missing is the gimbal lock, where the claim is false; see
`toEulerZYX_loses_rotation`. -/
theorem toEulerZYX_roundtrip_partial (q : Quat ℝ) (hq : q.normSq = 1) (h : |2 * (q.w * q.y - q.z * q.x)| < 1) :
    fromEulerZYX q.toEulerZYX.x q.toEulerZYX.y q.toEulerZYX.z = q ∨
      fromEulerZYX q.toEulerZYX.x q.toEulerZYX.y q.toEulerZYX.z = q.neg := by
  obtain ⟨h1, h2⟩ := abs_lt.mp h
  refine toRotationMatrix_injective _ _ (fromEulerZYX_spec _ _ _).1 hq ?_
  apply Matrix.of.injective
  rw [(fromEulerZYX_spec _ _ _).2.2, zyx_entries]
  have hm := isRotation_of_unit q hq
  obtain ⟨⟨a00, a11, a22, a01, a02, a12⟩, ⟨b00, b11, b22, b01, b02, b12⟩, c00, c01, c02, c10, c11, c12, c20, c21, c22⟩ :=
    hm.relations
  have hp : q.toEulerZYX.y = Real.arcsin (2 * (q.w * q.y - q.z * q.x)) := if_neg (not_le.mpr h)
  have hsp : Real.sin q.toEulerZYX.y = 2 * (q.w * q.y - q.z * q.x) := by
    rw [hp, Real.sin_arcsin h1.le h2.le]
  have hcp : Real.cos q.toEulerZYX.y = Real.sqrt (1 - (2 * (q.w * q.y - q.z * q.x)) ^ 2) := by
    rw [hp, Real.cos_arcsin]
  have hC : 0 < 1 - (2 * (q.w * q.y - q.z * q.x)) ^ 2 := by
    have := (sq_lt_one_iff_abs_lt_one _).mpr h
    linarith
  have e20 : q.toRotationMatrix 2 0 = -(2 * (q.w * q.y - q.z * q.x)) := by simp [toRotationMatrix]; ring
  have e00 : q.toRotationMatrix 0 0 = 1 - 2 * (q.y * q.y + q.z * q.z) := by simp [toRotationMatrix]
  have e10 : q.toRotationMatrix 1 0 = 2 * (q.w * q.z + q.x * q.y) := by simp [toRotationMatrix]; ring
  have e21 : q.toRotationMatrix 2 1 = 2 * (q.w * q.x + q.y * q.z) := by simp [toRotationMatrix]; ring
  have e22 : q.toRotationMatrix 2 2 = 1 - 2 * (q.x * q.x + q.y * q.y) := by simp [toRotationMatrix]
  have y1 := atan2_spec (2 * (q.w * q.z + q.x * q.y)) (1 - 2 * (q.y * q.y + q.z * q.z))
  have r1 := atan2_spec (2 * (q.w * q.x + q.y * q.z)) (1 - 2 * (q.x * q.x + q.y * q.y))
  rw [← e00, ← e10] at y1
  rw [← e21, ← e22] at r1
  have sy : q.toRotationMatrix 0 0 * q.toRotationMatrix 0 0 + q.toRotationMatrix 1 0 * q.toRotationMatrix 1 0 =
      1 - (2 * (q.w * q.y - q.z * q.x)) ^ 2 := by rw [e20] at a00; linarith
  have sr : q.toRotationMatrix 2 2 * q.toRotationMatrix 2 2 + q.toRotationMatrix 2 1 * q.toRotationMatrix 2 1 =
      1 - (2 * (q.w * q.y - q.z * q.x)) ^ 2 := by rw [e20] at b22; linarith
  rw [sy, ← hcp] at y1
  rw [sr, ← hcp] at r1
  have hC' : Real.cos q.toEulerZYX.y ≠ 0 := by rw [hcp]; exact (Real.sqrt_pos.mpr hC).ne'
  have hsp' : Real.sin q.toEulerZYX.y = -q.toRotationMatrix 2 0 := by rw [hsp, e20]; ring
  have hcs := Real.sin_sq_add_cos_sq q.toEulerZYX.y
  have ye : q.toEulerZYX.x = atan2 (q.toRotationMatrix 1 0) (q.toRotationMatrix 0 0) := by rw [e10, e00]; rfl
  have re : q.toEulerZYX.z = atan2 (q.toRotationMatrix 2 1) (q.toRotationMatrix 2 2) := by rw [e21, e22]; rfl
  rw [← ye] at y1
  rw [← re] at r1
  generalize Real.cos q.toEulerZYX.y = cp at *
  generalize Real.sin q.toEulerZYX.y = sp at *
  generalize Real.cos q.toEulerZYX.x = cy at *
  generalize Real.sin q.toEulerZYX.x = sy' at *
  generalize Real.cos q.toEulerZYX.z = cr at *
  generalize Real.sin q.toEulerZYX.z = sr' at *
  generalize q.toRotationMatrix = m at *
  have hcp2 : cp ^ 2 ≠ 0 := pow_ne_zero 2 hC'
  have hcp' : cp ^ 2 = 1 - m 2 0 ^ 2 := by rw [hsp'] at hcs; linarith [neg_sq (m 2 0)]
  obtain ⟨y1, y2⟩ := y1
  obtain ⟨r1, r2⟩ := r1
  ext i j
  fin_cases i <;> fin_cases j <;> simp
  · linarith
  · refine mul_left_cancel₀ hcp2 ?_
    rw [show cp ^ 2 * (cy * sp * sr' - sy' * cr) = cp * cy * (cp * sr') * sp - cp * sy' * (cp * cr) by ring, y1, y2, r1,
      r2, hsp', hcp']
    linear_combination c10 + m 2 0 * c21
  · refine mul_left_cancel₀ hcp2 ?_
    rw [show cp ^ 2 * (cy * sp * cr + sy' * sr') = cp * cy * (cp * cr) * sp + cp * sy' * (cp * sr') by ring, y1, y2, r1,
      r2, hsp', hcp']
    linear_combination c20 - m 2 0 * c11
  · linarith
  · refine mul_left_cancel₀ hcp2 ?_
    rw [show cp ^ 2 * (sy' * sp * sr' + cy * cr) = cp * sy' * (cp * sr') * sp + cp * cy * (cp * cr) by ring, y1, y2, r1,
      r2, hsp', hcp']
    linear_combination c11 - m 2 0 * c20
  · refine mul_left_cancel₀ hcp2 ?_
    rw [show cp ^ 2 * (sy' * sp * cr - cy * sr') = cp * sy' * (cp * cr) * sp - cp * cy * (cp * sr') by ring, y1, y2, r1,
      r2, hsp', hcp']
    linear_combination c21 + m 2 0 * c10
  · linarith
  · linarith
  · linarith

/-- In the gimbal lock, a pitch of plus or minus a right angle, yaw and roll are returned as zero whatever the
rotation. -/
theorem toEulerZYX_gimbal_lock (q : Quat ℝ) (hq : q.normSq = 1) (h : 1 ≤ |2 * (q.w * q.y - q.z * q.x)|) :
    q.toEulerZYX.x = 0 ∧ |q.toEulerZYX.y| = Real.pi / 2 ∧ q.toEulerZYX.z = 0 := by
  simp only [normSq] at hq
  have hpi := Real.pi_pos
  have h0 : atan2 0 0 = 0 := by
    have : (⟨0, 0⟩ : ℂ) = 0 := rfl
    rw [atan2, this, Complex.arg_zero]
  have hy : |q.toEulerZYX.y| = Real.pi / 2 := by
    simp only [toEulerZYX, pitchOf]
    rw [if_pos h]
    split_ifs
    · rw [abs_neg, abs_of_pos (by linarith)]
    · rw [abs_of_pos (by linarith)]
  have key : (q.w = q.y ∧ q.x = -q.z) ∨ (q.w = -q.y ∧ q.x = q.z) := by
    rcases le_abs.mp h with h1 | h1
    · left
      have e : (q.w - q.y) * (q.w - q.y) + (q.x - -q.z) * (q.x - -q.z) ≤ 0 := by linarith
      have a1 := mul_self_nonneg (q.w - q.y); have a2 := mul_self_nonneg (q.x - -q.z)
      exact ⟨sub_eq_zero.mp (mul_self_eq_zero.mp (by linarith)), sub_eq_zero.mp (mul_self_eq_zero.mp (by linarith))⟩
    · right
      have e : (q.w - -q.y) * (q.w - -q.y) + (q.x - q.z) * (q.x - q.z) ≤ 0 := by linarith
      have a1 := mul_self_nonneg (q.w - -q.y); have a2 := mul_self_nonneg (q.x - q.z)
      exact ⟨sub_eq_zero.mp (mul_self_eq_zero.mp (by linarith)), sub_eq_zero.mp (mul_self_eq_zero.mp (by linarith))⟩
  refine ⟨?_, hy, ?_⟩ <;> rcases key with ⟨k1, k2⟩ | ⟨k1, k2⟩ <;> rw [k1, k2] at hq <;> simp only [toEulerZYX] <;>
    rw [k1, k2] <;> rw [← h0] <;> congr 1 <;> linarith

/-- The claim that the Euler angles determine the rotation is false in the gimbal lock: the rotation of this unit
quaternion is lost. -/
theorem toEulerZYX_loses_rotation : ∃ q : Quat ℝ, q.normSq = 1 ∧
    (fromEulerZYX q.toEulerZYX.x q.toEulerZYX.y q.toEulerZYX.z).toRotationMatrix ≠ q.toRotationMatrix := by
  refine ⟨⟨1 / 2, 1 / 2, 1 / 2, -(1 / 2)⟩, by norm_num [normSq], ?_⟩
  obtain ⟨h1, -, h3⟩ := toEulerZYX_gimbal_lock ⟨1 / 2, 1 / 2, 1 / 2, -(1 / 2)⟩ (by norm_num [normSq]) (by norm_num)
  rw [h1, h3]
  intro h
  have h2 := (fromEulerZYX_spec 0 (toEulerZYX ⟨1 / 2, 1 / 2, 1 / 2, -(1 / 2)⟩).y 0).2.2
  rw [h, zyx_entries] at h2
  have := congrFun (congrFun h2 0) 1
  norm_num [toRotationMatrix] at this

/-! ## Interpolation -/

/-- C67: both interpolations start at the first quaternion and end at the second; `Lerp` is the straight line. -/
theorem lerp_ends (q1 q2 : Quat ℝ) : lerp q1 q2 0 = q1 ∧ lerp q1 q2 1 = q2 := by
  constructor <;> ext <;> simp [lerp, add, scale]

theorem lerp_normSq (q1 q2 : Quat ℝ) (t : ℝ) (h1 : q1.normSq = 1) (h2 : q2.normSq = 1) :
    (lerp q1 q2 t).normSq = 1 - 2 * t * (1 - t) * (1 - q1.dot q2) := by
  simp only [normSq] at h1 h2
  simp only [normSq, lerp, add, scale, dot]
  linear_combination (1 - t) ^ 2 * h1 + t ^ 2 * h2

theorem dot_le_one (q1 q2 : Quat ℝ) (h1 : q1.normSq = 1) (h2 : q2.normSq = 1) : q1.dot q2 ≤ 1 := by
  simp only [normSq] at h1 h2
  simp only [dot]
  nlinarith [mul_self_nonneg (q1.w - q2.w), mul_self_nonneg (q1.x - q2.x), mul_self_nonneg (q1.y - q2.y),
    mul_self_nonneg (q1.z - q2.z)]

/-- The three weights of the spherical interpolation. -/
theorem slerp_weights (a b : ℝ) (hs : Real.sin (a + b) ≠ 0) :
    (Real.sin a / Real.sin (a + b)) ^ 2 + (Real.sin b / Real.sin (a + b)) ^ 2 +
        2 * (Real.sin a / Real.sin (a + b)) * (Real.sin b / Real.sin (a + b)) * Real.cos (a + b) = 1 ∧
      Real.sin a / Real.sin (a + b) + Real.sin b / Real.sin (a + b) * Real.cos (a + b) = Real.cos b := by
  have ha := Real.sin_sq_add_cos_sq a
  have hb := Real.sin_sq_add_cos_sq b
  constructor
  · field_simp
    rw [Real.sin_add, Real.cos_add]
    linear_combination (Real.sin b ^ 2 - 2 * Real.sin b ^ 2) * ha + (Real.sin a ^ 2 - 2 * Real.sin a ^ 2) * hb
  · field_simp
    rw [Real.sin_add, Real.cos_add]
    linear_combination (-Real.sin a) * hb

theorem combination_normSq (p q : Quat ℝ) (a b : ℝ) (h1 : p.normSq = 1) (h2 : q.normSq = 1) :
    ((p.scale a).add (q.scale b)).normSq = a ^ 2 + b ^ 2 + 2 * a * b * p.dot q ∧
      p.dot ((p.scale a).add (q.scale b)) = a + b * p.dot q := by
  simp only [normSq] at h1 h2
  constructor
  · simp only [normSq, add, scale, dot]
    linear_combination a ^ 2 * h1 + b ^ 2 * h2
  · simp only [add, scale, dot]
    linear_combination a * h1

/-- `Slerp` on the main branch. -/
theorem slerpShort_main (q1 q2 : Quat ℝ) (t : ℝ) (h1 : q1.normSq = 1) (h2 : q2.normSq = 1) (hd : 0 ≤ q1.dot q2)
    (hd' : q1.dot q2 ≤ 0.9995) :
    ∃ r, slerpShort q1 q2 (q1.dot q2) t = .ret r ∧ r.normSq = 1 ∧ (t = 0 → r = q1) ∧ (t = 1 → r = q2) ∧
      q1.dot r = Real.cos (t * Real.arccos (q1.dot q2)) := by
  have hs : 1 / 10 ^ 6 ≤ Real.sin (Real.arccos (q1.dot q2)) := by
    rw [Real.sin_arccos]
    apply Real.le_sqrt_of_sq_le
    nlinarith
  have hs0 : Real.sin (Real.arccos (q1.dot q2)) ≠ 0 := by
    have : (0 : ℝ) < 1 / 10 ^ 6 := by positivity
    linarith
  have hc : Real.cos (Real.arccos (q1.dot q2)) = q1.dot q2 := Real.cos_arccos (by linarith) (by linarith)
  refine ⟨_, by rw [slerpShort, if_neg (not_lt.mpr hd'), if_neg (not_lt.mpr (le_trans hs (le_abs_self _)))], ?_⟩
  have hab : (1 - t) * Real.arccos (q1.dot q2) + t * Real.arccos (q1.dot q2) = Real.arccos (q1.dot q2) := by ring
  have hw := slerp_weights ((1 - t) * Real.arccos (q1.dot q2)) (t * Real.arccos (q1.dot q2)) (by rw [hab]; exact hs0)
  rw [hab, hc] at hw
  have hk := combination_normSq q1 q2
    (Real.sin ((1 - t) * Real.arccos (q1.dot q2)) / Real.sin (Real.arccos (q1.dot q2)))
    (Real.sin (t * Real.arccos (q1.dot q2)) / Real.sin (Real.arccos (q1.dot q2))) h1 h2
  refine ⟨hk.1.trans hw.1, ?_, ?_, hk.2.trans hw.2⟩
  · rintro rfl
    ext <;> simp [add, scale, hs0]
  · rintro rfl
    ext <;> simp [add, scale, hs0]

/-- `Slerp` on the branch of nearly equal quaternions. -/
theorem slerpShort_near (q1 q2 : Quat ℝ) (t : ℝ) (h1 : q1.normSq = 1) (h2 : q2.normSq = 1) (hd : q1.dot q2 > 0.9995) :
    ∃ r, slerpShort q1 q2 (q1.dot q2) t = .ret r ∧ r.normSq = 1 ∧ (t = 0 → r = q1) ∧ (t = 1 → r = q2) ∧
      (0 ≤ t → t ≤ 1 → q1.dot q2 ≤ q1.dot r) := by
  have hd1 := dot_le_one q1 q2 h1 h2
  have hN := lerp_normSq q1 q2 t h1 h2
  have hlow : 0.99 ≤ (lerp q1 q2 t).normSq := by
    rw [hN]
    nlinarith [sq_nonneg (2 * t - 1), mul_nonneg (sq_nonneg (2 * t - 1)) (sub_nonneg.mpr hd1)]
  have hn : zeroThreshold ≤ (lerp q1 q2 t).norm := by
    apply Real.le_sqrt_of_sq_le
    refine le_trans ?_ hlow
    norm_num [zeroThreshold]
  obtain ⟨r, hr, hr1, hr2⟩ := (normalized_spec (lerp q1 q2 t)).2 hn
  have hunit (h : (lerp q1 q2 t).normSq = 1) : r = lerp q1 q2 t := by
    have : (lerp q1 q2 t).norm = 1 := by rw [norm, h, Real.sqrt_one]
    rw [this] at hr2
    rw [← hr2]
    ext <;> simp [scale]
  refine ⟨r, by rw [slerpShort, if_pos hd, hr], hr1, ?_, ?_, ?_⟩
  · rintro rfl
    rw [hunit (by rw [(lerp_ends q1 q2).1]; exact h1), (lerp_ends q1 q2).1]
  · rintro rfl
    rw [hunit (by rw [(lerp_ends q1 q2).2]; exact h2), (lerp_ends q1 q2).2]
  · intro t0 t1
    have hle : (lerp q1 q2 t).norm ≤ 1 := by
      rw [norm, Real.sqrt_le_one, hN]
      have := mul_nonneg (mul_nonneg t0 (sub_nonneg.mpr t1)) (sub_nonneg.mpr hd1)
      linarith
    have hpos : 0 < (lerp q1 q2 t).norm := lt_of_lt_of_le zeroThreshold_pos hn
    have e : (lerp q1 q2 t).norm * q1.dot r = 1 - t + t * q1.dot q2 := by
      have e1 : q1.dot (r.scale (lerp q1 q2 t).norm) = (lerp q1 q2 t).norm * q1.dot r := by
        simp only [dot, scale]; ring
      rw [← e1, hr2]
      simp only [normSq] at h1
      simp only [dot, lerp, add, scale]
      linear_combination (1 - t) * h1
    have hge : q1.dot q2 ≤ (lerp q1 q2 t).norm * q1.dot r := by
      rw [e]; nlinarith
    have hdot0 : 0 ≤ q1.dot r := by
      by_contra hneg
      have := mul_neg_of_pos_of_neg hpos (not_le.mp hneg)
      linarith
    nlinarith

theorem neg_normSq (q : Quat ℝ) : q.neg.normSq = q.normSq := by simp only [normSq, neg]; ring

theorem dot_neg (p q : Quat ℝ) : p.dot q.neg = -(p.dot q) := by simp only [dot, neg]; ring

/-- C67: for unit quaternions `Slerp` never throws, returns a unit quaternion for every `t`, starts at the first
quaternion and ends at the second or its opposite (the same rotation), the one nearer to the first; between them it
stays on the shorter arc, and unless the two are nearly equal the angle to the first grows in proportion to `t`. -/
theorem slerp_spec (q1 q2 : Quat ℝ) (t : ℝ) (h1 : q1.normSq = 1) (h2 : q2.normSq = 1) :
    ∃ r, slerp q1 q2 t = .ret r ∧ r.normSq = 1 ∧ (t = 0 → r = q1) ∧
      (t = 1 → r = if q1.dot q2 < 0 then q2.neg else q2) ∧
      (0 ≤ t → t ≤ 1 → |q1.dot q2| ≤ q1.dot r) ∧
      (|q1.dot q2| ≤ 0.9995 → q1.dot r = Real.cos (t * Real.arccos |q1.dot q2|)) := by
  have main (q : Quat ℝ) (hq : q.normSq = 1) (hd : 0 ≤ q1.dot q) :
      ∃ r, slerpShort q1 q (q1.dot q) t = .ret r ∧ r.normSq = 1 ∧ (t = 0 → r = q1) ∧ (t = 1 → r = q) ∧
        (0 ≤ t → t ≤ 1 → q1.dot q ≤ q1.dot r) ∧
        (q1.dot q ≤ 0.9995 → q1.dot r = Real.cos (t * Real.arccos (q1.dot q))) := by
    by_cases hd' : q1.dot q ≤ 0.9995
    · obtain ⟨r, hr, hr1, ht0, ht1, hdot⟩ := slerpShort_main q1 q t h1 hq hd hd'
      refine ⟨r, hr, hr1, ht0, ht1, fun t0 t1 => ?_, fun _ => hdot⟩
      have ha := Real.arccos_nonneg (q1.dot q)
      have := Real.cos_le_cos_of_nonneg_of_le_pi (mul_nonneg t0 ha) (Real.arccos_le_pi (q1.dot q))
        (by nlinarith : t * Real.arccos (q1.dot q) ≤ Real.arccos (q1.dot q))
      rw [Real.cos_arccos (by linarith) (by linarith)] at this
      rw [hdot]
      exact this
    · obtain ⟨r, hr, hr1, ht0, ht1, hdot⟩ := slerpShort_near q1 q t h1 hq (not_le.mp hd')
      exact ⟨r, hr, hr1, ht0, ht1, hdot, fun h => absurd h hd'⟩
  by_cases hneg : q1.dot q2 < 0
  · have := main q2.neg (by rw [neg_normSq]; exact h2) (by rw [dot_neg]; linarith)
    rw [dot_neg] at this
    rw [slerp, if_pos hneg, if_pos hneg, abs_of_neg hneg]
    exact this
  · have := main q2 h2 (not_lt.mp hneg)
    rw [slerp, if_neg hneg, if_neg hneg, abs_of_nonneg (not_lt.mp hneg)]
    exact this

/-- Two unit quaternions on opposite sides. -/
example : (⟨1, 0, 0, 0⟩ : Quat ℝ).normSq = 1 ∧ (⟨-(3 / 5), 4 / 5, 0, 0⟩ : Quat ℝ).normSq = 1 ∧
    (⟨1, 0, 0, 0⟩ : Quat ℝ).dot ⟨-(3 / 5), 4 / 5, 0, 0⟩ < 0 := by norm_num [normSq, dot]

end Verif.Geom.Quat
