import Verif.Geom.QuatProps
import Mathlib.LinearAlgebra.Matrix.Adjugate
import Mathlib.Tactic.Positivity
import Mathlib.Tactic.Linarith
import Mathlib.Tactic.FieldSimp

/-!
# Inverses and conversions of quaternions (C42, C66)
-/

set_option autoImplicit false

namespace Verif.Geom.Quat

theorem zeroThreshold_pos : 0 < zeroThreshold := by unfold zeroThreshold; positivity

theorem normSq_nonneg (q : Quat ℝ) : 0 ≤ q.normSq := by
  unfold normSq
  nlinarith [mul_self_nonneg q.w, mul_self_nonneg q.x, mul_self_nonneg q.y, mul_self_nonneg q.z]

theorem norm_mul_self (q : Quat ℝ) : q.norm * q.norm = q.normSq := Real.mul_self_sqrt (normSq_nonneg q)

/-- C42: `Inverse` refuses exactly the quaternions whose squared norm is below the threshold, and otherwise returns
the two-sided inverse; for a unit quaternion that is the conjugate. -/
theorem inverse_spec (q : Quat ℝ) :
    (q.normSq < zeroThreshold → q.inverse = .exn (.mml "QuaternionError")) ∧
      (zeroThreshold ≤ q.normSq → ∃ r, q.inverse = .ret r ∧ q.mul r = identity ∧ r.mul q = identity ∧
        (q.normSq = 1 → r = q.conj)) := by
  refine ⟨fun h => if_pos h, fun h => ⟨_, if_neg (not_lt.mpr h), ?_⟩⟩
  have hn : q.normSq ≠ 0 := (lt_of_lt_of_le zeroThreshold_pos h).ne'
  have ht : 1 / q.normSq * (q.w * q.w + q.x * q.x + q.y * q.y + q.z * q.z) = 1 := one_div_mul_cancel hn
  refine ⟨?_, ?_, fun h1 => ?_⟩
  · generalize 1 / q.normSq = t at ht ⊢
    ext <;> simp only [mul, identity]
    · linear_combination ht
    all_goals ring
  · generalize 1 / q.normSq = t at ht ⊢
    ext <;> simp only [mul, identity]
    · linear_combination ht
    all_goals ring
  · rw [h1]; ext <;> simp [conj]

/-- The inverse is not refused for all nonzero quaternions: below norm `10⁻⁶` it is. -/
theorem inverse_refuses_small : ∃ q : Quat ℝ, q ≠ ⟨0, 0, 0, 0⟩ ∧ q.inverse = .exn (.mml "QuaternionError") := by
  refine ⟨⟨1 / 10 ^ 7, 0, 0, 0⟩, ?_, (inverse_spec _).1 ?_⟩
  · intro h
    have := congrArg Quat.w h
    norm_num at this
  · norm_num [normSq, zeroThreshold]

/-- C42: `Normalized` refuses exactly the quaternions whose norm is below the threshold, and otherwise returns the
unit quaternion in the same direction. -/
theorem normalized_spec (q : Quat ℝ) :
    (q.norm < zeroThreshold → q.normalized = .exn (.mml "QuaternionError")) ∧
      (zeroThreshold ≤ q.norm → ∃ r, q.normalized = .ret r ∧ r.normSq = 1 ∧ r.scale q.norm = q) := by
  refine ⟨fun h => if_pos h, fun h => ⟨_, if_neg (not_lt.mpr h), ?_⟩⟩
  have hn : q.norm ≠ 0 := (lt_of_lt_of_le zeroThreshold_pos h).ne'
  constructor
  · have h2 := norm_mul_self q
    simp only [normSq] at h2 ⊢
    field_simp
    linear_combination -h2
  · ext <;> simp only [scale] <;> field_simp

example : ∃ r, (⟨1, 2, 3, 4⟩ : Quat ℝ).inverse = .ret r ∧ (⟨1, 2, 3, 4⟩ : Quat ℝ).mul r = identity := by
  obtain ⟨r, h, h1, _⟩ := (inverse_spec ⟨1, 2, 3, 4⟩).2 (by norm_num [normSq, zeroThreshold])
  exact ⟨r, h, h1⟩

/-- C42: the squared norm is zero only for the zero quaternion, and the comparison is exact. -/
theorem eq_spec (p q : Quat ℝ) : (q.normSq = 0 ↔ q = ⟨0, 0, 0, 0⟩) ∧ (p.eqb q = true ↔ p = q) := by
  refine ⟨⟨?_, ?_⟩, ?_, ?_⟩
  · intro h
    simp only [normSq] at h
    ext <;> nlinarith [mul_self_nonneg q.w, mul_self_nonneg q.x, mul_self_nonneg q.y, mul_self_nonneg q.z]
  · rintro rfl; simp [normSq]
  · intro h
    simp only [eqb, Bool.and_eq_true, decide_eq_true_eq] at h
    exact Quat.ext h.1.1.1 h.1.1.2 h.1.2 h.2
  · rintro rfl; simp [eqb]

/-- C42: dividing by a nonzero number and multiplying by it again gives the quaternion back. -/
theorem divScalar_spec (q : Quat ℝ) (s : ℝ) (hs : s ≠ 0) : ∃ r, q.divScalar s = .ret r ∧ r.scale s = q := by
  refine ⟨_, if_neg hs, ?_⟩
  ext <;> simp only [scale] <;> field_simp

example : ∃ r, (⟨1, 2, 3, 4⟩ : Quat ℝ).divScalar 5 = .ret r ∧ r.scale 5 = ⟨1, 2, 3, 4⟩ :=
  divScalar_spec _ 5 (by norm_num)

/-- C42: `isUnit` compares the squared norm with one, `isApprox` every component, and `isIdentity` is `isApprox` with the
identity. -/
theorem approx_spec (p q : Quat ℝ) (tol : ℝ) :
    (q.isUnit tol = true ↔ 1 - tol < q.normSq ∧ q.normSq < 1 + tol) ∧
    (p.isApprox q tol = true ↔ |(p.sub q).w| < tol ∧ |(p.sub q).x| < tol ∧ |(p.sub q).y| < tol ∧ |(p.sub q).z| < tol) ∧
    (q.isIdentity tol = true ↔ q.isApprox identity tol = true) := by
  refine ⟨?_, ?_, ?_⟩
  · simp only [isUnit, decide_eq_true_eq, abs_lt]
    constructor <;> rintro ⟨h1, h2⟩ <;> constructor <;> linarith
  · simp only [isApprox, Bool.and_eq_true, decide_eq_true_eq, sub, and_assoc]
  · simp only [isApprox, isIdentity, identity, sub_zero]
    exact Iff.rfl

/-! ## Rotation matrices -/

/-- The rotation matrices: orthogonal with determinant one. -/
def IsRotation (m : M3 ℝ) : Prop := (Matrix.of m).transpose * Matrix.of m = 1 ∧ (Matrix.of m).det = 1

/-- The symmetric matrix `4 q qᵀ` in terms of the rotation matrix. -/
def outer (m : M3 ℝ) : Fin 4 → Fin 4 → ℝ :=
  ![![1 + m 0 0 + m 1 1 + m 2 2, m 2 1 - m 1 2, m 0 2 - m 2 0, m 1 0 - m 0 1],
    ![m 2 1 - m 1 2, 1 + m 0 0 - m 1 1 - m 2 2, m 0 1 + m 1 0, m 0 2 + m 2 0],
    ![m 0 2 - m 2 0, m 0 1 + m 1 0, 1 + m 1 1 - m 0 0 - m 2 2, m 1 2 + m 2 1],
    ![m 1 0 - m 0 1, m 0 2 + m 2 0, m 1 2 + m 2 1, 1 + m 2 2 - m 0 0 - m 1 1]]

/-- The rows and columns of a rotation matrix are orthonormal, and every element is its own cofactor. -/
theorem IsRotation.relations {m : M3 ℝ} (hm : IsRotation m) :
    (m 0 0 * m 0 0 + m 1 0 * m 1 0 + m 2 0 * m 2 0 = 1 ∧ m 0 1 * m 0 1 + m 1 1 * m 1 1 + m 2 1 * m 2 1 = 1 ∧
      m 0 2 * m 0 2 + m 1 2 * m 1 2 + m 2 2 * m 2 2 = 1 ∧ m 0 0 * m 0 1 + m 1 0 * m 1 1 + m 2 0 * m 2 1 = 0 ∧
      m 0 0 * m 0 2 + m 1 0 * m 1 2 + m 2 0 * m 2 2 = 0 ∧ m 0 1 * m 0 2 + m 1 1 * m 1 2 + m 2 1 * m 2 2 = 0) ∧
    (m 0 0 * m 0 0 + m 0 1 * m 0 1 + m 0 2 * m 0 2 = 1 ∧ m 1 0 * m 1 0 + m 1 1 * m 1 1 + m 1 2 * m 1 2 = 1 ∧
      m 2 0 * m 2 0 + m 2 1 * m 2 1 + m 2 2 * m 2 2 = 1 ∧ m 0 0 * m 1 0 + m 0 1 * m 1 1 + m 0 2 * m 1 2 = 0 ∧
      m 0 0 * m 2 0 + m 0 1 * m 2 1 + m 0 2 * m 2 2 = 0 ∧ m 1 0 * m 2 0 + m 1 1 * m 2 1 + m 1 2 * m 2 2 = 0) ∧
    (m 1 1 * m 2 2 - m 1 2 * m 2 1 = m 0 0 ∧ m 0 2 * m 2 1 - m 0 1 * m 2 2 = m 1 0 ∧
      m 0 1 * m 1 2 - m 0 2 * m 1 1 = m 2 0 ∧ m 1 2 * m 2 0 - m 1 0 * m 2 2 = m 0 1 ∧
      m 0 0 * m 2 2 - m 0 2 * m 2 0 = m 1 1 ∧ m 0 2 * m 1 0 - m 0 0 * m 1 2 = m 2 1 ∧
      m 1 0 * m 2 1 - m 1 1 * m 2 0 = m 0 2 ∧ m 0 1 * m 2 0 - m 0 0 * m 2 1 = m 1 2 ∧
      m 0 0 * m 1 1 - m 0 1 * m 1 0 = m 2 2) := by
  obtain ⟨h1, hd⟩ := hm
  have h2 := mul_eq_one_comm.mp h1
  have h3 : (Matrix.of m).adjugate = (Matrix.of m).transpose := by
    calc _ = (Matrix.of m).adjugate * (Matrix.of m * (Matrix.of m).transpose) := by rw [h2, mul_one]
      _ = _ := by rw [← mul_assoc, Matrix.adjugate_mul, hd, one_smul, one_mul]
  have e1 (i j : Fin 3) := congrFun (congrFun h1 i) j
  have e2 (i j : Fin 3) := congrFun (congrFun h2 i) j
  have e3 (i j : Fin 3) := congrFun (congrFun h3 i) j
  simp only [Matrix.mul_apply, Fin.sum_univ_three, Matrix.transpose_apply, Matrix.of_apply] at e1 e2
  rw [Matrix.adjugate_fin_three] at e3
  have a00 := e1 0 0; have a01 := e1 0 1; have a02 := e1 0 2; have a11 := e1 1 1; have a12 := e1 1 2
  have a22 := e1 2 2
  have b00 := e2 0 0; have b01 := e2 0 1; have b02 := e2 0 2; have b11 := e2 1 1; have b12 := e2 1 2
  have b22 := e2 2 2
  have c00 := e3 0 0; have c01 := e3 0 1; have c02 := e3 0 2
  have c10 := e3 1 0; have c11 := e3 1 1; have c12 := e3 1 2
  have c20 := e3 2 0; have c21 := e3 2 1; have c22 := e3 2 2
  clear e1 e2 e3 h1 h2 h3 hd
  simp at a00 a01 a02 a11 a12 a22 b00 b01 b02 b11 b12 b22 c00 c01 c02 c10 c11 c12 c20 c21 c22
  exact ⟨⟨a00, a11, a22, a01, a02, a12⟩, ⟨b00, b11, b22, b01, b02, b12⟩,
    ⟨c00, by linarith, c02, by linarith, c11, by linarith, c20, by linarith, c22⟩⟩

/-- For a rotation matrix that matrix has rank one. -/
theorem outer_minor (m : M3 ℝ) (hm : IsRotation m) (p a b : Fin 4) :
    outer m p a * outer m p b = outer m p p * outer m a b := by
  obtain ⟨⟨a00, a11, a22, a01, a02, a12⟩, ⟨b00, b11, b22, b01, b02, b12⟩, c00, c01, c02, c10, c11, c12, c20, c21, c22⟩ :=
    hm.relations
  fin_cases p <;> fin_cases a <;> fin_cases b <;> simp [outer] <;> linarith

/-- The components by number. -/
def comp (q : Quat ℝ) : Fin 4 → ℝ := ![q.w, q.x, q.y, q.z]

theorem of_products (m : M3 ℝ) (q : Quat ℝ) (h : ∀ a b, q.comp a * q.comp b = outer m a b / 4) :
    q.normSq = 1 ∧ q.toRotationMatrix = m := by
  have h00 := h 0 0; have h01 := h 0 1; have h02 := h 0 2; have h03 := h 0 3
  have h11 := h 1 1; have h12 := h 1 2; have h13 := h 1 3
  have h22 := h 2 2; have h23 := h 2 3; have h33 := h 3 3
  simp [comp, outer] at h00 h01 h02 h03 h11 h12 h13 h22 h23 h33
  constructor
  · simp only [normSq]; linarith
  · funext i j
    fin_cases i <;> fin_cases j <;> simp [toRotationMatrix] <;> linarith

theorem products_of_outer (m : M3 ℝ) (hm : IsRotation m) (p : Fin 4) (hp : 0 < outer m p p) (q : Quat ℝ)
    (hq : ∀ a, q.comp a = outer m p a / (Real.sqrt (outer m p p) * 2)) (a b : Fin 4) :
    q.comp a * q.comp b = outer m a b / 4 := by
  have hs := Real.mul_self_sqrt hp.le
  have h0 : Real.sqrt (outer m p p) ≠ 0 := (Real.sqrt_pos.mpr hp).ne'
  have h1 := outer_minor m hm p a b
  rw [hq a, hq b, div_mul_div_comm, div_eq_div_iff (by positivity) (by norm_num)]
  linear_combination 4 * h1 - 4 * outer m a b * hs

theorem quarter (c : ℝ) (hc : 0 < c) : 1 / 4 * (Real.sqrt c * 2) = c / (Real.sqrt c * 2) := by
  have hs := Real.mul_self_sqrt hc.le
  have h0 : Real.sqrt c ≠ 0 := (Real.sqrt_pos.mpr hc).ne'
  rw [eq_div_iff (by positivity)]
  linear_combination hs

theorem sqrtU_pos {a : ℝ} (h : 0 < a) : sqrtU a = .ret (Real.sqrt a) := if_neg (not_lt.mpr h.le)

theorem quot_sqrt {a c : ℝ} (h : 0 < c) : quot a (Real.sqrt c * 2) = .ret (a / (Real.sqrt c * 2)) :=
  if_neg (by have := Real.sqrt_pos.mpr h; positivity)

/-- The quaternion read off row `p` of `4 q qᵀ`. -/
noncomputable def ofRow (m : M3 ℝ) (p : Fin 4) : Quat ℝ :=
  ⟨outer m p 0 / (Real.sqrt (outer m p p) * 2), outer m p 1 / (Real.sqrt (outer m p p) * 2),
    outer m p 2 / (Real.sqrt (outer m p p) * 2), outer m p 3 / (Real.sqrt (outer m p p) * 2)⟩

/-- C66: every rotation matrix is turned into a unit quaternion with that matrix; no division by zero and no square
root of a negative number occurs. -/
theorem fromRotationMatrix_spec (m : M3 ℝ) (hm : IsRotation m) :
    ∃ q, fromRotationMatrix m = .ret q ∧ q.normSq = 1 ∧ q.toRotationMatrix = m := by
  have key (p : Fin 4) (hp : 0 < outer m p p) : (ofRow m p).normSq = 1 ∧ (ofRow m p).toRotationMatrix = m :=
    of_products m _ (products_of_outer m hm p hp _ (fun a => by fin_cases a <;> rfl))
  unfold fromRotationMatrix
  split_ifs with h1 h2 h3
  · have e : outer m 0 0 = m 0 0 + m 1 1 + m 2 2 + 1 := by simp [outer]; ring
    have hp : 0 < m 0 0 + m 1 1 + m 2 2 + 1 := by linarith
    refine ⟨_, ?_, key 0 (by rw [e]; exact hp)⟩
    simp only [fromMatrixW, sqrtU_pos hp, Outcome.bind_ret, quot_sqrt hp, quarter _ hp, ofRow, e]
    simp [outer]
  · have e : outer m 1 1 = 1 + m 0 0 - m 1 1 - m 2 2 := by simp [outer]
    have hp : 0 < 1 + m 0 0 - m 1 1 - m 2 2 := by linarith [h2.1, h2.2]
    refine ⟨_, ?_, key 1 (by rw [e]; exact hp)⟩
    simp only [fromMatrixX, sqrtU_pos hp, Outcome.bind_ret, quot_sqrt hp, quarter _ hp, ofRow, e]
    simp [outer]
  · have e : outer m 2 2 = 1 + m 1 1 - m 0 0 - m 2 2 := by simp [outer]
    have hp : 0 < 1 + m 1 1 - m 0 0 - m 2 2 := by
      by_cases h : m 0 0 > m 1 1
      · exact absurd ⟨h, by linarith⟩ h2
      · linarith
    refine ⟨_, ?_, key 2 (by rw [e]; exact hp)⟩
    simp only [fromMatrixY, sqrtU_pos hp, Outcome.bind_ret, quot_sqrt hp, quarter _ hp, ofRow, e]
    simp [outer]
  · have e : outer m 3 3 = 1 + m 2 2 - m 0 0 - m 1 1 := by simp [outer]
    have hp : 0 < 1 + m 2 2 - m 0 0 - m 1 1 := by
      by_cases h : m 0 0 > m 1 1
      · by_cases h' : m 0 0 > m 2 2
        · exact absurd ⟨h, h'⟩ h2
        · linarith
      · linarith
    refine ⟨_, ?_, key 3 (by rw [e]; exact hp)⟩
    simp only [fromMatrixZ, sqrtU_pos hp, Outcome.bind_ret, quot_sqrt hp, quarter _ hp, ofRow, e]
    simp [outer]

/-- C66: unit quaternions with the same matrix are equal up to sign. -/
theorem toRotationMatrix_injective (p q : Quat ℝ) (hp : p.normSq = 1) (hq : q.normSq = 1)
    (h : p.toRotationMatrix = q.toRotationMatrix) : p = q ∨ p = q.neg := by
  have e (i j : Fin 3) := congrFun (congrFun h i) j
  have e00 := e 0 0; have e01 := e 0 1; have e02 := e 0 2
  have e10 := e 1 0; have e11 := e 1 1; have e12 := e 1 2
  have e20 := e 2 0; have e21 := e 2 1; have e22 := e 2 2
  simp [toRotationMatrix] at e00 e01 e02 e10 e11 e12 e20 e21 e22
  simp only [normSq] at hp hq
  have hw : p.w * p.w = q.w * q.w := by linarith
  have hx : p.x * p.x = q.x * q.x := by linarith
  have hy : p.y * p.y = q.y * q.y := by linarith
  have hz : p.z * p.z = q.z * q.z := by linarith
  have hwx : p.w * p.x = q.w * q.x := by linarith
  have hwy : p.w * p.y = q.w * q.y := by linarith
  have hwz : p.w * p.z = q.w * q.z := by linarith
  have hxy : p.x * p.y = q.x * q.y := by linarith
  have hxz : p.x * p.z = q.x * q.z := by linarith
  have hyz : p.y * p.z = q.y * q.z := by linarith
  -- the dot product of `p` and `q` is ±1
  have hd : p.dot q * p.dot q = 1 := by
    simp only [dot]
    linear_combination q.w * q.w * hw + q.x * q.x * hx + q.y * q.y * hy + q.z * q.z * hz + 2 * q.w * q.x * hwx +
      2 * q.w * q.y * hwy + 2 * q.w * q.z * hwz + 2 * q.x * q.y * hxy + 2 * q.x * q.z * hxz + 2 * q.y * q.z * hyz +
      (q.w * q.w + q.x * q.x + q.y * q.y + q.z * q.z + 1) * hq
  simp only [dot] at hd
  rcases mul_self_eq_one_iff.mp hd with h1 | h1
  · left
    have h0 : (p.w - q.w) * (p.w - q.w) + (p.x - q.x) * (p.x - q.x) + (p.y - q.y) * (p.y - q.y) +
        (p.z - q.z) * (p.z - q.z) = 0 := by linear_combination hp + hq - 2 * h1
    have a1 := mul_self_nonneg (p.w - q.w); have a2 := mul_self_nonneg (p.x - q.x)
    have a3 := mul_self_nonneg (p.y - q.y); have a4 := mul_self_nonneg (p.z - q.z)
    ext <;> refine sub_eq_zero.mp (mul_self_eq_zero.mp ?_) <;> linarith
  · right
    have h0 : (p.w - -q.w) * (p.w - -q.w) + (p.x - -q.x) * (p.x - -q.x) + (p.y - -q.y) * (p.y - -q.y) +
        (p.z - -q.z) * (p.z - -q.z) = 0 := by linear_combination hp + hq + 2 * h1
    have a1 := mul_self_nonneg (p.w - -q.w); have a2 := mul_self_nonneg (p.x - -q.x)
    have a3 := mul_self_nonneg (p.y - -q.y); have a4 := mul_self_nonneg (p.z - -q.z)
    ext <;> refine sub_eq_zero.mp (mul_self_eq_zero.mp ?_) <;> simp only [neg] <;> linarith

/-- C66: a unit quaternion is recovered from its matrix up to its sign. -/
theorem fromRotationMatrix_toRotationMatrix (q : Quat ℝ) (hq : q.normSq = 1) :
    fromRotationMatrix q.toRotationMatrix = .ret q ∨ fromRotationMatrix q.toRotationMatrix = .ret q.neg := by
  have h := rotationMatrix_special_orthogonal q hq
  obtain ⟨p, hp, hp1, hpm⟩ := fromRotationMatrix_spec q.toRotationMatrix ⟨h.1, h.2.2⟩
  rw [hp]
  rcases toRotationMatrix_injective p q hp1 hq hpm with rfl | rfl
  · exact Or.inl rfl
  · exact Or.inr rfl

/-- The half turn about the `y` axis: the trace is negative and `m 1 1` is the largest diagonal element. -/
example : IsRotation ![![-1, 0, 0], ![0, 1, 0], ![0, 0, -1]] := by
  have e : (![![-1, 0, 0], ![0, 1, 0], ![0, 0, -1]] : M3 ℝ) = (⟨0, 0, 1, 0⟩ : Quat ℝ).toRotationMatrix := by
    funext i j
    fin_cases i <;> fin_cases j <;> simp [toRotationMatrix] <;> norm_num
  have h := rotationMatrix_special_orthogonal (⟨0, 0, 1, 0⟩ : Quat ℝ) (by norm_num [normSq])
  rw [e]
  exact ⟨h.1, h.2.2⟩

end Verif.Geom.Quat
