import Verif.Geom.Quat
import Mathlib.Algebra.Quaternion
import Mathlib.LinearAlgebra.CrossProduct
import Mathlib.LinearAlgebra.Matrix.Determinant.Basic
import Mathlib.Tactic.Ring
import Mathlib.Tactic.LinearCombination
import Mathlib.Tactic.NormNum
import Mathlib.Tactic.FinCases

/-!
# Quaternion algebra and rotations (C42)

The reference for the product is Mathlib's quaternion algebra `ℍ[K]`, for the cross and dot products Mathlib's
`crossProduct` and `dotProduct`, for matrices Mathlib's `Matrix`.
-/

set_option autoImplicit false

open scoped Quaternion

namespace Verif.Geom

/-- The vector as a function of the index. -/
def V3.toFun {K : Type} (v : V3 K) : Fin 3 → K := ![v.x, v.y, v.z]

namespace Quat

/-- The quaternion of Mathlib with the same components. -/
def toH {K : Type} [CommRing K] (q : Quat K) : ℍ[K] := ⟨q.w, q.x, q.y, q.z⟩

section Components

variable {K : Type} [CommRing K] (q : Quat K)

@[simp] theorem re_toH : q.toH.re = q.w := rfl
@[simp] theorem imI_toH : q.toH.imI = q.x := rfl
@[simp] theorem imJ_toH : q.toH.imJ = q.y := rfl
@[simp] theorem imK_toH : q.toH.imK = q.z := rfl

end Components

theorem toH_injective {K : Type} [CommRing K] : Function.Injective (toH (K := K)) := by
  intro p q h
  exact Quat.ext (congrArg QuaternionAlgebra.re h) (congrArg QuaternionAlgebra.imI h)
    (congrArg QuaternionAlgebra.imJ h) (congrArg QuaternionAlgebra.imK h)

section Algebra

variable {K : Type} [CommRing K]

/-- C42: every algebraic operation is that of the quaternions. -/
theorem algebra_spec (p q : Quat K) (s : K) (v : V3 K) :
    (p.mul q).toH = p.toH * q.toH ∧ (p.add q).toH = p.toH + q.toH ∧ (p.sub q).toH = p.toH - q.toH ∧
      q.neg.toH = -q.toH ∧ (q.scale s).toH = s • q.toH ∧ q.conj.toH = star q.toH ∧ (identity : Quat K).toH = 1 ∧
      q.normSq = Quaternion.normSq q.toH ∧ (ofVec v).toH = ⟨0, v.x, v.y, v.z⟩ ∧
      (ofParts s v).toH = (s : ℍ[K]) + (ofVec v).toH := by
  refine ⟨?_, ?_, ?_, ?_, ?_, ?_, ?_, ?_, rfl, ?_⟩
  · ext <;> simp [mul]
  · ext <;> simp [add]
  · ext <;> simp [sub]
  · ext <;> simp [neg]
  · ext <;> simp [scale, mul_comm]
  · ext <;> simp [conj]
  · ext <;> simp [identity]
  · rw [Quaternion.normSq_def']; simp [normSq]; ring
  · ext <;> simp [ofParts, ofVec]

example : ((⟨1, 2, 3, 4⟩ : Quat ℚ).mul ⟨5, 6, 7, 8⟩) = ⟨-60, 12, 30, 24⟩ := by decide +kernel

/-- C42: the product is associative with the identity as unit, distributes over sums, and the squared norm is
multiplicative. -/
theorem mul_laws (p q r : Quat K) :
    (p.mul q).mul r = p.mul (q.mul r) ∧ identity.mul q = q ∧ q.mul identity = q ∧
      p.mul (q.add r) = (p.mul q).add (p.mul r) ∧ (p.add q).mul r = (p.mul r).add (q.mul r) ∧
      (p.mul q).normSq = p.normSq * q.normSq ∧ (p.mul q).conj = q.conj.mul p.conj ∧
      q.mul q.conj = identity.scale q.normSq ∧ q.conj.mul q = identity.scale q.normSq := by
  refine ⟨?_, ?_, ?_, ?_, ?_, ?_, ?_, ?_, ?_⟩ <;>
    first
      | (ext <;> simp only [mul, add, identity, conj, scale, normSq] <;> ring)
      | (simp only [mul, normSq]; ring)

/-- C42: the dot product is the polarisation of the squared norm. -/
theorem dot_spec (p q : Quat K) : 2 * p.dot q = (p.add q).normSq - p.normSq - q.normSq ∧ q.dot q = q.normSq := by
  refine ⟨?_, rfl⟩
  simp only [dot, add, normSq]
  ring

/-- The cross and dot products are those of Mathlib. -/
theorem cross_dot_spec (u v : V3 K) :
    (u.cross v).toFun = crossProduct u.toFun v.toFun ∧ u.dot v = u.toFun ⬝ᵥ v.toFun := by
  constructor
  · rw [cross_apply]; simp [V3.toFun, V3.cross]
  · simp [V3.toFun, V3.dot, dotProduct, Fin.sum_univ_three]

/-- C42: for a unit quaternion `Rotate` is conjugation, `v' = q v q*`. -/
theorem rotate_conj (q : Quat K) (v : V3 K) (hq : q.normSq = 1) :
    (ofVec (q.rotate v)).toH = q.toH * (ofVec v).toH * star q.toH := by
  simp only [normSq] at hq
  ext <;> simp [ofVec, rotate, V3.add, V3.scale, V3.cross]
  · ring
  · linear_combination (-v.x) * hq
  · linear_combination (-v.y) * hq
  · linear_combination (-v.z) * hq

theorem rotate_mul (p q : Quat K) (v : V3 K) (hp : p.normSq = 1) (hq : q.normSq = 1) :
    (p.mul q).rotate v = p.rotate (q.rotate v) := by
  have : ofVec ((p.mul q).rotate v) = ofVec (p.rotate (q.rotate v)) := by
    apply toH_injective
    rw [rotate_conj, rotate_conj _ _ hp, rotate_conj _ _ hq, (algebra_spec p q 0 v).1, star_mul]
    · simp only [_root_.mul_assoc]
    · rw [(mul_laws p q q).2.2.2.2.2.1, hp, hq, one_mul]
  exact congrArg vector this

theorem rotate_dot (q : Quat K) (u v : V3 K) (hq : q.normSq = 1) : (q.rotate u).dot (q.rotate v) = u.dot v := by
  simp only [normSq] at hq
  simp only [rotate, V3.add, V3.scale, V3.cross, V3.dot]
  linear_combination (4 * (q.x * q.x + q.y * q.y + q.z * q.z) * (u.x * v.x + u.y * v.y + u.z * v.z) -
    4 * (q.x * u.x + q.y * u.y + q.z * u.z) * (q.x * v.x + q.y * v.y + q.z * v.z)) * hq

theorem star_mul_self' (q : Quat K) (hq : q.normSq = 1) : star q.toH * q.toH = 1 ∧ q.toH * star q.toH = 1 := by
  have h := (mul_laws q q q).2.2.2.2.2.2.2
  have e : (identity.scale q.normSq).toH = (1 : ℍ[K]) := by
    rw [hq, (algebra_spec q identity 1 ⟨0, 0, 0⟩).2.2.2.2.1, (algebra_spec q q 1 ⟨0, 0, 0⟩).2.2.2.2.2.2.1, one_smul]
  rw [← (algebra_spec q q 1 ⟨0, 0, 0⟩).2.2.2.2.2.1, ← (algebra_spec q.conj q 1 ⟨0, 0, 0⟩).1,
    ← (algebra_spec q q.conj 1 ⟨0, 0, 0⟩).1, h.1, h.2]
  exact ⟨e, e⟩

theorem rotate_cross (q : Quat K) (u v : V3 K) (hq : q.normSq = 1) :
    (q.rotate u).cross (q.rotate v) = q.rotate (u.cross v) := by
  have pure (u v : V3 K) : (ofVec u).toH * (ofVec v).toH = -((u.dot v : K) : ℍ[K]) + (ofVec (u.cross v)).toH := by
    ext <;> simp [ofVec, V3.dot, V3.cross] <;> ring
  have h1 := pure (q.rotate u) (q.rotate v)
  rw [rotate_dot q u v hq, rotate_conj q u hq, rotate_conj q v hq] at h1
  have h2 : q.toH * (ofVec u).toH * star q.toH * (q.toH * (ofVec v).toH * star q.toH) =
      q.toH * ((ofVec u).toH * (ofVec v).toH) * star q.toH := by
    have := (star_mul_self' q hq).1
    calc _ = q.toH * (ofVec u).toH * (star q.toH * q.toH) * (ofVec v).toH * star q.toH := by simp only [_root_.mul_assoc]
      _ = _ := by rw [this]; simp only [_root_.mul_assoc, one_mul]
  rw [h2, pure, mul_add, add_mul, ← rotate_conj q _ hq] at h1
  have h3 : q.toH * -((u.dot v : K) : ℍ[K]) * star q.toH = -((u.dot v : K) : ℍ[K]) := by
    rw [mul_neg, ← Quaternion.coe_commutes, neg_mul, _root_.mul_assoc, (star_mul_self' q hq).2, mul_one]
  rw [h3] at h1
  exact (congrArg vector (toH_injective (add_left_cancel h1))).symm

/-- C42: rotation by a unit quaternion preserves dot products (so lengths and angles) and orientation, is linear, and
composes with the product; opposite quaternions rotate alike, the identity does nothing and the conjugate undoes the
rotation. -/
theorem rotate_laws (p q : Quat K) (u v : V3 K) (s : K) (hp : p.normSq = 1) (hq : q.normSq = 1) :
    (q.rotate u).dot (q.rotate v) = u.dot v ∧ (q.rotate u).cross (q.rotate v) = q.rotate (u.cross v) ∧
      q.rotate (u.add v) = (q.rotate u).add (q.rotate v) ∧ q.rotate (u.scale s) = (q.rotate u).scale s ∧
      (p.mul q).rotate v = p.rotate (q.rotate v) ∧ q.neg.rotate v = q.rotate v ∧
      (identity : Quat K).rotate v = v ∧ q.conj.rotate (q.rotate v) = v := by
  have hid : (identity : Quat K).rotate v = v := by
    ext <;> simp only [rotate, identity, V3.add, V3.scale, V3.cross] <;> ring
  refine ⟨rotate_dot q u v hq, rotate_cross q u v hq, ?_, ?_, rotate_mul p q v hp hq, ?_, hid, ?_⟩
  · ext <;> simp only [rotate, V3.add, V3.scale, V3.cross] <;> ring
  · ext <;> simp only [rotate, V3.add, V3.scale, V3.cross] <;> ring
  · ext <;> simp only [rotate, neg, V3.add, V3.scale, V3.cross] <;> ring
  · rw [← rotate_mul q.conj q v (by rw [← hq]; simp [normSq, conj]) hq, (mul_laws q q q).2.2.2.2.2.2.2.2, hq]
    rw [show (identity : Quat K).scale 1 = identity by ext <;> simp [scale]]
    exact hid

/-- A third of a turn about the diagonal. -/
example : (⟨1 / 2, 1 / 2, 1 / 2, 1 / 2⟩ : Quat ℚ).normSq = 1 ∧
    (⟨1 / 2, 1 / 2, 1 / 2, 1 / 2⟩ : Quat ℚ).rotate ⟨1, 2, 3⟩ = ⟨3, 1, 2⟩ := by decide +kernel

/-- C42: the rotation matrix times a vector is `Rotate`, for every quaternion. -/
theorem rotationMatrix_rotate (q : Quat K) (v : V3 K) : q.toRotationMatrix.mulVec v = q.rotate v := by
  ext <;> simp [toRotationMatrix, M3.mulVec, rotate, V3.add, V3.scale, V3.cross] <;> ring

/-- C42: the matrix of a unit quaternion is orthogonal with determinant one. -/
theorem rotationMatrix_special_orthogonal (q : Quat K) (hq : q.normSq = 1) :
    (Matrix.of q.toRotationMatrix).transpose * Matrix.of q.toRotationMatrix = 1 ∧
      Matrix.of q.toRotationMatrix * (Matrix.of q.toRotationMatrix).transpose = 1 ∧
      (Matrix.of q.toRotationMatrix).det = 1 := by
  have h1 : (Matrix.of q.toRotationMatrix).transpose * Matrix.of q.toRotationMatrix = 1 := by
    have h (u v : V3 K) := rotate_dot q u v hq
    simp only [← rotationMatrix_rotate, M3.mulVec, V3.dot] at h
    ext i j
    have hij := h ⟨if i = 0 then 1 else 0, if i = 1 then 1 else 0, if i = 2 then 1 else 0⟩
      ⟨if j = 0 then 1 else 0, if j = 1 then 1 else 0, if j = 2 then 1 else 0⟩
    rw [Matrix.mul_apply, Fin.sum_univ_three]
    simp only [Matrix.transpose_apply, Matrix.of_apply]
    fin_cases i <;> fin_cases j <;> simpa using hij
  refine ⟨h1, mul_eq_one_comm.mp h1, ?_⟩
  have h := rotate_dot q ⟨1, 0, 0⟩ ((⟨0, 1, 0⟩ : V3 K).cross ⟨0, 0, 1⟩) hq
  rw [← rotate_cross q _ _ hq, ← rotationMatrix_rotate, ← rotationMatrix_rotate, ← rotationMatrix_rotate] at h
  simp only [M3.mulVec, V3.dot, V3.cross, mul_one, mul_zero, add_zero, zero_add, sub_zero] at h
  rw [Matrix.det_fin_three]
  simp only [Matrix.of_apply]
  linear_combination h

end Algebra

end Quat

end Verif.Geom
