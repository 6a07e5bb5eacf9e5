import Mathlib.Tactic
import Verif.CompGeo.HullSpec

/-!
# How often a closed polygon winds about a point

The number of upward edges that pass a point on its right less the number of downward ones.  No code of `/repo` is modelled here.
-/

set_option autoImplicit false

namespace Verif.CompGeo.Wind

abbrev Pt := ℝ × ℝ

open Classical in
/-- 1 if the edge from `a` to `b` goes upward and passes `q` on the right, else 0.  The lower end of the edge belongs to it, the upper does not. -/
noncomputable def up (q a b : Pt) : ℤ := if a.2 ≤ q.2 ∧ q.2 < b.2 ∧ 0 < area2 a b q then 1 else 0

/-- The contribution of the edge from `a` to `b` to the winding number about `q`. -/
noncomputable def cr (q a b : Pt) : ℤ := up q a b - up q b a

/-- The winding number about `q` of the triangle `a b c`. -/
noncomputable def tri (q a b c : Pt) : ℤ := cr q a b + cr q b c + cr q c a

/-- `q` lies strictly inside the counter-clockwise triangle `a b c`. -/
def Inside (q a b c : Pt) : Prop := 0 < area2 a b q ∧ 0 < area2 b c q ∧ 0 < area2 c a q

/-- `q` lies inside the counter-clockwise triangle `a b c` or on its boundary. -/
def InsideEq (q a b c : Pt) : Prop := 0 ≤ area2 a b q ∧ 0 ≤ area2 b c q ∧ 0 ≤ area2 c a q

theorem cr_anti (q a b : Pt) : cr q a b = - cr q b a := by rw [cr, cr]; ring

theorem area2_swap (a b q : Pt) : area2 b a q = - area2 a b q := by rw [area2, area2]; ring
theorem area2_rot (a b c : Pt) : area2 b c a = area2 a b c := by rw [area2, area2]; ring
theorem area2_split (a b c q : Pt) : area2 a b q + area2 b c q + area2 c a q = area2 a b c := by simp only [area2]; ring
/-- Barycentric coordinates: heights. -/
theorem bary (a b c q : Pt) : area2 b c q * (a.2 - q.2) + area2 c a q * (b.2 - q.2) + area2 a b q * (c.2 - q.2) = 0 := by
  simp only [area2]; ring

theorem tri_rot (q a b c : Pt) : tri q b c a = tri q a b c := by rw [tri, tri]; ring

open Classical in
theorem one_low {x y z A B C : ℝ} (h : 0 < x + y + z) (hb : y * A + z * B + x * C = 0) (hA : A ≤ 0) (hB : 0 < B) (hC : 0 < C) :
    (((if 0 < x then 1 else 0) - (if 0 < -z then 1 else 0) : ℤ) = 0 ∨ ((if 0 < x then 1 else 0) - (if 0 < -z then 1 else 0) : ℤ) = 1) ∧
    (((if 0 < x then 1 else 0) - (if 0 < -z then 1 else 0) : ℤ) = 1 → 0 ≤ x ∧ 0 ≤ y ∧ 0 ≤ z) ∧
    (0 < x ∧ 0 < y ∧ 0 < z → ((if 0 < x then 1 else 0) - (if 0 < -z then 1 else 0) : ℤ) = 1) := by
  by_cases hx : 0 < x <;> by_cases hz : 0 < -z
  · simp [hx, hz]; intro _; linarith
  · simp only [hx, hz, if_true, if_false]
    refine ⟨Or.inr (by norm_num), fun _ => ⟨hx.le, ?_, by linarith⟩, fun _ => by norm_num⟩
    by_contra hy
    have : 0 ≤ y * A := mul_nonneg_of_nonpos_of_nonpos (by linarith) hA
    have : 0 ≤ z * B := mul_nonneg (by linarith) hB.le
    have : 0 < x * C := mul_pos hx hC
    linarith
  · exfalso
    have h1 : z * B < 0 := mul_neg_of_neg_of_pos (by linarith) hB
    have h2 : x * C ≤ 0 := mul_nonpos_of_nonpos_of_nonneg (by linarith) hC.le
    have h3 : y * A ≤ 0 := mul_nonpos_of_nonneg_of_nonpos (by linarith) hA
    linarith
  · simp only [hx, hz, if_false]
    exact ⟨Or.inl (by norm_num), fun h => by norm_num at h, fun h => h.1.elim⟩

open Classical in
theorem one_high {x y z A B C : ℝ} (h : 0 < x + y + z) (hb : y * A + z * B + x * C = 0) (hA : 0 < A) (hB : B ≤ 0) (hC : C ≤ 0) :
    (((if 0 < z then 1 else 0) - (if 0 < -x then 1 else 0) : ℤ) = 0 ∨ ((if 0 < z then 1 else 0) - (if 0 < -x then 1 else 0) : ℤ) = 1) ∧
    (((if 0 < z then 1 else 0) - (if 0 < -x then 1 else 0) : ℤ) = 1 → 0 ≤ x ∧ 0 ≤ y ∧ 0 ≤ z) ∧
    (0 < x ∧ 0 < y ∧ 0 < z → ((if 0 < z then 1 else 0) - (if 0 < -x then 1 else 0) : ℤ) = 1) := by
  by_cases hz : 0 < z <;> by_cases hx : 0 < -x
  · simp [hx, hz]; intro h; linarith
  · simp only [hx, hz, if_true, if_false]
    refine ⟨Or.inr (by norm_num), fun _ => ⟨by linarith, ?_, hz.le⟩, fun _ => by norm_num⟩
    by_contra hy
    have : y * A < 0 := mul_neg_of_neg_of_pos (by linarith) hA
    have : z * B ≤ 0 := mul_nonpos_of_nonneg_of_nonpos hz.le hB
    have : x * C ≤ 0 := mul_nonpos_of_nonneg_of_nonpos (by linarith) hC
    linarith
  · exfalso
    have h1 : 0 ≤ z * B := mul_nonneg_of_nonpos_of_nonpos (by linarith) hB
    have h2 : 0 ≤ x * C := mul_nonneg_of_nonpos_of_nonpos (by linarith) hC
    have h3 : 0 < y * A := mul_pos (by linarith) hA
    linarith
  · simp only [hx, hz, if_false]
    exact ⟨Or.inl (by norm_num), fun h => by norm_num at h, fun h => h.2.2.elim⟩

/-- The winding number of a counter-clockwise triangle is 0 or 1; if 1, the point is in the triangle; inside it is 1. -/
theorem tri_cases {q a b c : Pt} (h : 0 < area2 a b c) :
    (tri q a b c = 0 ∨ tri q a b c = 1) ∧ (tri q a b c = 1 → InsideEq q a b c) ∧ (Inside q a b c → tri q a b c = 1) := by
  have hs := area2_split a b c q
  have hb := bary a b c q
  have e1 := area2_swap a b q
  have e2 := area2_swap b c q
  have e3 := area2_swap c a q
  rw [tri, cr, cr, cr, up, up, up, up, up, up, e1, e2, e3, Inside, InsideEq]
  have hn : ¬ (a.2 - q.2 = 0 ∧ b.2 - q.2 = 0 ∧ c.2 - q.2 = 0) := by
    rintro ⟨h1, h2, h3⟩
    have : area2 a b c = 0 := by
      rw [area2, show b.2 - c.2 = 0 by linarith, show c.2 - a.2 = 0 by linarith, show a.2 - b.2 = 0 by linarith]; ring
    linarith
  rw [← hs] at h
  clear hs e1 e2 e3
  generalize area2 a b q = x at *
  generalize area2 b c q = y at *
  generalize area2 c a q = z at *
  obtain ⟨a1, a2⟩ := a; obtain ⟨b1, b2⟩ := b; obtain ⟨c1, c2⟩ := c; obtain ⟨q1, q2⟩ := q
  simp only at *
  generalize hA : a2 - q2 = A at hb hn
  generalize hB : b2 - q2 = B at hb hn
  generalize hC : c2 - q2 = C at hb hn
  have ia : (a2 ≤ q2) = (A ≤ 0) := by rw [← hA, sub_nonpos]
  have ib : (b2 ≤ q2) = (B ≤ 0) := by rw [← hB, sub_nonpos]
  have ic : (c2 ≤ q2) = (C ≤ 0) := by rw [← hC, sub_nonpos]
  have ja : (q2 < a2) = ¬ (A ≤ 0) := by rw [← hA, sub_nonpos, not_le]
  have jb : (q2 < b2) = ¬ (B ≤ 0) := by rw [← hB, sub_nonpos, not_le]
  have jc : (q2 < c2) = ¬ (C ≤ 0) := by rw [← hC, sub_nonpos, not_le]
  simp only [ia, ib, ic, ja, jb, jc]
  clear ia ib ic ja jb jc hA hB hC a1 a2 b1 b2 c1 c2 q1 q2
  by_cases hA : A ≤ 0 <;> by_cases hB : B ≤ 0 <;> by_cases hC : C ≤ 0 <;>
    simp only [hA, hB, hC, not_true_eq_false, not_false_eq_true, true_and, false_and, and_false, if_false, sub_zero, zero_sub, add_zero, zero_add]
  · refine ⟨Or.inl (by norm_num), fun h => by norm_num at h, fun h => ?_⟩
    exfalso
    obtain ⟨hx, hy, hz⟩ := h
    have k1 := mul_nonpos_of_nonneg_of_nonpos hy.le hA
    have k2 := mul_nonpos_of_nonneg_of_nonpos hz.le hB
    have k3 := mul_nonpos_of_nonneg_of_nonpos hx.le hC
    exact hn ⟨(mul_eq_zero.1 (by linarith)).resolve_left hy.ne', (mul_eq_zero.1 (by linarith)).resolve_left hz.ne', (mul_eq_zero.1 (by linarith)).resolve_left hx.ne'⟩
  · obtain ⟨h1, h2, h3⟩ := one_high (x := z) (y := x) (z := y) (A := C) (B := A) (C := B) (by linarith) (by linarith) (not_le.1 hC) hA hB
    exact ⟨h1.imp (fun h => by linear_combination h) (fun h => by linear_combination h), fun h => by have := h2 (by linear_combination h); tauto, fun h => by linear_combination h3 (by tauto)⟩
  · obtain ⟨h1, h2, h3⟩ := one_high (x := y) (y := z) (z := x) (A := B) (B := C) (C := A) (by linarith) (by linarith) (not_le.1 hB) hC hA
    exact ⟨h1.imp (fun h => by linear_combination h) (fun h => by linear_combination h), fun h => by have := h2 (by linear_combination h); tauto, fun h => by linear_combination h3 (by tauto)⟩
  · obtain ⟨h1, h2, h3⟩ := one_low h hb hA (not_le.1 hB) (not_le.1 hC)
    exact ⟨h1.imp (fun h => by linear_combination h) (fun h => by linear_combination h), fun h => by have := h2 (by linear_combination h); tauto, fun h => by linear_combination h3 (by tauto)⟩
  · obtain ⟨h1, h2, h3⟩ := one_high h hb (not_le.1 hA) hB hC
    exact ⟨h1.imp (fun h => by linear_combination h) (fun h => by linear_combination h), fun h => by have := h2 (by linear_combination h); tauto, fun h => by linear_combination h3 (by tauto)⟩
  · obtain ⟨h1, h2, h3⟩ := one_low (x := y) (y := z) (z := x) (A := B) (B := C) (C := A) (by linarith) (by linarith) hB (not_le.1 hC) (not_le.1 hA)
    exact ⟨h1.imp (fun h => by linear_combination h) (fun h => by linear_combination h), fun h => by have := h2 (by linear_combination h); tauto, fun h => by linear_combination h3 (by tauto)⟩
  · obtain ⟨h1, h2, h3⟩ := one_low (x := z) (y := x) (z := y) (A := C) (B := A) (C := B) (by linarith) (by linarith) hC (not_le.1 hA) (not_le.1 hB)
    exact ⟨h1.imp (fun h => by linear_combination h) (fun h => by linear_combination h), fun h => by have := h2 (by linear_combination h); tauto, fun h => by linear_combination h3 (by tauto)⟩
  · refine ⟨Or.inl (by norm_num), fun h => by norm_num at h, fun h => ?_⟩
    exfalso
    obtain ⟨hx, hy, hz⟩ := h
    have k1 := mul_pos hy (not_le.1 hA)
    have k2 := mul_pos hz (not_le.1 hB)
    have k3 := mul_pos hx (not_le.1 hC)
    linarith

end Verif.CompGeo.Wind
