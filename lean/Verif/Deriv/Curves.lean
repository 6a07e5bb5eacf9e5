import Verif.Deriv.Mixed
import Mathlib.Analysis.SpecialFunctions.Trigonometric.Deriv

/-!
# Derivatives of curves and surfaces (C73)
-/

set_option autoImplicit false

namespace Verif.Deriv

open Verif

/-! ## Specification -/

/-- Within distance `r` of `t` every component of the curve is `n` times continuously differentiable with derivative of order `n`
bounded by `M`. -/
structure SmoothCurve {N : ℕ} (c : ℝ → Fin N → ℝ) (t r : ℝ) (n : ℕ) (M : ℝ) : Prop where
  diff : ∀ k, ∀ y, |y - t| ≤ r → ContDiffAt ℝ n (fun s => c s k) y
  bound : ∀ k, ∀ y, |y - t| ≤ r → |iteratedDeriv n (fun s => c s k) y| ≤ M

/-! ## Curves -/

/-- **C73.**  `NDer1` of a curve is in every component the first derivative up to `1 / 2 * M * s ^ 1`. -/
theorem nDer1Curve_order {N : ℕ} (eps : ℝ) (c : ℝ → Fin N → ℝ) (t s M : ℝ) (h : Option ℝ) (hstep : h.getD (scaleStep (nDer1H eps) t) = s)
    (hs : 0 < s) (hc : SmoothCurve c t (1 * s) 2 M) :
    ∃ v, nDer1Curve eps c t h = .ret v ∧ ∀ k, |v k - deriv (fun u => c u k) t| ≤ 1 / 2 * M * s ^ 1 := by
  rw [nDer1Curve, hstep, if_neg hs.ne']
  refine ⟨_, rfl, fun k => ?_⟩
  rw [component, nDer1_value (g := fun u => c u k) hs fun _ _ => rfl, Option.getD_some]
  have h1 := nDer1_stencil (fun u => c u k) t s M hs (hc.diff k) (hc.bound k)
  rwa [iteratedDeriv_one] at h1

/-- **C73.**  `NDer2` of a curve is in every component the first derivative up to `1 / 6 * M * s ^ 2`. -/
theorem nDer2Curve_order {N : ℕ} (eps : ℝ) (c : ℝ → Fin N → ℝ) (t s M : ℝ) (h : Option ℝ) (hstep : h.getD (scaleStep (nDer2H eps) t) = s)
    (hs : 0 < s) (hc : SmoothCurve c t (1 * s) 3 M) :
    ∃ v, nDer2Curve eps c t h = .ret v ∧ ∀ k, |v k - deriv (fun u => c u k) t| ≤ 1 / 6 * M * s ^ 2 := by
  rw [nDer2Curve, hstep, if_neg hs.ne']
  refine ⟨_, rfl, fun k => ?_⟩
  rw [component, nDer2_value (g := fun u => c u k) hs fun _ _ => rfl, Option.getD_some]
  have h1 := nDer2_stencil (fun u => c u k) t s M hs (hc.diff k) (hc.bound k)
  rwa [iteratedDeriv_one] at h1

/-- **C73.**  `NDer4` of a curve is in every component the first derivative up to `1 / 18 * M * s ^ 4`. -/
theorem nDer4Curve_order {N : ℕ} (eps : ℝ) (c : ℝ → Fin N → ℝ) (t s M : ℝ) (h : Option ℝ) (hstep : h.getD (scaleStep (nDer4H eps) t) = s)
    (hs : 0 < s) (hc : SmoothCurve c t (2 * s) 5 M) :
    ∃ v, nDer4Curve eps c t h = .ret v ∧ ∀ k, |v k - deriv (fun u => c u k) t| ≤ 1 / 18 * M * s ^ 4 := by
  rw [nDer4Curve, hstep, if_neg hs.ne']
  refine ⟨_, rfl, fun k => ?_⟩
  rw [component, nDer4_value (g := fun u => c u k) hs fun _ _ => rfl, Option.getD_some]
  have h1 := nDer4_stencil (fun u => c u k) t s M hs (hc.diff k) (hc.bound k)
  rwa [iteratedDeriv_one] at h1

/-- **C73.**  `NDer6` of a curve is in every component the first derivative up to `47 / 2100 * M * s ^ 6`. -/
theorem nDer6Curve_order {N : ℕ} (eps : ℝ) (c : ℝ → Fin N → ℝ) (t s M : ℝ) (h : Option ℝ) (hstep : h.getD (scaleStep (nDer6H eps) t) = s)
    (hs : 0 < s) (hc : SmoothCurve c t (3 * s) 7 M) :
    ∃ v, nDer6Curve eps c t h = .ret v ∧ ∀ k, |v k - deriv (fun u => c u k) t| ≤ 47 / 2100 * M * s ^ 6 := by
  rw [nDer6Curve, hstep, if_neg hs.ne']
  refine ⟨_, rfl, fun k => ?_⟩
  rw [component, nDer6_value (g := fun u => c u k) hs fun _ _ => rfl, Option.getD_some]
  have h1 := nDer6_stencil (fun u => c u k) t s M hs (hc.diff k) (hc.bound k)
  rwa [iteratedDeriv_one] at h1

/-- **C73.**  `NDer8` of a curve is in every component the first derivative up to `1957 / 198450 * M * s ^ 8`. -/
theorem nDer8Curve_order {N : ℕ} (eps : ℝ) (c : ℝ → Fin N → ℝ) (t s M : ℝ) (h : Option ℝ) (hstep : h.getD (scaleStep (nDer8H eps) t) = s)
    (hs : 0 < s) (hc : SmoothCurve c t (4 * s) 9 M) :
    ∃ v, nDer8Curve eps c t h = .ret v ∧ ∀ k, |v k - deriv (fun u => c u k) t| ≤ 1957 / 198450 * M * s ^ 8 := by
  rw [nDer8Curve, hstep, if_neg hs.ne']
  refine ⟨_, rfl, fun k => ?_⟩
  rw [component, nDer8_value (g := fun u => c u k) hs fun _ _ => rfl, Option.getD_some]
  have h1 := nDer8_stencil (fun u => c u k) t s M hs (hc.diff k) (hc.bound k)
  rwa [iteratedDeriv_one] at h1

/-- **C73.**  `NSecDer2` of a curve is in every component the second derivative up to `1 / 12 * M * s ^ 2`. -/
theorem nSecDer2Curve_order {N : ℕ} (eps : ℝ) (c : ℝ → Fin N → ℝ) (t s M : ℝ) (h : Option ℝ) (hstep : h.getD (scaleStep (nDer2H eps) t) = s)
    (hs : 0 < s) (hc : SmoothCurve c t (1 * s) 4 M) :
    ∃ v, nSecDer2Curve eps c t h = .ret v ∧ ∀ k, |v k - iteratedDeriv 2 (fun u => c u k) t| ≤ 1 / 12 * M * s ^ 2 := by
  rw [nSecDer2Curve, hstep, if_neg hs.ne']
  refine ⟨_, rfl, fun k => ?_⟩
  rw [component, nSecDer2_value (g := fun u => c u k) hs fun _ _ => rfl, Option.getD_some]
  have h1 := nSecDer2_stencil (fun u => c u k) t s M hs (hc.diff k) (hc.bound k)
  exact h1

/-- **C73.**  `NSecDer4` of a curve is in every component the second derivative up to `1 / 54 * M * s ^ 4`. -/
theorem nSecDer4Curve_order {N : ℕ} (eps : ℝ) (c : ℝ → Fin N → ℝ) (t s M : ℝ) (h : Option ℝ) (hstep : h.getD (scaleStep (nDer4H eps) t) = s)
    (hs : 0 < s) (hc : SmoothCurve c t (2 * s) 6 M) :
    ∃ v, nSecDer4Curve eps c t h = .ret v ∧ ∀ k, |v k - iteratedDeriv 2 (fun u => c u k) t| ≤ 1 / 54 * M * s ^ 4 := by
  rw [nSecDer4Curve, hstep, if_neg hs.ne']
  refine ⟨_, rfl, fun k => ?_⟩
  rw [component, nSecDer4_value (g := fun u => c u k) hs fun _ _ => rfl, Option.getD_some]
  have h1 := nSecDer4_stencil (fun u => c u k) t s M hs (hc.diff k) (hc.bound k)
  exact h1

/-- **C73.**  `NThirdDer2` of a curve is in every component the third derivative up to `17 / 60 * M * s ^ 2`. -/
theorem nThirdDer2Curve_order {N : ℕ} (eps : ℝ) (c : ℝ → Fin N → ℝ) (t s M : ℝ) (h : Option ℝ) (hstep : h.getD (scaleStep (nDer4H eps) t) = s)
    (hs : 0 < s) (hc : SmoothCurve c t (2 * s) 5 M) :
    ∃ v, nThirdDer2Curve eps c t h = .ret v ∧ ∀ k, |v k - iteratedDeriv 3 (fun u => c u k) t| ≤ 17 / 60 * M * s ^ 2 := by
  rw [nThirdDer2Curve, hstep, if_neg hs.ne']
  refine ⟨_, rfl, fun k => ?_⟩
  rw [component, nThirdDer2_value (g := fun u => c u k) hs fun _ _ => rfl, Option.getD_some]
  have h1 := nThirdDer2_stencil (fun u => c u k) t s M hs (hc.diff k) (hc.bound k)
  exact h1

/-- **C73.**  `NThirdDer4` of a curve is in every component the third derivative up to `403 / 2520 * M * s ^ 4`. -/
theorem nThirdDer4Curve_order {N : ℕ} (eps : ℝ) (c : ℝ → Fin N → ℝ) (t s M : ℝ) (h : Option ℝ) (hstep : h.getD (scaleStep (nDer4H eps) t) = s)
    (hs : 0 < s) (hc : SmoothCurve c t (3 * s) 7 M) :
    ∃ v, nThirdDer4Curve eps c t h = .ret v ∧ ∀ k, |v k - iteratedDeriv 3 (fun u => c u k) t| ≤ 403 / 2520 * M * s ^ 4 := by
  rw [nThirdDer4Curve, hstep, if_neg hs.ne']
  refine ⟨_, rfl, fun k => ?_⟩
  rw [component, nThirdDer4_value (g := fun u => c u k) hs fun _ _ => rfl, Option.getD_some]
  have h1 := nThirdDer4_stencil (fun u => c u k) t s M hs (hc.diff k) (hc.bound k)
  exact h1

/-- The hypotheses hold for the helix at time 0. -/
example (eps : ℝ) (heps : 0 < eps) : ∃ v, nDer2Curve eps (fun t => ![Real.cos t, Real.sin t, t]) 0 none = .ret v ∧
    ∀ k, |v k - deriv (fun u => (![Real.cos u, Real.sin u, u] : Fin 3 → ℝ) k) 0| ≤ 1 / 6 * 1 * scaleStep (nDer2H eps) 0 ^ 2 := by
  have hb : ∀ (f : ℝ → ℝ), f = Real.cos ∨ f = Real.sin → ∀ y, |iteratedDeriv 3 f y| ≤ 1 := by
    rintro f (rfl | rfl) y
    · exact Real.abs_iteratedDeriv_cos_le_one 3 y
    · exact Real.abs_iteratedDeriv_sin_le_one 3 y
  refine nDer2Curve_order eps _ 0 _ 1 none rfl (default_steps_pos eps 0 heps).2.1 ⟨fun k y _ => ?_, fun k y _ => ?_⟩
  · fin_cases k
    · exact Real.contDiff_cos.contDiffAt
    · exact Real.contDiff_sin.contDiffAt
    · exact contDiff_id.contDiffAt
  · fin_cases k
    · exact hb Real.cos (Or.inl rfl) y
    · exact hb Real.sin (Or.inr rfl) y
    · have : iteratedDeriv 3 (fun u : ℝ => u) y = 0 := by simp [iteratedDeriv_succ]
      change |iteratedDeriv 3 (fun u : ℝ => u) y| ≤ 1
      rw [this]
      simp

/-! ## Surfaces -/

/-- **C73.**  `NDer1_u` of a surface differentiates by `u` alone. -/
theorem nDer1U_order {N : ℕ} (eps : ℝ) (s : ℝ → ℝ → Fin N → ℝ) (u w d M : ℝ) (h : Option ℝ) (hstep : h.getD (scaleStep (nDer1H eps) u) = d)
    (hd : 0 < d) (hc : SmoothCurve (fun a => s a w) u (1 * d) 2 M) :
    ∃ v, nDer1U eps s u w h = .ret v ∧ ∀ k, |v k - deriv (fun a => s a w k) u| ≤ 1 / 2 * M * d ^ 1 :=
  nDer1Curve_order eps (fun a => s a w) u d M h hstep hd hc

/-- **C73.**  `NDer1_w` of a surface differentiates by `w` alone. -/
theorem nDer1W_order {N : ℕ} (eps : ℝ) (s : ℝ → ℝ → Fin N → ℝ) (u w d M : ℝ) (h : Option ℝ) (hstep : h.getD (scaleStep (nDer1H eps) w) = d)
    (hd : 0 < d) (hc : SmoothCurve (fun a => s u a) w (1 * d) 2 M) :
    ∃ v, nDer1W eps s u w h = .ret v ∧ ∀ k, |v k - deriv (fun a => s u a k) w| ≤ 1 / 2 * M * d ^ 1 :=
  nDer1Curve_order eps (fun a => s u a) w d M h hstep hd hc

/-- **C73.**  `NDer2_u` of a surface differentiates by `u` alone. -/
theorem nDer2U_order {N : ℕ} (eps : ℝ) (s : ℝ → ℝ → Fin N → ℝ) (u w d M : ℝ) (h : Option ℝ) (hstep : h.getD (scaleStep (nDer2H eps) u) = d)
    (hd : 0 < d) (hc : SmoothCurve (fun a => s a w) u (1 * d) 3 M) :
    ∃ v, nDer2U eps s u w h = .ret v ∧ ∀ k, |v k - deriv (fun a => s a w k) u| ≤ 1 / 6 * M * d ^ 2 :=
  nDer2Curve_order eps (fun a => s a w) u d M h hstep hd hc

/-- **C73.**  `NDer2_w` of a surface differentiates by `w` alone. -/
theorem nDer2W_order {N : ℕ} (eps : ℝ) (s : ℝ → ℝ → Fin N → ℝ) (u w d M : ℝ) (h : Option ℝ) (hstep : h.getD (scaleStep (nDer2H eps) w) = d)
    (hd : 0 < d) (hc : SmoothCurve (fun a => s u a) w (1 * d) 3 M) :
    ∃ v, nDer2W eps s u w h = .ret v ∧ ∀ k, |v k - deriv (fun a => s u a k) w| ≤ 1 / 6 * M * d ^ 2 :=
  nDer2Curve_order eps (fun a => s u a) w d M h hstep hd hc

/-- **C73.**  `NDer2_uu` of a surface differentiates twice by `u` alone. -/
theorem nSecDer2U_order {N : ℕ} (eps : ℝ) (s : ℝ → ℝ → Fin N → ℝ) (u w d M : ℝ) (h : Option ℝ) (hstep : h.getD (scaleStep (nDer2H eps) u) = d)
    (hd : 0 < d) (hc : SmoothCurve (fun a => s a w) u (1 * d) 4 M) :
    ∃ v, nSecDer2U eps s u w h = .ret v ∧ ∀ k, |v k - iteratedDeriv 2 (fun a => s a w k) u| ≤ 1 / 12 * M * d ^ 2 :=
  nSecDer2Curve_order eps (fun a => s a w) u d M h hstep hd hc

/-- **C73.**  `NDer2_ww` of a surface differentiates twice by `w` alone. -/
theorem nSecDer2W_order {N : ℕ} (eps : ℝ) (s : ℝ → ℝ → Fin N → ℝ) (u w d M : ℝ) (h : Option ℝ) (hstep : h.getD (scaleStep (nDer2H eps) w) = d)
    (hd : 0 < d) (hc : SmoothCurve (fun a => s u a) w (1 * d) 4 M) :
    ∃ v, nSecDer2W eps s u w h = .ret v ∧ ∀ k, |v k - iteratedDeriv 2 (fun a => s u a k) w| ≤ 1 / 12 * M * d ^ 2 :=
  nSecDer2Curve_order eps (fun a => s u a) w d M h hstep hd hc

/-- **C73.**  `NDer2_uw` of a surface is the mixed derivative, by `u` and by `w`, up to `1 / 24 * M * d ^ 2` for equal steps `d`, and in general
up to `1 / 24 * M * (max hu hw) ^ 4 / (hu * hw)`. -/
theorem nDer2UW_order {N : ℕ} (s : ℝ → ℝ → Fin N → ℝ) (u w hu hw M : ℝ) (h1 : 0 < hu) (h2 : 0 < hw)
    (hs : ∀ k, SmoothAt (fun q : ℝ × ℝ => s q.1 q.2 k) (u, w) (max hu hw) 4 M) :
    ∃ v, nDer2UW s u w hu hw = .ret v ∧ ∀ k,
      |v k - fderiv ℝ (fun p => fderiv ℝ (fun q : ℝ × ℝ => s q.1 q.2 k) p (1, 0)) (u, w) (0, 1)| ≤ 1 / 24 * M * max hu hw ^ 4 / (hu * hw) := by
  have h0 : 4 * hu * hw ≠ 0 := by positivity
  rw [nDer2UW, if_neg h0]
  refine ⟨_, rfl, fun k => ?_⟩
  set m := max hu hw with hm
  have hm0 : 0 < m := lt_max_of_lt_left h1
  have hp : ContDiffAt ℝ 2 (fun q : ℝ × ℝ => s q.1 q.2 k) (u, w) :=
    ((hs k).diff (u, w) (by rw [sub_self, norm_zero]; exact hm0.le)).of_le (by norm_num)
  have hM : 0 ≤ M := (norm_nonneg _).trans ((hs k).bound (u, w) (by rw [sub_self, norm_zero]; exact hm0.le))
  have ea : ((hu, 0) : ℝ × ℝ) + (0, hw) = (hu, hw) := by simp
  have eb : ((hu, 0) : ℝ × ℝ) - (0, hw) = (hu, -hw) := by simp
  have na : ‖((hu, 0) : ℝ × ℝ) + (0, hw)‖ = m := by
    rw [ea, Prod.norm_mk, Real.norm_eq_abs, Real.norm_eq_abs, abs_of_pos h1, abs_of_pos h2]
  have nb : ‖((hu, 0) : ℝ × ℝ) - (0, hw)‖ = m := by
    rw [eb, Prod.norm_mk, Real.norm_eq_abs, Real.norm_eq_abs, abs_neg, abs_of_pos h1, abs_of_pos h2]
  have h3 := cross_second (a := ((hu, 0) : ℝ × ℝ)) (b := ((0, hw) : ℝ × ℝ)) (hs k) na.le nb.le
  rw [na, nb] at h3
  have e1 : ((hu, 0) : ℝ × ℝ) = hu • ((1, 0) : ℝ × ℝ) := by simp
  have e2 : ((0, hw) : ℝ × ℝ) = hw • ((0, 1) : ℝ × ℝ) := by simp
  have h4 : fderiv ℝ (fun p => fderiv ℝ (fun q : ℝ × ℝ => s q.1 q.2 k) p (hu, 0)) (u, w) (0, hw) =
      hu * hw * fderiv ℝ (fun p => fderiv ℝ (fun q : ℝ × ℝ => s q.1 q.2 k) p (1, 0)) (u, w) (0, 1) := by
    rw [e1, e2, second_scaled hp]
  rw [h4, ea, eb] at h3
  simp only [Prod.mk_add_mk, Prod.mk_sub_mk, ← sub_eq_add_neg, sub_neg_eq_add] at h3
  have h5 : 0 < hu * hw := by positivity
  rw [le_div_iff₀ h5, mul_comm, ← abs_of_pos h5, ← abs_mul, mul_sub]
  have e : hu * hw * ((s (u + hu) (w + hw) k - s (u + hu) (w - hw) k - s (u - hu) (w + hw) k + s (u - hu) (w - hw) k) / (4 * hu * hw)) =
      (s (u + hu) (w + hw) k - s (u + hu) (w - hw) k - s (u - hu) (w + hw) k + s (u - hu) (w - hw) k) / 4 := by
    field_simp
  rw [e]
  refine h3.trans (le_of_eq ?_)
  ring

/-- **C73.**  With its default steps `NDer2_uw` is the mixed derivative to second order. -/
theorem nDer2UWDefault_order {N : ℕ} (eps : ℝ) (heps : 0 < eps) (s : ℝ → ℝ → Fin N → ℝ) (u w M : ℝ)
    (hs : ∀ k, SmoothAt (fun q : ℝ × ℝ => s q.1 q.2 k) (u, w) (scaleStep (nDer2H eps) (max |u| |w|)) 4 M) :
    ∃ v, nDer2UWDefault eps s u w = .ret v ∧ ∀ k,
      |v k - fderiv ℝ (fun p => fderiv ℝ (fun q : ℝ × ℝ => s q.1 q.2 k) p (1, 0)) (u, w) (0, 1)| ≤
        1 / 24 * M * scaleStep (nDer2H eps) (max |u| |w|) ^ 2 := by
  have hd := (default_steps_pos eps (max |u| |w|) heps).2.1
  obtain ⟨v, h1, h2⟩ := nDer2UW_order s u w _ _ M hd hd (by rwa [max_self])
  refine ⟨v, h1, fun k => (h2 k).trans (le_of_eq ?_)⟩
  rw [max_self]
  field_simp

/-! ## Deviations of the error estimates -/

/-- **C73, a deviation.**  The error estimate of `NDer4` of a curve adds up the lengths of differences that should cancel: on the straight
line `t ↦ t v`, which the rule differentiates exactly, the estimate is at least `8 / 15` of the length of the derivative, for every step. -/
theorem nDer4CurveError_large {N : ℕ} (eps h : ℝ) (heps : 0 ≤ eps) (hh : 0 < h) (v : Fin N → ℝ) (t : ℝ) :
    nDer4Curve eps (fun s => s • v) t (some h) = .ret v ∧ 8 / 15 * normL2 v ≤ nDer4CurveError eps (fun s => s • v) t h := by
  constructor
  · rw [nDer4Curve, Option.getD_some, if_neg hh.ne']
    congr 1
    funext k
    simp [component, nDer4Value]
    field_simp
    ring
  · have hn : ∀ (a : ℝ), normL2 (a • v) = |a| * normL2 v := fun a => by
      simp only [normL2, Pi.smul_apply, smul_eq_mul, mul_pow, ← Finset.mul_sum]
      rw [Real.sqrt_mul (sq_nonneg a), Real.sqrt_sq_eq_abs]
    have hv : 0 ≤ normL2 v := Real.sqrt_nonneg _
    simp only [nDer4CurveError, ← sub_smul, hn]
    rw [show t + 3 * h - (t - 3 * h) = 6 * h by ring, show t - 2 * h - (t + 2 * h) = -(4 * h) by ring, show t + h - (t - h) = 2 * h by ring,
      abs_neg, abs_of_pos (by positivity : 0 < 6 * h), abs_of_pos (by positivity : 0 < 4 * h), abs_of_pos (by positivity : 0 < 2 * h)]
    have h1 : |6 * h * normL2 v / 2 + 2 * (4 * h * normL2 v) + 5 * (2 * h * normL2 v) / 2| / (30 * h) = 8 / 15 * normL2 v := by
      rw [abs_of_nonneg (by positivity)]
      field_simp
      ring
    rw [h1]
    have : 0 ≤ eps * (|t + 2 * h| * normL2 v + |t - 2 * h| * normL2 v + 8 * (|t - h| * normL2 v + |t + h| * normL2 v)) / (12 * h) := by positivity
    linarith

/-- **C73, a deviation.**  The error estimate of `NDer2_uu` is at least half the length of the derivative it returns, however accurate that is. -/
theorem nSecDer2UError_large {N : ℕ} (eps h : ℝ) (heps : 0 ≤ eps) (hh : 0 < h) (s : ℝ → ℝ → Fin N → ℝ) (u w : ℝ) :
    ∃ v, nSecDer2U eps s u w (some h) = .ret v ∧ normL2 v / 2 ≤ nSecDer2UError eps s u w h := by
  rw [nSecDer2U, Option.getD_some, if_neg hh.ne']
  refine ⟨_, rfl, ?_⟩
  have hv : component nSecDer2Value (fun a => s a w) u h = (1 / (h * h)) • (s (u + h) w - 2 • s u w + s (u - h) w) := by
    funext k
    simp [component, nSecDer2Value]
    ring
  have hn : ∀ (a : ℝ) (v : Fin N → ℝ), normL2 (a • v) = |a| * normL2 v := fun a v => by
    simp only [normL2, Pi.smul_apply, smul_eq_mul, mul_pow, ← Finset.mul_sum]
    rw [Real.sqrt_mul (sq_nonneg a), Real.sqrt_sq_eq_abs]
  rw [hv, hn, abs_of_pos (by positivity), nSecDer2UError]
  have h1 : 0 ≤ normL2 (s (u + h) w) := Real.sqrt_nonneg _
  have h2 : 0 ≤ normL2 (s (u - h) w) := Real.sqrt_nonneg _
  have h3 : 0 ≤ normL2 (s u w) := Real.sqrt_nonneg _
  have h4 : 0 ≤ (normL2 (s (u + h) w) + normL2 (s (u - h) w) + normL2 (s u w)) * eps / (h * h) := by positivity
  have h5 : 1 / (h * h) * normL2 (s (u + h) w - 2 • s u w + s (u - h) w) / 2 = normL2 (s (u + h) w - 2 • s u w + s (u - h) w) / (h * h) / 2 := by ring
  linarith

end Verif.Deriv
