import Verif.Deriv.PartialProps
import Mathlib.Analysis.Normed.Module.FiniteDimension
import Mathlib.Analysis.Calculus.ContDiff.FiniteDimension
import Mathlib.Analysis.Calculus.FDeriv.Pow

/-!
# Mixed second derivatives, Jacobians without a fixed dimension, curves and surfaces (C73)
-/

set_option autoImplicit false

namespace Verif.Deriv

open Verif

/-! ## The hypotheses are met -/

/-- Every smooth function of finitely many variables meets the hypothesis of the theorems, with some bound, on every ball. -/
theorem smoothAt_of_contDiff {N : ℕ} (f : (Fin N → ℝ) → ℝ) (n : ℕ) (hf : ContDiff ℝ n f) (p : Fin N → ℝ) (r : ℝ) :
    ∃ M, SmoothAt f p r n M := by
  have hc : Continuous fun q => ‖iteratedFDeriv ℝ n f q‖ := (hf.continuous_iteratedFDeriv le_rfl).norm
  obtain ⟨M, hM⟩ := (isCompact_closedBall p r).bddAbove_image hc.continuousOn
  exact ⟨M, fun q _ => hf.contDiffAt, fun q hq => hM ⟨q, by simpa [dist_eq_norm] using hq, rfl⟩⟩

/-- The hypotheses of the first-order theorems hold for `x² y` at `(1, 2)` with the default step. -/
example (eps : ℝ) (h : 0 < eps) : ∃ M v e,
    nDer4Partial eps (fun q : Fin 2 → ℝ => q 0 ^ 2 * q 1) 0 ![1, 2] none true = .ret (some v, e) ∧
    |v - fderiv ℝ (fun q : Fin 2 → ℝ => q 0 ^ 2 * q 1) ![1, 2] (Pi.single 0 1)| ≤ 1 / 18 * M * scaleStep (nDer4H eps) 1 ^ 4 := by
  obtain ⟨M, hM⟩ := smoothAt_of_contDiff (fun q : Fin 2 → ℝ => q 0 ^ 2 * q 1) 5 (by fun_prop) ![1, 2] (2 * scaleStep (nDer4H eps) 1)
  obtain ⟨v, e, h1, h2⟩ := nDer4Partial_order eps _ 0 ![1, 2] _ M none true rfl (default_steps_pos eps _ h).2.2.1 hM
  exact ⟨M, v, e, h1, h2⟩

/-! ## Second partial derivatives -/

theorem SmoothAt.bound_nonneg {N : ℕ} {f : (Fin N → ℝ) → ℝ} {p : Fin N → ℝ} {r M : ℝ} {n : ℕ} (hf : SmoothAt f p r n M) (hr : 0 ≤ r) : 0 ≤ M :=
  (norm_nonneg _).trans (hf.bound p (by rwa [sub_self, norm_zero]))

theorem second_along {N : ℕ} {f : (Fin N → ℝ) → ℝ} {p : Fin N → ℝ} (hf : ContDiffAt ℝ 2 f p) (v : Fin N → ℝ) (c : ℝ) :
    iteratedDeriv 2 (fun t : ℝ => f (p + (t - c) • v)) c = fderiv ℝ (fun q => fderiv ℝ f q v) p v := by
  have e := iteratedDeriv_comp_sub_const 2 (fun t : ℝ => f (p + t • v)) c
  rw [congrFun e c]
  simp only [sub_self]
  rw [iteratedDeriv_two_line hf]
  have h1 : DifferentiableAt ℝ (fderiv ℝ f) p := (hf.fderiv_right (m := 1) (by norm_num)).differentiableAt (by simp)
  rw [fderiv_clm_apply h1 (differentiableAt_const v)]
  simp

theorem second_scaled {E : Type*} [NormedAddCommGroup E] [NormedSpace ℝ E] {f : E → ℝ} {p : E} (hf : ContDiffAt ℝ 2 f p) (a b : E) (c d : ℝ) :
    fderiv ℝ (fun q => fderiv ℝ f q (c • a)) p (d • b) = c * d * fderiv ℝ (fun q => fderiv ℝ f q a) p b := by
  have h1 : DifferentiableAt ℝ (fderiv ℝ f) p := (hf.fderiv_right (m := 1) (by norm_num)).differentiableAt (by simp)
  rw [fderiv_clm_apply h1 (differentiableAt_const _), fderiv_clm_apply h1 (differentiableAt_const _)]
  simp
  ring

/-- **C73.**  `NSecDer2Partial` by variables `i` and `j`, equal or not, is the second partial derivative up to `1 / 12 * M * s ^ 2`. -/
theorem nSecDer2Partial_order {N : ℕ} (eps : ℝ) (f : (Fin N → ℝ) → ℝ) (i j : Fin N) (p : Fin N → ℝ) (s M : ℝ) (h : Option ℝ) (w : Bool)
    (hstep : h.getD (pairStep (nDer2H eps) p i j) = s) (hs : 0 < s) (hf : SmoothAt f p (1 * s) 4 M) :
    ∃ v e, nSecDer2Partial eps f i j p h w = .ret (some v, e) ∧
      |v - fderiv ℝ (fun q => fderiv ℝ f q (Pi.single i 1)) p (Pi.single j 1)| ≤ 1 / 12 * M * s ^ 2 := by
  have hp : ContDiffAt ℝ 2 f p := (hf.diff p (by rw [sub_self, norm_zero]; positivity)).of_le (by norm_num)
  rw [nSecDer2Partial, hstep]
  by_cases hij : i = j
  · subst hij
    rw [if_pos rfl]
    have h1 := hf.along i
    rw [nSecDer2_value hs h1.value]
    obtain ⟨e, he⟩ := unchecked_ret (value := some _) (error := nSecDer2Error eps (along f p i) (p i) s) hs.ne' w
    refine ⟨_, e, he, ?_⟩
    have h2 := nSecDer2_stencil _ _ s M hs (by exact_mod_cast h1.diff) h1.bound
    rwa [second_along hp] at h2
  · rw [if_neg hij]
    obtain ⟨e, he⟩ := unchecked_ret (value := some (cross f p i j s / (4 * s ^ 2)))
      (error := some (eps * crossAbs f p i j s / (4 * s ^ 2))) hs.ne' w
    refine ⟨_, e, he, ?_⟩
    have hM := hf.bound_nonneg (by positivity)
    have ha := norm_pair hij s s s (abs_of_pos hs).le (abs_of_pos hs).le
    have hb := norm_pair hij s (-s) s (abs_of_pos hs).le (by rw [abs_neg, abs_of_pos hs])
    rw [neg_smul, ← sub_eq_add_neg] at hb
    have h1 := cross_second (a := s • (Pi.single i 1 : Fin N → ℝ)) (b := s • (Pi.single j 1 : Fin N → ℝ)) hf (by rwa [one_mul]) (by rwa [one_mul])
    rw [← cross_eq f p hij, second_scaled hp] at h1
    have h2 : (1 : ℝ) / 48 * (M * ‖(s • Pi.single i 1 + s • Pi.single j 1 : Fin N → ℝ)‖ ^ 4 + M * ‖(s • Pi.single i 1 - s • Pi.single j 1 : Fin N → ℝ)‖ ^ 4) ≤
        1 / 48 * (M * s ^ 4 + M * s ^ 4) := by gcongr
    have h3 := h1.trans h2
    rw [show cross f p i j s / 4 = s * s * (cross f p i j s / (4 * s ^ 2)) by field_simp, ← mul_sub, abs_mul, abs_of_pos (by positivity : 0 < s * s)] at h3
    have h4 : 0 ≤ M * s ^ 2 := by positivity
    have h5 : s * s * |cross f p i j s / (4 * s ^ 2) - fderiv ℝ (fun q => fderiv ℝ f q (Pi.single i 1)) p (Pi.single j 1)| ≤
        s * s * (1 / 24 * M * s ^ 2) := by nlinarith [h3]
    exact (le_of_mul_le_mul_left h5 (by positivity)).trans (by nlinarith)

/-- **C73.**  `NSecDer4Partial` by variables `i` and `j`, equal or not, is the second partial derivative up to `1 / 54 * M * s ^ 4`. -/
theorem nSecDer4Partial_order {N : ℕ} (eps : ℝ) (f : (Fin N → ℝ) → ℝ) (i j : Fin N) (p : Fin N → ℝ) (s M : ℝ) (h : Option ℝ) (w : Bool)
    (hstep : h.getD (pairStep (nDer4H eps) p i j) = s) (hs : 0 < s) (hf : SmoothAt f p (2 * s) 6 M) :
    ∃ v e, nSecDer4Partial eps f i j p h w = .ret (some v, e) ∧
      |v - fderiv ℝ (fun q => fderiv ℝ f q (Pi.single i 1)) p (Pi.single j 1)| ≤ 1 / 54 * M * s ^ 4 := by
  have hp : ContDiffAt ℝ 2 f p := (hf.diff p (by rw [sub_self, norm_zero]; positivity)).of_le (by norm_num)
  rw [nSecDer4Partial, hstep]
  by_cases hij : i = j
  · subst hij
    rw [if_pos rfl]
    have h1 := hf.along i
    rw [nSecDer4_value hs h1.value]
    obtain ⟨e, he⟩ := unchecked_ret (value := some _) (error := nSecDer4Error eps (along f p i) (p i) s) hs.ne' w
    refine ⟨_, e, he, ?_⟩
    have h2 := nSecDer4_stencil _ _ s M hs (by exact_mod_cast h1.diff) h1.bound
    rwa [second_along hp] at h2
  · rw [if_neg hij]
    obtain ⟨e, he⟩ := unchecked_ret (value := some ((16 * cross f p i j s - cross f p i j (2 * s)) / (48 * s ^ 2)))
      (error := some (eps * crossAbs f p i j s / (4 * s ^ 2))) hs.ne' w
    refine ⟨_, e, he, ?_⟩
    have hM := hf.bound_nonneg (by positivity)
    have ha := norm_pair hij s s s (abs_of_pos hs).le (abs_of_pos hs).le
    have hb := norm_pair hij s (-s) s (abs_of_pos hs).le (by rw [abs_neg, abs_of_pos hs])
    rw [neg_smul, ← sub_eq_add_neg] at hb
    have h1 := cross_fourth (a := s • (Pi.single i 1 : Fin N → ℝ)) (b := s • (Pi.single j 1 : Fin N → ℝ)) hf (by linarith) (by linarith)
    rw [smul_add, smul_sub, smul_smul, smul_smul, ← cross_eq f p hij, ← cross_eq f p hij, second_scaled hp] at h1
    have h2 : (1 : ℝ) / 216 * (M * ‖(s • Pi.single i 1 + s • Pi.single j 1 : Fin N → ℝ)‖ ^ 6 + M * ‖(s • Pi.single i 1 - s • Pi.single j 1 : Fin N → ℝ)‖ ^ 6) ≤
        1 / 216 * (M * s ^ 6 + M * s ^ 6) := by gcongr
    have h3 := h1.trans h2
    rw [show (16 * cross f p i j s - cross f p i j (2 * s)) / 48 = s * s * ((16 * cross f p i j s - cross f p i j (2 * s)) / (48 * s ^ 2)) by
      field_simp, ← mul_sub, abs_mul, abs_of_pos (by positivity : 0 < s * s)] at h3
    have h4 : 0 ≤ M * s ^ 4 := by positivity
    have h5 : s * s * |(16 * cross f p i j s - cross f p i j (2 * s)) / (48 * s ^ 2) - fderiv ℝ (fun q => fderiv ℝ f q (Pi.single i 1)) p (Pi.single j 1)| ≤
        s * s * (1 / 108 * M * s ^ 4) := by nlinarith [h3]
    exact (le_of_mul_le_mul_left h5 (by positivity)).trans (by nlinarith)

/-- **C73.**  The default steps of the second partial derivatives are positive. -/
theorem pairStep_pos {N : ℕ} (eps : ℝ) (heps : 0 < eps) (p : Fin N → ℝ) (i j : Fin N) :
    0 < pairStep (nDer2H eps) p i j ∧ 0 < pairStep (nDer4H eps) p i j := by
  have h2 : 0 < nDer2H eps := by rw [nDer2H]; positivity
  have h4 : 0 < nDer4H eps := by rw [nDer4H]; positivity
  simp only [pairStep]
  exact ⟨by positivity, by positivity⟩

/-- The hypotheses hold for `x² y³` and its mixed derivative at `(1, 2)` with step one tenth. -/
example (eps : ℝ) : ∃ M v e,
    nSecDer4Partial eps (fun q : Fin 2 → ℝ => q 0 ^ 2 * q 1 ^ 3) 0 1 ![1, 2] (some (1 / 10)) true = .ret (some v, e) ∧
    |v - fderiv ℝ (fun p => fderiv ℝ (fun q : Fin 2 → ℝ => q 0 ^ 2 * q 1 ^ 3) p (Pi.single 0 1)) ![1, 2] (Pi.single 1 1)| ≤
      1 / 54 * M * (1 / 10) ^ 4 := by
  obtain ⟨M, hM⟩ := smoothAt_of_contDiff (fun q : Fin 2 → ℝ => q 0 ^ 2 * q 1 ^ 3) 6 (by fun_prop) ![1, 2] (2 * (1 / 10))
  obtain ⟨v, e, h1, h2⟩ := nSecDer4Partial_order eps _ 0 1 ![1, 2] (1 / 10) M (some (1 / 10)) true rfl (by norm_num) hM
  exact ⟨M, v, e, h1, h2⟩

/-- **C73, a deviation.**  The error estimate of the mixed derivative only accounts for rounding: on `x³ y` at the origin with
step `1` the value is wrong by `1` while the estimate is `eps`. -/
theorem mixed_estimate_small (eps : ℝ) :
    nSecDer2Partial eps (fun q : Fin 2 → ℝ => q 0 ^ 3 * q 1) 0 1 ![0, 0] (some 1) true = .ret (some 1, some eps) ∧
    fderiv ℝ (fun p => fderiv ℝ (fun q : Fin 2 → ℝ => q 0 ^ 3 * q 1) p (Pi.single 0 1)) ![0, 0] (Pi.single 1 1) = 0 := by
  constructor
  · simp [nSecDer2Partial, unchecked, cross, crossAbs, setTwo, Function.update]
    norm_num
  · have h : (fun p => fderiv ℝ (fun q : Fin 2 → ℝ => q 0 ^ 3 * q 1) p (Pi.single 0 1)) = fun p => 3 * p 0 ^ 2 * p 1 := by
      funext p
      have h0 : HasFDerivAt (fun q : Fin 2 → ℝ => q 0) (ContinuousLinearMap.proj (R := ℝ) (φ := fun _ => ℝ) 0) p := hasFDerivAt_apply 0 p
      have h1 : HasFDerivAt (fun q : Fin 2 → ℝ => q 1) (ContinuousLinearMap.proj (R := ℝ) (φ := fun _ => ℝ) 1) p := hasFDerivAt_apply 1 p
      rw [((h0.pow 3).fun_mul h1).fderiv]
      simp
      ring
    rw [h]
    have h0 : HasFDerivAt (fun q : Fin 2 → ℝ => q 0) (ContinuousLinearMap.proj (R := ℝ) (φ := fun _ => ℝ) 0) ![0, 0] := hasFDerivAt_apply 0 _
    have h1 : HasFDerivAt (fun q : Fin 2 → ℝ => q 1) (ContinuousLinearMap.proj (R := ℝ) (φ := fun _ => ℝ) 1) ![0, 0] := hasFDerivAt_apply 1 _
    rw [(((h0.pow 2).const_mul 3).fun_mul h1).fderiv]
    simp

end Verif.Deriv
