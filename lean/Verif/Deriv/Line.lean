import Verif.Deriv.Props
import Mathlib.Analysis.Calculus.FDeriv.Symmetric
import Mathlib.Analysis.Calculus.ContDiff.FTaylorSeries
import Mathlib.Analysis.Normed.Group.Constructions

/-!
# Derivatives along lines

The bridge from functions of several variables to the one-dimensional rules: a function of one variable obtained by moving
along a line.
-/

set_option autoImplicit false

namespace Verif.Deriv

/-! ## Specification -/

/-- Within distance `r` of `p` the function `f` is `n` times continuously differentiable and its derivative of order `n` is
bounded by `M`. -/
structure SmoothAt {E : Type*} [NormedAddCommGroup E] [NormedSpace ℝ E] (f : E → ℝ) (p : E) (r : ℝ) (n : ℕ) (M : ℝ) : Prop where
  diff : ∀ q, ‖q - p‖ ≤ r → ContDiffAt ℝ n f q
  bound : ∀ q, ‖q - p‖ ≤ r → ‖iteratedFDeriv ℝ n f q‖ ≤ M

/-! ## Lemmas -/

section
variable {E : Type*} [NormedAddCommGroup E] [NormedSpace ℝ E]

theorem contDiffAt_line {f : E → ℝ} {p v : E} {t : ℝ} {n : ℕ} (hf : ContDiffAt ℝ n f (p + t • v)) :
    ContDiffAt ℝ n (fun s : ℝ => f (p + s • v)) t := by
  have h1 : ContDiffAt ℝ n (fun s : ℝ => p + s • v) t := (contDiff_const.add (contDiff_id.smul contDiff_const)).contDiffAt
  exact hf.comp t h1

theorem iteratedDeriv_line {f : E → ℝ} {p v : E} {t : ℝ} {n : ℕ} (hf : ContDiffAt ℝ n f (p + t • v)) :
    iteratedDeriv n (fun s : ℝ => f (p + s • v)) t = iteratedFDeriv ℝ n f (p + t • v) (fun _ => v) := by
  obtain ⟨u, hu, hcu⟩ := hf.contDiffOn (m := n) le_rfl (by simp)
  obtain ⟨o, hou, ho, hmem⟩ := mem_nhds_iff.mp hu
  have hco := hcu.mono hou
  set L : ℝ →L[ℝ] E := ContinuousLinearMap.toSpanSingleton ℝ v with hL
  have hLt : ∀ s, L s = s • v := fun s => ContinuousLinearMap.toSpanSingleton_apply ..
  set F : E → ℝ := fun q => f (p + q) with hF
  set S : Set E := (fun q => p + q) ⁻¹' o with hS
  have hSo : IsOpen S := ho.preimage (continuous_const.add continuous_id)
  have hLo : IsOpen (L ⁻¹' S) := hSo.preimage L.continuous
  have hmS : L t ∈ S := by
    show p + L t ∈ o
    rw [hLt]
    exact hmem
  have hFS : ContDiffOn ℝ n F S := hco.comp (contDiff_const.add contDiff_id).contDiffOn fun q hq => hq
  have h1 : (fun s : ℝ => f (p + s • v)) = F ∘ L := by
    funext s
    simp only [hF, Function.comp, hLt]
  have h2 := L.iteratedFDerivWithin_comp_right hFS hSo.uniqueDiffOn hLo.uniqueDiffOn hmS (i := n) le_rfl
  rw [iteratedFDerivWithin_of_isOpen n hLo hmS, iteratedFDerivWithin_of_isOpen n hSo hmS] at h2
  rw [iteratedDeriv_eq_iteratedFDeriv, h1, h2, hF, iteratedFDeriv_comp_add_left, hLt]
  simp [ContinuousMultilinearMap.compContinuousLinearMap_apply, hLt]

theorem abs_iteratedDeriv_line {f : E → ℝ} {p v : E} {t M : ℝ} {n : ℕ} (hf : ContDiffAt ℝ n f (p + t • v))
    (hM : ‖iteratedFDeriv ℝ n f (p + t • v)‖ ≤ M) : |iteratedDeriv n (fun s : ℝ => f (p + s • v)) t| ≤ M * ‖v‖ ^ n := by
  rw [iteratedDeriv_line hf, ← Real.norm_eq_abs]
  refine (ContinuousMultilinearMap.le_opNorm _ _).trans ?_
  rw [Finset.prod_const, Finset.card_univ, Fintype.card_fin]
  exact mul_le_mul_of_nonneg_right hM (by positivity)

/-- A line through `p` inside the ball where `f` is smooth. -/
theorem SmoothAt.line {f : E → ℝ} {p v : E} {r M c : ℝ} {n : ℕ} (hf : SmoothAt f p r n M) {R : ℝ} (hR : R * ‖v‖ ≤ r) :
    Smooth (fun t => some (f (p + (t - c) • v))) (fun t => f (p + (t - c) • v)) c R n (M * ‖v‖ ^ n) := by
  have hin : ∀ y, |y - c| ≤ R → ‖p + (y - c) • v - p‖ ≤ r := fun y hy => by
    rw [add_sub_cancel_left, norm_smul, Real.norm_eq_abs]
    exact (mul_le_mul_of_nonneg_right hy (norm_nonneg _)).trans hR
  have e : (fun t : ℝ => f (p + (t - c) • v)) = fun t => f ((p - c • v) + t • v) := by
    funext t
    congr 1
    module
  have e' : ∀ y : ℝ, p - c • v + y • v = p + (y - c) • v := fun y => by module
  refine ⟨fun _ _ => rfl, fun y hy => ?_, fun y hy => ?_⟩
  · rw [e]
    exact contDiffAt_line (by rw [e']; exact hf.diff _ (hin y hy))
  · rw [e]
    exact abs_iteratedDeriv_line (by rw [e']; exact hf.diff _ (hin y hy)) (by rw [e']; exact hf.bound _ (hin y hy))

theorem deriv_line {f : E → ℝ} {p v : E} (hf : DifferentiableAt ℝ f p) (c : ℝ) :
    deriv (fun t : ℝ => f (p + (t - c) • v)) c = fderiv ℝ f p v := by
  have h1 : HasDerivAt (fun t : ℝ => p + (t - c) • v) v c := by
    have := (((hasDerivAt_id c).sub_const c).smul_const v).const_add p
    simpa using this
  have h2 : HasFDerivAt f (fderiv ℝ f p) (p + (c - c) • v) := by
    simpa using hf.hasFDerivAt
  exact (h2.comp_hasDerivAt c h1).deriv

/-- The second derivative along a line is the second derivative applied to the direction twice. -/
theorem iteratedDeriv_two_line {f : E → ℝ} {p v : E} (hf : ContDiffAt ℝ 2 f p) :
    iteratedDeriv 2 (fun t : ℝ => f (p + t • v)) 0 = fderiv ℝ (fderiv ℝ f) p v v := by
  rw [iteratedDeriv_line (by simpa using hf)]
  simp [iteratedFDeriv_two_apply]

/-- The mixed second derivative as a difference of the second derivatives along the two diagonals. -/
theorem mixed_eq_diagonals {f : E → ℝ} {p a b : E} (hf : ContDiffAt ℝ 2 f p) :
    iteratedDeriv 2 (fun t : ℝ => f (p + t • (a + b))) 0 - iteratedDeriv 2 (fun t : ℝ => f (p + t • (a - b))) 0 =
      4 * fderiv ℝ (fun q => fderiv ℝ f q a) p b := by
  rw [iteratedDeriv_two_line hf, iteratedDeriv_two_line hf]
  have hs : IsSymmSndFDerivAt ℝ f p := hf.isSymmSndFDerivAt (by simp)
  have hd : DifferentiableAt ℝ (fderiv ℝ f) p := by
    have : ContDiffAt ℝ 1 (fderiv ℝ f) p := hf.fderiv_right (by norm_num)
    exact this.differentiableAt (by norm_num)
  have h1 : fderiv ℝ (fun q => fderiv ℝ f q a) p b = fderiv ℝ (fderiv ℝ f) p b a := by
    have := (hd.hasFDerivAt.clm_apply (hasFDerivAt_const a p)).fderiv
    rw [this]
    simp
  rw [h1]
  simp only [map_add, map_sub, ContinuousLinearMap.add_apply, ContinuousLinearMap.sub_apply]
  rw [hs.eq a b]
  ring

end

end Verif.Deriv
