import Verif.Fun.Dirac
import Mathlib.Analysis.SpecialFunctions.Gaussian.GaussianIntegral
import Mathlib.Analysis.SpecialFunctions.ImproperIntegrals
import Mathlib.MeasureTheory.Measure.Haar.NormedSpace
import Mathlib.Tactic

/-!
# Property C153: approximations of the delta function

Specification: the approximation with parameter `N` is `N k(N x)` for a fixed nonnegative even kernel `k` of integral 1.
-/

set_option autoImplicit false

open MeasureTheory Filter Topology

namespace Verif.Dirac

open Classical in
/-- The box of width and height 1. -/
noncomputable def box (y : ℝ) : ℝ := if |y| ≤ 1 / 2 then 1 else 0

/-- The density of the standard normal distribution. -/
noncomputable def gauss (y : ℝ) : ℝ := Real.exp (-y ^ 2 / 2) / Real.sqrt (2 * Real.pi)

/-- The density of the Cauchy distribution. -/
noncomputable def cauchy (y : ℝ) : ℝ := 1 / (Real.pi * (1 + y ^ 2))

/-- A kernel: nonnegative, even, integrable with integral 1. -/
structure IsKernel (k : ℝ → ℝ) : Prop where
  nonneg : ∀ y, 0 ≤ k y
  even : ∀ y, k (-y) = k y
  integrable : Integrable k
  mass : ∫ y, k y = 1

theorem box_kernel : IsKernel box := by
  have he : box = Set.indicator (Set.Icc (-(1 / 2 : ℝ)) (1 / 2)) (fun _ => (1 : ℝ)) := by
    funext y
    unfold box
    by_cases h : |y| ≤ 1 / 2
    · rw [if_pos h, Set.indicator_of_mem (Set.mem_Icc.2 (abs_le.1 h))]
    · rw [if_neg h, Set.indicator_of_notMem (fun h' => h (abs_le.2 (Set.mem_Icc.1 h')))]
  refine ⟨fun y => ?_, fun y => by simp [box], ?_, ?_⟩
  · unfold box; split_ifs <;> norm_num
  · rw [he, integrable_indicator_iff measurableSet_Icc]
    exact integrableOn_const (by simp)
  · rw [he, integral_indicator measurableSet_Icc]
    simp
    norm_num

theorem gauss_kernel : IsKernel gauss := by
  have h2 : 0 < Real.sqrt (2 * Real.pi) := Real.sqrt_pos.2 (by positivity)
  have he : ∀ y : ℝ, gauss y = Real.exp (-(1 / 2) * y ^ 2) / Real.sqrt (2 * Real.pi) := fun y => by
    unfold gauss; congr 2; ring
  refine ⟨fun y => by unfold gauss; positivity, fun y => by simp [gauss], ?_, ?_⟩
  · have : gauss = fun y => Real.exp (-(1 / 2) * y ^ 2) / Real.sqrt (2 * Real.pi) := funext he
    rw [this]
    exact (integrable_exp_neg_mul_sq (by norm_num : (0 : ℝ) < 1 / 2)).div_const _
  · simp only [he]
    rw [integral_div, integral_gaussian, show Real.pi / (1 / 2) = 2 * Real.pi by ring, div_self h2.ne']

theorem cauchy_kernel : IsKernel cauchy := by
  have he : cauchy = fun y => (1 / Real.pi) * (1 + y ^ 2)⁻¹ := by
    funext y; unfold cauchy; rw [one_div, one_div, mul_inv]
  refine ⟨fun y => by unfold cauchy; positivity, fun y => by simp [cauchy], ?_, ?_⟩
  · rw [he]; exact integrable_inv_one_add_sq.const_mul _
  · rw [he, integral_const_mul, integral_univ_inv_one_add_sq, one_div, inv_mul_cancel₀ Real.pi_ne_zero]

/-! ## The values -/

/-- **C153.** For a positive parameter within the range of the integer product, the three approximations return `N k(N x)`
with the box, the normal density and the Cauchy density as `k`. -/
theorem dirac_values (N : Int) (hN : 1 ≤ N) (x : ℝ) :
    (N < 2 ^ 30 → diracStep N x = .ret (N * box (N * x))) ∧
    diracExp N x = .ret (N * gauss (N * x)) ∧
    (N ≤ 46340 → diracSqr N x = .ret (N * cauchy (N * x))) := by
  have hNr : (1 : ℝ) ≤ N := by exact_mod_cast hN
  have hpos : (0 : ℝ) < N := by linarith
  refine ⟨fun h => ?_, ?_, fun h => ?_⟩
  · unfold diracStep imul
    rw [if_pos ⟨by omega, by omega⟩, Outcome.bind_ret, if_neg (by omega)]
    push_cast
    have hiff : (x < -1 / (2 * (N : ℝ)) ∨ x > 1 / (2 * (N : ℝ))) ↔ ¬ |(N : ℝ) * x| ≤ 1 / 2 := by
      rw [abs_le, not_and_or, not_le, not_le, lt_div_iff₀ (by positivity), gt_iff_lt, div_lt_iff₀ (by positivity)]
      constructor
      · rintro (h | h)
        · exact Or.inl (by linarith)
        · exact Or.inr (by linarith)
      · rintro (h | h)
        · exact Or.inl (by linarith)
        · exact Or.inr (by linarith)
    unfold box
    by_cases hb : |(N : ℝ) * x| ≤ 1 / 2
    · rw [if_neg (fun h => hiff.1 h hb), if_pos hb, mul_one]
    · rw [if_pos (hiff.2 hb), if_neg hb, mul_zero]
  · unfold diracExp gauss
    rw [Outcome.ret.injEq, show -x * x * (N : ℝ) * N / 2 = -((N : ℝ) * x) ^ 2 / 2 by ring]
    ring
  · unfold diracSqr imul
    rw [if_pos ⟨by nlinarith, by nlinarith⟩, Outcome.bind_ret, Outcome.ret.injEq]
    unfold cauchy
    push_cast
    rw [show (1 : ℝ) + N * N * x * x = 1 + (N * x) ^ 2 by ring, div_div, mul_one_div]

/-! ## Mass and sifting -/

theorem kernel_mass {k : ℝ → ℝ} (hk : IsKernel k) {N : ℝ} (hN : 0 < N) :
    Integrable (fun x => N * k (N * x)) ∧ ∫ x, N * k (N * x) = 1 := by
  refine ⟨(hk.integrable.comp_mul_left' hN.ne').const_mul _, ?_⟩
  rw [integral_const_mul, Measure.integral_comp_mul_left, hk.mass, abs_of_pos (inv_pos.2 hN), smul_eq_mul, mul_one,
    mul_inv_cancel₀ hN.ne']

/-- **C153.** Every approximation with an admissible positive parameter is nonnegative, even, and has integral exactly 1. -/
theorem dirac_mass_partial (N : Int) (hN : 1 ≤ N) (D : ℝ → Outcome ℝ)
    (hD : (D = diracStep N ∧ N < 2 ^ 30) ∨ D = diracExp N ∨ (D = diracSqr N ∧ N ≤ 46340)) :
    ∃ F : ℝ → ℝ, (∀ x, D x = .ret (F x)) ∧ (∀ x, 0 ≤ F x) ∧ (∀ x, F (-x) = F x) ∧
      Integrable F ∧ ∫ x, F x = 1 := by
  have hpos : (0 : ℝ) < N := by exact_mod_cast (by omega : 0 < N)
  have gen : ∀ k : ℝ → ℝ, IsKernel k → (∀ x, D x = .ret (N * k (N * x))) →
      ∃ F : ℝ → ℝ, (∀ x, D x = .ret (F x)) ∧ (∀ x, 0 ≤ F x) ∧ (∀ x, F (-x) = F x) ∧
        Integrable F ∧ ∫ x, F x = 1 := fun k hk h =>
    ⟨fun x => N * k (N * x), h, fun x => mul_nonneg hpos.le (hk.nonneg _),
      fun x => by simp only [mul_neg, hk.even], kernel_mass hk hpos⟩
  rcases hD with ⟨rfl, h⟩ | rfl | ⟨rfl, h⟩
  · exact gen box box_kernel fun x => (dirac_values N hN x).1 h
  · exact gen gauss gauss_kernel fun x => (dirac_values N hN x).2.1
  · exact gen cauchy cauchy_kernel fun x => (dirac_values N hN x).2.2 h

theorem kernel_sift {k : ℝ → ℝ} (hk : IsKernel k) {f : ℝ → ℝ} (hf : Continuous f) {M : ℝ} (hM : ∀ x, |f x| ≤ M) :
    Tendsto (fun N : ℕ => ∫ x, (N : ℝ) * k (N * x) * f x) atTop (𝓝 (f 0)) := by
  have hev : ∀ᶠ N : ℕ in atTop, ∫ x, (N : ℝ) * k (N * x) * f x = ∫ y, k y * f (y / N) := by
    filter_upwards [eventually_gt_atTop 0] with N hN
    have hpos : (0 : ℝ) < N := by exact_mod_cast hN
    have h1 : (fun x : ℝ => (N : ℝ) * k (N * x) * f x) = fun x => N * ((fun y => k y * f (y / N)) (N * x)) := by
      funext x
      simp only
      rw [mul_div_cancel_left₀ x hpos.ne', mul_assoc]
    rw [h1, integral_const_mul, Measure.integral_comp_mul_left (fun y => k y * f (y / N)), abs_of_pos (inv_pos.2 hpos),
      smul_eq_mul, ← mul_assoc, mul_inv_cancel₀ hpos.ne', one_mul]
  rw [tendsto_congr' hev]
  have hlim : ∫ y, k y * f 0 = f 0 := by rw [integral_mul_const, hk.mass, one_mul]
  rw [← hlim]
  refine tendsto_integral_of_dominated_convergence (fun y => k y * M) ?_ (hk.integrable.mul_const M) ?_ ?_
  · intro N
    exact hk.integrable.aestronglyMeasurable.mul (hf.comp (continuous_id.div_const _)).aestronglyMeasurable
  · intro N
    refine Eventually.of_forall fun y => ?_
    rw [Real.norm_eq_abs, abs_mul, abs_of_nonneg (hk.nonneg y)]
    exact mul_le_mul_of_nonneg_left (hM _) (hk.nonneg y)
  · refine Eventually.of_forall fun y => ?_
    have h0 : Tendsto (fun N : ℕ => y / (N : ℝ)) atTop (𝓝 0) := tendsto_const_div_atTop_nhds_zero_nat y
    exact ((hf.tendsto 0).comp h0).const_mul (k y)

/-- **C153.** As the parameter grows, the integral of each of the three approximations against a bounded continuous
function tends to the value of the function at 0.  (The functions are those of `dirac_values`; the limit is that of
the formulas, the code's range of `N` is finite.) -/
theorem dirac_sift {f : ℝ → ℝ} (hf : Continuous f) {M : ℝ} (hM : ∀ x, |f x| ≤ M) :
    Tendsto (fun N : ℕ => ∫ x, (N : ℝ) * box (N * x) * f x) atTop (𝓝 (f 0)) ∧
    Tendsto (fun N : ℕ => ∫ x, (N : ℝ) * gauss (N * x) * f x) atTop (𝓝 (f 0)) ∧
    Tendsto (fun N : ℕ => ∫ x, (N : ℝ) * cauchy (N * x) * f x) atTop (𝓝 (f 0)) :=
  ⟨kernel_sift box_kernel hf hM, kernel_sift gauss_kernel hf hM, kernel_sift cauchy_kernel hf hM⟩

/-- **C153.** `DiracSin` returns for every argument a number of size at most `|N| / π`, the value at 0, and is even. -/
theorem diracSin_bound (N : Int) (x : ℝ) :
    ∃ v, diracSin N x = .ret v ∧ diracSin N (-x) = .ret v ∧ |v| ≤ |(N : ℝ)| / Real.pi ∧
      (x = 0 → v = N / Real.pi) ∧ (1 / 10 ^ 15 ≤ |x| → v = Real.sin (N * x) / (Real.pi * x)) := by
  unfold diracSin
  rw [abs_neg]
  by_cases h : |x| < 1 / 10 ^ 15
  · simp only [if_pos h]
    refine ⟨_, rfl, rfl, ?_, fun _ => rfl, fun h' => absurd h (not_lt.2 h')⟩
    rw [abs_div, abs_of_pos Real.pi_pos]
  · simp only [if_neg h]
    have hx : x ≠ 0 := by
      rintro rfl
      apply h
      rw [abs_zero]; positivity
    refine ⟨_, rfl, ?_, ?_, fun h => absurd h hx, fun _ => rfl⟩
    · rw [Outcome.ret.injEq, mul_neg, Real.sin_neg, mul_neg, neg_div_neg_eq]
    · rw [abs_div, abs_mul, abs_of_pos Real.pi_pos, div_le_div_iff₀ (by positivity) Real.pi_pos]
      have h1 : |Real.sin (N * x)| ≤ |(N : ℝ) * x| := Real.abs_sin_le_abs
      rw [abs_mul] at h1
      have := mul_le_mul_of_nonneg_right h1 Real.pi_pos.le
      linarith

/-- **C153 (disagreement).** `DiracSqr` multiplies `N * N` as integers: from `N = 46341` on every evaluation overflows
(undefined behaviour), while `DiracExp` is defined for every `N`. -/
theorem diracSqr_overflow (N : Int) (hN : 46341 ≤ N) (x : ℝ) :
    diracSqr N x = .ub ∧ ∃ v, diracExp N x = .ret v := by
  refine ⟨?_, _, rfl⟩
  unfold diracSqr imul
  rw [if_neg]
  · rfl
  · rintro ⟨-, h⟩
    nlinarith

/-! ## Non-vacuity -/

example : ∃ F : ℝ → ℝ, (∀ x, diracSqr 46340 x = .ret (F x)) ∧ ∫ x, F x = 1 := by
  obtain ⟨F, h, -, -, -, h1⟩ := dirac_mass_partial 46340 (by norm_num) _ (Or.inr (Or.inr ⟨rfl, le_refl _⟩))
  exact ⟨F, h, h1⟩

example : Continuous Real.cos ∧ ∀ x, |Real.cos x| ≤ 1 := ⟨Real.continuous_cos, Real.abs_cos_le_one⟩

end Verif.Dirac
