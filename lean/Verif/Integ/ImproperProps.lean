import Verif.Integ.OpenProps
import Mathlib.Analysis.SpecialFunctions.ImproperIntegrals

/-!
# Infinite ranges and singular ends (C79)
-/

set_option autoImplicit false

namespace Verif.Integ

open Verif Polynomial MeasureTheory

/-! ## Semi-infinite ranges -/

/-- **C79.**  `IntegrateUpperInf` never evaluates the integrand outside `(a, ∞)`. -/
theorem integrateUpperInf_congr (M K : ℕ) (f g : ℝ → ℝ) (a eps : ℝ) (hK : 2 ≤ K) (hKM : K ≤ M) (hM : M ≤ 21)
    (h : ∀ x, a < x → f x = g x) : integrateUpperInf M K f a eps = integrateUpperInf M K g a eps := by
  refine integrateOpen_congr M K _ _ 0 1 eps hK hKM hM fun t ht => ?_
  rw [Set.uIoo_of_lt (by norm_num)] at ht
  have : a < a + 1 / t - 1 := by
    have : a + 1 / t - 1 ∈ Set.Ioi a := by rw [← upper_image]; exact ⟨t, ht, rfl⟩
    exact this
  rw [upperInf, upperInf, h _ this]

/-- **C79.**  `IntegrateLowerInf` never evaluates the integrand outside `(-∞, b)`. -/
theorem integrateLowerInf_congr (M K : ℕ) (f g : ℝ → ℝ) (b eps : ℝ) (hK : 2 ≤ K) (hKM : K ≤ M) (hM : M ≤ 21)
    (h : ∀ x, x < b → f x = g x) : integrateLowerInf M K f b eps = integrateLowerInf M K g b eps := by
  refine integrateOpen_congr M K _ _ 0 1 eps hK hKM hM fun t ht => ?_
  rw [Set.uIoo_of_lt (by norm_num)] at ht
  have : b - 1 / t + 1 < b := by
    have : b - 1 / t + 1 ∈ Set.Iio b := by rw [← lower_image]; exact ⟨t, ht, rfl⟩
    exact this
  rw [lowerInf, lowerInf, h _ this]

example : integrateUpperInf 20 5 (fun x => if x ≤ 0 then 1 / x else Real.exp (-x)) 0 (1 / 10 ^ 6) =
    integrateUpperInf 20 5 (fun x => Real.exp (-x)) 0 (1 / 10 ^ 6) :=
  integrateUpperInf_congr 20 5 _ _ _ _ (by norm_num) (by norm_num) (by norm_num) fun x hx => by simp [not_le.mpr hx]

/-- **C79.**  `IntegrateUpperInf` returns the extrapolation from midpoint sums of `f(a + 1/t - 1) / t²` over the unit interval, the
integrand whose integral is `∫[a,∞) f`. -/
theorem integrateUpperInf_spec (M K : ℕ) (f : ℝ → ℝ) (a eps : ℝ) (hK : 2 ≤ K) (hKM : K ≤ M) (hM : M ≤ 21) :
    ∃ r, integrateUpperInf M K f a eps = .ret r ∧
      RombergAnswer (1 / 9) (WithinRel eps) (fun k => midpoint (fun t => f (a + 1 / t - 1) / t ^ 2) 0 1 (3 ^ k)) K 0 M r := by
  have : integrateUpperInf M K f a eps = integrateOpen M K (fun t => f (a + 1 / t - 1) / t ^ 2) 0 1 eps := by
    refine integrateOpen_congr M K _ _ 0 1 eps hK hKM hM fun t ht => ?_
    rw [Set.uIoo_of_lt (by norm_num)] at ht
    rw [upperInf, if_neg (not_le.mpr ht.1), pow_two]
  rw [this]
  exact integrateOpen_spec M K _ 0 1 eps hK hKM hM

/-- **C79.**  The same for `IntegrateLowerInf`. -/
theorem integrateLowerInf_spec (M K : ℕ) (f : ℝ → ℝ) (b eps : ℝ) (hK : 2 ≤ K) (hKM : K ≤ M) (hM : M ≤ 21) :
    ∃ r, integrateLowerInf M K f b eps = .ret r ∧
      RombergAnswer (1 / 9) (WithinRel eps) (fun k => midpoint (fun t => f (b - 1 / t + 1) / t ^ 2) 0 1 (3 ^ k)) K 0 M r := by
  have : integrateLowerInf M K f b eps = integrateOpen M K (fun t => f (b - 1 / t + 1) / t ^ 2) 0 1 eps := by
    refine integrateOpen_congr M K _ _ 0 1 eps hK hKM hM fun t ht => ?_
    rw [Set.uIoo_of_lt (by norm_num)] at ht
    rw [lowerInf, if_neg (not_le.mpr ht.1), pow_two]
  rw [this]
  exact integrateOpen_spec M K _ 0 1 eps hK hKM hM

/-- **C79.**  If `(x - a + 1)² f(x)` is within `δ` of a polynomial of degree at most `2K - 1` in `1/(x - a + 1)` for all `x > a`,
`IntegrateUpperInf` is within `7δ/3` of the improper integral, whatever the tolerance. -/
theorem integrateUpperInf_accuracy (M K : ℕ) (f : ℝ → ℝ) (a eps δ : ℝ) (p : ℝ[X]) (hK : 2 ≤ K) (hKM : K ≤ M) (hM : M ≤ 21)
    (hδ : 0 ≤ δ) (hp : p.natDegree ≤ 2 * K - 1) (hf : IntegrableOn f (Set.Ioi a))
    (hfp : ∀ x, a < x → |f x * (x - a + 1) ^ 2 - p.eval (1 / (x - a + 1))| ≤ δ) :
    ∃ r, integrateUpperInf M K f a eps = .ret r ∧ |r.value - ∫ x in Set.Ioi a, f x| ≤ 7 / 3 * δ := by
  obtain ⟨r, hr, h⟩ := integrateOpen_accuracy M K (upperInf f a) 0 1 eps δ p hK hKM hM hδ hp (upperInf_integrable f a hf) (by
    intro t ht
    rw [Set.uIoo_of_lt (by norm_num)] at ht
    have h0 : 0 < t := ht.1
    have hx : a < a + 1 / t - 1 := by
      have : a + 1 / t - 1 ∈ Set.Ioi a := by rw [← upper_image]; exact ⟨t, ht, rfl⟩
      exact this
    have := hfp _ hx
    rw [show a + 1 / t - 1 - a + 1 = 1 / t by ring, one_div_one_div] at this
    rw [upperInf, if_neg (not_le.mpr h0)]
    rw [show f (a + 1 / t - 1) / (t * t) = f (a + 1 / t - 1) * (1 / t) ^ 2 by field_simp]
    exact this)
  rw [upperInf_integral] at h
  refine ⟨r, hr, ?_⟩
  simpa using h

/-- **C79.**  The same for `IntegrateLowerInf`. -/
theorem integrateLowerInf_accuracy (M K : ℕ) (f : ℝ → ℝ) (b eps δ : ℝ) (p : ℝ[X]) (hK : 2 ≤ K) (hKM : K ≤ M) (hM : M ≤ 21)
    (hδ : 0 ≤ δ) (hp : p.natDegree ≤ 2 * K - 1) (hf : IntegrableOn f (Set.Iic b))
    (hfp : ∀ x, x < b → |f x * (b - x + 1) ^ 2 - p.eval (1 / (b - x + 1))| ≤ δ) :
    ∃ r, integrateLowerInf M K f b eps = .ret r ∧ |r.value - ∫ x in Set.Iic b, f x| ≤ 7 / 3 * δ := by
  obtain ⟨r, hr, h⟩ := integrateOpen_accuracy M K (lowerInf f b) 0 1 eps δ p hK hKM hM hδ hp (lowerInf_integrable f b hf) (by
    intro t ht
    rw [Set.uIoo_of_lt (by norm_num)] at ht
    have h0 : 0 < t := ht.1
    have hx : b - 1 / t + 1 < b := by
      have : b - 1 / t + 1 ∈ Set.Iio b := by rw [← lower_image]; exact ⟨t, ht, rfl⟩
      exact this
    have := hfp _ hx
    rw [show b - (b - 1 / t + 1) + 1 = 1 / t by ring, one_div_one_div] at this
    rw [lowerInf, if_neg (not_le.mpr h0)]
    rw [show f (b - 1 / t + 1) / (t * t) = f (b - 1 / t + 1) * (1 / t) ^ 2 by field_simp]
    exact this)
  rw [lowerInf_integral] at h
  refine ⟨r, hr, ?_⟩
  simpa using h

theorem inv_sq_integrable : IntegrableOn (fun x : ℝ => 1 / x ^ 2) (Set.Ioi 1) := by
  have := integrableOn_Ioi_rpow_of_lt (show (-2 : ℝ) < -1 by norm_num) (show (0 : ℝ) < 1 by norm_num)
  refine this.congr_fun (fun x hx => ?_) measurableSet_Ioi
  have h0 : (0 : ℝ) < x := lt_trans one_pos hx
  dsimp only
  rw [Real.rpow_neg h0.le, one_div]
  norm_cast

/-- The example of the documentation, `∫[1,∞) 1/x² dx`: the answer is exact. -/
example : ∃ r, integrateUpperInf 20 5 (fun x => 1 / x ^ 2) 1 (1 / 10 ^ 10) = .ret r ∧
    r.value = ∫ x in Set.Ioi (1 : ℝ), 1 / x ^ 2 := by
  obtain ⟨r, hr, h⟩ := integrateUpperInf_accuracy 20 5 (fun x => 1 / x ^ 2) 1 (1 / 10 ^ 10) 0 1 (by norm_num) (by norm_num)
    (by norm_num) le_rfl (by simp) inv_sq_integrable (by
      intro x hx
      have : x ≠ 0 := by linarith
      rw [eval_one, sub_add_cancel, one_div, inv_mul_cancel₀ (pow_ne_zero 2 this)]
      simp)
  refine ⟨r, hr, ?_⟩
  rw [mul_zero] at h
  exact sub_eq_zero.mp (abs_nonpos_iff.mp h)

/-! ## The whole line -/

/-- What `IntegrateInfSplit`, `IntegrateBothSingular` and `IntegrateInteriorSingular` report from their two halves: values and
error estimates add, and the answer counts as converged exactly when both halves converged. -/
def Joined (l r s : Result) : Prop :=
  s.value = l.value + r.value ∧ s.error = l.error + r.error ∧ s.iterations = l.iterations + r.iterations ∧
    (s.converged = true ↔ l.converged = true ∧ r.converged = true)

theorem joined_join (l r : Result) : Joined l r (l.join r) := by
  refine ⟨rfl, rfl, rfl, ?_⟩
  simp [Result.join]

/-- **C79.**  `IntegrateInfSplit` combines the two semi-infinite integrals. -/
theorem integrateInfSplit_spec (M K : ℕ) (f : ℝ → ℝ) (c eps : ℝ) (hK : 2 ≤ K) (hKM : K ≤ M) (hM : M ≤ 21) :
    ∃ l r s, integrateLowerInf M K f c eps = .ret l ∧ integrateUpperInf M K f c eps = .ret r ∧
      integrateInfSplit M K f c eps = .ret s ∧ Joined l r s := by
  obtain ⟨l, hl, _⟩ := integrateLowerInf_spec M K f c eps hK hKM hM
  obtain ⟨r, hr, _⟩ := integrateUpperInf_spec M K f c eps hK hKM hM
  refine ⟨l, r, l.join r, hl, hr, ?_, joined_join l r⟩
  rw [integrateInfSplit, hl, hr]
  simp only [Outcome.bind_ret]

/-- **C79.**  `IntegrateInf` is `IntegrateInfSplit` at zero. -/
theorem integrateInf_eq (M K : ℕ) (f : ℝ → ℝ) (eps : ℝ) : integrateInf M K f eps = integrateInfSplit M K f 0 eps := rfl

/-- **C79.**  Accuracy of `IntegrateInfSplit`, for an integrand integrable over the line. -/
theorem integrateInfSplit_accuracy (M K : ℕ) (f : ℝ → ℝ) (c eps δ δ' : ℝ) (p p' : ℝ[X]) (hK : 2 ≤ K) (hKM : K ≤ M) (hM : M ≤ 21)
    (hδ : 0 ≤ δ) (hδ' : 0 ≤ δ') (hp : p.natDegree ≤ 2 * K - 1) (hp' : p'.natDegree ≤ 2 * K - 1) (hf : Integrable f)
    (hfp : ∀ x, x < c → |f x * (c - x + 1) ^ 2 - p.eval (1 / (c - x + 1))| ≤ δ)
    (hfp' : ∀ x, c < x → |f x * (x - c + 1) ^ 2 - p'.eval (1 / (x - c + 1))| ≤ δ') :
    ∃ s, integrateInfSplit M K f c eps = .ret s ∧ |s.value - ∫ x, f x| ≤ 7 / 3 * (δ + δ') := by
  obtain ⟨l, r, s, hl, hr, hs, hj, -⟩ := integrateInfSplit_spec M K f c eps hK hKM hM
  obtain ⟨l', hl', h1⟩ := integrateLowerInf_accuracy M K f c eps δ p hK hKM hM hδ hp hf.integrableOn hfp
  obtain ⟨r', hr', h2⟩ := integrateUpperInf_accuracy M K f c eps δ' p' hK hKM hM hδ' hp' hf.integrableOn hfp'
  obtain rfl : l = l' := by simpa [hl] using hl'
  obtain rfl : r = r' := by simpa [hr] using hr'
  refine ⟨s, hs, ?_⟩
  rw [hj, ← intervalIntegral.integral_Iic_add_Ioi (b := c) hf.integrableOn hf.integrableOn]
  rw [abs_le] at h1 h2 ⊢
  constructor <;> linarith [h1.1, h1.2, h2.1, h2.2]

theorem integrable_even_tail : Integrable fun x : ℝ => 1 / (|x| + 1) ^ 2 := by
  have h : Integrable fun x : ℝ => 2 * (1 + x ^ 2)⁻¹ := integrable_inv_one_add_sq.const_mul 2
  refine h.mono' (Continuous.aestronglyMeasurable ?_) (Filter.Eventually.of_forall fun x => ?_)
  · exact Continuous.div continuous_const (by fun_prop) fun x => by positivity
  · rw [Real.norm_eq_abs, abs_of_pos (by positivity), ← div_eq_mul_inv, div_le_div_iff₀ (by positivity) (by positivity)]
    nlinarith [abs_nonneg x, sq_abs x]

/-- An integrand over the line on which the answer is exact. -/
example : ∃ s, integrateInf 20 5 (fun x => 1 / (|x| + 1) ^ 2) (1 / 10 ^ 10) = .ret s ∧
    |s.value - ∫ x : ℝ, 1 / (|x| + 1) ^ 2| ≤ 7 / 3 * (0 + 0) := by
  rw [integrateInf_eq]
  refine integrateInfSplit_accuracy 20 5 _ 0 _ 0 0 1 1 (by norm_num) (by norm_num) (by norm_num) le_rfl le_rfl (by simp) (by simp)
    integrable_even_tail ?_ ?_
  · intro x hx
    have : (-x + 1 : ℝ) ≠ 0 := by linarith
    rw [eval_one, abs_of_neg hx, zero_sub, one_div, inv_mul_cancel₀ (pow_ne_zero 2 this)]
    simp
  · intro x hx
    have : (x + 1 : ℝ) ≠ 0 := by linarith
    rw [eval_one, abs_of_pos hx, sub_zero, one_div, inv_mul_cancel₀ (pow_ne_zero 2 this)]
    simp

/-! ## Singular ends -/

theorem rootOf_eq (x : ℝ) (h : 0 ≤ x) : rootOf x = .ret (Real.sqrt x) := by
  rw [rootOf, if_neg (not_lt.mpr h)]

/-- **C79.**  `IntegrateLowerSingular` returns the extrapolation from midpoint sums of `2t f(a + t²)` over `[0, √(b-a)]`, whose
integral is `∫[a,b] f`. -/
theorem integrateLowerSingular_spec (M K : ℕ) (f : ℝ → ℝ) (a b eps : ℝ) (hab : a ≤ b) (hK : 2 ≤ K) (hKM : K ≤ M) (hM : M ≤ 21) :
    ∃ r, integrateLowerSingular M K f a b eps = .ret r ∧
      RombergAnswer (1 / 9) (WithinRel eps)
        (fun k => midpoint (fun t => 2 * t * f (a + t ^ 2)) 0 (Real.sqrt (b - a)) (3 ^ k)) K 0 M r := by
  rw [integrateLowerSingular, rootOf_eq _ (by linarith), Outcome.bind_ret]
  have : lowerSing f a = fun t => 2 * t * f (a + t ^ 2) := by
    funext t
    rw [lowerSing, pow_two]
    ring
  rw [this]
  exact integrateOpen_spec M K _ 0 _ eps hK hKM hM

/-- **C79.**  The same for `IntegrateUpperSingular` with `2t f(b - t²)`. -/
theorem integrateUpperSingular_spec (M K : ℕ) (f : ℝ → ℝ) (a b eps : ℝ) (hab : a ≤ b) (hK : 2 ≤ K) (hKM : K ≤ M) (hM : M ≤ 21) :
    ∃ r, integrateUpperSingular M K f a b eps = .ret r ∧
      RombergAnswer (1 / 9) (WithinRel eps)
        (fun k => midpoint (fun t => 2 * t * f (b - t ^ 2)) 0 (Real.sqrt (b - a)) (3 ^ k)) K 0 M r := by
  rw [integrateUpperSingular, rootOf_eq _ (by linarith), Outcome.bind_ret]
  have : upperSing f b = fun t => 2 * t * f (b - t ^ 2) := by
    funext t
    rw [upperSing, pow_two]
    ring
  rw [this]
  exact integrateOpen_spec M K _ 0 _ eps hK hKM hM

/-- **C79.**  `IntegrateLowerSingular` evaluates the integrand only strictly between `a` and `b`: never at the singularity. -/
theorem integrateLowerSingular_congr (M K : ℕ) (f g : ℝ → ℝ) (a b eps : ℝ) (hab : a ≤ b) (hK : 2 ≤ K) (hKM : K ≤ M) (hM : M ≤ 21)
    (h : ∀ x ∈ Set.Ioo a b, f x = g x) : integrateLowerSingular M K f a b eps = integrateLowerSingular M K g a b eps := by
  rw [integrateLowerSingular, integrateLowerSingular, rootOf_eq _ (by linarith), Outcome.bind_ret, Outcome.bind_ret]
  refine integrateOpen_congr M K _ _ _ _ eps hK hKM hM fun t ht => ?_
  rw [Set.uIoo_of_le (Real.sqrt_nonneg _)] at ht
  rw [lowerSing, lowerSing, h]
  rw [← lowerSing_image a b hab]
  exact ⟨t, ht, rfl⟩

/-- **C79.**  The same for `IntegrateUpperSingular`. -/
theorem integrateUpperSingular_congr (M K : ℕ) (f g : ℝ → ℝ) (a b eps : ℝ) (hab : a ≤ b) (hK : 2 ≤ K) (hKM : K ≤ M) (hM : M ≤ 21)
    (h : ∀ x ∈ Set.Ioo a b, f x = g x) : integrateUpperSingular M K f a b eps = integrateUpperSingular M K g a b eps := by
  rw [integrateUpperSingular, integrateUpperSingular, rootOf_eq _ (by linarith), Outcome.bind_ret, Outcome.bind_ret]
  refine integrateOpen_congr M K _ _ _ _ eps hK hKM hM fun t ht => ?_
  rw [Set.uIoo_of_le (Real.sqrt_nonneg _)] at ht
  rw [upperSing, upperSing, h]
  rw [← upperSing_image a b hab]
  exact ⟨t, ht, rfl⟩

/-- **C79.**  If `2√(x-a) f(x)` is within `δ` of a polynomial of degree at most `2K - 1` in `√(x-a)` inside the interval,
`IntegrateLowerSingular` is within `7/3 √(b-a) δ` of the integral, whatever the tolerance. -/
theorem integrateLowerSingular_accuracy (M K : ℕ) (f : ℝ → ℝ) (a b eps δ : ℝ) (p : ℝ[X]) (hab : a ≤ b) (hK : 2 ≤ K)
    (hKM : K ≤ M) (hM : M ≤ 21) (hδ : 0 ≤ δ) (hp : p.natDegree ≤ 2 * K - 1) (hf : IntervalIntegrable f volume a b)
    (hfp : ∀ x ∈ Set.Ioo a b, |2 * Real.sqrt (x - a) * f x - p.eval (Real.sqrt (x - a))| ≤ δ) :
    ∃ r, integrateLowerSingular M K f a b eps = .ret r ∧
      |r.value - ∫ x in a..b, f x| ≤ 7 / 3 * Real.sqrt (b - a) * δ := by
  rw [integrateLowerSingular, rootOf_eq _ (by linarith), Outcome.bind_ret]
  obtain ⟨r, hr, h⟩ := integrateOpen_accuracy M K (lowerSing f a) 0 (Real.sqrt (b - a)) eps δ p hK hKM hM hδ hp
    (lowerSing_integrable f a b hab hf) (by
    intro t ht
    rw [Set.uIoo_of_le (Real.sqrt_nonneg _)] at ht
    have hx : a + t * t ∈ Set.Ioo a b := by
      rw [← lowerSing_image a b hab]
      exact ⟨t, ht, rfl⟩
    have := hfp _ hx
    rw [add_sub_cancel_left, Real.sqrt_mul_self ht.1.le] at this
    rw [lowerSing, show f (a + t * t) * 2 * t = 2 * t * f (a + t * t) by ring]
    exact this)
  rw [lowerSing_integral f a b hab, sub_zero, abs_of_nonneg (Real.sqrt_nonneg _)] at h
  exact ⟨r, hr, h⟩

/-- **C79.**  The same for `IntegrateUpperSingular`. -/
theorem integrateUpperSingular_accuracy (M K : ℕ) (f : ℝ → ℝ) (a b eps δ : ℝ) (p : ℝ[X]) (hab : a ≤ b) (hK : 2 ≤ K)
    (hKM : K ≤ M) (hM : M ≤ 21) (hδ : 0 ≤ δ) (hp : p.natDegree ≤ 2 * K - 1) (hf : IntervalIntegrable f volume a b)
    (hfp : ∀ x ∈ Set.Ioo a b, |2 * Real.sqrt (b - x) * f x - p.eval (Real.sqrt (b - x))| ≤ δ) :
    ∃ r, integrateUpperSingular M K f a b eps = .ret r ∧
      |r.value - ∫ x in a..b, f x| ≤ 7 / 3 * Real.sqrt (b - a) * δ := by
  rw [integrateUpperSingular, rootOf_eq _ (by linarith), Outcome.bind_ret]
  obtain ⟨r, hr, h⟩ := integrateOpen_accuracy M K (upperSing f b) 0 (Real.sqrt (b - a)) eps δ p hK hKM hM hδ hp
    (upperSing_integrable f a b hab hf) (by
    intro t ht
    rw [Set.uIoo_of_le (Real.sqrt_nonneg _)] at ht
    have hx : b - t * t ∈ Set.Ioo a b := by
      rw [← upperSing_image a b hab]
      exact ⟨t, ht, rfl⟩
    have := hfp _ hx
    rw [sub_sub_cancel, Real.sqrt_mul_self ht.1.le] at this
    rw [upperSing, show f (b - t * t) * 2 * t = 2 * t * f (b - t * t) by ring]
    exact this)
  rw [upperSing_integral f a b hab, sub_zero, abs_of_nonneg (Real.sqrt_nonneg _)] at h
  exact ⟨r, hr, h⟩

theorem inv_sqrt_integrable : IntervalIntegrable (fun x : ℝ => 1 / Real.sqrt x) volume 0 1 := by
  have h := intervalIntegral.intervalIntegrable_rpow' (show (-1 : ℝ) < -(1 / 2) by norm_num) (a := 0) (b := 1)
  rw [intervalIntegrable_iff_integrableOn_Ioo_of_le (by norm_num)] at h ⊢
  refine h.congr_fun (fun x hx => ?_) measurableSet_Ioo
  dsimp only
  rw [Real.rpow_neg hx.1.le, ← Real.sqrt_eq_rpow, one_div]

/-- The example of the documentation, `∫[0,1] 1/√x dx`: the answer is exact. -/
example : ∃ r, integrateLowerSingular 20 5 (fun x => 1 / Real.sqrt x) 0 1 (1 / 10 ^ 10) = .ret r ∧
    r.value = ∫ x in (0 : ℝ)..1, 1 / Real.sqrt x := by
  obtain ⟨r, hr, h⟩ := integrateLowerSingular_accuracy 20 5 (fun x => 1 / Real.sqrt x) 0 1 (1 / 10 ^ 10) 0 (C 2) (by norm_num)
    (by norm_num) (by norm_num) (by norm_num) le_rfl (by simp) inv_sqrt_integrable (by
      intro x hx
      have : Real.sqrt x ≠ 0 := (Real.sqrt_pos.mpr hx.1).ne'
      rw [eval_C, sub_zero, mul_assoc, mul_one_div, div_self this]
      simp)
  refine ⟨r, hr, ?_⟩
  rw [mul_zero] at h
  exact sub_eq_zero.mp (abs_nonpos_iff.mp h)

/-- **C79, corner.**  With the bounds reversed the singular integrators take the square root of a negative number. -/
theorem integrateSingular_reversed (M K : ℕ) (f : ℝ → ℝ) (a b eps : ℝ) (hab : b < a) :
    integrateLowerSingular M K f a b eps = .ub ∧ integrateUpperSingular M K f a b eps = .ub := by
  rw [integrateLowerSingular, integrateUpperSingular, rootOf, if_pos (by linarith)]
  exact ⟨rfl, rfl⟩

/-- **C79.**  `IntegrateBothSingular` combines the two halves, split in the middle. -/
theorem integrateBothSingular_spec (M K : ℕ) (f : ℝ → ℝ) (a b eps : ℝ) (hab : a ≤ b) (hK : 2 ≤ K) (hKM : K ≤ M) (hM : M ≤ 21) :
    ∃ l r s, integrateLowerSingular M K f a ((a + b) / 2) eps = .ret l ∧
      integrateUpperSingular M K f ((a + b) / 2) b eps = .ret r ∧
      integrateBothSingular M K f a b eps = .ret s ∧ Joined l r s := by
  obtain ⟨l, hl, _⟩ := integrateLowerSingular_spec M K f a ((a + b) / 2) eps (by linarith) hK hKM hM
  obtain ⟨r, hr, _⟩ := integrateUpperSingular_spec M K f ((a + b) / 2) b eps (by linarith) hK hKM hM
  refine ⟨l, r, l.join r, hl, hr, ?_, joined_join l r⟩
  rw [integrateBothSingular, show 1 / 2 * (a + b) = (a + b) / 2 by ring, hl, hr]
  simp only [Outcome.bind_ret]

/-- **C79.**  `IntegrateInteriorSingular` refuses a point outside the open interval. -/
theorem integrateInteriorSingular_refuses (M K : ℕ) (f : ℝ → ℝ) (a b c eps : ℝ) :
    integrateInteriorSingular M K f a b c eps = .exn .invalidArgument ∨ (a < c ∧ c < b) := by
  by_cases h : c ≤ a ∨ c ≥ b
  · left
    rw [integrateInteriorSingular, if_pos h]
  · right
    push Not at h
    exact h

/-- **C79.**  Otherwise it combines the two sides. -/
theorem integrateInteriorSingular_spec (M K : ℕ) (f : ℝ → ℝ) (a b c eps : ℝ) (hac : a < c) (hcb : c < b) (hK : 2 ≤ K)
    (hKM : K ≤ M) (hM : M ≤ 21) :
    ∃ l r s, integrateUpperSingular M K f a c eps = .ret l ∧ integrateLowerSingular M K f c b eps = .ret r ∧
      integrateInteriorSingular M K f a b c eps = .ret s ∧ Joined l r s := by
  obtain ⟨l, hl, _⟩ := integrateUpperSingular_spec M K f a c eps hac.le hK hKM hM
  obtain ⟨r, hr, _⟩ := integrateLowerSingular_spec M K f c b eps hcb.le hK hKM hM
  refine ⟨l, r, l.join r, hl, hr, ?_, joined_join l r⟩
  rw [integrateInteriorSingular, if_neg (by push Not; exact ⟨hac, hcb⟩), hl, hr]
  simp only [Outcome.bind_ret]

/-- **C79.**  Accuracy of `IntegrateBothSingular`. -/
theorem integrateBothSingular_accuracy (M K : ℕ) (f : ℝ → ℝ) (a b eps δ δ' : ℝ) (p p' : ℝ[X]) (hab : a ≤ b) (hK : 2 ≤ K)
    (hKM : K ≤ M) (hM : M ≤ 21) (hδ : 0 ≤ δ) (hδ' : 0 ≤ δ') (hp : p.natDegree ≤ 2 * K - 1) (hp' : p'.natDegree ≤ 2 * K - 1)
    (hf : IntervalIntegrable f volume a b)
    (hfp : ∀ x ∈ Set.Ioo a ((a + b) / 2), |2 * Real.sqrt (x - a) * f x - p.eval (Real.sqrt (x - a))| ≤ δ)
    (hfp' : ∀ x ∈ Set.Ioo ((a + b) / 2) b, |2 * Real.sqrt (b - x) * f x - p'.eval (Real.sqrt (b - x))| ≤ δ') :
    ∃ s, integrateBothSingular M K f a b eps = .ret s ∧
      |s.value - ∫ x in a..b, f x| ≤ 7 / 3 * Real.sqrt ((b - a) / 2) * (δ + δ') := by
  obtain ⟨l, r, s, hl, hr, hs, hj, -⟩ := integrateBothSingular_spec M K f a b eps hab hK hKM hM
  have i1 : IntervalIntegrable f volume a ((a + b) / 2) := hf.mono_set (by
    rw [Set.uIcc_of_le hab, Set.uIcc_of_le (by linarith)]
    exact Set.Icc_subset_Icc_right (by linarith))
  have i2 : IntervalIntegrable f volume ((a + b) / 2) b := hf.mono_set (by
    rw [Set.uIcc_of_le hab, Set.uIcc_of_le (by linarith)]
    exact Set.Icc_subset_Icc_left (by linarith))
  obtain ⟨l', hl', h1⟩ := integrateLowerSingular_accuracy M K f a ((a + b) / 2) eps δ p (by linarith) hK hKM hM hδ hp i1 hfp
  obtain ⟨r', hr', h2⟩ := integrateUpperSingular_accuracy M K f ((a + b) / 2) b eps δ' p' (by linarith) hK hKM hM hδ' hp' i2 hfp'
  obtain rfl : l = l' := by simpa [hl] using hl'
  obtain rfl : r = r' := by simpa [hr] using hr'
  refine ⟨s, hs, ?_⟩
  rw [hj, ← intervalIntegral.integral_add_adjacent_intervals i1 i2]
  rw [show (a + b) / 2 - a = (b - a) / 2 by ring] at h1
  rw [show b - (a + b) / 2 = (b - a) / 2 by ring] at h2
  rw [abs_le] at h1 h2 ⊢
  constructor <;> linarith [h1.1, h1.2, h2.1, h2.2]

/-- **C79.**  Accuracy of `IntegrateInteriorSingular`. -/
theorem integrateInteriorSingular_accuracy (M K : ℕ) (f : ℝ → ℝ) (a b c eps δ δ' : ℝ) (p p' : ℝ[X]) (hac : a < c) (hcb : c < b)
    (hK : 2 ≤ K) (hKM : K ≤ M) (hM : M ≤ 21) (hδ : 0 ≤ δ) (hδ' : 0 ≤ δ') (hp : p.natDegree ≤ 2 * K - 1)
    (hp' : p'.natDegree ≤ 2 * K - 1) (hf : IntervalIntegrable f volume a b)
    (hfp : ∀ x ∈ Set.Ioo a c, |2 * Real.sqrt (c - x) * f x - p.eval (Real.sqrt (c - x))| ≤ δ)
    (hfp' : ∀ x ∈ Set.Ioo c b, |2 * Real.sqrt (x - c) * f x - p'.eval (Real.sqrt (x - c))| ≤ δ') :
    ∃ s, integrateInteriorSingular M K f a b c eps = .ret s ∧
      |s.value - ∫ x in a..b, f x| ≤ 7 / 3 * (Real.sqrt (c - a) * δ + Real.sqrt (b - c) * δ') := by
  obtain ⟨l, r, s, hl, hr, hs, hj, -⟩ := integrateInteriorSingular_spec M K f a b c eps hac hcb hK hKM hM
  have i1 : IntervalIntegrable f volume a c := hf.mono_set (by
    rw [Set.uIcc_of_le (by linarith), Set.uIcc_of_le (by linarith)]
    exact Set.Icc_subset_Icc_right (by linarith))
  have i2 : IntervalIntegrable f volume c b := hf.mono_set (by
    rw [Set.uIcc_of_le (by linarith), Set.uIcc_of_le (by linarith)]
    exact Set.Icc_subset_Icc_left (by linarith))
  obtain ⟨l', hl', h1⟩ := integrateUpperSingular_accuracy M K f a c eps δ p hac.le hK hKM hM hδ hp i1 hfp
  obtain ⟨r', hr', h2⟩ := integrateLowerSingular_accuracy M K f c b eps δ' p' hcb.le hK hKM hM hδ' hp' i2 hfp'
  obtain rfl : l = l' := by simpa [hl] using hl'
  obtain rfl : r = r' := by simpa [hr] using hr'
  refine ⟨s, hs, ?_⟩
  rw [hj, ← intervalIntegral.integral_add_adjacent_intervals i1 i2]
  rw [abs_le] at h1 h2 ⊢
  constructor <;> linarith [h1.1, h1.2, h2.1, h2.2]

example : ∃ s, integrateInteriorSingular 20 5 (fun x => x ^ 2) (-1) 1 0 (1 / 10 ^ 10) = .ret s ∧
    |s.value - ∫ x in (-1 : ℝ)..1, x ^ 2| ≤ 7 / 3 * (Real.sqrt (0 - (-1)) * 0 + Real.sqrt (1 - 0) * 0) := by
  refine integrateInteriorSingular_accuracy 20 5 _ (-1) 1 0 _ 0 0 (C 2 * X ^ 5) (C 2 * X ^ 5) (by norm_num) (by norm_num)
    (by norm_num) (by norm_num) (by norm_num) le_rfl le_rfl ?_ ?_ (Continuous.intervalIntegrable (by fun_prop) _ _) ?_ ?_
  · exact (natDegree_C_mul_X_pow_le _ _).trans (by norm_num)
  · exact (natDegree_C_mul_X_pow_le _ _).trans (by norm_num)
  · intro x hx
    have h : Real.sqrt (0 - x) ^ 2 = 0 - x := Real.sq_sqrt (by linarith [hx.2])
    simp only [eval_mul, eval_C, eval_pow, eval_X]
    rw [show Real.sqrt (0 - x) ^ 5 = Real.sqrt (0 - x) * (Real.sqrt (0 - x) ^ 2) ^ 2 by ring, h]
    ring_nf
    simp
  · intro x hx
    have h : Real.sqrt (x - 0) ^ 2 = x - 0 := Real.sq_sqrt (by linarith [hx.1])
    simp only [eval_mul, eval_C, eval_pow, eval_X]
    rw [show Real.sqrt (x - 0) ^ 5 = Real.sqrt (x - 0) * (Real.sqrt (x - 0) ^ 2) ^ 2 by ring, h]
    ring_nf
    simp

end Verif.Integ
