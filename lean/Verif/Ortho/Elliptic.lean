import Verif.Ortho.SphProps
import Mathlib.MeasureTheory.Function.JacobianOneDim
import Mathlib.Analysis.SpecialFunctions.Trigonometric.ArctanDeriv
import Mathlib.Tactic

/-!
# Complete elliptic integrals (C106)

The arithmetic-geometric mean, by Gauss's transformation of the integral.
-/

set_option autoImplicit false

namespace Verif.Ortho

open Verif MeasureTheory
open Verif.Cheb (quot)

/-- The complete elliptic integral of the first kind, ... -/
noncomputable def ellK (k : ℝ) : ℝ := ∫ θ in (0 : ℝ)..(Real.pi / 2), 1 / Real.sqrt (1 - k ^ 2 * Real.sin θ ^ 2)

/-- ... and of the second kind. -/
noncomputable def ellE (k : ℝ) : ℝ := ∫ θ in (0 : ℝ)..(Real.pi / 2), Real.sqrt (1 - k ^ 2 * Real.sin θ ^ 2)

/-- The integral over the quarter of an ellipse. -/
noncomputable def gaussI (a b : ℝ) : ℝ := ∫ θ in (0 : ℝ)..(Real.pi / 2), 1 / Real.sqrt (a ^ 2 * Real.cos θ ^ 2 + b ^ 2 * Real.sin θ ^ 2)

/-- The same over the half-line. -/
noncomputable def gaussG (a b : ℝ) : ℝ := ∫ t in Set.Ioi (0 : ℝ), 1 / Real.sqrt ((t ^ 2 + a ^ 2) * (t ^ 2 + b ^ 2))

theorem gaussI_eq (a b : ℝ) (hb : 0 < b) : gaussI a b = gaussG a b := by
  have him : (fun θ => b * Real.tan θ) '' Set.Ioo 0 (Real.pi / 2) = Set.Ioi 0 := by
    ext t
    constructor
    · rintro ⟨θ, ⟨h1, h2⟩, rfl⟩
      exact mul_pos hb (Real.tan_pos_of_pos_of_lt_pi_div_two h1 h2)
    · intro ht
      refine ⟨Real.arctan (t / b), ⟨Real.arctan_pos.2 (div_pos ht hb), Real.arctan_lt_pi_div_two _⟩, ?_⟩
      beta_reduce
      rw [Real.tan_arctan]
      field_simp
  have hcos : ∀ θ ∈ Set.Ioo 0 (Real.pi / 2), 0 < Real.cos θ := fun θ hθ =>
    Real.cos_pos_of_mem_Ioo ⟨by have := hθ.1; have := Real.pi_pos; linarith, hθ.2⟩
  have hinj : Set.InjOn (fun θ => b * Real.tan θ) (Set.Ioo 0 (Real.pi / 2)) := by
    intro x hx y hy e
    have e' : Real.tan x = Real.tan y := mul_left_cancel₀ hb.ne' e
    have := Real.pi_pos
    exact Real.injOn_tan ⟨by linarith [hx.1], hx.2⟩ ⟨by linarith [hy.1], hy.2⟩ e'
  rw [gaussI, gaussG, intervalIntegral.integral_of_le (by positivity), integral_Ioc_eq_integral_Ioo, ← him,
    integral_image_eq_integral_abs_deriv_smul (f' := fun θ => b * (1 / Real.cos θ ^ 2)) measurableSet_Ioo
      (fun θ hθ => ((Real.hasDerivAt_tan (hcos θ hθ).ne').const_mul b).hasDerivWithinAt) hinj]
  refine setIntegral_congr_fun measurableSet_Ioo fun θ hθ => ?_
  have hc := hcos θ hθ
  beta_reduce
  rw [smul_eq_mul, abs_of_pos (by positivity), Real.tan_eq_sin_div_cos]
  have h1 : ((b * (Real.sin θ / Real.cos θ)) ^ 2 + a ^ 2) * ((b * (Real.sin θ / Real.cos θ)) ^ 2 + b ^ 2) =
      (a ^ 2 * Real.cos θ ^ 2 + b ^ 2 * Real.sin θ ^ 2) * (b / Real.cos θ ^ 2) ^ 2 := by
    have := Real.sin_sq_add_cos_sq θ
    field_simp
    linear_combination (b ^ 2 * Real.sin θ ^ 2 + a ^ 2 * Real.cos θ ^ 2) * this
  rw [h1, Real.sqrt_mul (by positivity), Real.sqrt_sq (by positivity)]
  by_cases h0 : Real.sqrt (a ^ 2 * Real.cos θ ^ 2 + b ^ 2 * Real.sin θ ^ 2) = 0
  · rw [h0]; simp
  · field_simp

theorem gaussG_step (a b : ℝ) (ha : 0 < a) (hb : 0 < b) : gaussG ((a + b) / 2) (Real.sqrt (a * b)) = gaussG a b := by
  have hab : 0 < a * b := mul_pos ha hb
  set g := fun t : ℝ => 1 / Real.sqrt ((t ^ 2 + ((a + b) / 2) ^ 2) * (t ^ 2 + (Real.sqrt (a * b)) ^ 2)) with hg
  have h1 : ∫ t, g t = 2 * gaussG ((a + b) / 2) (Real.sqrt (a * b)) := by
    have := integral_comp_abs (f := g)
    rw [gaussG, ← this]
    congr 1
    ext t
    simp only [hg, sq_abs]
  set f := fun x : ℝ => (x - a * b / x) / 2 with hf
  have him : f '' Set.Ioi 0 = Set.univ := by
    refine Set.eq_univ_of_forall fun t => ?_
    have hs : Real.sqrt (t ^ 2 + a * b) ^ 2 = t ^ 2 + a * b := Real.sq_sqrt (by positivity)
    have hlt : |t| < Real.sqrt (t ^ 2 + a * b) := by
      rw [← Real.sqrt_sq_eq_abs]
      exact Real.sqrt_lt_sqrt (by positivity) (by linarith)
    have hpos : 0 < t + Real.sqrt (t ^ 2 + a * b) := by
      have := neg_abs_le t
      linarith
    refine ⟨t + Real.sqrt (t ^ 2 + a * b), hpos, ?_⟩
    simp only [hf]
    have hne := hpos.ne'
    field_simp
    linear_combination hs
  have hinj : Set.InjOn f (Set.Ioi 0) := by
    intro x hx y hy e
    have hx' : (0 : ℝ) < x := hx
    have hy' : (0 : ℝ) < y := hy
    simp only [hf] at e
    field_simp at e
    have e2 : (x - y) * (x * y + a * b) = 0 := by linear_combination e
    rcases mul_eq_zero.1 e2 with h | h
    · linarith
    · have := mul_pos hx' hy'
      linarith
  have h2 : ∫ t, g t = 2 * gaussG a b := by
    rw [← setIntegral_univ, ← him, integral_image_eq_integral_abs_deriv_smul (f' := fun x => (1 + a * b / x ^ 2) / 2) measurableSet_Ioi ?_ hinj,
      gaussG, ← integral_const_mul]
    · refine setIntegral_congr_fun measurableSet_Ioi fun x hx => ?_
      have hx' : (0 : ℝ) < x := hx
      beta_reduce
      rw [smul_eq_mul, abs_of_pos (by positivity)]
      simp only [hg, hf]
      rw [Real.sq_sqrt hab.le]
      have e : (((x - a * b / x) / 2) ^ 2 + ((a + b) / 2) ^ 2) * (((x - a * b / x) / 2) ^ 2 + a * b) =
          ((x ^ 2 + a ^ 2) * (x ^ 2 + b ^ 2)) * ((1 + a * b / x ^ 2) / 4) ^ 2 := by
        field_simp
        ring
      rw [e, Real.sqrt_mul (by positivity), Real.sqrt_sq (by positivity)]
      have : Real.sqrt ((x ^ 2 + a ^ 2) * (x ^ 2 + b ^ 2)) ≠ 0 := by positivity
      field_simp
      norm_num
    · intro x hx
      have hx' : x ≠ 0 := ne_of_gt hx
      have h := (((hasDerivAt_id x).sub ((hasDerivAt_inv hx').const_mul (a * b))).div_const 2).hasDerivWithinAt (s := Set.Ioi 0)
      refine (h.congr_deriv ?_).congr_of_eventuallyEq ?_ ?_
      · field_simp
        ring
      · exact Filter.Eventually.of_forall fun y => by simp [hf, div_eq_mul_inv]
      · simp [hf, div_eq_mul_inv]
  linarith

theorem gaussI_step (a b : ℝ) (ha : 0 < a) (hb : 0 < b) : gaussI ((a + b) / 2) (Real.sqrt (a * b)) = gaussI a b := by
  rw [gaussI_eq _ _ (by positivity), gaussG_step a b ha hb, gaussI_eq _ _ hb]

theorem gaussI_bounds (a b : ℝ) (hb : 0 < b) (hab : b ≤ a) : Real.pi / (2 * a) ≤ gaussI a b ∧ gaussI a b ≤ Real.pi / (2 * b) := by
  have ha : 0 < a := hb.trans_le hab
  have hq : b ^ 2 ≤ a ^ 2 := by nlinarith
  have hlo : ∀ θ : ℝ, b ^ 2 ≤ a ^ 2 * Real.cos θ ^ 2 + b ^ 2 * Real.sin θ ^ 2 := by
    intro θ
    have := Real.sin_sq_add_cos_sq θ
    nlinarith [sq_nonneg (Real.cos θ)]
  have hhi : ∀ θ : ℝ, a ^ 2 * Real.cos θ ^ 2 + b ^ 2 * Real.sin θ ^ 2 ≤ a ^ 2 := by
    intro θ
    have := Real.sin_sq_add_cos_sq θ
    nlinarith [sq_nonneg (Real.sin θ)]
  have hpos : ∀ θ : ℝ, 0 < Real.sqrt (a ^ 2 * Real.cos θ ^ 2 + b ^ 2 * Real.sin θ ^ 2) := fun θ =>
    Real.sqrt_pos.2 (lt_of_lt_of_le (by positivity) (hlo θ))
  have hc : Continuous fun θ : ℝ => 1 / Real.sqrt (a ^ 2 * Real.cos θ ^ 2 + b ^ 2 * Real.sin θ ^ 2) :=
    continuous_const.div (by fun_prop) fun θ => (hpos θ).ne'
  have hconst : ∀ c : ℝ, c ≠ 0 → ∫ _ in (0 : ℝ)..(Real.pi / 2), 1 / c = Real.pi / (2 * c) := by
    intro c hc0
    rw [intervalIntegral.integral_const, smul_eq_mul]
    field_simp
    ring
  constructor
  · rw [← hconst a ha.ne', gaussI]
    refine intervalIntegral.integral_mono_on (by positivity) (by simp) (hc.intervalIntegrable _ _) fun θ _ => ?_
    exact one_div_le_one_div_of_le (hpos θ) ((Real.sqrt_le_left ha.le).2 (hhi θ))
  · rw [← hconst b hb.ne', gaussI]
    refine intervalIntegral.integral_mono_on (by positivity) (hc.intervalIntegrable _ _) (by simp) fun θ _ => ?_
    exact one_div_le_one_div_of_le hb (Real.le_sqrt_of_sq_le (hlo θ))

theorem ellK_eq (k : ℝ) (hk : |k| ≤ 1) : ellK k = gaussI 1 (Real.sqrt (1 - k * k)) := by
  have h : 0 ≤ 1 - k * k := by
    have := abs_le.1 hk
    nlinarith
  rw [ellK, gaussI, Real.sq_sqrt h]
  congr 1
  ext θ
  congr 2
  have := Real.sin_sq_add_cos_sq θ
  linear_combination -this

/-- The loop terminates, keeps the integral, and keeps `b` above its first value. -/
theorem agm_run (n : ℕ) : ∀ a b : ℝ, 0 < b → b ≤ a → a - b ≤ 2 ^ n / 10 ^ 15 →
    ∃ a' b', whileFuel agmStep (n + 1) (a, b) = some (a', b') ∧ b ≤ b' ∧ b' ≤ a' ∧ a' - b' ≤ 1 / 10 ^ 15 ∧ gaussI a' b' = gaussI a b := by
  induction n with
  | zero =>
    intro a b hb hab h
    refine ⟨a, b, ?_, le_rfl, hab, by simpa using h, rfl⟩
    have : ¬ |a - b| > 1 / 10 ^ 15 := by
      rw [abs_of_nonneg (by linarith)]
      simpa using h
    simp only [whileFuel, agmStep, if_neg this]
  | succ n ih =>
    intro a b hb hab h
    rw [whileFuel]
    by_cases hd : |a - b| > 1 / 10 ^ 15
    · simp only [agmStep, if_pos hd]
      have ha : 0 < a := hb.trans_le hab
      have h1 : b ≤ Real.sqrt (a * b) := by
        apply Real.le_sqrt_of_sq_le
        nlinarith
      have h2 : Real.sqrt (a * b) ≤ (a + b) / 2 := by
        rw [Real.sqrt_le_left (by positivity)]
        nlinarith [sq_nonneg (a - b)]
      have h3 : (a + b) / 2 - Real.sqrt (a * b) ≤ 2 ^ n / 10 ^ 15 := by
        rw [pow_succ] at h
        have : (2 ^ n * 2 / 10 ^ 15 : ℝ) = 2 * (2 ^ n / 10 ^ 15) := by ring
        linarith
      obtain ⟨a', b', e, l1, l2, l3, l4⟩ := ih _ _ (hb.trans_le h1) h2 h3
      exact ⟨a', b', e, h1.trans l1, l2, l3, l4.trans (gaussI_step a b ha hb)⟩
    · refine ⟨a, b, by simp only [agmStep, if_neg hd], le_rfl, hab, ?_, rfl⟩
      rw [abs_of_nonneg (by linarith)] at hd
      exact not_lt.1 hd

/-- `Comp_ellint_1`: below one in absolute value the loop ends, and the result is below the integral by at most `10⁻¹⁵/√(1-k²)` of
itself. -/
theorem compEllint1_spec (k : ℝ) (hk : |k| < 1) :
    ∃ v, compEllint1 k = .ret v ∧ v ≤ ellK k ∧ ellK k - v ≤ v * (1 / 10 ^ 15 / Real.sqrt (1 - k * k)) := by
  have h0 : 0 < 1 - k * k := by
    have := abs_lt.1 hk
    nlinarith
  have hb : 0 < Real.sqrt (1 - k * k) := Real.sqrt_pos.2 h0
  have hb1 : Real.sqrt (1 - k * k) ≤ 1 := by
    rw [Real.sqrt_le_left (by norm_num)]
    nlinarith [mul_self_nonneg k]
  obtain ⟨a, b, e, l1, l2, l3, l4⟩ := agm_run 50 1 (Real.sqrt (1 - k * k)) hb hb1 (by
    have : (1 : ℝ) ≤ 2 ^ 50 / 10 ^ 15 := by norm_num
    linarith)
  have hbpos : 0 < b := hb.trans_le l1
  have hapos : 0 < a := hbpos.trans_le l2
  obtain ⟨g1, g2⟩ := gaussI_bounds a b hbpos l2
  rw [l4, ← ellK_eq k hk.le] at g1 g2
  refine ⟨Real.pi / (2 * a), ?_, g1, ?_⟩
  · rw [compEllint1, sqrtU, if_neg (not_lt.2 h0.le), Outcome.bind_ret, whileLoop_eq e, Outcome.bind_ret, quot_ret _ _ (by positivity)]
  · have e1 : Real.pi / (2 * b) - Real.pi / (2 * a) = Real.pi / (2 * a) * ((a - b) / b) := by
      field_simp
    refine (sub_le_sub_right g2 _).trans (e1.trans_le (mul_le_mul_of_nonneg_left ?_ (by positivity)))
    exact div_le_div₀ (by positivity) l3 hb l1

/-- Above one the square root of a negative number is taken. -/
theorem compEllint_outside (k : ℝ) (hk : 1 < |k|) : compEllint1 k = .ub ∧ compEllint2 k = .ub := by
  have h : 1 - k * k < 0 := by
    rcases lt_abs.1 hk with h | h <;> nlinarith
  rw [compEllint1, compEllint2, sqrtU, if_pos h, Outcome.bind_ub, Outcome.bind_ub]
  exact ⟨rfl, rfl⟩

/-- At one, where the integral is infinite, a finite number is returned. -/
theorem compEllint1_one : ∃ v, compEllint1 1 = .ret v := by
  have run : ∀ n : ℕ, ∀ a : ℝ, 0 < a → a ≤ 2 ^ n / 10 ^ 15 → ∃ a', 0 < a' ∧ whileFuel agmStep (n + 1) (a, 0) = some (a', 0) := by
    intro n
    induction n with
    | zero =>
      intro a ha h
      refine ⟨a, ha, ?_⟩
      have : ¬ |a - 0| > 1 / 10 ^ 15 := by
        rw [sub_zero, abs_of_pos ha]
        simpa using h
      simp only [whileFuel, agmStep, if_neg this]
    | succ n ih =>
      intro a ha h
      rw [whileFuel]
      by_cases hd : |a - 0| > 1 / 10 ^ 15
      · simp only [agmStep, if_pos hd, mul_zero, Real.sqrt_zero, add_zero]
        refine ih (a / 2) (by positivity) ?_
        rw [pow_succ] at h
        have : (2 ^ n * 2 / 10 ^ 15 : ℝ) = 2 * (2 ^ n / 10 ^ 15) := by ring
        linarith
      · exact ⟨a, ha, by simp only [agmStep, if_neg hd]⟩
  obtain ⟨a, ha, e⟩ := run 50 1 (by norm_num) (by norm_num)
  refine ⟨Real.pi / (2 * a), ?_⟩
  rw [compEllint1, sqrtU, if_neg (by norm_num), Outcome.bind_ret, show Real.sqrt (1 - 1 * 1) = 0 by norm_num, whileLoop_eq e, Outcome.bind_ret,
    quot_ret _ _ (by positivity)]

theorem ell_run (n : ℕ) : ∀ a s p : ℝ, 0 < a → p * a = 1 → s = 3 / 2 - a → a ≤ 2 ^ n / 10 ^ 15 →
    ∃ t, whileFuel ellStep (n + 1) ⟨a, 0, a, s, p⟩ = some t ∧ 0 < t.a ∧ t.a ≤ 1 / 10 ^ 15 ∧ t.sum = 3 / 2 - t.a := by
  induction n with
  | zero =>
    intro a s p ha _ hs h
    have hd : ¬ |a| > 1 / 10 ^ 15 := by
      rw [abs_of_pos ha]
      simpa using h
    exact ⟨⟨a, 0, a, s, p⟩, by simp only [whileFuel, ellStep, if_neg hd], ha, by simpa using h, hs⟩
  | succ n ih =>
    intro a s p ha hp hs h
    rw [whileFuel]
    by_cases hd : |a| > 1 / 10 ^ 15
    · simp only [ellStep, if_pos hd, mul_zero, Real.sqrt_zero, add_zero, sub_zero]
      refine ih (a / 2) _ (p * 2) (by positivity) (by linarith) ?_ ?_
      · rw [hs]
        linear_combination a / 2 * hp
      · rw [pow_succ] at h
        have : (2 ^ n * 2 / 10 ^ 15 : ℝ) = 2 * (2 ^ n / 10 ^ 15) := by ring
        linarith
    · refine ⟨⟨a, 0, a, s, p⟩, by simp only [ellStep, if_neg hd], ha, ?_, hs⟩
      beta_reduce
      rw [abs_of_pos ha] at hd
      exact not_lt.1 hd

/-- `Comp_ellint_2` is wrong: the power of two is doubled before it is used.  At one it returns a negative number; the integral is one. -/
theorem compEllint2_wrong : (∃ v, compEllint2 1 = .ret v ∧ v < 0) ∧ ellE 1 = 1 := by
  constructor
  · obtain ⟨t, e, h1, h2, h3⟩ := ell_run 50 1 (1 * 1 / 2) 1 (by norm_num) (by norm_num) (by norm_num) (by norm_num)
    refine ⟨Real.pi / (2 * t.a) * (1 - t.sum), ?_, ?_⟩
    · rw [compEllint2, sqrtU, if_neg (by norm_num), Outcome.bind_ret, show Real.sqrt (1 - 1 * 1) = 0 by norm_num, whileLoop_eq e,
        Outcome.bind_ret, quot_ret _ _ (by positivity), Outcome.bind_ret]
    · refine mul_neg_of_pos_of_neg (by positivity) ?_
      rw [h3]
      norm_num at h2 ⊢
      linarith
  · rw [ellE]
    have : ∀ θ ∈ Set.uIcc (0 : ℝ) (Real.pi / 2), Real.sqrt (1 - 1 ^ 2 * Real.sin θ ^ 2) = Real.cos θ := by
      intro θ hθ
      rw [Set.uIcc_of_le (by positivity)] at hθ
      rw [one_pow, one_mul, ← Real.cos_sq', Real.sqrt_sq]
      exact Real.cos_nonneg_of_mem_Icc ⟨by linarith [hθ.1, Real.pi_pos], hθ.2⟩
    rw [intervalIntegral.integral_congr this, integral_cos, Real.sin_pi_div_two, Real.sin_zero, sub_zero]

/-- At zero it is right. -/
theorem compEllint2_zero : compEllint2 0 = .ret (ellE 0) := by
  have e : whileFuel ellStep 1 ⟨1, Real.sqrt (1 - 0 * 0), 0, 0 * 0 / 2, 1⟩ = some ⟨1, Real.sqrt (1 - 0 * 0), 0, 0 * 0 / 2, 1⟩ := by
    have hd : ¬ |(0 : ℝ)| > 1 / 10 ^ 15 := by norm_num
    simp only [whileFuel, ellStep, if_neg hd]
  rw [compEllint2, sqrtU, if_neg (by norm_num), Outcome.bind_ret, whileLoop_eq e, Outcome.bind_ret, quot_ret _ _ (by norm_num), Outcome.bind_ret,
    ellE]
  congr 1
  simp

/-! ## Cases -/

example : ∃ v, compEllint1 (3 / 5) = .ret v ∧ v ≤ ellK (3 / 5) ∧ ellK (3 / 5) - v ≤ v * (1 / 10 ^ 15 / Real.sqrt (1 - 3 / 5 * (3 / 5))) :=
  compEllint1_spec (3 / 5) (by rw [abs_of_pos] <;> norm_num)
example : compEllint1 2 = .ub := (compEllint_outside 2 (by norm_num)).1

end Verif.Ortho
