import Verif.Roots.ClosedModel
import Mathlib.Tactic.LinearCombination
import Mathlib.Tactic.FieldSimp

/-!
# The closed-form solvers find all roots (C95)

Finding all roots of a polynomial, each as often as its multiplicity, means that the polynomial is the leading coefficient times the
product of the factors `x - root`.
-/

set_option autoImplicit false

namespace Verif.Roots

open Verif

/-! ## The functions of the standard library -/

theorem csqrt_mul (z : ℂ) : csqrt z * csqrt z = z := by
  have h := Complex.cpow_nat_inv_pow z (n := 2) two_ne_zero
  rw [pow_two] at h
  rw [csqrt]
  convert h using 2 <;> norm_num

theorem cbrt_pow (x : ℝ) : cbrt x ^ 3 = x := by
  have key : ∀ y : ℝ, 0 ≤ y → (y ^ (1 / 3 : ℝ)) ^ 3 = y := fun y hy => by
    have := Real.rpow_inv_natCast_pow hy (n := 3) three_ne_zero
    convert this using 3; norm_num
  unfold cbrt
  split_ifs with h
  · rw [neg_pow, key _ (by linarith)]; ring
  · exact key _ (by linarith)

theorem cube_inj {a b : ℝ} (h : a ^ 3 = b ^ 3) : a = b := (Odd.strictMono_pow (by decide : Odd 3)).injective h

/-! ## Quadratic equations -/

theorem eps_pos : 0 < epsilon := by unfold epsilon; positivity

theorem ne_of_eps {a : ℝ} (h : epsilon ≤ |a|) : a ≠ 0 := by
  rintro rfl; rw [abs_zero] at h; exact absurd eps_pos (not_lt.2 h)

theorem sum_ne (a b c : ℝ) (ha : a ≠ 0) (hD : 0 ≤ b * b - 4 * a * c) (h : ¬ (b = 0 ∧ c = 0)) :
    b + copySign (Real.sqrt (b * b - 4 * a * c)) b ≠ 0 := by
  have hs := Real.mul_self_sqrt hD
  have h0 := Real.sqrt_nonneg (b * b - 4 * a * c)
  unfold copySign
  intro hq
  split_ifs at hq with hb
  · linarith
  · have hb0 : b = 0 := by linarith
    subst hb0
    rw [zero_add] at hq
    rw [hq] at hs
    have : a * c = 0 := by linarith
    rcases mul_eq_zero.1 this with h' | h'
    · exact ha h'
    · exact h ⟨rfl, h'⟩

theorem copysign_mul (s b : ℝ) : copySign s b * copySign s b = s * s := by
  unfold copySign; split_ifs <;> ring

theorem csqrt_im {D : ℝ} (hD : D < 0) : (csqrt (D : ℂ)).im ≠ 0 := by
  have e := congrArg Complex.re (csqrt_mul (D : ℂ))
  intro h
  rw [Complex.mul_re, h, Complex.ofReal_re] at e
  nlinarith [mul_self_nonneg (csqrt (D : ℂ)).re]

theorem im_ne {a b : ℝ} {s : ℂ} (ha : a ≠ 0) (hs : s.im ≠ 0) : ((-(b : ℂ) + s) / (2 * a)).im ≠ 0 := by
  have : (2 * (a : ℂ)) = ((2 * a : ℝ) : ℂ) := by push_cast; rfl
  rw [this, Complex.div_ofReal_im, Complex.add_im, Complex.neg_im, Complex.ofReal_im, neg_zero, zero_add]
  exact div_ne_zero hs (mul_ne_zero two_ne_zero ha)

/-- **C95.** Unless `b = c = 0`, the two numbers `SolveQuadratic` computes for `a x² + b x + c` with `|a| ≥ Eps` are all roots, and the
number returned is the number of real ones. -/
theorem quadratic_partial {a b c : ℝ} (ha : epsilon ≤ |a|) (h : ¬ (b = 0 ∧ c = 0)) :
    ∃ r, solveQuadratic a b c = .ret r ∧ (∀ x : ℂ, a * x ^ 2 + b * x + c = a * (x - r.x1) * (x - r.x2)) ∧
      (r.count = 2 ∧ r.x1.im = 0 ∧ r.x2.im = 0 ∨ r.count = 0 ∧ r.x1.im ≠ 0 ∧ r.x2.im ≠ 0) := by
  have ha0 := ne_of_eps ha
  have haC : (a : ℂ) ≠ 0 := Complex.ofReal_ne_zero.2 ha0
  unfold solveQuadratic
  rw [if_neg (not_lt.2 ha)]
  by_cases hD : b * b - 4 * a * c ≥ 0
  · rw [if_pos hD]
    have hq := sum_ne a b c ha0 hD h
    have hq' : -0.5 * (b + copySign (Real.sqrt (b * b - 4 * a * c)) b) ≠ 0 := mul_ne_zero (by norm_num) hq
    unfold quadraticReal
    rw [Interp.fdiv, if_neg hq', Outcome.bind_ret]
    refine ⟨_, rfl, fun x => ?_, .inl ⟨rfl, Complex.ofReal_im _, Complex.ofReal_im _⟩⟩
    have e1 := copysign_mul (Real.sqrt (b * b - 4 * a * c)) b
    rw [Real.mul_self_sqrt hD] at e1
    generalize copySign (Real.sqrt (b * b - 4 * a * c)) b = s at *
    have e2 : (s : ℂ) * s = b * b - 4 * a * c := by exact_mod_cast e1
    have hq2 : (b : ℂ) + s ≠ 0 := by exact_mod_cast hq
    push_cast
    field_simp
    norm_num
    linear_combination (-x / 4) * e2
  · rw [if_neg hD]
    refine ⟨_, rfl, fun x => ?_, .inr ⟨rfl, ?_, ?_⟩⟩
    · have e := csqrt_mul ((b * b - 4 * a * c : ℝ) : ℂ)
      generalize csqrt ((b * b - 4 * a * c : ℝ) : ℂ) = s at *
      push_cast at e
      field_simp
      linear_combination e
    · exact im_ne (s := csqrt ((b * b - 4 * a * c : ℝ) : ℂ)) ha0 (csqrt_im (not_le.1 hD))
    · have := im_ne (b := b) (s := -csqrt ((b * b - 4 * a * c : ℝ) : ℂ)) ha0
        (by rw [Complex.neg_im]; exact neg_ne_zero.2 (csqrt_im (not_le.1 hD)))
      rwa [← sub_eq_add_neg] at this

/-- The coefficients meet the hypotheses: `x² - 3x + 2` and `x² + 1`. -/
example : epsilon ≤ |(1 : ℝ)| ∧ ¬ ((-3 : ℝ) = 0 ∧ (2 : ℝ) = 0) := by
  unfold epsilon; norm_num

/-- The double root zero: `a x² = 0` divides zero by zero. -/
theorem quadratic_double_zero {a : ℝ} (ha : epsilon ≤ |a|) : solveQuadratic a 0 0 = .ub := by
  unfold solveQuadratic
  rw [if_neg (not_lt.2 ha), if_pos (by simp)]
  unfold quadraticReal copySign Interp.fdiv
  simp

/-- A linear equation. -/
theorem quadratic_linear {b c : ℝ} (hb : epsilon ≤ |b|) :
    ∃ r, solveQuadratic 0 b c = .ret r ∧ r.count = 1 ∧ (b : ℂ) * r.x1 + c = 0 := by
  unfold solveQuadratic
  rw [if_pos (by rw [abs_zero]; exact eps_pos), if_neg (not_lt.2 hb)]
  refine ⟨_, rfl, rfl, ?_⟩
  have : (b : ℂ) ≠ 0 := Complex.ofReal_ne_zero.2 (ne_of_eps hb)
  push_cast
  field_simp
  ring

/-- Small coefficients are taken for zero: no root is reported for an equation with the two roots 1 and -1. -/
theorem quadratic_small : ∃ a : ℝ, 0 < a ∧ solveQuadratic a 0 (-a) = .ret ⟨0, 0, 0⟩ ∧
    (∀ x : ℂ, a * x ^ 2 + 0 * x + -a = a * (x - 1) * (x - -1)) := by
  refine ⟨1 / 2 ^ 53, by positivity, ?_, fun x => by ring⟩
  unfold solveQuadratic epsilon
  rw [if_pos (by rw [abs_of_pos (by positivity)]; norm_num), if_pos (by norm_num)]

/-- **C95.** With complex coefficients, `‖a‖ ≥ Eps`, the two numbers are all roots. -/
theorem quadratic_complex {a b c : ℂ} (ha : epsilon ≤ ‖a‖) (x : ℂ) :
    a * x ^ 2 + b * x + c = a * (x - (solveQuadraticC a b c).1) * (x - (solveQuadraticC a b c).2) := by
  have ha0 : a ≠ 0 := by
    rintro rfl; rw [norm_zero] at ha; exact absurd eps_pos (not_lt.2 ha)
  unfold solveQuadraticC
  rw [if_neg (not_lt.2 ha)]
  have e := csqrt_mul (b * b - 4 * a * c)
  generalize csqrt (b * b - 4 * a * c) = s at *
  dsimp only
  field_simp
  linear_combination e

example : epsilon ≤ ‖(Complex.I : ℂ)‖ := by rw [Complex.norm_I]; unfold epsilon; norm_num

/-! ## Cubic equations -/

theorem cardano_factors {A B C S T : ℝ} (h3 : S ^ 3 + T ^ 3 = 2 * cubicR A B C) (hST : S * T = -cubicQ A B) (x : ℂ) :
    x ^ 3 + A * x ^ 2 + B * x + C =
      (x - (cardano A S T).x1) * (x - (cardano A S T).x2) * (x - (cardano A S T).x3) := by
  have hI : (⟨0, Real.sqrt 3 * (S - T) / 2⟩ : ℂ) = (Real.sqrt 3 : ℂ) * (S - T) / 2 * Complex.I := by
    apply Complex.ext <;> simp
  have hs : (Real.sqrt 3 : ℂ) * (Real.sqrt 3 : ℂ) = 3 := by
    rw [← Complex.ofReal_mul, Real.mul_self_sqrt (by norm_num)]; norm_num
  have h3' : (S : ℂ) ^ 3 + T ^ 3 = 2 * ((9 * A * B - 27 * C - 2 * A ^ 3) / 54) := by
    unfold cubicR at h3; exact_mod_cast h3
  have hST' : (S : ℂ) * T = -((3 * B - A ^ 2) / 9) := by unfold cubicQ at hST; exact_mod_cast hST
  unfold cardano
  rw [hI]
  push_cast
  have hII := Complex.I_mul_I
  generalize (Real.sqrt 3 : ℂ) = w at *
  generalize Complex.I = i at *
  linear_combination (x + A / 3 - (S + T)) * (S - T) ^ 2 / 4 * (i * i * hs + 3 * hII) + 3 * (x + A / 3) * hST' + h3'

theorem trig_factors {A B C θ : ℝ} (hQ : cubicQ A B < 0)
    (hθ : Real.sqrt (-cubicQ A B) ^ 3 * Real.cos θ = cubicR A B C) (x : ℂ) :
    x ^ 3 + A * x ^ 2 + B * x + C = (x - (trigonometric A (cubicQ A B) θ).x1) * (x - (trigonometric A (cubicQ A B) θ).x2) *
      (x - (trigonometric A (cubicQ A B) θ).x3) := by
  have hq : Real.sqrt (-cubicQ A B) * Real.sqrt (-cubicQ A B) = -cubicQ A B := Real.mul_self_sqrt (by linarith)
  unfold trigonometric
  generalize Real.sqrt (-cubicQ A B) = q at *
  obtain ⟨φ, rfl⟩ : ∃ φ, θ = 3 * φ := ⟨θ / 3, by ring⟩
  have e1 : Real.cos ((3 * φ + 2 * Real.pi) / 3) = -1 / 2 * Real.cos φ - Real.sqrt 3 / 2 * Real.sin φ := by
    rw [show (3 * φ + 2 * Real.pi) / 3 = φ + (Real.pi - Real.pi / 3) by ring, Real.cos_add, Real.cos_pi_sub, Real.sin_pi_sub,
      Real.cos_pi_div_three, Real.sin_pi_div_three]
    ring
  have e2 : Real.cos ((3 * φ + 4 * Real.pi) / 3) = -1 / 2 * Real.cos φ + Real.sqrt 3 / 2 * Real.sin φ := by
    rw [show (3 * φ + 4 * Real.pi) / 3 = φ + Real.pi / 3 + Real.pi by ring, Real.cos_add_pi, Real.cos_add,
      Real.cos_pi_div_three, Real.sin_pi_div_three]
    ring
  rw [Real.cos_three_mul] at hθ
  rw [e1, e2, show 3 * φ / 3 = φ by ring]
  have h1 : (q : ℂ) ^ 3 * (4 * (Real.cos φ : ℂ) ^ 3 - 3 * Real.cos φ) = (9 * A * B - 27 * C - 2 * A ^ 3) / 54 := by
    unfold cubicR at hθ; exact_mod_cast hθ
  have h2 : (q : ℂ) * q = -((3 * B - A ^ 2) / 9) := by unfold cubicQ at hq; exact_mod_cast hq
  have h3 : (Real.sqrt 3 : ℂ) * (Real.sqrt 3 : ℂ) = 3 := by
    rw [← Complex.ofReal_mul, Real.mul_self_sqrt (by norm_num)]; norm_num
  have h4 : (Real.sin φ : ℂ) * Real.sin φ = 1 - Real.cos φ * Real.cos φ := by
    have := Real.sin_sq_add_cos_sq φ
    have : Real.sin φ * Real.sin φ = 1 - Real.cos φ * Real.cos φ := by nlinarith
    exact_mod_cast this
  push_cast
  rw [← Complex.ofReal_cos, ← Complex.ofReal_sin]
  generalize (Real.sqrt 3 : ℂ) = w at *
  generalize (Real.cos φ : ℂ) = k at *
  generalize (Real.sin φ : ℂ) = n at *
  linear_combination (x + A / 3 - 2 * q * k) * q ^ 2 * (n * n * h3 + 3 * h4) + 3 * (x + A / 3) * h2 + 2 * h1

theorem cardano_st {A B C : ℝ} (hD : 0 ≤ cubicQ A B ^ 3 + cubicR A B C ^ 2) :
    cbrt (cubicR A B C + Real.sqrt (cubicQ A B ^ 3 + cubicR A B C ^ 2)) *
      cbrt (cubicR A B C - Real.sqrt (cubicQ A B ^ 3 + cubicR A B C ^ 2)) = -cubicQ A B := by
  apply cube_inj
  rw [mul_pow, cbrt_pow, cbrt_pow]
  have := Real.mul_self_sqrt hD
  nlinarith

theorem trig_angle {A B C : ℝ} (hD : cubicQ A B ^ 3 + cubicR A B C ^ 2 < 0) : cubicQ A B < 0 ∧
    Real.sqrt (-cubicQ A B) ^ 3 * Real.cos (Real.arccos (cubicR A B C / Real.sqrt (-cubicQ A B ^ 3))) = cubicR A B C := by
  have hQ : cubicQ A B < 0 := by
    by_contra h
    have := pow_nonneg (not_lt.1 h) 3
    nlinarith [sq_nonneg (cubicR A B C)]
  refine ⟨hQ, ?_⟩
  have hp : 0 < -cubicQ A B ^ 3 := by nlinarith [sq_nonneg (cubicR A B C)]
  have hs : Real.sqrt (-cubicQ A B ^ 3) = Real.sqrt (-cubicQ A B) ^ 3 := by
    rw [Real.sqrt_eq_iff_mul_self_eq hp.le (by positivity)]
    have := Real.mul_self_sqrt (show 0 ≤ -cubicQ A B by linarith)
    calc -cubicQ A B ^ 3 = (-cubicQ A B) ^ 3 := by ring
      _ = (Real.sqrt (-cubicQ A B) * Real.sqrt (-cubicQ A B)) ^ 3 := by rw [this]
      _ = _ := by ring
  have hs0 : 0 < Real.sqrt (-cubicQ A B ^ 3) := Real.sqrt_pos.2 hp
  have hR : |cubicR A B C| ≤ Real.sqrt (-cubicQ A B ^ 3) := by
    apply Real.abs_le_sqrt; linarith
  rw [Real.cos_arccos, ← hs]
  · field_simp
  · rw [le_div_iff₀ hs0]; linarith [(abs_le.1 hR).1]
  · rw [div_le_one hs0]; exact (abs_le.1 hR).2

/-- The roots of the normalised cubic. -/
theorem monicCubic_factors (A B C : ℝ) (x : ℂ) : x ^ 3 + A * x ^ 2 + B * x + C =
    (x - (monicCubic A B C).x1) * (x - (monicCubic A B C).x2) * (x - (monicCubic A B C).x3) := by
  unfold monicCubic
  split_ifs with hD
  · refine cardano_factors ?_ (cardano_st hD) x
    rw [cbrt_pow, cbrt_pow]; ring
  · obtain ⟨hQ, hθ⟩ := trig_angle (not_le.1 hD)
    exact trig_factors hQ hθ x

/-- The number returned for the normalised cubic. -/
theorem monicCubic_count (A B C : ℝ) :
    (monicCubic A B C).count = 3 ∧ (monicCubic A B C).x1.im = 0 ∧ (monicCubic A B C).x2.im = 0 ∧ (monicCubic A B C).x3.im = 0 ∨
    (monicCubic A B C).count = 1 ∧ (monicCubic A B C).x1.im = 0 ∧
      ((monicCubic A B C).x2 ≠ (monicCubic A B C).x3 → (monicCubic A B C).x2.im ≠ 0 ∧ (monicCubic A B C).x3.im ≠ 0) := by
  unfold monicCubic
  split_ifs with hD
  · refine .inr ⟨rfl, Complex.ofReal_im _, fun hne => ?_⟩
    generalize cbrt (cubicR A B C + _) = S at *
    generalize cbrt (cubicR A B C - _) = T at *
    have hw : Real.sqrt 3 * (S - T) / 2 ≠ 0 := by
      intro h
      apply hne
      unfold cardano
      dsimp only
      rw [h, show (⟨0, 0⟩ : ℂ) = 0 from rfl, add_zero, sub_zero]
    unfold cardano
    simp only [Complex.add_im, Complex.sub_im, Complex.ofReal_im, zero_add, zero_sub]
    exact ⟨hw, neg_ne_zero.2 hw⟩
  · exact .inl ⟨rfl, Complex.ofReal_im _, Complex.ofReal_im _, Complex.ofReal_im _⟩

/-- **C95.** For `a x³ + b x² + c x + d` with `|a| ≥ Eps`, the three numbers `SolveCubic` computes are all roots.  The number returned
is the number of real ones, unless two of them coincide. -/
theorem cubic_partial {a b c d : ℝ} (ha : epsilon ≤ |a|) :
    ∃ r, solveCubic a b c d = .ret r ∧
      (∀ x : ℂ, a * x ^ 3 + b * x ^ 2 + c * x + d = a * (x - r.x1) * (x - r.x2) * (x - r.x3)) ∧
      (r.count = 3 ∧ r.x1.im = 0 ∧ r.x2.im = 0 ∧ r.x3.im = 0 ∨
        r.count = 1 ∧ r.x1.im = 0 ∧ (r.x2 ≠ r.x3 → r.x2.im ≠ 0 ∧ r.x3.im ≠ 0)) := by
  have haC : (a : ℂ) ≠ 0 := Complex.ofReal_ne_zero.2 (ne_of_eps ha)
  unfold solveCubic
  rw [if_neg (not_lt.2 ha)]
  refine ⟨_, rfl, fun x => ?_, monicCubic_count _ _ _⟩
  have := monicCubic_factors (b / a) (c / a) (d / a) x
  rw [mul_assoc, mul_assoc, ← mul_assoc (x - _), ← this]
  push_cast
  field_simp

/-- A double root: `x³ - 3 x + 2 = (x - 1)² (x + 2)` has real roots only, but the number returned is 1. -/
theorem cubic_double_root : ∃ r, solveCubic 1 0 (-3) 2 = .ret r ∧ r.count = 1 ∧ r.x1.im = 0 ∧ r.x2.im = 0 ∧ r.x3.im = 0 := by
  have e : epsilon ≤ |(1 : ℝ)| := by unfold epsilon; norm_num
  unfold solveCubic
  rw [if_neg (not_lt.2 e)]
  have hD : cubicQ (0 / 1) (-3 / 1) ^ 3 + cubicR (0 / 1) (-3 / 1) (2 / 1) ^ 2 = 0 := by unfold cubicQ cubicR; norm_num
  refine ⟨_, rfl, ?_⟩
  unfold monicCubic
  rw [if_pos (by rw [hD]), hD, Real.sqrt_zero, add_zero, sub_zero]
  simp [cardano]

/-- With `a = 0` the cubic is the quadratic `b x² + c x + d`, and the third number is zero. -/
theorem cubic_degenerate {b c d : ℝ} {r : Roots2} (h : solveQuadratic b c d = .ret r) :
    solveCubic 0 b c d = .ret ⟨r.count, r.x1, r.x2, 0⟩ := by
  unfold solveCubic
  rw [if_pos (by rw [abs_zero]; exact eps_pos), h, Outcome.bind_ret]

/-! ## Quartic equations -/

theorem one_norm : epsilon ≤ ‖(1 : ℂ)‖ := by rw [norm_one]; unfold epsilon; norm_num

theorem biquadratic_factors (A P R : ℝ) (x : ℂ) : (x + A / 4) ^ 4 + P * (x + A / 4) ^ 2 + R =
    (x - (biquadratic A P R).x1) * (x - (biquadratic A P R).x2) * (x - (biquadratic A P R).x3) * (x - (biquadratic A P R).x4) := by
  have h := quadratic_complex one_norm (b := P) (c := R) ((x + A / 4) ^ 2)
  unfold biquadratic
  generalize solveQuadraticC 1 P R = t at *
  have h1 := csqrt_mul t.1
  have h2 := csqrt_mul t.2
  generalize csqrt t.1 = s1 at *
  generalize csqrt t.2 = s2 at *
  dsimp only
  linear_combination h + ((x + A / 4) ^ 2 - t.2) * h1 + ((x + A / 4) ^ 2 - s1 * s1) * h2

theorem better_norm (P : ℝ) (z z' : ℂ) (h : csqrt (2 * better P z z' - P) = 0) :
    csqrt (2 * z - P) = 0 ∧ csqrt (2 * z' - P) = 0 := by
  unfold better at h
  split_ifs at h with hn
  · rw [h, norm_zero] at hn; exact absurd hn (not_lt.2 (norm_nonneg _))
  · refine ⟨h, ?_⟩
    rw [h, norm_zero] at hn
    exact norm_eq_zero.1 (le_antisymm (not_lt.1 hn) (norm_nonneg _))

theorem better_mem (P : ℝ) (z z' : ℂ) : better P z z' = z ∨ better P z z' = z' := by
  unfold better; split_ifs <;> simp

theorem ferrari_factors {A P Q R : ℝ} {z U : ℂ} (hU : U * U = 2 * z - P) (hU0 : U ≠ 0)
    (hz : z ^ 3 + -P / 2 * z ^ 2 + -R * z + (R * P / 2 - Q * Q / 8) = 0) :
    ∃ r, ferrari A Q z U = .ret r ∧ ∀ x : ℂ, (x + A / 4) ^ 4 + P * (x + A / 4) ^ 2 + Q * (x + A / 4) + R =
      (x - r.x1) * (x - r.x2) * (x - r.x3) * (x - r.x4) := by
  unfold ferrari
  rw [if_neg hU0]
  refine ⟨_, rfl, fun x => ?_⟩
  have h1 := quadratic_complex one_norm (b := U) (c := z - Q / (2 * U)) (x + A / 4)
  have h2 := quadratic_complex one_norm (b := -U) (c := z + Q / (2 * U)) (x + A / 4)
  generalize solveQuadraticC 1 U (z - Q / (2 * U)) = s at *
  generalize solveQuadraticC 1 (-U) (z + Q / (2 * U)) = t at *
  have e : (x - (s.1 - A / 4)) * (x - (s.2 - A / 4)) * (x - (t.1 - A / 4)) * (x - (t.2 - A / 4)) =
      (1 * (x + A / 4 - s.1) * (x + A / 4 - s.2)) * (1 * (x + A / 4 - t.1) * (x + A / 4 - t.2)) := by ring
  rw [e, ← h1, ← h2]
  have hP : (P : ℂ) = 2 * z - U * U := by linear_combination hU
  have hR : (Q : ℂ) ^ 2 / (4 * U ^ 2) = z ^ 2 - R := by
    rw [div_eq_iff (by simp [hU0])]
    rw [hP] at hz
    linear_combination (-8) * hz
  have hW : (Q : ℂ) / (2 * U) * (Q / (2 * U)) = z ^ 2 - R := by rw [← hR]; field_simp; ring
  have hQ : (Q : ℂ) = 2 * U * (Q / (2 * U)) := by field_simp
  generalize (Q : ℂ) / (2 * U) = W at *
  rw [hQ, hP]
  linear_combination hW

theorem depressed (A B C D : ℝ) (x : ℂ) : x ^ 4 + A * x ^ 3 + B * x ^ 2 + C * x + D =
    (x + A / 4) ^ 4 + quarticP A B * (x + A / 4) ^ 2 + quarticQ A B C * (x + A / 4) + quarticR A B C D := by
  unfold quarticP quarticQ quarticR
  push_cast
  norm_num
  ring

/-- The resolvent has a root with `U ≠ 0`. -/
theorem resolvent {P Q R : ℝ} {r : Roots3} (hQ : Q ≠ 0)
    (h : ∀ x : ℂ, x ^ 3 + (-P / 2 : ℝ) * x ^ 2 + (-R : ℝ) * x + (R * P / 2 - Q * Q / 8 : ℝ) = (x - r.x1) * (x - r.x2) * (x - r.x3)) :
    csqrt (2 * better P (better P r.x1 r.x2) r.x3 - P) ≠ 0 := by
  intro h0
  obtain ⟨h1, h3⟩ := better_norm _ _ _ h0
  obtain ⟨h1, -⟩ := better_norm _ _ _ h1
  have e1 := csqrt_mul (2 * r.x1 - P)
  rw [h1, zero_mul] at e1
  have hx : r.x1 = P / 2 := by linear_combination (-1 / 2) * e1
  have := h (P / 2)
  rw [hx, sub_self, zero_mul, zero_mul] at this
  push_cast at this
  have hQ2 : (Q : ℂ) * Q = 0 := by linear_combination (-8) * this
  rcases mul_eq_zero.1 hQ2 with h | h <;> exact hQ (Complex.ofReal_eq_zero.1 h)

/-- **C95.** For `a x⁴ + b x³ + c x² + d x + e` with `|a| ≥ Eps`, the four numbers `SolveQuartic` computes are all roots of a polynomial
that differs by `δ (x + b / (4 a))` with `|δ| ≤ |a| Eps`; and all roots of the given one when the linear coefficient of the depressed
quartic is zero or above `Eps`. -/
theorem quartic_partial {a b c d e : ℝ} (ha : epsilon ≤ |a|) :
    ∃ r, solveQuartic a b c d e = .ret r ∧ ∃ δ : ℝ, |δ| ≤ |a| * epsilon ∧
      (∀ x : ℂ, a * x ^ 4 + b * x ^ 3 + c * x ^ 2 + d * x + e =
        a * (x - r.x1) * (x - r.x2) * (x - r.x3) * (x - r.x4) + δ * (x + b / (4 * a))) ∧
      (d / a - b * c / (2 * a ^ 2) + b ^ 3 / (8 * a ^ 3) = 0 ∨ epsilon < |d / a - b * c / (2 * a ^ 2) + b ^ 3 / (8 * a ^ 3)| → δ = 0) := by
  have ha0 := ne_of_eps ha
  have haC : (a : ℂ) ≠ 0 := Complex.ofReal_ne_zero.2 ha0
  unfold solveQuartic
  rw [if_neg (not_lt.2 ha)]
  have hQe : d / a - b * c / (2 * a ^ 2) + b ^ 3 / (8 * a ^ 3) = quarticQ (b / a) (c / a) (d / a) := by
    unfold quarticQ; field_simp; norm_num; ring
  rw [hQe]
  have hdep := depressed (b / a) (c / a) (d / a) (e / a)
  have hscale : ∀ x : ℂ, a * x ^ 4 + b * x ^ 3 + c * x ^ 2 + d * x + e =
      a * (x ^ 4 + (b / a : ℝ) * x ^ 3 + (c / a : ℝ) * x ^ 2 + (d / a : ℝ) * x + (e / a : ℝ)) := fun x => by
    push_cast; field_simp
  have hsh : (b : ℂ) / (4 * a) = ((b / a : ℝ) : ℂ) / 4 := by push_cast; field_simp
  generalize b / a = A at *
  generalize c / a = B at *
  generalize d / a = C at *
  generalize e / a = D at *
  unfold monicQuartic
  by_cases hq : |quarticQ A B C| ≤ epsilon
  · rw [if_pos hq]
    refine ⟨_, rfl, a * quarticQ A B C, ?_, fun x => ?_, fun h => ?_⟩
    · rw [abs_mul]; exact mul_le_mul_of_nonneg_left hq (abs_nonneg _)
    · rw [hscale, hdep, hsh]
      have := biquadratic_factors A (quarticP A B) (quarticR A B C D) x
      push_cast
      linear_combination a * this
    · rcases h with h | h
      · rw [h, mul_zero]
      · exact absurd hq (not_le.2 h)
  · rw [if_neg hq]
    have hq0 : quarticQ A B C ≠ 0 := fun h => hq (by rw [h, abs_zero]; exact eps_pos.le)
    generalize quarticP A B = P at *
    generalize quarticQ A B C = Q at *
    generalize quarticR A B C D = R at *
    obtain ⟨r, hr, hf, -⟩ := cubic_partial (a := 1) (b := -P / 2) (c := -R) (d := R * P / 2 - Q * Q / 8)
      (by unfold epsilon; norm_num)
    rw [hr, Outcome.bind_ret]
    have hf' : ∀ x : ℂ, x ^ 3 + (-P / 2 : ℝ) * x ^ 2 + (-R : ℝ) * x + (R * P / 2 - Q * Q / 8 : ℝ) =
        (x - r.x1) * (x - r.x2) * (x - r.x3) := fun x => by
      have := hf x; rw [Complex.ofReal_one, one_mul, one_mul] at this; exact this
    have hU := resolvent hq0 hf'
    have hz : ∀ z, z = better P (better P r.x1 r.x2) r.x3 →
        z ^ 3 + -P / 2 * z ^ 2 + -R * z + (R * P / 2 - Q * Q / 8) = 0 := fun z hz => by
      have h0 : (z - r.x1) * (z - r.x2) * (z - r.x3) = 0 := by
        rcases better_mem P (better P r.x1 r.x2) r.x3 with h | h
        · rcases better_mem P r.x1 r.x2 with h' | h'
          · rw [hz, h, h']; ring
          · rw [hz, h, h']; ring
        · rw [hz, h]; ring
      have := hf' z
      rw [h0] at this
      push_cast at this
      exact this
    obtain ⟨q, hq, hfac⟩ := ferrari_factors (A := A) (csqrt_mul (2 * better P (better P r.x1 r.x2) r.x3 - P)) hU (hz _ rfl)
    refine ⟨q, hq, 0, by rw [abs_zero]; exact mul_nonneg (abs_nonneg _) eps_pos.le, fun x => ?_, fun _ => rfl⟩
    rw [hscale, hdep, hfac]
    push_cast
    ring

/-- A quartic with four roots that meets the hypotheses and takes the general case: `x⁴ + x`. -/
example : epsilon ≤ |(1 : ℝ)| ∧ epsilon < |(1 : ℝ) / 1 - 0 * 0 / (2 * 1 ^ 2) + 0 ^ 3 / (8 * 1 ^ 3)| := by
  unfold epsilon; norm_num

/-- The linear coefficient of the depressed quartic is taken for zero below `Eps`: for `x⁴ + x / 2⁵⁴` all roots are reported as zero,
but `-1 / 2¹⁸` is one. -/
theorem quartic_small : solveQuartic 1 0 0 (1 / 2 ^ 54) 0 = .ret ⟨0, 0, 0, 0⟩ ∧
    (1 : ℂ) * (-1 / 2 ^ 18) ^ 4 + 0 * (-1 / 2 ^ 18) ^ 3 + 0 * (-1 / 2 ^ 18) ^ 2 + (1 / 2 ^ 54) * (-1 / 2 ^ 18) + 0 = 0 := by
  refine ⟨?_, by norm_num⟩
  have e : epsilon ≤ |(1 : ℝ)| := by unfold epsilon; norm_num
  have e' : epsilon ≤ ‖(1 : ℂ)‖ := one_norm
  have h0 : csqrt 0 = 0 := by unfold csqrt; rw [Complex.zero_cpow (by norm_num)]
  unfold solveQuartic monicQuartic
  rw [if_neg (not_lt.2 e), if_pos (by unfold quarticQ epsilon; norm_num [abs_le])]
  have hP : quarticP (0 / 1) (0 / 1) = 0 := by unfold quarticP; norm_num
  have hR : quarticR (0 / 1) (0 / 1) (1 / 2 ^ 54 / 1) (0 / 1) = 0 := by unfold quarticR; norm_num
  rw [hP, hR]
  unfold biquadratic solveQuadraticC
  rw [if_neg (not_lt.2 e')]
  simp [h0]

/-- With `a = 0` the quartic is the cubic `b x³ + c x² + d x + e`, and the fourth number is zero. -/
theorem quartic_degenerate {b c d e : ℝ} {r : Roots3} (h : solveCubic b c d e = .ret r) :
    solveQuartic 0 b c d e = .ret ⟨r.x1, r.x2, r.x3, 0⟩ := by
  unfold solveQuartic
  rw [if_pos (by rw [abs_zero]; exact eps_pos), h, Outcome.bind_ret]

end Verif.Roots
