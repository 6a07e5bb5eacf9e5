import Verif.Fun.Taylor
import Verif.Deriv.Props
import Mathlib.Analysis.SpecialFunctions.Trigonometric.Deriv
import Mathlib.Tactic

/-!
# Property C154: the Taylor polynomials

Specification: `polyVal` is the value of the polynomial with the given coefficients; the Taylor polynomial is written out
with Mathlib's derivatives.
-/

set_option autoImplicit false

namespace Verif.Deriv

/-- The value of the polynomial with these coefficients, that of degree 0 first. -/
noncomputable def polyVal (cs : List ℝ) (x : ℝ) : ℝ := (cs.zipIdx.map fun p => p.1 * x ^ p.2).sum

/-- The default step of `NDer6` at `a`. -/
noncomputable def step6 (eps a : ℝ) : ℝ := scaleStep (nDer6H eps) a

/-- The default step of `NSecDer4` and `NThirdDer2` at `a`. -/
noncomputable def step4 (eps a : ℝ) : ℝ := scaleStep (nDer4H eps) a

theorem step6_pos {eps : ℝ} (h : 0 < eps) (a : ℝ) : 0 < step6 eps a := by
  unfold step6 scaleStep nDer6H
  exact mul_pos (Real.rpow_pos_of_pos (by positivity) _) (lt_of_lt_of_le one_pos (le_max_left _ _))

theorem step4_pos {eps : ℝ} (h : 0 < eps) (a : ℝ) : 0 < step4 eps a := by
  unfold step4 scaleStep nDer4H
  exact mul_pos (Real.rpow_pos_of_pos (by positivity) _) (lt_of_lt_of_le one_pos (le_max_left _ _))

/-- **C154.** For a function that is smooth near `a`, `TaylorSeries2` returns three coefficients of a polynomial that has
the value of the function at `a`, and differs from the Taylor polynomial of degree 2 at every `x` by at most the
truncation errors of the two derivatives times the powers of the distance. -/
theorem taylorSeries2_order (eps : ℝ) (heps : 0 < eps) (f : Fn) (g : ℝ → ℝ) (a M₁ M₂ : ℝ)
    (h1 : Smooth f g a (3 * step6 eps a) 7 M₁) (h2 : Smooth f g a (2 * step4 eps a) 6 M₂) :
    ∃ cs, taylorSeries2 eps f a = .ret (some cs) ∧ cs.length = 3 ∧ polyVal cs a = g a ∧
      ∀ x, |polyVal cs x - (g a + deriv g a * (x - a) + iteratedDeriv 2 g a / 2 * (x - a) ^ 2)| ≤
        47 / 2100 * M₁ * step6 eps a ^ 6 * |x - a| + 1 / 54 * M₂ * step4 eps a ^ 4 / 2 * |x - a| ^ 2 := by
  obtain ⟨v1, e1, r1, b1⟩ := nDer6_order eps f g a _ M₁ none false rfl (step6_pos heps a) h1 (by simp)
  obtain ⟨v2, e2, r2, b2⟩ := nSecDer4_order eps f g a _ M₂ none false rfl (step4_pos heps a) h2 (by simp)
  have hv : f a = some (g a) := h1.value a (by
    rw [sub_self, abs_zero]; have := step6_pos heps a; positivity)
  have hp : ∀ x, polyVal [g a - v1 * a + v2 / 2 * (a * a), v1 - 2 * (v2 / 2) * a, v2 / 2] x =
      g a + v1 * (x - a) + v2 / 2 * (x - a) ^ 2 := fun x => by
    simp [polyVal, List.zipIdx]
    ring
  refine ⟨[g a - v1 * a + v2 / 2 * (a * a), v1 - 2 * (v2 / 2) * a, v2 / 2], ?_, rfl, ?_, fun x => ?_⟩
  · simp [taylorSeries2, r1, r2, hv]
  · rw [hp]; ring
  · rw [hp]
    have e : g a + v1 * (x - a) + v2 / 2 * (x - a) ^ 2 -
        (g a + deriv g a * (x - a) + iteratedDeriv 2 g a / 2 * (x - a) ^ 2) =
        (v1 - deriv g a) * (x - a) + (v2 - iteratedDeriv 2 g a) / 2 * (x - a) ^ 2 := by ring
    rw [e]
    refine (abs_add_le _ _).trans (add_le_add ?_ ?_)
    · rw [abs_mul]
      exact mul_le_mul_of_nonneg_right b1 (abs_nonneg _)
    · rw [abs_mul, abs_div, abs_two, abs_pow]
      exact mul_le_mul_of_nonneg_right (div_le_div_of_nonneg_right b2 (by norm_num)) (by positivity)

/-- **C154.** The same for `TaylorSeries3` and the Taylor polynomial of degree 3. -/
theorem taylorSeries3_order (eps : ℝ) (heps : 0 < eps) (f : Fn) (g : ℝ → ℝ) (a M₁ M₂ M₃ : ℝ)
    (h1 : Smooth f g a (3 * step6 eps a) 7 M₁) (h2 : Smooth f g a (2 * step4 eps a) 6 M₂)
    (h3 : Smooth f g a (2 * step4 eps a) 5 M₃) :
    ∃ cs, taylorSeries3 eps f a = .ret (some cs) ∧ cs.length = 4 ∧ polyVal cs a = g a ∧
      ∀ x, |polyVal cs x - (g a + deriv g a * (x - a) + iteratedDeriv 2 g a / 2 * (x - a) ^ 2 +
          iteratedDeriv 3 g a / 6 * (x - a) ^ 3)| ≤
        47 / 2100 * M₁ * step6 eps a ^ 6 * |x - a| + 1 / 54 * M₂ * step4 eps a ^ 4 / 2 * |x - a| ^ 2 +
          17 / 60 * M₃ * step4 eps a ^ 2 / 6 * |x - a| ^ 3 := by
  obtain ⟨v1, e1, r1, b1⟩ := nDer6_order eps f g a _ M₁ none false rfl (step6_pos heps a) h1 (by simp)
  obtain ⟨v2, e2, r2, b2⟩ := nSecDer4_order eps f g a _ M₂ none false rfl (step4_pos heps a) h2 (by simp)
  obtain ⟨v3, e3, r3, b3⟩ := nThirdDer2_order eps f g a _ M₃ none false rfl (step4_pos heps a) h3 (by simp)
  have hv : f a = some (g a) := h1.value a (by
    rw [sub_self, abs_zero]; have := step6_pos heps a; positivity)
  have hp : ∀ x, polyVal [g a - v1 * a + v2 / 2 * (a * a) - v3 / 6 * a ^ 3,
      v1 - 2 * (v2 / 2) * a + 3 * (v3 / 6) * (a * a), v2 / 2 - 3 * (v3 / 6) * a, v3 / 6] x =
      g a + v1 * (x - a) + v2 / 2 * (x - a) ^ 2 + v3 / 6 * (x - a) ^ 3 := fun x => by
    simp [polyVal, List.zipIdx]
    ring
  refine ⟨[g a - v1 * a + v2 / 2 * (a * a) - v3 / 6 * a ^ 3,
      v1 - 2 * (v2 / 2) * a + 3 * (v3 / 6) * (a * a), v2 / 2 - 3 * (v3 / 6) * a, v3 / 6], ?_, rfl, ?_, fun x => ?_⟩
  · simp [taylorSeries3, r1, r2, r3, hv]
  · rw [hp]; ring
  · rw [hp]
    have e : g a + v1 * (x - a) + v2 / 2 * (x - a) ^ 2 + v3 / 6 * (x - a) ^ 3 -
        (g a + deriv g a * (x - a) + iteratedDeriv 2 g a / 2 * (x - a) ^ 2 + iteratedDeriv 3 g a / 6 * (x - a) ^ 3) =
        (v1 - deriv g a) * (x - a) + (v2 - iteratedDeriv 2 g a) / 2 * (x - a) ^ 2 +
          (v3 - iteratedDeriv 3 g a) / 6 * (x - a) ^ 3 := by ring
    rw [e]
    refine (abs_add_le _ _).trans (add_le_add ((abs_add_le _ _).trans (add_le_add ?_ ?_)) ?_)
    · rw [abs_mul]
      exact mul_le_mul_of_nonneg_right b1 (abs_nonneg _)
    · rw [abs_mul, abs_div, abs_two, abs_pow]
      exact mul_le_mul_of_nonneg_right (div_le_div_of_nonneg_right b2 (by norm_num)) (by positivity)
    · rw [abs_mul, abs_div, abs_pow, abs_of_pos (by norm_num : (0 : ℝ) < 6)]
      exact mul_le_mul_of_nonneg_right (div_le_div_of_nonneg_right b3 (by norm_num)) (by positivity)

theorem poly_taylor3 (p : Polynomial ℝ) (hp : p.natDegree ≤ 3) (a x : ℝ) :
    p.eval x = p.eval a + p.derivative.eval a * (x - a) + (Polynomial.derivative^[2] p).eval a / 2 * (x - a) ^ 2 +
      (Polynomial.derivative^[3] p).eval a / 6 * (x - a) ^ 3 := by
  have h : p = Polynomial.C (p.coeff 0) + Polynomial.C (p.coeff 1) * Polynomial.X +
      Polynomial.C (p.coeff 2) * Polynomial.X ^ 2 + Polynomial.C (p.coeff 3) * Polynomial.X ^ 3 := by
    conv_lhs => rw [p.as_sum_range_C_mul_X_pow' (n := 4) (by omega)]
    simp [Finset.sum_range_succ]
  rw [h]
  simp only [Function.iterate_succ, Function.iterate_zero, Function.comp, id, Polynomial.derivative_add,
    Polynomial.derivative_mul, Polynomial.derivative_C, Polynomial.derivative_X, Polynomial.derivative_X_pow,
    Polynomial.eval_add, Polynomial.eval_mul, Polynomial.eval_C, Polynomial.eval_X, Polynomial.eval_pow,
    Polynomial.eval_zero, Polynomial.eval_one, Polynomial.eval_natCast, Polynomial.derivative_zero,
    Polynomial.derivative_one, Polynomial.derivative_natCast]
  norm_num
  ring

/-- **C154.** `TaylorSeries2` and `TaylorSeries3` give a polynomial of degree at most 2 (at most 3) back: the result has
its value at every `x`, for every expansion point. -/
theorem taylorSeries_exact (eps : ℝ) (heps : 0 < eps) (p : Polynomial ℝ) (a : ℝ) :
    (p.natDegree ≤ 2 → ∃ cs, taylorSeries2 eps (fun y => some (p.eval y)) a = .ret (some cs) ∧
      ∀ x, polyVal cs x = p.eval x) ∧
    (p.natDegree ≤ 3 → ∃ cs, taylorSeries3 eps (fun y => some (p.eval y)) a = .ret (some cs) ∧
      ∀ x, polyVal cs x = p.eval x) := by
  constructor
  · intro hp
    obtain ⟨cs, r, -, -, b⟩ := taylorSeries2_order eps heps (fun y => some (p.eval y)) _ a 0 0
      (smooth_poly p 7 (by omega) a _) (smooth_poly p 6 (by omega) a _)
    refine ⟨cs, r, fun x => ?_⟩
    have h := b x
    rw [Polynomial.deriv, iteratedDeriv_poly] at h
    have h3 : Polynomial.derivative^[3] p = 0 := Polynomial.iterate_derivative_eq_zero (by omega)
    have ht := poly_taylor3 p (by omega) a x
    rw [h3, Polynomial.eval_zero] at ht
    have h0 : |polyVal cs x - p.eval x| ≤ 0 := by
      rw [ht]; simpa using h
    linarith [abs_eq_zero.1 (le_antisymm h0 (abs_nonneg _))]
  · intro hp
    obtain ⟨cs, r, -, -, b⟩ := taylorSeries3_order eps heps (fun y => some (p.eval y)) _ a 0 0 0
      (smooth_poly p 7 (by omega) a _) (smooth_poly p 6 (by omega) a _) (smooth_poly p 5 (by omega) a _)
    refine ⟨cs, r, fun x => ?_⟩
    have h := b x
    rw [Polynomial.deriv, iteratedDeriv_poly, iteratedDeriv_poly] at h
    have h0 : |polyVal cs x - p.eval x| ≤ 0 := by
      rw [poly_taylor3 p hp a x]; simpa using h
    linarith [abs_eq_zero.1 (le_antisymm h0 (abs_nonneg _))]

/-! ## Non-vacuity -/

example : ∃ cs, taylorSeries3 (1 / 2 ^ 52) (fun y => some ((Polynomial.X ^ 3 : Polynomial ℝ).eval y)) 2 = .ret (some cs) ∧
    ∀ x, polyVal cs x = x ^ 3 := by
  obtain ⟨cs, h, h'⟩ := (taylorSeries_exact (1 / 2 ^ 52) (by positivity) (Polynomial.X ^ 3) 2).2 (by simp)
  exact ⟨cs, h, fun x => by rw [h' x]; simp⟩

theorem smooth_sin (a r : ℝ) (n : ℕ) : Smooth (fun y => some (Real.sin y)) Real.sin a r n 1 :=
  ⟨fun _ _ => rfl, fun _ _ => Real.contDiff_sin.contDiffAt, fun y _ => Real.abs_iteratedDeriv_sin_le_one n y⟩

example (eps : ℝ) (h : 0 < eps) : ∃ cs, taylorSeries3 eps (fun y => some (Real.sin y)) 1 = .ret (some cs) ∧
    polyVal cs 1 = Real.sin 1 := by
  obtain ⟨cs, h1, -, h2, -⟩ := taylorSeries3_order eps h _ _ 1 1 1 1 (smooth_sin 1 _ 7) (smooth_sin 1 _ 6) (smooth_sin 1 _ 5)
  exact ⟨cs, h1, h2⟩

end Verif.Deriv
