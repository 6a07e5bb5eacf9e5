import Verif.Deriv.Rules
import Mathlib.Algebra.Polynomial.Taylor
import Mathlib.Analysis.Calculus.Deriv.Polynomial
import Mathlib.Analysis.Calculus.ContDiff.Polynomial
import Mathlib.Analysis.SpecialFunctions.ExpDeriv

/-!
# Properties of the numerical derivatives (C69)
-/

set_option autoImplicit false

namespace Verif.Deriv

/-! ## Specification -/

/-- Within distance `r` of `x` the function `f` is the `n` times continuously differentiable `g`, whose derivative of order
`n` is bounded by `M` there. -/
structure Smooth (f : Fn) (g : ℝ → ℝ) (x r : ℝ) (n : ℕ) (M : ℝ) : Prop where
  value : ∀ y, |y - x| ≤ r → f y = some (g y)
  diff : ∀ y, |y - x| ≤ r → ContDiffAt ℝ n g y
  bound : ∀ y, |y - x| ≤ r → |iteratedDeriv n g y| ≤ M

/-! ## Order of accuracy -/

/-- **C69.**  `NDer1` is the first derivative up to `1 / 2 * M * s^1`, where `s` is the step and `M` bounds
the derivative of order 2 within the points used. -/
theorem nDer1_order (eps : ℝ) (f : Fn) (g : ℝ → ℝ) (x s M : ℝ) (h : Option ℝ) (wantError : Bool)
    (hstep : h.getD (scaleStep (nDer1H eps) x) = s) (hs : 0 < s) (hf : Smooth f g x (1 * s) 2 M)
    (hfin : wantError = true → ∀ y, |y - x| ≤ 1 * s → f y ≠ none) :
    ∃ v e, nDer1 eps f x h wantError = .ret (some v, e) ∧ |v - deriv g x| ≤ 1 / 2 * M * s ^ 1 := by
  subst hstep
  obtain ⟨e, he⟩ := simple_detailed 2 3 hs (nDer1_value hs hf.value)
    wantError fun hw => nDer1_error_finite eps hs (hfin hw)
  refine ⟨_, e, he, ?_⟩
  have := nDer1_stencil g x _ M hs hf.diff hf.bound
  rwa [iteratedDeriv_one] at this

/-- **C69.**  `NDer2` is the first derivative up to `1 / 6 * M * s^2`, where `s` is the step and `M` bounds
the derivative of order 3 within the points used. -/
theorem nDer2_order (eps : ℝ) (f : Fn) (g : ℝ → ℝ) (x s M : ℝ) (h : Option ℝ) (wantError : Bool)
    (hstep : h.getD (scaleStep (nDer2H eps) x) = s) (hs : 0 < s) (hf : Smooth f g x (1 * s) 3 M)
    (hfin : wantError = true → ∀ y, |y - x| ≤ 2 * s → f y ≠ none) :
    ∃ v e, nDer2 eps f x h wantError = .ret (some v, e) ∧ |v - deriv g x| ≤ 1 / 6 * M * s ^ 2 := by
  subst hstep
  obtain ⟨e, he⟩ := simple_detailed 2 4 hs (nDer2_value hs hf.value)
    wantError fun hw => nDer2_error_finite eps hs (hfin hw)
  refine ⟨_, e, he, ?_⟩
  have := nDer2_stencil g x _ M hs hf.diff hf.bound
  rwa [iteratedDeriv_one] at this

/-- **C69.**  `NDer4` is the first derivative up to `1 / 18 * M * s^4`, where `s` is the step and `M` bounds
the derivative of order 5 within the points used. -/
theorem nDer4_order (eps : ℝ) (f : Fn) (g : ℝ → ℝ) (x s M : ℝ) (h : Option ℝ) (wantError : Bool)
    (hstep : h.getD (scaleStep (nDer4H eps) x) = s) (hs : 0 < s) (hf : Smooth f g x (2 * s) 5 M)
    (hfin : wantError = true → ∀ y, |y - x| ≤ 3 * s → f y ≠ none) :
    ∃ v e, nDer4 eps f x h wantError = .ret (some v, e) ∧ |v - deriv g x| ≤ 1 / 18 * M * s ^ 4 := by
  subst hstep
  obtain ⟨e, he⟩ := simple_detailed 4 6 hs (nDer4_value hs hf.value)
    wantError fun hw => nDer4_error_finite eps hs (hfin hw)
  refine ⟨_, e, he, ?_⟩
  have := nDer4_stencil g x _ M hs hf.diff hf.bound
  rwa [iteratedDeriv_one] at this

/-- **C69.**  `NDer6` is the first derivative up to `47 / 2100 * M * s^6`, where `s` is the step and `M` bounds
the derivative of order 7 within the points used. -/
theorem nDer6_order (eps : ℝ) (f : Fn) (g : ℝ → ℝ) (x s M : ℝ) (h : Option ℝ) (wantError : Bool)
    (hstep : h.getD (scaleStep (nDer6H eps) x) = s) (hs : 0 < s) (hf : Smooth f g x (3 * s) 7 M)
    (hfin : wantError = true → ∀ y, |y - x| ≤ 4 * s → f y ≠ none) :
    ∃ v e, nDer6 eps f x h wantError = .ret (some v, e) ∧ |v - deriv g x| ≤ 47 / 2100 * M * s ^ 6 := by
  subst hstep
  obtain ⟨e, he⟩ := simple_detailed 6 8 hs (nDer6_value hs hf.value)
    wantError fun hw => nDer6_error_finite eps hs (hfin hw)
  refine ⟨_, e, he, ?_⟩
  have := nDer6_stencil g x _ M hs hf.diff hf.bound
  rwa [iteratedDeriv_one] at this

/-- **C69.**  `NDer8` is the first derivative up to `1957 / 198450 * M * s^8`, where `s` is the step and `M` bounds
the derivative of order 9 within the points used. -/
theorem nDer8_order (eps : ℝ) (f : Fn) (g : ℝ → ℝ) (x s M : ℝ) (h : Option ℝ) (wantError : Bool)
    (hstep : h.getD (scaleStep (nDer8H eps) x) = s) (hs : 0 < s) (hf : Smooth f g x (4 * s) 9 M)
    (hfin : wantError = true → ∀ y, |y - x| ≤ 5 * s → f y ≠ none) :
    ∃ v e, nDer8 eps f x h wantError = .ret (some v, e) ∧ |v - deriv g x| ≤ 1957 / 198450 * M * s ^ 8 := by
  subst hstep
  obtain ⟨e, he⟩ := simple_detailed 8 10 hs (nDer8_value hs hf.value)
    wantError fun hw => nDer8_error_finite eps hs (hfin hw)
  refine ⟨_, e, he, ?_⟩
  have := nDer8_stencil g x _ M hs hf.diff hf.bound
  rwa [iteratedDeriv_one] at this

/-- **C69.**  `NSecDer2` is the second derivative up to `1 / 12 * M * s^2`, where `s` is the step and `M` bounds
the derivative of order 4 within the points used. -/
theorem nSecDer2_order (eps : ℝ) (f : Fn) (g : ℝ → ℝ) (x s M : ℝ) (h : Option ℝ) (wantError : Bool)
    (hstep : h.getD (scaleStep (nDer2H eps) x) = s) (hs : 0 < s) (hf : Smooth f g x (1 * s) 4 M)
    (hfin : wantError = true → ∀ y, |y - x| ≤ 2 * s → f y ≠ none) :
    ∃ v e, nSecDer2 eps f x h wantError = .ret (some v, e) ∧ |v - iteratedDeriv 2 g x| ≤ 1 / 12 * M * s ^ 2 := by
  subst hstep
  obtain ⟨e, he⟩ := simple_detailed 3 5 hs (nSecDer2_value hs hf.value)
    wantError fun hw => nSecDer2_error_finite eps hs (hfin hw)
  refine ⟨_, e, he, ?_⟩
  have := nSecDer2_stencil g x _ M hs hf.diff hf.bound
  exact this

/-- **C69.**  `NSecDer4` is the second derivative up to `1 / 54 * M * s^4`, where `s` is the step and `M` bounds
the derivative of order 6 within the points used. -/
theorem nSecDer4_order (eps : ℝ) (f : Fn) (g : ℝ → ℝ) (x s M : ℝ) (h : Option ℝ) (wantError : Bool)
    (hstep : h.getD (scaleStep (nDer4H eps) x) = s) (hs : 0 < s) (hf : Smooth f g x (2 * s) 6 M)
    (hfin : wantError = true → ∀ y, |y - x| ≤ 3 * s → f y ≠ none) :
    ∃ v e, nSecDer4 eps f x h wantError = .ret (some v, e) ∧ |v - iteratedDeriv 2 g x| ≤ 1 / 54 * M * s ^ 4 := by
  subst hstep
  obtain ⟨e, he⟩ := simple_detailed 5 7 hs (nSecDer4_value hs hf.value)
    wantError fun hw => nSecDer4_error_finite eps hs (hfin hw)
  refine ⟨_, e, he, ?_⟩
  have := nSecDer4_stencil g x _ M hs hf.diff hf.bound
  exact this

/-- **C69.**  `NThirdDer2` is the third derivative up to `17 / 60 * M * s^2`, where `s` is the step and `M` bounds
the derivative of order 5 within the points used. -/
theorem nThirdDer2_order (eps : ℝ) (f : Fn) (g : ℝ → ℝ) (x s M : ℝ) (h : Option ℝ) (wantError : Bool)
    (hstep : h.getD (scaleStep (nDer4H eps) x) = s) (hs : 0 < s) (hf : Smooth f g x (2 * s) 5 M)
    (hfin : wantError = true → ∀ y, |y - x| ≤ 3 * s → f y ≠ none) :
    ∃ v e, nThirdDer2 eps f x h wantError = .ret (some v, e) ∧ |v - iteratedDeriv 3 g x| ≤ 17 / 60 * M * s ^ 2 := by
  subst hstep
  obtain ⟨e, he⟩ := simple_detailed 4 6 hs (nThirdDer2_value hs hf.value)
    wantError fun hw => nThirdDer2_error_finite eps hs (hfin hw)
  refine ⟨_, e, he, ?_⟩
  have := nThirdDer2_stencil g x _ M hs hf.diff hf.bound
  exact this

/-- **C69.**  `NThirdDer4` is the third derivative up to `403 / 2520 * M * s^4`, where `s` is the step and `M` bounds
the derivative of order 7 within the points used. -/
theorem nThirdDer4_order (eps : ℝ) (f : Fn) (g : ℝ → ℝ) (x s M : ℝ) (h : Option ℝ) (wantError : Bool)
    (hstep : h.getD (scaleStep (nDer4H eps) x) = s) (hs : 0 < s) (hf : Smooth f g x (3 * s) 7 M)
    (hfin : wantError = true → ∀ y, |y - x| ≤ 4 * s → f y ≠ none) :
    ∃ v e, nThirdDer4 eps f x h wantError = .ret (some v, e) ∧ |v - iteratedDeriv 3 g x| ≤ 403 / 2520 * M * s ^ 4 := by
  subst hstep
  obtain ⟨e, he⟩ := simple_detailed 6 8 hs (nThirdDer4_value hs hf.value)
    wantError fun hw => nThirdDer4_error_finite eps hs (hfin hw)
  refine ⟨_, e, he, ?_⟩
  have := nThirdDer4_stencil g x _ M hs hf.diff hf.bound
  exact this

/-- The default steps are positive. -/
theorem default_steps_pos (eps x : ℝ) (h : 0 < eps) :
    0 < scaleStep (nDer1H eps) x ∧ 0 < scaleStep (nDer2H eps) x ∧ 0 < scaleStep (nDer4H eps) x ∧
      0 < scaleStep (nDer6H eps) x ∧ 0 < scaleStep (nDer8H eps) x := by
  have hm : 0 < max 1 |x| := lt_of_lt_of_le one_pos (le_max_left _ _)
  have hs := Real.sqrt_pos.mpr h
  refine ⟨mul_pos (by rw [nDer1H]; linarith) hm, mul_pos (Real.rpow_pos_of_pos (by linarith) _) hm,
    mul_pos (Real.rpow_pos_of_pos (by linarith) _) hm, mul_pos (Real.rpow_pos_of_pos (by linarith) _) hm,
    mul_pos (Real.rpow_pos_of_pos (by linarith) _) hm⟩

/-- The hypotheses hold for the exponential function at 0 with the default step and the error requested. -/
example (eps : ℝ) (h : 0 < eps) : ∃ M v e, nDer4 eps (fun y => some (Real.exp y)) 0 none true = .ret (some v, e) ∧
    |v - 1| ≤ 1 / 18 * M * scaleStep (nDer4H eps) 0 ^ 4 := by
  obtain ⟨v, e, h1, h2⟩ := nDer4_order eps (fun y => some (Real.exp y)) Real.exp 0 _ (Real.exp (2 * scaleStep (nDer4H eps) 0)) none true rfl
    (default_steps_pos eps 0 h).2.2.1
    ⟨fun _ _ => rfl, fun y _ => Real.contDiff_exp.contDiffAt, fun y hy => by
      rw [iteratedDeriv_eq_iterate, Real.iter_deriv_exp, abs_of_pos (Real.exp_pos y)]
      have := (abs_le.mp hy).2
      exact Real.exp_le_exp.mpr (by simpa using this)⟩
    (fun _ _ _ => by simp)
  exact ⟨_, v, e, h1, by simpa using h2⟩

/-! ## Exactness on polynomials -/

theorem iteratedDeriv_poly (p : Polynomial ℝ) (n : ℕ) (x : ℝ) :
    iteratedDeriv n (fun y => p.eval y) x = (Polynomial.derivative^[n] p).eval x := by
  induction n generalizing x with
  | zero => simp
  | succ n ih =>
    rw [iteratedDeriv_succ, funext ih, Polynomial.deriv, Function.iterate_succ_apply']

theorem smooth_poly (p : Polynomial ℝ) (n : ℕ) (hp : p.natDegree < n) (x r : ℝ) :
    Smooth (fun y => some (p.eval y)) (fun y => p.eval y) x r n 0 where
  value _ _ := rfl
  diff _ _ := by
    have := p.contDiff_aeval (𝕜 := ℝ) (n := n)
    simpa using this.contDiffAt
  bound y _ := by rw [iteratedDeriv_poly, Polynomial.iterate_derivative_eq_zero hp]; simp

theorem eq_of_abs_le {v w c : ℝ} {n : ℕ} {s : ℝ} (h : |v - w| ≤ c * 0 * s ^ n) : v = w := by
  rw [mul_zero, zero_mul] at h
  exact sub_eq_zero.mp (abs_eq_zero.mp (le_antisymm h (abs_nonneg _)))

/-- **C69.**  `NDer1` is exact on polynomials of degree at most 1. -/
theorem nDer1_exact (eps : ℝ) (p : Polynomial ℝ) (hp : p.natDegree ≤ 1) (x s : ℝ) (h : Option ℝ) (wantError : Bool)
    (hstep : h.getD (scaleStep (nDer1H eps) x) = s) (hs : 0 < s) :
    ∃ e, nDer1 eps (fun y => some (p.eval y)) x h wantError = .ret (some (p.derivative.eval x), e) := by
  obtain ⟨v, e, h1, h2⟩ := nDer1_order eps _ _ x s 0 h wantError hstep hs (smooth_poly p 2 (by omega) x _)
    (fun _ _ _ => by simp)
  refine ⟨e, ?_⟩
  rw [h1, eq_of_abs_le h2, Polynomial.deriv]

/-- **C69.**  `NDer2` is exact on polynomials of degree at most 2. -/
theorem nDer2_exact (eps : ℝ) (p : Polynomial ℝ) (hp : p.natDegree ≤ 2) (x s : ℝ) (h : Option ℝ) (wantError : Bool)
    (hstep : h.getD (scaleStep (nDer2H eps) x) = s) (hs : 0 < s) :
    ∃ e, nDer2 eps (fun y => some (p.eval y)) x h wantError = .ret (some (p.derivative.eval x), e) := by
  obtain ⟨v, e, h1, h2⟩ := nDer2_order eps _ _ x s 0 h wantError hstep hs (smooth_poly p 3 (by omega) x _)
    (fun _ _ _ => by simp)
  refine ⟨e, ?_⟩
  rw [h1, eq_of_abs_le h2, Polynomial.deriv]

/-- **C69.**  `NDer4` is exact on polynomials of degree at most 4. -/
theorem nDer4_exact (eps : ℝ) (p : Polynomial ℝ) (hp : p.natDegree ≤ 4) (x s : ℝ) (h : Option ℝ) (wantError : Bool)
    (hstep : h.getD (scaleStep (nDer4H eps) x) = s) (hs : 0 < s) :
    ∃ e, nDer4 eps (fun y => some (p.eval y)) x h wantError = .ret (some (p.derivative.eval x), e) := by
  obtain ⟨v, e, h1, h2⟩ := nDer4_order eps _ _ x s 0 h wantError hstep hs (smooth_poly p 5 (by omega) x _)
    (fun _ _ _ => by simp)
  refine ⟨e, ?_⟩
  rw [h1, eq_of_abs_le h2, Polynomial.deriv]

/-- **C69.**  `NDer6` is exact on polynomials of degree at most 6. -/
theorem nDer6_exact (eps : ℝ) (p : Polynomial ℝ) (hp : p.natDegree ≤ 6) (x s : ℝ) (h : Option ℝ) (wantError : Bool)
    (hstep : h.getD (scaleStep (nDer6H eps) x) = s) (hs : 0 < s) :
    ∃ e, nDer6 eps (fun y => some (p.eval y)) x h wantError = .ret (some (p.derivative.eval x), e) := by
  obtain ⟨v, e, h1, h2⟩ := nDer6_order eps _ _ x s 0 h wantError hstep hs (smooth_poly p 7 (by omega) x _)
    (fun _ _ _ => by simp)
  refine ⟨e, ?_⟩
  rw [h1, eq_of_abs_le h2, Polynomial.deriv]

/-- **C69.**  `NDer8` is exact on polynomials of degree at most 8. -/
theorem nDer8_exact (eps : ℝ) (p : Polynomial ℝ) (hp : p.natDegree ≤ 8) (x s : ℝ) (h : Option ℝ) (wantError : Bool)
    (hstep : h.getD (scaleStep (nDer8H eps) x) = s) (hs : 0 < s) :
    ∃ e, nDer8 eps (fun y => some (p.eval y)) x h wantError = .ret (some (p.derivative.eval x), e) := by
  obtain ⟨v, e, h1, h2⟩ := nDer8_order eps _ _ x s 0 h wantError hstep hs (smooth_poly p 9 (by omega) x _)
    (fun _ _ _ => by simp)
  refine ⟨e, ?_⟩
  rw [h1, eq_of_abs_le h2, Polynomial.deriv]

/-- **C69.**  `NSecDer2` is exact on polynomials of degree at most 3. -/
theorem nSecDer2_exact (eps : ℝ) (p : Polynomial ℝ) (hp : p.natDegree ≤ 3) (x s : ℝ) (h : Option ℝ) (wantError : Bool)
    (hstep : h.getD (scaleStep (nDer2H eps) x) = s) (hs : 0 < s) :
    ∃ e, nSecDer2 eps (fun y => some (p.eval y)) x h wantError = .ret (some ((Polynomial.derivative^[2] p).eval x), e) := by
  obtain ⟨v, e, h1, h2⟩ := nSecDer2_order eps _ _ x s 0 h wantError hstep hs (smooth_poly p 4 (by omega) x _)
    (fun _ _ _ => by simp)
  refine ⟨e, ?_⟩
  rw [h1, eq_of_abs_le h2, iteratedDeriv_poly]

/-- **C69.**  `NSecDer4` is exact on polynomials of degree at most 5. -/
theorem nSecDer4_exact (eps : ℝ) (p : Polynomial ℝ) (hp : p.natDegree ≤ 5) (x s : ℝ) (h : Option ℝ) (wantError : Bool)
    (hstep : h.getD (scaleStep (nDer4H eps) x) = s) (hs : 0 < s) :
    ∃ e, nSecDer4 eps (fun y => some (p.eval y)) x h wantError = .ret (some ((Polynomial.derivative^[2] p).eval x), e) := by
  obtain ⟨v, e, h1, h2⟩ := nSecDer4_order eps _ _ x s 0 h wantError hstep hs (smooth_poly p 6 (by omega) x _)
    (fun _ _ _ => by simp)
  refine ⟨e, ?_⟩
  rw [h1, eq_of_abs_le h2, iteratedDeriv_poly]

/-- **C69.**  `NThirdDer2` is exact on polynomials of degree at most 4. -/
theorem nThirdDer2_exact (eps : ℝ) (p : Polynomial ℝ) (hp : p.natDegree ≤ 4) (x s : ℝ) (h : Option ℝ) (wantError : Bool)
    (hstep : h.getD (scaleStep (nDer4H eps) x) = s) (hs : 0 < s) :
    ∃ e, nThirdDer2 eps (fun y => some (p.eval y)) x h wantError = .ret (some ((Polynomial.derivative^[3] p).eval x), e) := by
  obtain ⟨v, e, h1, h2⟩ := nThirdDer2_order eps _ _ x s 0 h wantError hstep hs (smooth_poly p 5 (by omega) x _)
    (fun _ _ _ => by simp)
  refine ⟨e, ?_⟩
  rw [h1, eq_of_abs_le h2, iteratedDeriv_poly]

/-- **C69.**  `NThirdDer4` is exact on polynomials of degree at most 6. -/
theorem nThirdDer4_exact (eps : ℝ) (p : Polynomial ℝ) (hp : p.natDegree ≤ 6) (x s : ℝ) (h : Option ℝ) (wantError : Bool)
    (hstep : h.getD (scaleStep (nDer4H eps) x) = s) (hs : 0 < s) :
    ∃ e, nThirdDer4 eps (fun y => some (p.eval y)) x h wantError = .ret (some ((Polynomial.derivative^[3] p).eval x), e) := by
  obtain ⟨v, e, h1, h2⟩ := nThirdDer4_order eps _ _ x s 0 h wantError hstep hs (smooth_poly p 7 (by omega) x _)
    (fun _ _ _ => by simp)
  refine ⟨e, ?_⟩
  rw [h1, eq_of_abs_le h2, iteratedDeriv_poly]

/-- A polynomial of degree four at a point, differentiated exactly. -/
example (eps : ℝ) (h : 0 < eps) : ∃ e, nDer4 eps (fun y => some ((Polynomial.X ^ 4 : Polynomial ℝ).eval y)) 2 none true =
    .ret (some 32, e) := by
  obtain ⟨e, he⟩ := nDer4_exact eps (Polynomial.X ^ 4) (by simp) 2 _ none true rfl (default_steps_pos eps 2 h).2.2.1
  refine ⟨e, ?_⟩
  rw [he]
  norm_num

/-! ## Refusals and the detailed interface -/

/-- **C69.**  What every detailed rule does, in all cases: a step that is not positive is an input error and a result or
error estimate that is not finite a numerical error, either thrown or reported in the status according to the
configuration; otherwise the result is returned with the number of function evaluations and the step used.  The error
estimate is zero if it was not requested. -/
theorem detailed_spec (h : ℝ) (config : Config) (a b : ℕ) (value error : Option ℝ) :
    (h ≤ 0 → detailed h config a b value error =
      if config.propagate then .exn (.mml "NumericInputError") else .ret { status := .invalidInput, step := h }) ∧
    (0 < h → config.checkFinite = true → (value = none ∨ config.estimateError = true ∧ error = none) →
      detailed h config a b value error =
        if config.propagate then .exn (.mml "NumericalMethodError")
        else .ret { status := .numericalInstability, step := h }) ∧
    (0 < h → (config.checkFinite = true → value ≠ none ∧ (config.estimateError = true → error ≠ none)) →
      detailed h config a b value error = .ret {
        evaluations := if config.estimateError then b else a, value := value,
        error := if config.estimateError then error else some 0, step := h }) := by
  refine ⟨fun hh => ?_, fun hh hc hn => ?_, fun hh hc => ?_⟩
  · cases hp : config.propagate <;> simp [detailed, execute, hh, hp]
  · have : execute h config a b value error = .exn (.mml "NumericalMethodError") := by
      rw [execute, if_neg (not_le.mpr hh)]
      by_cases hv : value = none
      · rw [if_pos ⟨hc, hv⟩]
      · rw [if_neg (fun k => hv k.2), if_pos ⟨hc, hn.resolve_left hv⟩]
    cases hp : config.propagate <;> simp [detailed, this, hp]
  · have : execute h config a b value error = .ret {
        evaluations := if config.estimateError then b else a, value := value,
        error := if config.estimateError then error else some 0, step := h } := by
      rw [execute, if_neg (not_le.mpr hh), if_neg (fun k => (hc k.1).1 k.2), if_neg (fun k => (hc k.1).2 k.2.1 k.2.2)]
    cases hp : config.propagate <;> simp [detailed, this, hp]

/-- **C69.**  The simple overloads refuse a step that is not positive, whatever the function. -/
theorem step_refused (eps : ℝ) (f : Fn) (x h : ℝ) (hh : h ≤ 0) (w : Bool) :
    nDer1 eps f x (some h) w = .exn (.mml "NumericInputError") ∧ nDer2 eps f x (some h) w = .exn (.mml "NumericInputError") ∧
    nDer4 eps f x (some h) w = .exn (.mml "NumericInputError") ∧ nDer6 eps f x (some h) w = .exn (.mml "NumericInputError") ∧
    nDer8 eps f x (some h) w = .exn (.mml "NumericInputError") ∧
    nSecDer2 eps f x (some h) w = .exn (.mml "NumericInputError") ∧
    nSecDer4 eps f x (some h) w = .exn (.mml "NumericInputError") ∧
    nThirdDer2 eps f x (some h) w = .exn (.mml "NumericInputError") ∧
    nThirdDer4 eps f x (some h) w = .exn (.mml "NumericInputError") := by
  refine ⟨?_, ?_, ?_, ?_, ?_, ?_, ?_, ?_, ?_⟩ <;>
  · simp only [nDer1, nDer2, nDer4, nDer6, nDer8, nSecDer2, nSecDer4, nThirdDer2, nThirdDer4, nDer1Detailed, nDer2Detailed,
      nDer4Detailed, nDer6Detailed, nDer8Detailed, nSecDer2Detailed, nSecDer4Detailed, nThirdDer2Detailed,
      nThirdDer4Detailed, simple, Option.getD_some]
    rw [(detailed_spec _ _ _ _ _ _).1 hh]
    rfl

end Verif.Deriv
