import Verif.Fun.Path
import Verif.Deriv.Curves
import Verif.Deriv.Props
import Verif.Integ.TrapProps
import Mathlib.Analysis.InnerProductSpace.PiL2
import Mathlib.MeasureTheory.Integral.IntervalIntegral.FundThmCalculus
import Mathlib.Analysis.Calculus.Deriv.Polynomial
import Mathlib.Tactic

/-!
# Property C155: integrals along curves
-/

set_option autoImplicit false

open Polynomial

namespace Verif.Path

open Verif Verif.Integ

variable {N : ℕ}

/-- The result of the same computation with the opposite sign. -/
noncomputable def negated (r : Result) : Result := ⟨-r.value, r.error, r.iterations, r.converged⟩

/-- The curve whose coordinates are the given polynomials. -/
noncomputable def polyCurve (P : Fin N → ℝ[X]) (t : ℝ) : Fin N → ℝ := fun k => (P k).eval t

/-! ## The tangent -/

theorem deriveCurve_ret {meps : ℝ} (hm : 0 < meps) (c : ℝ → Fin N → ℝ) (t : ℝ) : ∃ v, deriveCurve meps c t = .ret v := by
  unfold deriveCurve Deriv.nDer4Curve
  have h : (none : Option ℝ).getD (Deriv.scaleStep (Deriv.nDer4H meps) t) ≠ 0 := (Deriv.default_steps_pos meps t hm).2.2.1.ne'
  rw [if_neg h]
  exact ⟨_, rfl⟩

theorem deriveCurve_poly {meps : ℝ} (hm : 0 < meps) (P : Fin N → ℝ[X]) (hP : ∀ k, (P k).natDegree ≤ 4) (t : ℝ) :
    deriveCurve meps (polyCurve P) t = .ret fun k => (P k).derivative.eval t := by
  obtain ⟨v, h, hv⟩ := Deriv.nDer4Curve_order meps (polyCurve P) t _ 0 none rfl (Deriv.default_steps_pos meps t hm).2.2.1
    ⟨fun k y hy => (Deriv.smooth_poly (P k) 5 (by have := hP k; omega) t _).diff y hy,
      fun k y hy => (Deriv.smooth_poly (P k) 5 (by have := hP k; omega) t _).bound y hy⟩
  rw [deriveCurve, h, Outcome.ret.injEq]
  funext k
  have := hv k
  simp only [mul_zero, zero_mul] at this
  have h0 := abs_eq_zero.1 (le_antisymm this (abs_nonneg _))
  have hd : deriv (fun u => polyCurve P u k) t = (P k).derivative.eval t := Polynomial.deriv (P k)
  rw [hd] at h0
  linarith

theorem normL2_eq (v : Fin N → ℝ) : Deriv.normL2 v = ‖(WithLp.toLp 2 v : EuclideanSpace ℝ (Fin N))‖ := by
  rw [EuclideanSpace.norm_eq, Deriv.normL2]
  simp

/-- **C155.** The integrand of the length: at every parameter where the curve is smooth it is the speed, the norm of the
derivative, up to the error of `NDer4` times the root of the dimension. -/
theorem speed_accuracy {meps : ℝ} (hm : 0 < meps) (c : ℝ → Fin N → ℝ) (t M : ℝ)
    (hc : Deriv.SmoothCurve c t (2 * Deriv.scaleStep (Deriv.nDer4H meps) t) 5 M) :
    |speed meps c t - Real.sqrt (∑ k, deriv (fun u => c u k) t ^ 2)| ≤
      Real.sqrt N * (1 / 18 * M * Deriv.scaleStep (Deriv.nDer4H meps) t ^ 4) := by
  obtain ⟨v, h, hv⟩ := Deriv.nDer4Curve_order meps c t _ M none rfl (Deriv.default_steps_pos meps t hm).2.2.1 hc
  rw [speed, deriveCurve, h]
  change |Deriv.normL2 v - Deriv.normL2 (fun k => deriv (fun u => c u k) t)| ≤ _
  rw [normL2_eq, normL2_eq]
  refine (abs_norm_sub_norm_le _ _).trans ?_
  rw [EuclideanSpace.norm_eq]
  rcases Nat.eq_zero_or_pos N with rfl | hN
  · simp
  · have hδ : 0 ≤ 1 / 18 * M * Deriv.scaleStep (Deriv.nDer4H meps) t ^ 4 := (abs_nonneg _).trans (hv ⟨0, hN⟩)
    refine Real.sqrt_le_iff.2 ⟨by positivity, ?_⟩
    rw [mul_pow, Real.sq_sqrt (by positivity)]
    calc _ ≤ ∑ _k : Fin N, (1 / 18 * M * Deriv.scaleStep (Deriv.nDer4H meps) t ^ 4) ^ 2 := by
          refine Finset.sum_le_sum fun k _ => ?_
          have := hv k
          simp only [PiLp.sub_apply, Real.norm_eq_abs]
          exact pow_le_pow_left₀ (abs_nonneg _) this 2
      _ = _ := by simp

/-! ## Exact cases -/

/-- **C155.** The length of a straight segment, and the mass of a straight wire whose density is an affine function of the
parameter, are computed exactly and reported as converged. -/
theorem segment_exact {meps : ℝ} (hm : 0 < meps) (M : ℕ) (h7 : 7 ≤ M) (h32 : M ≤ 32) (eps : ℝ) (he : 0 < eps)
    (p v : Fin N → ℝ) (d0 d1 a b : ℝ) :
    curveLength meps M eps (fun t k => p k + t * v k) a b = .ret ⟨Real.sqrt (∑ k, v k ^ 2) * (b - a), 0, 6, true⟩ ∧
    curveMass meps M eps (fun t k => p k + t * v k) (fun t => d0 + d1 * t) a b =
      .ret ⟨Real.sqrt (∑ k, v k ^ 2) * ∫ t in a..b, (d0 + d1 * t), 0, 6, true⟩ := by
  have hc : (fun (t : ℝ) k => p k + t * v k) = polyCurve (fun k => C (p k) + C (v k) * X) := by
    funext t k
    simp only [polyCurve, eval_add, eval_C, eval_mul, eval_X]
    rw [mul_comm t]
  have ht : ∀ t, deriveCurve meps (fun (t : ℝ) k => p k + t * v k) t = .ret v := fun t => by
    rw [hc, deriveCurve_poly hm _ (fun k => ?_)]
    · simp
    · refine (natDegree_add_le _ _).trans (max_le (by simp) ?_)
      exact (natDegree_C_mul_le _ _).trans (natDegree_X_le.trans (by norm_num))
  constructor
  · have : speed meps (fun (t : ℝ) k => p k + t * v k) = fun t => (C (Real.sqrt (∑ k, v k ^ 2))).eval t := by
      funext t
      simp [speed, ht, withTangent, Deriv.normL2]
    rw [curveLength, this, integrateTrap_exact M _ (by simp) a b eps h7 h32 he]
    simp [mul_comm]
  · have : massRate meps (fun (t : ℝ) k => p k + t * v k) (fun t => d0 + d1 * t) =
        fun t => (C (Real.sqrt (∑ k, v k ^ 2)) * (C d0 + C d1 * X)).eval t := by
      funext t
      simp [massRate, ht, withTangent, Deriv.normL2]
    rw [curveMass, this, integrateTrap_exact M _ ?_ a b eps h7 h32 he]
    · congr 2
      rw [← intervalIntegral.integral_const_mul]
      simp
    · refine natDegree_mul_le.trans ?_
      rw [natDegree_C, zero_add]
      refine (natDegree_add_le _ _).trans (max_le (by simp) ?_)
      exact (natDegree_C_mul_le _ _).trans natDegree_X_le

/-- **C155.** The work of a constant field along a curve with coordinates of degree at most 2 is exactly the scalar product
of the field with the displacement, whatever the shape of the curve. -/
theorem work_constant_field {meps : ℝ} (hm : 0 < meps) (M : ℕ) (h7 : 7 ≤ M) (h32 : M ≤ 32) (eps : ℝ) (he : 0 < eps)
    (F : Fin 3 → ℝ) (P : Fin 3 → ℝ[X]) (hP : ∀ k, (P k).natDegree ≤ 2) (a b : ℝ) :
    lineIntegralVector meps M eps (fun _ => F) (polyCurve P) a b =
      .ret ⟨∑ k, F k * (polyCurve P b k - polyCurve P a k), 0, 6, true⟩ := by
  have hr : vectorRate meps (fun _ => F) (polyCurve P) =
      fun t => (derivative (∑ k, C (F k) * P k)).eval t := by
    funext t
    rw [vectorRate, deriveCurve_poly hm P (fun k => (hP k).trans (by norm_num))]
    simp only [withTangent, derivative_sum, eval_finset_sum, derivative_C_mul, eval_mul, eval_C]
    exact Finset.sum_congr rfl fun k _ => mul_comm _ _
  have hdeg : (derivative (∑ k, C (F k) * P k)).natDegree ≤ 1 := by
    refine (natDegree_derivative_le _).trans ?_
    have : (∑ k, C (F k) * P k).natDegree ≤ 2 :=
      natDegree_sum_le_of_forall_le _ _ fun k _ => (natDegree_C_mul_le _ _).trans (hP k)
    omega
  rw [lineIntegralVector, hr, integrateTrap_exact M _ hdeg a b eps h7 h32 he]
  congr 2
  rw [intervalIntegral.integral_eq_sub_of_hasDerivAt (f := fun t => (∑ k, C (F k) * P k).eval t)
    (fun t _ => Polynomial.hasDerivAt _ t) ((Polynomial.continuous _).intervalIntegrable _ _)]
  simp only [eval_finset_sum, eval_mul, eval_C, polyCurve, mul_sub, Finset.sum_sub_distrib]

/-- **C155.** On every curve with coordinates of degree at most 4 the integrands are exact for every field and density: the
field at the point of the curve times the speed, the scalar product of the field at the point with the derivative. -/
theorem rates_exact {meps : ℝ} (hm : 0 < meps) (P : Fin N → ℝ[X]) (hP : ∀ k, (P k).natDegree ≤ 4) (t : ℝ)
    (f : (Fin N → ℝ) → ℝ) (F : (Fin N → ℝ) → Fin N → ℝ) (ρ : ℝ → ℝ) :
    speed meps (polyCurve P) t = Real.sqrt (∑ k, (P k).derivative.eval t ^ 2) ∧
    massRate meps (polyCurve P) ρ t = ρ t * Real.sqrt (∑ k, (P k).derivative.eval t ^ 2) ∧
    scalarRate meps f (polyCurve P) t = f (fun k => (P k).eval t) * Real.sqrt (∑ k, (P k).derivative.eval t ^ 2) ∧
    vectorRate meps F (polyCurve P) t = ∑ k, F (fun k => (P k).eval t) k * (P k).derivative.eval t := by
  rw [speed, massRate, scalarRate, vectorRate, deriveCurve_poly hm P hP]
  refine ⟨rfl, mul_comm _ _, rfl, Finset.sum_congr rfl fun k _ => mul_comm _ _⟩

/-- **C155.** Along a straight segment the line integral of every field that is affine in the parameter there is exact. -/
theorem line_exact {meps : ℝ} (hm : 0 < meps) (M : ℕ) (h7 : 7 ≤ M) (h32 : M ≤ 32) (eps : ℝ) (he : 0 < eps)
    (p v : Fin 3 → ℝ) (f : (Fin 3 → ℝ) → ℝ) (F : (Fin 3 → ℝ) → Fin 3 → ℝ) (f0 f1 : ℝ) (F0 F1 : Fin 3 → ℝ)
    (hf : ∀ t : ℝ, f (fun k => p k + t * v k) = f0 + f1 * t)
    (hF : ∀ (t : ℝ) k, F (fun k => p k + t * v k) k = F0 k + F1 k * t) (a b : ℝ) :
    lineIntegralScalar meps M eps f (fun t k => p k + t * v k) a b =
      .ret ⟨∫ t in a..b, f (fun k => p k + t * v k) * Real.sqrt (∑ k, v k ^ 2), 0, 6, true⟩ ∧
    lineIntegralVector meps M eps F (fun t k => p k + t * v k) a b =
      .ret ⟨∫ t in a..b, ∑ k, F (fun k => p k + t * v k) k * v k, 0, 6, true⟩ := by
  have hc : (fun (t : ℝ) k => p k + t * v k) = polyCurve (fun k => C (p k) + C (v k) * X) := by
    funext t k
    simp only [polyCurve, eval_add, eval_C, eval_mul, eval_X]
    rw [mul_comm t]
  have ht : ∀ t, deriveCurve meps (fun (t : ℝ) k => p k + t * v k) t = .ret v := fun t => by
    rw [hc, deriveCurve_poly hm _ (fun k => ?_)]
    · simp
    · refine (natDegree_add_le _ _).trans (max_le (by simp) ?_)
      exact (natDegree_C_mul_le _ _).trans (natDegree_X_le.trans (by norm_num))
  have hdeg : ∀ x y : ℝ, (C x + C y * X : ℝ[X]).natDegree ≤ 1 := fun x y =>
    (natDegree_add_le _ _).trans (max_le (by simp) ((natDegree_C_mul_le _ _).trans natDegree_X_le))
  constructor
  · have e : ∀ t, f (fun k => p k + t * v k) * Real.sqrt (∑ k, v k ^ 2) =
        (C (f0 * Real.sqrt (∑ k, v k ^ 2)) + C (f1 * Real.sqrt (∑ k, v k ^ 2)) * X).eval t := fun t => by
      rw [hf, eval_add, eval_mul, eval_C, eval_C, eval_X]; ring
    have : scalarRate meps f (fun (t : ℝ) k => p k + t * v k) =
        fun t => (C (f0 * Real.sqrt (∑ k, v k ^ 2)) + C (f1 * Real.sqrt (∑ k, v k ^ 2)) * X).eval t := by
      funext t
      rw [← e, scalarRate, ht]
      rfl
    simp only [e]
    rw [lineIntegralScalar, this, integrateTrap_exact M _ (hdeg _ _) a b eps h7 h32 he]
  · have e : ∀ t, ∑ k, F (fun k => p k + t * v k) k * v k =
        (C (∑ k, F0 k * v k) + C (∑ k, F1 k * v k) * X).eval t := fun t => by
      rw [eval_add, eval_mul, eval_C, eval_C, eval_X, Finset.sum_mul, ← Finset.sum_add_distrib]
      exact Finset.sum_congr rfl fun k _ => by rw [hF]; ring
    have : vectorRate meps F (fun (t : ℝ) k => p k + t * v k) =
        fun t => (C (∑ k, F0 k * v k) + C (∑ k, F1 k * v k) * X).eval t := by
      funext t
      rw [← e, vectorRate, ht]
      exact Finset.sum_congr rfl fun k _ => mul_comm _ _
    simp only [e]
    rw [lineIntegralVector, this, integrateTrap_exact M _ (hdeg _ _) a b eps h7 h32 he]

/-! ## All curves -/

theorem trapezoid_swap (f : ℝ → ℝ) (a b : ℝ) (n : ℕ) (hn : 0 < n) : trapezoid f b a n = -trapezoid f a b n := by
  have hn' : (n : ℝ) ≠ 0 := by positivity
  unfold trapezoid
  rw [← Finset.sum_range_reflect, ← Finset.sum_neg_distrib]
  refine Finset.sum_congr rfl fun k hk => ?_
  have hk' : k + 1 ≤ n := by have := Finset.mem_range.1 hk; omega
  have e1 : node b a n ((n - 1 - k : ℕ) : ℝ) = node a b n ((k : ℝ) + 1) := by
    rw [show n - 1 - k = n - (k + 1) by omega, Nat.cast_sub hk']
    unfold node
    push_cast
    field_simp
    ring
  have e2 : node b a n (((n - 1 - k : ℕ) : ℝ) + 1) = node a b n (k : ℝ) := by
    rw [show n - 1 - k = n - (k + 1) by omega, Nat.cast_sub hk']
    unfold node
    push_cast
    field_simp
    ring
  rw [e1, e2]
  ring

theorem settles_neg {T : ℕ → ℝ} {eps : ℝ} {i : ℕ} : Settles (fun k => -T k) eps i ↔ Settles T eps i := by
  unfold Settles
  rw [abs_neg, show -T i - -T (i - 1) = -(T i - T (i - 1)) by ring, abs_neg]

theorem answer_unique {T : ℕ → ℝ} {eps : ℝ} {M : ℕ} {r s : Result} (hr : Answer T eps 0 M r) (hs : Answer T eps 0 M s) :
    r = s := by
  rcases hr with ⟨a1, -, a3, a4, a5, a6, a7⟩ | ⟨a1, a2, a3, a4, a5⟩ <;>
    rcases hs with ⟨b1, -, b3, b4, b5, b6, b7⟩ | ⟨b1, b2, b3, b4, b5⟩
  · have : r.iterations = s.iterations := by
      rcases lt_trichotomy r.iterations s.iterations with h | h | h
      · exact absurd a4 (b7 _ (Nat.zero_le _) h)
      · exact h
      · exact absurd b4 (a7 _ (Nat.zero_le _) h)
    refine Result.ext ?_ ?_ this ?_
    · rw [a5, b5, this]
    · rw [a6, b6, this]
    · rw [a1, b1]
  · exact absurd a4 (b5 _ (Nat.zero_le _) a3)
  · exact absurd b4 (a5 _ (Nat.zero_le _) b3)
  · refine Result.ext ?_ ?_ ?_ ?_
    · rw [a3, b3]
    · rw [a4, b4]
    · rw [a2, b2]
    · rw [a1, b1]

theorem integrateTrap_swap (M : ℕ) (h1 : 1 ≤ M) (h32 : M ≤ 32) (f : ℝ → ℝ) (a b eps : ℝ) :
    ∃ r, integrateTrap M f a b eps = .ret r ∧ integrateTrap M f b a eps = .ret (negated r) := by
  obtain ⟨r, hr, ar⟩ := integrateTrap_spec M f a b eps h1 h32
  obtain ⟨s, hs, as⟩ := integrateTrap_spec M f b a eps h1 h32
  refine ⟨r, hr, ?_⟩
  rw [hs]
  congr 1
  have hT : (fun k => trapezoid f b a (2 ^ k)) = fun k => -trapezoid f a b (2 ^ k) := by
    funext k; exact trapezoid_swap f a b _ (by positivity)
  rw [hT] at as
  refine answer_unique as ?_
  rcases ar with ⟨a1, a2, a3, a4, a5, a6, a7⟩ | ⟨a1, a2, a3, a4, a5⟩
  · refine Or.inl ⟨a1, Nat.zero_le _, a3, settles_neg.2 a4, ?_, ?_, fun i h h' => fun hh => a7 i h h' (settles_neg.1 hh)⟩
    · simp only [negated, a5]
    · simp only [negated, a6]
      rw [← abs_neg]
      congr 1
      ring
  · refine Or.inr ⟨a1, a2, ?_, a4, fun i h h' => fun hh => a5 i h h' (settles_neg.1 hh)⟩
    simp only [negated, a3]

/-- **C155.** Running along any curve in the opposite direction negates the line integral of any vector field, of any scalar
field, the length and the mass: same number of rounds, same error estimate, same verdict on convergence. -/
theorem reversed (meps : ℝ) (M : ℕ) (h1 : 1 ≤ M) (h32 : M ≤ 32) (eps a b : ℝ) (F : (Fin 3 → ℝ) → Fin 3 → ℝ)
    (f : (Fin 3 → ℝ) → ℝ) (c : ℝ → Fin 3 → ℝ) (ρ : ℝ → ℝ) :
    (∃ r, lineIntegralVector meps M eps F c a b = .ret r ∧ lineIntegralVector meps M eps F c b a = .ret (negated r)) ∧
    (∃ r, lineIntegralScalar meps M eps f c a b = .ret r ∧ lineIntegralScalar meps M eps f c b a = .ret (negated r)) ∧
    (∃ r, curveLength meps M eps c a b = .ret r ∧ curveLength meps M eps c b a = .ret (negated r)) ∧
    (∃ r, curveMass meps M eps c ρ a b = .ret r ∧ curveMass meps M eps c ρ b a = .ret (negated r)) :=
  ⟨integrateTrap_swap M h1 h32 _ a b eps, integrateTrap_swap M h1 h32 _ a b eps, integrateTrap_swap M h1 h32 _ a b eps,
    integrateTrap_swap M h1 h32 _ a b eps⟩

theorem withTangent_nonneg {F : (Fin N → ℝ) → ℝ} (hF : ∀ v, 0 ≤ F v) (o : Outcome (Fin N → ℝ)) : 0 ≤ withTangent F o := by
  cases o with
  | ret v => exact hF v
  | exn e => exact le_rfl
  | ub => exact le_rfl

/-- **C155.** For `a ≤ b` the length of any curve is not negative, it is the mass for the density 1 and the line integral of
the scalar field 1. -/
theorem length_nonneg (meps : ℝ) (M : ℕ) (h1 : 1 ≤ M) (h32 : M ≤ 32) (eps a b : ℝ) (hab : a ≤ b) (c : ℝ → Fin 3 → ℝ) :
    ∃ r, curveLength meps M eps c a b = .ret r ∧ 0 ≤ r.value ∧ curveMass meps M eps c (fun _ => 1) a b = .ret r ∧
      lineIntegralScalar meps M eps (fun _ => 1) c a b = .ret r := by
  obtain ⟨r, hr, ar⟩ := integrateTrap_spec M (speed meps c) a b eps h1 h32
  have hm : massRate meps c (fun _ => 1) = speed meps c := by funext t; simp [massRate, speed]
  have hs : scalarRate meps (fun _ => 1) c = speed meps c := by funext t; simp [scalarRate, speed]
  refine ⟨r, hr, ?_, by rw [curveMass, hm, hr], by rw [lineIntegralScalar, hs, hr]⟩
  have h0 : ∀ t, 0 ≤ speed meps c t := fun t => withTangent_nonneg (fun v => Real.sqrt_nonneg _) _
  have hT : ∀ n, 0 ≤ trapezoid (speed meps c) a b n := fun n =>
    Finset.sum_nonneg fun k _ => mul_nonneg (div_nonneg (by linarith) (Nat.cast_nonneg _))
      (div_nonneg (add_nonneg (h0 _) (h0 _)) (by norm_num))
  rcases ar with ⟨-, -, -, -, h, -⟩ | ⟨-, -, h, -⟩ <;> rw [h] <;> exact hT _

/-! ## Non-vacuity -/

example : curveLength (1 / 2 ^ 52) 20 (1 / 10 ^ 5) (fun t (k : Fin 2) => (![1, 2] : Fin 2 → ℝ) k + t * (![3, 4] : Fin 2 → ℝ) k) 0 2 =
    .ret ⟨10, 0, 6, true⟩ := by
  rw [(segment_exact (by positivity) 20 (by norm_num) (by norm_num) _ (by norm_num) ![1, 2] ![3, 4] 0 0 0 2).1]
  have : Real.sqrt (3 ^ 2 + 4 ^ 2) = 5 := by
    rw [show (3 : ℝ) ^ 2 + 4 ^ 2 = 5 ^ 2 by norm_num]; exact Real.sqrt_sq (by norm_num)
  simp only [Fin.sum_univ_two, Matrix.cons_val_zero, Matrix.cons_val_one, this]
  norm_num

example : lineIntegralVector (1 / 2 ^ 52) 20 (1 / 10 ^ 5) (fun _ => ![0, 0, -1]) (polyCurve ![X, 0, X ^ 2]) 0 3 =
    .ret ⟨-9, 0, 6, true⟩ := by
  rw [work_constant_field (by positivity) 20 (by norm_num) (by norm_num) _ (by norm_num) _ _ (fun k => by
    fin_cases k
    · exact natDegree_X_le.trans (by norm_num)
    · simp
    · simp) 0 3]
  simp [Fin.sum_univ_three, polyCurve]
  norm_num

example : ∃ (f : (Fin 3 → ℝ) → ℝ) (p v : Fin 3 → ℝ) (f0 f1 : ℝ), f1 ≠ 0 ∧
    ∀ t : ℝ, f (fun k => p k + t * v k) = f0 + f1 * t :=
  ⟨fun x => x 0 + 2 * x 1, ![1, 2, 3], ![4, 5, 6], 5, 14, by norm_num, fun t => by simp; ring⟩

end Verif.Path
