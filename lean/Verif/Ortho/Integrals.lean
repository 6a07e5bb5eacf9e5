import Verif.Ortho.Polys
import Mathlib.MeasureTheory.Integral.IntegralEqImproper
import Mathlib.Analysis.SpecialFunctions.Gaussian.GaussianIntegral
import Mathlib.Analysis.SpecialFunctions.Gamma.Basic
import Mathlib.Analysis.SpecialFunctions.Trigonometric.Chebyshev.Orthogonality
import Mathlib.MeasureTheory.Integral.IntervalIntegral.FundThmCalculus
import Mathlib.Analysis.Calculus.Deriv.Polynomial

/-!
# Orthogonal systems of polynomials

Specification `Orthogonal`, and proofs that the classical polynomials satisfy it.
-/

set_option autoImplicit false

namespace Verif.Ortho

open Polynomial MeasureTheory

/-- The polynomials `P n` have degree `n` and are orthogonal on `D` with weight `w`; the square of the norm of `P n` is `h n`.
All integrals of a polynomial times the weight exist. -/
structure Orthogonal (D : Set ℝ) (w : ℝ → ℝ) (P : ℕ → ℝ[X]) (h : ℕ → ℝ) : Prop where
  degree : ∀ n, (P n).natDegree = n
  integrable : ∀ q : ℝ[X], IntegrableOn (fun x => q.eval x * w x) D
  orth : ∀ m n, m ≠ n → ∫ x in D, (P m).eval x * (P n).eval x * w x = 0
  norm : ∀ n, ∫ x in D, (P n).eval x ^ 2 * w x = h n
  pos : ∀ n, 0 < h n

/-- Integration against a weight. -/
noncomputable def functional (D : Set ℝ) (w : ℝ → ℝ) (hi : ∀ q : ℝ[X], IntegrableOn (fun x => q.eval x * w x) D) : ℝ[X] →ₗ[ℝ] ℝ where
  toFun q := ∫ x in D, q.eval x * w x
  map_add' p q := by
    rw [← integral_add (hi p) (hi q)]
    congr 1
    ext x
    rw [eval_add]; ring
  map_smul' r q := by
    rw [RingHom.id_apply, smul_eq_mul, ← integral_const_mul]
    congr 1
    ext x
    rw [eval_smul, smul_eq_mul]; ring

theorem functional_apply {D : Set ℝ} {w : ℝ → ℝ} (hi : ∀ q : ℝ[X], IntegrableOn (fun x => q.eval x * w x) D) (q : ℝ[X]) :
    functional D w hi q = ∫ x in D, q.eval x * w x := rfl

theorem Three.orthogonal {p : ℕ → ℝ[X]} {a b c : ℕ → ℝ} (h3 : Three p a b c) {D : Set ℝ} {w : ℝ → ℝ}
    (hi : ∀ q : ℝ[X], IntegrableOn (fun x => q.eval x * w x) D) (hL : ∀ n, ∫ x in D, (p (n + 1)).eval x * w x = 0) (h : ℕ → ℝ)
    (h0 : ∫ x in D, w x = h 0) (hs : ∀ n, a (n + 1) * h (n + 1) = -c (n + 1) * a n * h n) (hpos : ∀ n, 0 < h n) : Orthogonal D w p h where
  degree n := (h3.degree n).1
  integrable := hi
  orth m n hmn := by
    have := h3.orth (L := functional D w hi) hL hmn
    rw [functional_apply] at this
    simpa [eval_mul] using this
  norm n := by
    have key : ∀ n, functional D w hi (p n * p n) = h n := by
      intro n
      induction n with
      | zero =>
        rw [functional_apply, h3.zero, ← h0]
        simp
      | succ n ih =>
        have := h3.norm_succ (L := functional D w hi) hL n
        rw [ih, ← hs n] at this
        exact mul_left_cancel₀ (h3.ne _) this
    rw [← key n, functional_apply]
    congr 1
    ext x
    rw [eval_mul]; ring
  pos := hpos

/-- Polynomials are the sum of their projections. -/
theorem Orthogonal.expand {p : ℕ → ℝ[X]} {D : Set ℝ} {w : ℝ → ℝ} {h : ℕ → ℝ} (ho : Orthogonal D w p h) (N : ℕ) (q : ℝ[X])
    (hq : q.natDegree ≤ N) :
    q = ∑ n ∈ Finset.range (N + 1), C ((∫ x in D, q.eval x * (p n).eval x * w x) / h n) * p n := by
  have hm : ∀ q n, functional D w ho.integrable (q * p n) = ∫ x in D, q.eval x * (p n).eval x * w x := by
    intro q n
    rw [functional_apply]
    simp [eval_mul]
  have hn : ∀ n, functional D w ho.integrable (p n * p n) = h n := by
    intro n
    rw [hm, ← ho.norm n]
    congr 1
    ext x
    ring
  have hne : ∀ n, p n ≠ 0 := by
    intro n e
    have h1 := hn n
    rw [e, mul_zero, map_zero] at h1
    exact (ho.pos n).ne h1
  obtain ⟨d, hd⟩ := span_of_degree ho.degree hne N q hq
  have hc : ∀ n ∈ Finset.range (N + 1), (∫ x in D, q.eval x * (p n).eval x * w x) / h n = d n := by
    intro n hnN
    rw [div_eq_iff (ho.pos n).ne', ← hm]
    conv_lhs => rw [hd]
    rw [Finset.sum_mul, map_sum, Finset.sum_eq_single n]
    · rw [mul_assoc, C_mul', map_smul, smul_eq_mul, hn]
    · intro k _ hk
      rw [mul_assoc, C_mul', map_smul, smul_eq_mul, hm, ho.orth _ _ hk, mul_zero]
    · exact fun hh => absurd hnN hh
  conv_lhs => rw [hd]
  exact Finset.sum_congr rfl fun n hnN => by rw [hc n hnN]

/-- Two systems for the same weight differ by factors. -/
theorem Orthogonal.unique {p q : ℕ → ℝ[X]} {D : Set ℝ} {w : ℝ → ℝ} {h k : ℕ → ℝ} (hp : Orthogonal D w p h) (hq : Orthogonal D w q k) (n : ℕ) :
    ∃ r : ℝ, q n = C r * p n := by
  have hz : ∀ m < n, ∫ x in D, (q n).eval x * (p m).eval x * w x = 0 := by
    intro m hm
    have e := hq.expand m (p m) (hp.degree m).le
    have h0 : functional D w hp.integrable (q n * p m) = 0 := by
      rw [e, Finset.mul_sum, map_sum]
      refine Finset.sum_eq_zero fun i hi => ?_
      have him : i ≠ n := by have := Finset.mem_range.1 hi; omega
      rw [mul_left_comm, C_mul', map_smul, functional_apply]
      simp only [eval_mul]
      rw [hq.orth _ _ (Ne.symm him), smul_zero]
    rw [functional_apply] at h0
    simpa [eval_mul] using h0
  have e := hp.expand n (q n) (hq.degree n).le
  rw [Finset.sum_range_succ, Finset.sum_eq_zero, zero_add] at e
  · exact ⟨_, e⟩
  · intro m hm
    rw [hz m (Finset.mem_range.1 hm), zero_div, C_0, zero_mul]

/-! ## Legendre -/

theorem integral_derivative (q : ℝ[X]) : ∫ x in (-1 : ℝ)..1, (derivative q).eval x = q.eval 1 - q.eval (-1) :=
  intervalIntegral.integral_eq_sub_of_hasDerivAt (fun x _ => q.hasDerivAt x) ((derivative q).continuous.intervalIntegrable _ _)

theorem integral_Icc (f : ℝ → ℝ) : ∫ x in Set.Icc (-1 : ℝ) 1, f x = ∫ x in (-1 : ℝ)..1, f x := by
  rw [intervalIntegral.integral_of_le (by norm_num), integral_Icc_eq_integral_Ioc]

theorem legP_integral (n : ℕ) : ∫ x in (-1 : ℝ)..1, (legP (n + 1)).eval x = 0 := by
  have h := integral_derivative ((1 - X ^ 2) * derivative (legP (n + 1)))
  rw [legP_ode] at h
  simp only [eval_mul, eval_sub, eval_pow, eval_X, eval_one, eval_neg, eval_add, eval_natCast] at h
  rw [intervalIntegral.integral_const_mul] at h
  have hn : -(((n + 1 : ℕ) : ℝ) * (((n + 1 : ℕ) : ℝ) + 1)) ≠ 0 := neg_ne_zero.2 (by positivity)
  have : -(((n + 1 : ℕ) : ℝ) * (((n + 1 : ℕ) : ℝ) + 1)) * ∫ x in (-1 : ℝ)..1, (legP (n + 1)).eval x = 0 := by
    rw [h]; ring
  exact (mul_eq_zero.1 this).resolve_left hn

theorem legendre_orthogonal : Orthogonal (Set.Icc (-1) 1) (fun _ => 1) legP (fun n => 2 / (2 * n + 1)) :=
  legP_three.orthogonal
    (fun q => by
      have : Continuous fun x : ℝ => q.eval x * 1 := by fun_prop
      exact this.continuousOn.integrableOn_Icc)
    (fun n => by rw [integral_Icc]; simpa using legP_integral n) _
    (by rw [integral_Icc]; norm_num)
    (fun n => by
      push_cast
      have h1 : (n : ℝ) + 1 ≠ 0 := by positivity
      have h2 : 2 * (n : ℝ) + 1 ≠ 0 := by positivity
      have h3 : (n : ℝ) + 1 + 1 ≠ 0 := by positivity
      have h4 : 2 * ((n : ℝ) + 1) + 1 ≠ 0 := by positivity
      field_simp)
    (fun n => by positivity)

/-- The associated functions: the derivatives of order `m` are orthogonal with weight `(1 - x²)^m`. -/
theorem legendre_assoc (m l k : ℕ) :
    ∫ x in (-1 : ℝ)..1, (1 - x ^ 2) ^ m * ((derivative^[m] (legP l)).eval x * (derivative^[m] (legP k)).eval x) =
      (∏ i ∈ Finset.range m, ((l : ℝ) - i) * (l + i + 1)) * if l = k then 2 / (2 * (l : ℝ) + 1) else 0 := by
  induction m with
  | zero =>
    have := legendre_orthogonal
    simp only [Function.iterate_zero, id, pow_zero, one_mul, Finset.range_zero, Finset.prod_empty]
    split_ifs with h
    · subst h
      rw [← legendre_orthogonal.norm l, integral_Icc]
      congr 1
      ext x
      ring
    · rw [← legendre_orthogonal.orth l k h, integral_Icc]
      congr 1
      ext x
      ring
  | succ m ih =>
    have h := integral_derivative ((1 - X ^ 2) ^ (m + 1) * derivative^[m + 1] (legP l) * derivative^[m] (legP k))
    have e : derivative ((1 - X ^ 2) ^ (m + 1) * derivative^[m + 1] (legP l) * derivative^[m] (legP k)) =
        (1 - X ^ 2) ^ (m + 1) * (derivative^[m + 1] (legP l) * derivative^[m + 1] (legP k)) -
          C (((l : ℝ) - m) * (l + m + 1)) * ((1 - X ^ 2) ^ m * (derivative^[m] (legP l) * derivative^[m] (legP k))) := by
      have ho := legP_ode_iter l m
      rw [derivative_mul, derivative_mul, ← Function.iterate_succ_apply' (f := derivative), ← Function.iterate_succ_apply' (f := derivative),
        derivative_pow_succ]
      simp only [derivative_sub, derivative_one, derivative_pow, derivative_X, C_mul, C_sub, C_add, C_1, ← cast_C, C2]
      push_cast
      try simp only [C2]
      linear_combination (1 - X ^ 2) ^ m * derivative^[m] (legP k) * ho
    rw [e] at h
    simp only [eval_sub, eval_mul, eval_pow, eval_one, eval_X, eval_C] at h
    rw [intervalIntegral.integral_sub (by apply Continuous.intervalIntegrable; fun_prop) (by apply Continuous.intervalIntegrable; fun_prop),
      intervalIntegral.integral_const_mul, ih] at h
    rw [Finset.prod_range_succ]
    have hz : ((1 : ℝ) - 1 ^ 2) ^ (m + 1) = 0 := by norm_num
    have hz' : ((1 : ℝ) - (-1) ^ 2) ^ (m + 1) = 0 := by norm_num
    rw [hz, hz'] at h
    linear_combination h

/-! ## Hermite -/

theorem gauss_integrable (q : ℝ[X]) : Integrable (fun x : ℝ => q.eval x * Real.exp (-x * x)) := by
  induction q using Polynomial.induction_on' with
  | add p q hp hq =>
    refine (hp.add hq).congr (Filter.Eventually.of_forall fun x => ?_)
    simp only [Pi.add_apply, eval_add]
    ring
  | monomial k r =>
    have h := integrable_rpow_mul_exp_neg_mul_sq (b := 1) one_pos (s := k) (by have : (0 : ℝ) ≤ k := Nat.cast_nonneg k; linarith)
    refine (h.const_mul r).congr (Filter.Eventually.of_forall fun x => ?_)
    simp only [eval_monomial, Real.rpow_natCast]
    rw [show -x * x = -1 * x ^ 2 by ring]
    ring

theorem herP_integral (n : ℕ) : ∫ x : ℝ, (herP (n + 1)).eval x * Real.exp (-x * x) = 0 := by
  have h : ∀ x : ℝ, HasDerivAt (fun x => -((herP n).eval x * Real.exp (-x * x))) ((herP (n + 1)).eval x * Real.exp (-x * x)) x := by
    intro x
    have h1 := (herP n).hasDerivAt x
    have h2 : HasDerivAt (fun x : ℝ => Real.exp (-x * x)) (Real.exp (-x * x) * (-1 * x + -x * 1)) x :=
      ((hasDerivAt_id x).neg.mul (hasDerivAt_id x)).exp
    have := (h1.mul h2).neg
    refine this.congr_deriv ?_
    rw [herP_next]
    simp only [eval_sub, eval_mul, eval_X, eval_ofNat]
    ring
  exact integral_eq_zero_of_hasDerivAt_of_integrable h (gauss_integrable _) (gauss_integrable _).neg

theorem hermite_orthogonal : Orthogonal Set.univ (fun x => Real.exp (-x * x)) herP (fun n => 2 ^ n * n.factorial * Real.sqrt Real.pi) :=
  herP_three.orthogonal
    (fun q => (gauss_integrable q).integrableOn)
    (fun n => by rw [Measure.restrict_univ]; exact herP_integral n) _
    (by
      rw [Measure.restrict_univ]
      have := integral_gaussian 1
      simp only [div_one] at this
      rw [pow_zero, Nat.factorial_zero, Nat.cast_one, one_mul, one_mul, ← this]
      congr 1
      ext x
      rw [show -x * x = -1 * x ^ 2 by ring])
    (fun n => by
      rw [Nat.factorial_succ]
      push_cast
      ring)
    (fun n => by positivity)

/-! ## Laguerre -/

theorem gamma_integrable (α : ℝ) (hα : -1 < α) (k : ℕ) : IntegrableOn (fun x : ℝ => x ^ k * (x ^ α * Real.exp (-x))) (Set.Ioi 0) := by
  have h := Real.GammaIntegral_convergent (s := α + k + 1) (by have : (0 : ℝ) ≤ k := Nat.cast_nonneg k; linarith)
  refine h.congr_fun (fun x hx => ?_) measurableSet_Ioi
  have hx' : 0 < x := hx
  simp only
  rw [show α + (k : ℝ) + 1 - 1 = α + k by ring, Real.rpow_add hx', Real.rpow_natCast]
  ring

theorem gamma_moment (α : ℝ) (hα : -1 < α) (k : ℕ) :
    ∫ x in Set.Ioi (0 : ℝ), x ^ k * (x ^ α * Real.exp (-x)) = Real.Gamma (α + k + 1) := by
  rw [Real.Gamma_eq_integral (by have : (0 : ℝ) ≤ k := Nat.cast_nonneg k; linarith)]
  refine setIntegral_congr_fun measurableSet_Ioi fun x hx => ?_
  have hx' : 0 < x := hx
  try beta_reduce
  rw [show α + (k : ℝ) + 1 - 1 = α + k by ring, Real.rpow_add hx', Real.rpow_natCast]
  ring

theorem laguerre_integrable (α : ℝ) (hα : -1 < α) (q : ℝ[X]) : IntegrableOn (fun x : ℝ => q.eval x * (x ^ α * Real.exp (-x))) (Set.Ioi 0) := by
  induction q using Polynomial.induction_on' with
  | add p q hp hq =>
    refine (hp.add hq).congr (Filter.Eventually.of_forall fun x => ?_)
    simp only [Pi.add_apply, eval_add]
    ring
  | monomial k r =>
    refine ((gamma_integrable α hα k).const_mul r).congr (Filter.Eventually.of_forall fun x => ?_)
    simp only [eval_monomial]
    ring

/-- Integration by parts. -/
theorem laguerre_parts (α : ℝ) (hα : -1 < α) (q : ℝ[X]) :
    functional (Set.Ioi 0) (fun x => x ^ α * Real.exp (-x)) (laguerre_integrable α hα) (X * derivative q + (C (α + 1) - X) * q) = 0 := by
  induction q using Polynomial.induction_on' with
  | add p q hp hq =>
    rw [derivative_add, show X * (derivative p + derivative q) + (C (α + 1) - X) * (p + q) =
      (X * derivative p + (C (α + 1) - X) * p) + (X * derivative q + (C (α + 1) - X) * q) by ring, map_add, hp, hq, add_zero]
  | monomial k r =>
    have e : X * derivative (monomial k r) + (C (α + 1) - X) * monomial k r =
        (r * (α + k + 1)) • X ^ k - r • (X ^ (k + 1) : ℝ[X]) := by
      rw [derivative_monomial, ← C_mul_X_pow_eq_monomial, ← C_mul_X_pow_eq_monomial, smul_eq_C_mul, smul_eq_C_mul]
      simp only [C_mul, C_add, C_1, ← cast_C]
      cases k with
      | zero => simp; ring
      | succ k => simp only [Nat.add_sub_cancel]; ring
    rw [e, map_sub, map_smul, map_smul, smul_eq_mul, smul_eq_mul, functional_apply, functional_apply]
    simp only [eval_pow, eval_X]
    rw [gamma_moment α hα, gamma_moment α hα]
    have hk : α + (k : ℝ) + 1 ≠ 0 := by
      have : (0 : ℝ) ≤ k := Nat.cast_nonneg k
      linarith
    push_cast
    rw [← add_assoc, Real.Gamma_add_one hk]
    ring

theorem laguerre_orthogonal (α : ℝ) (hα : -1 < α) : Orthogonal (Set.Ioi 0) (fun x => x ^ α * Real.exp (-x)) (lagP α)
    (fun n => Real.Gamma (α + n + 1) / n.factorial) :=
  (lagP_three α).orthogonal (laguerre_integrable α hα)
    (fun n => by
      have h := laguerre_parts α hα (derivative (lagP α (n + 1)))
      have ho := lagP_ode α (n + 1)
      have e : X * derivative (derivative (lagP α (n + 1))) + (C (α + 1) - X) * derivative (lagP α (n + 1)) = (-((n : ℝ) + 1)) • lagP α (n + 1) := by
        simp only [smul_eq_C_mul, C_neg, C_add, C_1, ← cast_C] at ho ⊢
        push_cast at ho
        linear_combination ho
      rw [e, map_smul, smul_eq_mul, functional_apply] at h
      have hn : -((n : ℝ) + 1) ≠ 0 := neg_ne_zero.2 (by positivity)
      exact (mul_eq_zero.1 h).resolve_left hn) _
    (by
      have := gamma_moment α hα 0
      simpa using this)
    (fun n => by
      have hk : α + (n : ℝ) + 1 ≠ 0 := by
        have : (0 : ℝ) ≤ n := Nat.cast_nonneg n
        linarith
      have hf : (n.factorial : ℝ) ≠ 0 := by positivity
      have h1 : (n : ℝ) + 1 ≠ 0 := by positivity
      have h2 : (n : ℝ) + 1 + 1 ≠ 0 := by positivity
      push_cast
      rw [← add_assoc, Real.Gamma_add_one hk, Nat.factorial_succ]
      push_cast
      field_simp
      ring)
    (fun n => by
      have hk : 0 < α + (n : ℝ) + 1 := by
        have : (0 : ℝ) ≤ n := Nat.cast_nonneg n
        linarith
      have := Real.Gamma_pos_of_pos hk
      positivity)

/-! ## Chebyshev -/

theorem integral_Ioo (f : ℝ → ℝ) : ∫ x in Set.Ioo (-1 : ℝ) 1, f x = ∫ x in (-1 : ℝ)..1, f x := by
  rw [← integral_Icc, integral_Icc_eq_integral_Ioo]

theorem chebT_integral (f : ℝ → ℝ) : ∫ x in Set.Ioo (-1 : ℝ) 1, f x * (1 / Real.sqrt (1 - x * x)) = ∫ x, f x ∂Chebyshev.measureT := by
  rw [Chebyshev.integral_measureT, integral_Ioo]
  congr 1
  ext x
  rw [Real.sqrt_inv, one_div, pow_two]

theorem chebT_integrable (q : ℝ[X]) : IntegrableOn (fun x => q.eval x * (1 / Real.sqrt (1 - x * x))) (Set.Ioo (-1) 1) := by
  have h1 := Chebyshev.intervalIntegrable_sqrt_one_sub_sq_inv
  have h2 : IntervalIntegrable (fun x => q.eval x * (1 / Real.sqrt (1 - x * x))) volume (-1) 1 := by
    refine (h1.continuousOn_mul q.continuous.continuousOn).congr fun x _ => ?_
    beta_reduce
    rw [Real.sqrt_inv, one_div, pow_two]
  exact ((intervalIntegrable_iff_integrableOn_Ioo_of_le (by norm_num)).1 h2)

theorem chebT_orthogonal : Orthogonal (Set.Ioo (-1) 1) (fun x => 1 / Real.sqrt (1 - x * x)) (fun n => Chebyshev.T ℝ n)
    (fun n => if n = 0 then Real.pi else Real.pi / 2) where
  degree n := by
    rw [Chebyshev.natDegree_T]
    simp
  integrable := chebT_integrable
  orth m n hmn := by
    rw [chebT_integral (fun x => (Chebyshev.T ℝ m).eval x * (Chebyshev.T ℝ n).eval x)]
    exact Chebyshev.integral_eval_T_real_mul_eval_T_real_measureT_of_ne hmn
  norm n := by
    rw [chebT_integral (fun x => (Chebyshev.T ℝ n).eval x ^ 2)]
    simp only [pow_two]
    split_ifs with h
    · subst h
      exact Chebyshev.integral_eval_T_real_mul_self_measureT_zero
    · exact Chebyshev.integral_T_real_mul_self_measureT_of_ne_zero h
  pos n := by split_ifs <;> positivity

theorem chebU_three : Three (fun n => Chebyshev.U ℝ n) (fun _ => 2) (fun _ => 0) (fun _ => -1) where
  zero := by simp
  one := by simp [C2]
  step := by
    intro n
    have := Chebyshev.U_add_two ℝ (n : ℤ)
    push_cast
    rw [this]
    simp only [C2, C_0, C_neg, C_1]
    ring
  ne := by intro n; norm_num

theorem sqrt_weight (x : ℝ) (hx : x ∈ Set.Ioo (-1 : ℝ) 1) (r : ℝ) :
    r * Real.sqrt (1 - x * x) = (1 - x ^ 2) * r * (1 / Real.sqrt (1 - x * x)) := by
  have h : 0 < 1 - x * x := by nlinarith [hx.1, hx.2]
  have hs := Real.sqrt_pos.2 h
  have := Real.mul_self_sqrt h.le
  rw [mul_one_div, eq_div_iff hs.ne']
  linear_combination r * this

theorem chebU_zero (n : ℕ) : ∫ x in Set.Ioo (-1 : ℝ) 1, (Chebyshev.U ℝ n).eval x * Real.sqrt (1 - x * x) = if n = 0 then Real.pi / 2 else 0 := by
  have e : ∫ x in Set.Ioo (-1 : ℝ) 1, (Chebyshev.U ℝ n).eval x * Real.sqrt (1 - x * x) =
      functional (Set.Ioo (-1) 1) _ chebT_integrable ((1 - X ^ 2) * Chebyshev.U ℝ n) := by
    rw [functional_apply]
    refine setIntegral_congr_fun measurableSet_Ioo fun x hx => ?_
    beta_reduce
    rw [sqrt_weight x hx]
    simp
  have e2 : (1 - X ^ 2) * Chebyshev.U ℝ n = (1 / 2 : ℝ) • (Chebyshev.T ℝ n - Chebyshev.T ℝ (n + 2)) := by
    have h1 := Chebyshev.one_sub_X_sq_mul_U_eq_pol_in_T ℝ n
    have h2 := Chebyshev.T_add_two ℝ n
    have hc : (C (1 / 2) : ℝ[X]) * 2 = 1 := by rw [← C2, ← C_mul]; norm_num
    rw [smul_eq_C_mul, h1, h2]
    linear_combination (X * Chebyshev.T ℝ (n + 1) - Chebyshev.T ℝ (n : ℤ)) * hc
  have hT : ∀ k : ℕ, functional (Set.Ioo (-1) 1) _ chebT_integrable (Chebyshev.T ℝ k) = if k = 0 then Real.pi else 0 := by
    intro k
    rw [functional_apply, chebT_integral (fun x => (Chebyshev.T ℝ k).eval x)]
    split_ifs with h
    · subst h
      exact Chebyshev.integral_eval_T_real_measureT_zero
    · exact Chebyshev.integral_eval_T_real_measureT_of_ne_zero (by omega)
  rw [e, e2, map_smul, map_sub, hT n]
  have := hT (n + 2)
  push_cast at this
  rw [this]
  split_ifs <;> simp
  ring

theorem chebU_orthogonal : Orthogonal (Set.Ioo (-1) 1) (fun x => Real.sqrt (1 - x * x)) (fun n => Chebyshev.U ℝ n) (fun _ => Real.pi / 2) :=
  chebU_three.orthogonal
    (fun q => by
      have : Continuous fun x : ℝ => q.eval x * Real.sqrt (1 - x * x) := by fun_prop
      exact this.continuousOn.integrableOn_Icc.mono_set Set.Ioo_subset_Icc_self)
    (fun n => by
      have := chebU_zero (n + 1)
      simpa using this) _
    (by
      have := chebU_zero 0
      simpa using this)
    (fun n => by ring)
    (fun n => by positivity)

end Verif.Ortho
