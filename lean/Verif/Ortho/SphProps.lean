import Verif.Ortho.MoreProps
import Mathlib.Analysis.Real.Pi.Bounds

/-!
# Associated Legendre functions, coefficients of an expansion, factorials (C106)
-/

set_option autoImplicit false

namespace Verif.Ortho

open Verif Polynomial MeasureTheory
open Verif.Cheb (quot)

/-! ## Associated Legendre functions -/

theorem diag_eq (m : ℕ) (x : ℝ) (h : m = 0 ∨ |x| ≤ 1) :
    diag m x = .ret ((-1) ^ m * Real.sqrt (1 - x ^ 2) ^ m * ∏ k ∈ Finset.range m, (2 * (k : ℝ) + 1)) := by
  rcases Nat.eq_zero_or_pos m with rfl | hm
  · simp [diag]
  · have hx : |x| ≤ 1 := by rcases h with h | h; omega; exact h
    have hx2 : ¬ 1 - x * x < 0 := by
      have := abs_le.1 hx
      nlinarith
    rw [diag, if_pos hm, sqrtU, if_neg hx2, Outcome.bind_ret]
    obtain ⟨t, ht, hP⟩ := forFromTo_rule (fun i (s : ℝ × ℝ) =>
      s.1 = (-1) ^ (i - 1) * Real.sqrt (1 - x ^ 2) ^ (i - 1) * ∏ k ∈ Finset.range (i - 1), (2 * (k : ℝ) + 1) ∧ s.2 = 2 * ((i - 1 : ℕ) : ℝ) + 1)
      1 (m + 1) (by omega) (1, 1) (diagStep (Real.sqrt (1 - x * x))) (by simp) (by
        rintro i ⟨p, f⟩ hi - ⟨e1, e2⟩
        obtain ⟨j, rfl⟩ : ∃ j, i = j + 1 := ⟨i - 1, by omega⟩
        refine ⟨_, rfl, ?_, ?_⟩
        · simp only [Nat.add_sub_cancel] at e1 e2 ⊢
          rw [Finset.prod_range_succ, e1, e2, ← pow_two x]
          ring
        · simp only [Nat.add_sub_cancel] at e2 ⊢
          rw [e2]
          push_cast
          ring)
    rw [ht, Outcome.bind_ret, hP.1]
    rfl

theorem assocLegendre_eq (l m : ℕ) (x : ℝ) (h : m = 0 ∨ |x| ≤ 1) :
    assocLegendre l m x = .ret ((-1) ^ m * Real.sqrt (1 - x ^ 2) ^ m * (derivative^[m] (legP l)).eval x) := by
  rw [assocLegendre]
  by_cases h1 : m > l
  · rw [if_pos h1, legP_low l m h1]
    simp
  rw [if_neg h1, diag_eq m x h, Outcome.bind_ret]
  set c := (-1 : ℝ) ^ m * Real.sqrt (1 - x ^ 2) ^ m with hc
  set f : ℕ → ℝ := fun i => c * (derivative^[m] (legP (m + i))).eval x with hf
  have f0 : c * ∏ k ∈ Finset.range m, (2 * (k : ℝ) + 1) = f 0 := by
    rw [hf]
    beta_reduce
    rw [add_zero, legP_top, eval_C]
  have f1 : x * (2 * m + 1) * f 0 = f 1 := by
    have e := congrArg (fun p : ℝ[X] => p.eval x) (legP_iter (m - 1) m)
    rcases Nat.eq_zero_or_pos m with h0 | hm
    · subst h0
      simp [hf, legP, mul_comm]
    · obtain ⟨j, rfl⟩ : ∃ j, m = j + 1 := ⟨m - 1, by omega⟩
      rw [Nat.add_sub_cancel, legP_low j (j + 1) (by omega)] at e
      simp only [eval_mul, eval_sub, eval_add, eval_ofNat, eval_natCast, eval_one, eval_X, eval_zero, mul_zero, sub_zero] at e
      push_cast at e
      simp only [hf, add_zero, show j + 1 + 1 = j + 2 by omega]
      push_cast
      linear_combination -c * e
  rw [f0]
  by_cases h2 : l = m
  · rw [if_pos h2, hf, h2]
    simp
  rw [if_neg h2]
  by_cases h3 : l = m + 1
  · rw [if_pos h3, f1, h3]
  · rw [if_neg h3, f1]
    obtain ⟨j, hj⟩ : ∃ j, l = m + 2 + j := ⟨l - m - 2, by omega⟩
    obtain ⟨s, hs, he⟩ := rec_run (assocLegendreStep m x) (m + 2) (j + 1) (by omega) f 0 (by
      intro i z'
      rw [assocLegendreStep]
      have hd : (((m + 2 + i - m : ℕ) : ℝ)) = (i : ℝ) + 2 := by
        rw [show m + 2 + i - m = i + 2 by omega]; push_cast; ring
      rw [hd, quot_ret _ _ (by positivity), Outcome.bind_ret]
      have e := congrArg (fun p : ℝ[X] => p.eval x) (legP_iter (m + i) m)
      simp only [eval_mul, eval_sub, eval_add, eval_ofNat, eval_natCast, eval_one, eval_X] at e
      push_cast at e
      have hv : (x * (2 * ((m + 2 + i : ℕ) : ℝ) - 1) * f (i + 1) - (((m + 2 + i : ℕ) : ℝ) + m - 1) * f i) / ((i : ℝ) + 2) = f (i + 2) := by
        rw [div_eq_iff (by positivity)]
        simp only [hf, ← add_assoc]
        push_cast
        linear_combination -c * e
      rw [Rec.push, hv])
    rw [show l + 1 = m + 2 + (j + 1) by omega, hs, Outcome.bind_ret, he, hf, hj]
    ring_nf

/-- `AssocLegendre` is `(-1)^m (1-x²)^(m/2)` times the derivative of order `m` of the Legendre polynomial: the values of `Legendre` fix
the polynomials `P`. -/
theorem assocLegendre_spec : ∃ P : ℕ → ℝ[X], (∀ l x, legendre l x = .ret ((P l).eval x)) ∧
    ∀ l m x, m = 0 ∨ |x| ≤ 1 → assocLegendre l m x = .ret ((-1) ^ m * Real.sqrt (1 - x ^ 2) ^ m * (derivative^[m] (P l)).eval x) :=
  ⟨legP, legendre_eq, assocLegendre_eq⟩

/-- Outside the interval the root of a negative number is taken, ... -/
theorem assocLegendre_outside (l m : ℕ) (x : ℝ) (h0 : 0 < m) (hm : m ≤ l) (hx : 1 < |x|) : assocLegendre l m x = .ub := by
  have hx2 : 1 - x * x < 0 := by
    rcases lt_abs.1 hx with h | h <;> nlinarith
  rw [assocLegendre, if_neg (by omega), diag, if_pos h0, sqrtU, if_pos hx2, Outcome.bind_ub, Outcome.bind_ub]

/-- ... and an order above the degree gives zero. -/
theorem assocLegendre_high (l m : ℕ) (x : ℝ) (hm : l < m) : assocLegendre l m x = .ret 0 := by
  rw [assocLegendre, if_pos hm]

theorem ratio_run (a b : ℕ) (hab : a + 1 ≤ b) : forFromTo (a + 1) b 1 ratioStep = .ret (∏ j ∈ Finset.Ico (a + 1) b, (j : ℝ))⁻¹ := by
  obtain ⟨t, ht, hP⟩ := forFromTo_rule (fun i (r : ℝ) => r = (∏ j ∈ Finset.Ico (a + 1) i, (j : ℝ))⁻¹) (a + 1) b hab 1 ratioStep
    (by simp) (by
      rintro i r hi _ rfl
      have : (i : ℝ) ≠ 0 := by exact_mod_cast (by omega : i ≠ 0)
      refine ⟨_, quot_ret _ _ this, ?_⟩
      rw [Finset.prod_Ico_succ_top (by omega), mul_inv, div_eq_mul_inv])
  rw [ht, hP]

theorem prod_Ico_fact (l m : ℕ) (h : m ≤ l) : (∏ j ∈ Finset.Ico (l - m + 1) (l + m + 1), (j : ℝ)) = (l + m).factorial / (l - m).factorial := by
  rw [eq_div_iff (by positivity), mul_comm]
  have h1 := Finset.prod_range_add_one_eq_factorial (l - m)
  have h2 := Finset.prod_range_add_one_eq_factorial (l + m)
  rw [← h1, ← h2]
  push_cast
  have h3 := Finset.prod_range_mul_prod_Ico (fun j : ℕ => (j : ℝ) + 1) (show l - m ≤ l + m by omega)
  rw [← h3]
  congr 1
  rw [Finset.prod_Ico_add' (fun j : ℕ => (j : ℝ)) (l - m) (l + m) 1 |>.symm]
  push_cast
  rfl

theorem prod_fact (l m : ℕ) (h : m ≤ l) : (∏ i ∈ Finset.range m, ((l : ℝ) - i) * (l + i + 1)) = (l + m).factorial / (l - m).factorial := by
  induction m with
  | zero => rw [Finset.prod_range_zero, add_zero, Nat.sub_zero, div_self (by positivity)]
  | succ m ih =>
    rw [Finset.prod_range_succ, ih (by omega)]
    obtain ⟨d, rfl⟩ : ∃ d, l = m + 1 + d := ⟨l - m - 1, by omega⟩
    rw [show m + 1 + d - m = d + 1 by omega, show m + 1 + d - (m + 1) = d by omega, ← add_assoc (m + 1 + d) m 1, Nat.factorial_succ d,
      Nat.factorial_succ (m + 1 + d + m)]
    push_cast
    have : (d.factorial : ℝ) ≠ 0 := by positivity
    have : (d : ℝ) + 1 ≠ 0 := by positivity
    field_simp
    ring

theorem sphLegendre_eq (l m : ℕ) (h : m ≤ l) (hl : l + 1 < 2 ^ 32) (θ : ℝ) : sphLegendre l m θ =
    .ret (Real.sqrt ((2 * l + 1) / (4 * Real.pi) * ((l - m).factorial / (l + m).factorial)) *
      ((-1) ^ m * |Real.sin θ| ^ m * (derivative^[m] (legP l)).eval (Real.cos θ))) := by
  rw [sphLegendre, assocLegendre_eq l m _ (Or.inr (Real.abs_cos_le_one θ)), Outcome.bind_ret,
    show (l + 2 ^ 32 - m + 1) % 2 ^ 32 = l - m + 1 by omega, ratio_run _ _ (by omega), Outcome.bind_ret, prod_Ico_fact l m h, inv_div, sqrtU,
    if_neg (not_lt.2 (by positivity)), Outcome.bind_ret, ← Real.abs_sin_eq_sqrt_one_sub_cos_sq]

/-- `SphLegendre` in terms of the Legendre polynomials (`P` is fixed by `Legendre`). -/
theorem sphLegendre_spec : ∃ P : ℕ → ℝ[X], (∀ l x, legendre l x = .ret ((P l).eval x)) ∧ ∀ (l m : ℕ) (θ : ℝ), m ≤ l → l + 1 < 2 ^ 32 →
    sphLegendre l m θ = .ret (Real.sqrt ((2 * l + 1) / (4 * Real.pi) * ((l - m).factorial / (l + m).factorial)) *
      ((-1) ^ m * |Real.sin θ| ^ m * (derivative^[m] (P l)).eval (Real.cos θ))) :=
  ⟨legP, legendre_eq, fun l m θ h hl => sphLegendre_eq l m h hl θ⟩

/-- The value of an outcome that returns. -/
def value (o : Outcome ℝ) : ℝ := match o with | .ret v => v | _ => 0

/-- The functions `SphLegendre(·, m, ·)` are orthonormal on the sphere: with the factor `exp (imφ)`, whose square has the integral `2π`. -/
theorem sphLegendre_orthonormal (m l k : ℕ) (hl : m ≤ l) (hk : m ≤ k) (hl2 : l + 1 < 2 ^ 32) (hk2 : k + 1 < 2 ^ 32) :
    2 * Real.pi * ∫ θ in (0 : ℝ)..Real.pi, value (sphLegendre l m θ) * value (sphLegendre k m θ) * Real.sin θ = if l = k then 1 else 0 := by
  set A := fun l : ℕ => Real.sqrt ((2 * l + 1) / (4 * Real.pi) * ((l - m).factorial / (l + m).factorial)) with hA
  set g := fun x : ℝ => (1 - x ^ 2) ^ m * ((derivative^[m] (legP l)).eval x * (derivative^[m] (legP k)).eval x) with hg
  have e1 : ∀ θ : ℝ, value (sphLegendre l m θ) * value (sphLegendre k m θ) * Real.sin θ = A l * A k * (g (Real.cos θ) * Real.sin θ) := by
    intro θ
    rw [sphLegendre_eq l m hl hl2, sphLegendre_eq k m hk hk2]
    simp only [value, hg, hA]
    have h1 : |Real.sin θ| ^ m * |Real.sin θ| ^ m = (1 - Real.cos θ ^ 2) ^ m := by
      rw [← mul_pow, abs_mul_abs_self, ← pow_two, Real.sin_sq]
    have h2 : ((-1 : ℝ) ^ m) * (-1) ^ m = 1 := by rw [← mul_pow]; norm_num
    linear_combination A l * A k * (derivative^[m] (legP l)).eval (Real.cos θ) * (derivative^[m] (legP k)).eval (Real.cos θ) * Real.sin θ *
      (|Real.sin θ| ^ m * |Real.sin θ| ^ m * h2 + h1)
  have hcont : Continuous g := by rw [hg]; fun_prop
  have e2 : ∫ θ in (0 : ℝ)..Real.pi, g (Real.cos θ) * Real.sin θ = ∫ x in (-1 : ℝ)..1, g x := by
    have h := intervalIntegral.integral_comp_mul_deriv (a := 0) (b := Real.pi) (f := Real.cos) (f' := fun θ => -Real.sin θ) (g := g)
      (fun x _ => Real.hasDerivAt_cos x) (by fun_prop) hcont
    rw [Real.cos_zero, Real.cos_pi, intervalIntegral.integral_symm (-1) 1] at h
    have h' : ∫ θ in (0 : ℝ)..Real.pi, (g ∘ Real.cos) θ * -Real.sin θ = -∫ θ in (0 : ℝ)..Real.pi, g (Real.cos θ) * Real.sin θ := by
      rw [← intervalIntegral.integral_neg]
      congr 1
      ext θ
      simp
    rw [h'] at h
    linarith
  simp_rw [e1]
  rw [intervalIntegral.integral_const_mul, e2, hg, legendre_assoc, prod_fact l m hl]
  split_ifs with h
  · subst h
    have hs : A l * A l = (2 * l + 1) / (4 * Real.pi) * ((l - m).factorial / (l + m).factorial) := Real.mul_self_sqrt (by positivity)
    rw [hs]
    have := Real.pi_pos
    have h1 : ((l + m).factorial : ℝ) ≠ 0 := by positivity
    have h2 : ((l - m).factorial : ℝ) ≠ 0 := by positivity
    have h3 : (2 * (l : ℝ) + 1) ≠ 0 := by positivity
    field_simp
    norm_num
  · simp

/-- An order one above the degree divides by zero: the loop for the factor starts at zero. -/
theorem sphLegendre_above (l : ℕ) (hl : l + 1 < 2 ^ 32) (θ : ℝ) : sphLegendre l (l + 1) θ = .ub := by
  rw [sphLegendre, assocLegendre_high l (l + 1) _ (by omega), Outcome.bind_ret, show (l + 2 ^ 32 - (l + 1) + 1) % 2 ^ 32 = 0 by omega, forFromTo,
    show l + (l + 1) + 1 - 0 = (2 * l + 1) + 1 by omega, forRange]
  have h : ∀ j, forRange (j + 1) (1 : ℝ) (fun s i => ratioStep s (0 + i)) = .ub := by
    intro j
    induction j with
    | zero => simp [forRange, ratioStep, quot]
    | succ j ih => rw [forRange, ih, Outcome.bind_ub]
  have h2 := h (2 * l + 1)
  rw [forRange] at h2
  rw [h2, Outcome.bind_ub]

/-- `AssociatedLegendreBasis::Evaluate` is documented as the associated Legendre function of `x`; it returns the normalised function of
the angle `x`.  For `l = 1`, `m = 0` the value at `1` would be `1`. -/
theorem assocLegendreEval_wrong : ∃ v, assocLegendreEval 0 1 1 = .ret v ∧ assocLegendre 1 0 1 = .ret 1 ∧ v < 1 := by
  refine ⟨_, by rw [assocLegendreEval, if_neg (by omega), if_neg (by omega)]; exact sphLegendre_eq 1 0 (by omega) (by norm_num) 1, ?_, ?_⟩
  · rw [assocLegendre_eq 1 0 1 (Or.inl rfl)]
    simp [legP]
  · have h1 : Real.sqrt ((2 * ((1 : ℕ) : ℝ) + 1) / (4 * Real.pi) * ((1 - 0 : ℕ).factorial / (1 + 0 : ℕ).factorial)) ≤ 1 := by
      rw [Real.sqrt_le_iff]
      refine ⟨by norm_num, ?_⟩
      norm_num
      rw [div_le_one (by positivity)]
      nlinarith [Real.pi_gt_three]
    have h2 : Real.cos 1 < 1 := by
      have := Real.cos_one_le
      linarith
    have h3 : 0 < Real.cos 1 := Real.cos_one_pos
    have h4 : (legP 1).eval (Real.cos 1) = Real.cos 1 := by simp [legP]
    simp only [Function.iterate_zero, id, pow_zero, one_mul, h4]
    calc _ ≤ 1 * Real.cos 1 := mul_le_mul_of_nonneg_right h1 h3.le
      _ < 1 := by linarith

/-! ## Expansion -/

/-- Polynomials are recovered from their exact coefficients in each of the bases. -/
theorem expansion (D : Set ℝ) (eval : ℤ → ℝ → Outcome ℝ) (w : ℝ → ℝ) (norm : ℤ → Outcome ℝ) (P : ℕ → ℝ[X]) (hB : IsBasis D eval w norm P)
    (q : ℝ[X]) (N : ℕ) (hq : q.natDegree ≤ N) (x : ℝ) :
    ∃ c : ℕ → ℝ, (∀ n : ℕ, ∃ h, norm n = .ret h ∧ 0 < h ∧ c n = (∫ t in D, q.eval t * value (eval n t) * w t) / h) ∧
      q.eval x = ∑ n ∈ Finset.range (N + 1), c n * value (eval n x) := by
  obtain ⟨h, ho, he, hn, -⟩ := hB
  refine ⟨fun n => (∫ t in D, q.eval t * (P n).eval t * w t) / h n, ?_, ?_⟩
  · intro n
    refine ⟨h n, hn n, ho.pos n, ?_⟩
    simp only [he, value]
  · conv_lhs => rw [ho.expand N q hq]
    rw [eval_finsetSum]
    refine Finset.sum_congr rfl fun n _ => ?_
    rw [eval_mul, eval_C, he]
    rfl

/-- `LegendreBasis::ComputeCoefficient`: for twice differentiable functions the distance from the exact coefficient is at most the
error of the trapezoidal rule, where `k` is the number of bisections done. -/
theorem legendre_coefficient (M : ℕ) (hM1 : 1 ≤ M) (hM2 : M ≤ 32) (f : ℝ → ℝ) (n : ℕ) (eps B : ℝ) : ∃ P : ℕ → ℝ[X],
    (∀ (l : ℕ) (x : ℝ), legendreEval l x = .ret ((P l).eval x)) ∧ ∀ (_ : ContDiffOn ℝ 2 (fun x => f x * (P n).eval x) (Set.Icc (-1) 1))
    (_ : ∀ x ∈ Set.Icc (-1 : ℝ) 1, |iteratedDerivWithin 2 (fun x => f x * (P n).eval x) (Set.Icc (-1) 1) x| ≤ B),
    ∃ c k, legendreBasis.computeCoefficient M f n eps = .ret c ∧ k ≤ M ∧
      |c - (∫ x in (-1 : ℝ)..1, f x * (P n).eval x) / (2 / (2 * n + 1))| ≤ (2 * n + 1) / 2 * (8 * B / (12 * ((2 ^ k : ℕ) : ℝ) ^ 2)) := by
  have he : ∀ (l : ℕ) (x : ℝ), legendreEval l x = .ret ((legP l).eval x) := by
    intro l x
    rw [legendreEval, if_neg (by omega), Int.toNat_natCast, legendre_eq]
  refine ⟨legP, he, fun hf hB => ?_⟩
  rw [← Set.uIcc_of_le (by norm_num : (-1 : ℝ) ≤ 1)] at hf hB
  obtain ⟨r, hr, ha⟩ := Integ.integrateTrap_spec M (fun x => f x * (legP n).eval x) (-1) 1 eps hM1 hM2
  have key : ∃ k, k ≤ M ∧ r.value = Integ.trapezoid (fun x => f x * (legP n).eval x) (-1) 1 (2 ^ k) := by
    rcases ha with ⟨-, -, h3, -, h5, -, -⟩ | ⟨hc, hi, hv, -, -⟩
    · exact ⟨r.iterations, by omega, h5⟩
    · exact ⟨M - 1, by omega, hv⟩
  obtain ⟨k, hk, hv⟩ := key
  have herr := Integ.trapezoid_error (fun x => f x * (legP n).eval x) (-1) 1 B (2 ^ k) (by positivity) hf hB
  rw [← hv] at herr
  have hn2 : (0 : ℝ) < 2 * (n : ℝ) + 1 := by positivity
  refine ⟨r.value / (2 / (2 * n + 1)), k, ?_, hk, ?_⟩
  · rw [Basis.computeCoefficient]
    simp only [legendreBasis, he, Outcome.bind_ret, legendreWeight, mul_one, hr, legendreNorm]
    rw [if_neg (by omega), Outcome.bind_ret, Int.cast_natCast, quot_ret _ _ (by positivity)]
  · rw [← sub_div, abs_div, abs_of_pos (by positivity : (0 : ℝ) < 2 / (2 * n + 1)), div_eq_mul_inv, inv_div, mul_comm]
    refine mul_le_mul_of_nonneg_left (le_trans herr (le_of_eq ?_)) (by positivity)
    norm_num

/-- Negative indices are refused. -/
theorem coefficient_refused (M : ℕ) (f : ℝ → ℝ) (n : ℤ) (hn : n < 0) (eps : ℝ) :
    legendreBasis.computeCoefficient M f n eps = .exn .invalidArgument ∧ chebyshevBasis.computeCoefficient M f n eps = .exn .invalidArgument := by
  simp only [Basis.computeCoefficient, legendreBasis, chebyshevBasis, legendreEval, Cheb.basisEval, if_pos hn, Outcome.bind_exn, and_self]

/-- `ChebyshevBasis::ComputeCoefficient` is far off: the weight is taken as 10^10 at the ends of the interval.  The first coefficient of
the constant 1 is 1; with the default number of bisections the result exceeds 6000. -/
theorem chebyshev_coefficient_wrong (eps : ℝ) : ∃ c, chebyshevBasis.computeCoefficient 20 (fun _ => 1) 0 eps = .ret c ∧ 6000 < c ∧
    (∫ x in Set.Ioo (-1 : ℝ) 1, 1 * value (Cheb.basisEval 0 x) * Cheb.basisWeight x) / Real.pi = 1 := by
  have he : ∀ x : ℝ, Cheb.basisEval 0 x = .ret 1 := by
    intro x
    have : Cheb.basisEval ((0 : ℕ) : ℤ) x = .ret ((Chebyshev.T ℝ (0 : ℕ)).eval x) := by
      rw [Cheb.basisEval, if_neg (by omega), Cheb.chebyshevT_spec]
    simpa using this
  have hw : ∀ x, 0 ≤ Cheb.basisWeight x := by
    intro x
    rw [Cheb.basisWeight]
    split_ifs
    · norm_num
    · positivity
  have hT : ∀ k ≤ 20, 19000 ≤ Integ.trapezoid Cheb.basisWeight (-1) 1 (2 ^ k) := by
    intro k hk
    rw [Integ.trapezoid]
    have hN : (0 : ℝ) < ((2 ^ k : ℕ) : ℝ) := by positivity
    have hN2 : ((2 ^ k : ℕ) : ℝ) ≤ 1048576 := by
      have : 2 ^ k ≤ 2 ^ 20 := Nat.pow_le_pow_right (by norm_num) hk
      exact_mod_cast this
    generalize 2 ^ k = N at *
    have hN0 : 0 < N := by exact_mod_cast hN
    have hd : (0 : ℝ) < (1 - -1) / N := by positivity
    have e : ∑ i ∈ Finset.range N, (1 - -1) / (N : ℝ) * ((Cheb.basisWeight (Integ.node (-1) 1 N i) + Cheb.basisWeight (Integ.node (-1) 1 N (i + 1))) / 2)
        = (1 - -1) / (N : ℝ) / 2 * (∑ i ∈ Finset.range N, Cheb.basisWeight (Integ.node (-1) 1 N i) +
          ∑ i ∈ Finset.range N, Cheb.basisWeight (Integ.node (-1) 1 N (i + 1))) := by
      rw [← Finset.sum_add_distrib, Finset.mul_sum]
      exact Finset.sum_congr rfl fun i _ => by ring
    rw [e]
    have a0 : Cheb.basisWeight (Integ.node (-1) 1 N 0) ≤ ∑ i ∈ Finset.range N, Cheb.basisWeight (Integ.node (-1) 1 N i) :=
by
      have := Finset.single_le_sum (f := fun i : ℕ => Cheb.basisWeight (Integ.node (-1) 1 N i)) (fun i _ => hw _) (Finset.mem_range.2 hN0)
      simpa using this
    have a1 : Cheb.basisWeight (Integ.node (-1) 1 N ((N - 1 : ℕ) + 1)) ≤ ∑ i ∈ Finset.range N, Cheb.basisWeight (Integ.node (-1) 1 N (i + 1)) :=
      Finset.single_le_sum (f := fun i : ℕ => Cheb.basisWeight (Integ.node (-1) 1 N (i + 1))) (fun i _ => hw _) (Finset.mem_range.2 (by omega : N - 1 < N))
    have w0 : Cheb.basisWeight (Integ.node (-1) 1 N 0) = 10000000000 := by
      rw [Integ.node, Cheb.basisWeight, if_pos (by simp)]
    have w1 : Cheb.basisWeight (Integ.node (-1) 1 N ((N - 1 : ℕ) + 1)) = 10000000000 := by
      have : Integ.node (-1) 1 N ((N - 1 : ℕ) + 1) = 1 := by
        rw [Integ.node, ← Nat.cast_add_one, Nat.sub_add_cancel hN0]
        field_simp
        norm_num
      rw [this, Cheb.basisWeight, if_pos (by simp)]
    rw [w0] at a0
    rw [w1] at a1
    have h5 : (19000 : ℝ) ≤ (1 - -1) / (N : ℝ) / 2 * 20000000000 := by
      rw [div_div, div_mul_eq_mul_div, le_div_iff₀ (by positivity)]
      linarith
    exact h5.trans (mul_le_mul_of_nonneg_left (by linarith) (by positivity))
  obtain ⟨r, hr, ha⟩ := Integ.integrateTrap_spec 20 Cheb.basisWeight (-1) 1 eps (by norm_num) (by norm_num)
  have key : ∃ k, k ≤ 20 ∧ r.value = Integ.trapezoid Cheb.basisWeight (-1) 1 (2 ^ k) := by
    rcases ha with ⟨-, -, h3, -, h5, -, -⟩ | ⟨hc, hi, hv, -, -⟩
    · exact ⟨r.iterations, by omega, h5⟩
    · exact ⟨19, by norm_num, hv⟩
  obtain ⟨k, hk, hv⟩ := key
  have h20 := hT k hk
  rw [← hv] at h20
  refine ⟨r.value / Real.pi, ?_, ?_, ?_⟩
  · rw [Basis.computeCoefficient]
    simp only [chebyshevBasis, he, Outcome.bind_ret, mul_one, one_mul]
    have hr' : Integ.integrateTrap 20 (fun x => Cheb.basisWeight x) (-1) 1 eps = .ret r := hr
    rw [hr', Outcome.bind_ret, Cheb.basisNorm, if_neg (by omega), if_pos rfl, Outcome.bind_ret, quot_ret _ _ Real.pi_ne_zero]
  · rw [lt_div_iff₀ Real.pi_pos]
    have := Real.pi_lt_d2
    linarith
  · obtain ⟨h, ho, hev, hn, -⟩ := chebyshev_basis
    have h0 := hn 0
    rw [Cheb.basisNorm, if_neg (by omega), if_pos (by simp)] at h0
    have h1 := ho.norm 0
    rw [← Outcome.ret.inj h0] at h1
    simp only [he, value, one_mul]
    simp only [Nat.cast_zero, Chebyshev.T_zero, eval_one, one_pow, one_mul] at h1
    rw [h1, div_self Real.pi_ne_zero]

/-! ## Factorials -/

theorem factorial_spec (n : ℕ) : factorial n = .ret (n.factorial : ℝ) := by
  rw [factorial, if_neg (by omega), Int.toNat_natCast]
  rcases Nat.eq_zero_or_pos n with rfl | hn
  · simp [forFromTo, forRange]
  obtain ⟨t, ht, hP⟩ := forFromTo_rule (fun i (r : ℝ) => r = ((i - 1).factorial : ℝ)) 2 (n + 1) (by omega) (1 : ℝ)
    (fun f (i : ℕ) => .ret (f * i)) (by simp) (by
      rintro i r hi _ rfl
      obtain ⟨j, rfl⟩ : ∃ j, i = j + 1 := ⟨i - 1, by omega⟩
      refine ⟨_, rfl, ?_⟩
      simp only [Nat.add_sub_cancel, Nat.factorial_succ]
      push_cast
      ring)
  rw [ht, hP, Nat.add_sub_cancel]

/-- Up to 20 the integer factorial is exact, ... -/
theorem factorialInt_spec (n : ℕ) (hn : n ≤ 20) : factorialInt n = .ret n.factorial := by
  interval_cases n <;> decide +kernel

/-- ... from 21 on it overflows. -/
theorem factorialInt_overflow (n : ℕ) (hn : 20 < n) : factorialInt n = .ub := by
  rw [factorialInt, if_neg (by omega), Int.toNat_natCast, forFromTo]
  have h : ∀ j, forRange (20 + j) 1 (fun f i => if f * (2 + i) < 2 ^ 63 then Outcome.ret (f * (2 + i)) else .ub) = .ub := by
    intro j
    induction j with
    | zero => decide +kernel
    | succ j ih => rw [← add_assoc, forRange, ih, Outcome.bind_ub]
  obtain ⟨j, rfl⟩ : ∃ j, n = 21 + j := ⟨n - 21, by omega⟩
  rw [show 21 + j + 1 - 2 = 20 + j by omega]
  exact h j

/-- Negative arguments are refused. -/
theorem factorial_refused (n : ℤ) (hn : n < 0) : factorial n = .exn (.mml "domain_error") ∧ factorialInt n = .exn (.mml "domain_error") ∧
    factorialStirling n = .exn (.mml "domain_error") := by
  rw [factorial, factorialInt, factorialStirling, if_pos hn, if_pos hn, if_pos hn]
  exact ⟨rfl, rfl, rfl⟩

theorem stirling_step (m : ℕ) : Real.log (Stirling.stirlingSeq (m + 1)) - Real.log (Stirling.stirlingSeq (m + 2)) ≤
    1 / (12 * ((m : ℝ) + 1)) - 1 / (12 * ((m : ℝ) + 2)) := by
  have h := Stirling.log_stirlingSeq_sdiff_hasSum m
  set q : ℝ := ((1 : ℝ) / (2 * ((m + 1 : ℕ) : ℝ) + 1)) ^ 2 with hq
  have hm : (0 : ℝ) ≤ m := Nat.cast_nonneg m
  have hq0 : 0 ≤ q := by positivity
  have hq1 : q < 1 := by
    rw [hq, div_pow, one_pow, div_lt_one (by positivity)]
    push_cast
    nlinarith
  have hg : HasSum (fun k : ℕ => 1 / 3 * q * q ^ k) (1 / 3 * q * (1 - q)⁻¹) := (hasSum_geometric_of_lt_one hq0 hq1).mul_left _
  have hle := hasSum_le (fun k => ?_) h hg
  · refine hle.trans (le_of_eq ?_)
    have h1 : 1 - q = 4 * (m + 1) * (m + 2) / (2 * ((m : ℝ) + 1) + 1) ^ 2 := by
      rw [hq]; push_cast; field_simp; ring
    rw [h1, hq]
    push_cast
    field_simp
    ring
  · rw [pow_succ]
    have h3 : (1 : ℝ) / (2 * ((k + 1 : ℕ) : ℝ) + 1) ≤ 1 / 3 := by
      have hk : (0 : ℝ) ≤ k := Nat.cast_nonneg k
      push_cast
      exact one_div_le_one_div_of_le (by norm_num) (by linarith)
    have h4 : 0 ≤ q ^ k * q := by positivity
    nlinarith

theorem stirling_upper (m : ℕ) : Stirling.stirlingSeq (m + 1) ≤ Real.sqrt Real.pi * Real.exp (1 / (12 * ((m : ℝ) + 1))) := by
  have hpos : ∀ n, 0 < Stirling.stirlingSeq (n + 1) := Stirling.stirlingSeq'_pos
  have hmono : Monotone fun m : ℕ => Real.log (Stirling.stirlingSeq (m + 1)) - 1 / (12 * ((m : ℝ) + 1)) := by
    refine monotone_nat_of_le_succ fun n => ?_
    have := stirling_step n
    push_cast
    rw [show (n : ℝ) + 1 + 1 = n + 2 by ring]
    linarith
  have hlim : Filter.Tendsto (fun m : ℕ => Real.log (Stirling.stirlingSeq (m + 1)) - 1 / (12 * ((m : ℝ) + 1))) Filter.atTop
      (nhds (Real.log (Real.sqrt Real.pi) - 0)) := by
    refine Filter.Tendsto.sub ?_ ?_
    · exact ((Filter.tendsto_add_atTop_iff_nat 1).2 Stirling.tendsto_stirlingSeq_sqrt_pi).log (by positivity)
    · have h := (tendsto_one_div_add_atTop_nhds_zero_nat (𝕜 := ℝ)).const_mul (1 / 12)
      rw [mul_zero] at h
      refine h.congr fun n => ?_
      rw [one_div_mul_one_div]
  have h := hmono.ge_of_tendsto hlim m
  simp only [sub_zero] at h
  rw [← Real.log_le_log_iff (hpos m) (by positivity), Real.log_mul (by positivity) (Real.exp_pos _).ne', Real.log_exp]
  linarith

/-- `FactorialStirling` is below the factorial by a factor of at most `exp (1/(12 n))`. -/
theorem factorialStirling_spec (n : ℕ) (hn : 2 ≤ n) :
    ∃ v, factorialStirling n = .ret v ∧ v ≤ n.factorial ∧ (n.factorial : ℝ) ≤ v * Real.exp (1 / (12 * n)) := by
  refine ⟨Real.sqrt (2 * Real.pi * n) * (n / Real.exp 1) ^ n, ?_, Stirling.le_factorial_stirling n, ?_⟩
  · rw [factorialStirling, if_neg (by omega), if_neg (by omega)]
    push_cast
    rw [Real.rpow_natCast]
  · obtain ⟨m, rfl⟩ : ∃ m, n = m + 1 := ⟨n - 1, by omega⟩
    have h := stirling_upper m
    rw [Stirling.stirlingSeq, div_le_iff₀ (by positivity)] at h
    refine h.trans (le_of_eq ?_)
    have : Real.sqrt (2 * Real.pi * ((m + 1 : ℕ) : ℝ)) = Real.sqrt Real.pi * Real.sqrt (2 * ((m + 1 : ℕ) : ℝ)) := by
      rw [← Real.sqrt_mul Real.pi_pos.le]; congr 1; ring
    rw [this]
    push_cast
    ring

/-- Zero and one are exact. -/
theorem factorialStirling_small : factorialStirling 0 = .ret 1 ∧ factorialStirling 1 = .ret 1 := by
  constructor <;> simp [factorialStirling]

/-! ## Cases -/

example : 2 * Real.pi * ∫ θ in (0 : ℝ)..Real.pi, value (sphLegendre 2 1 θ) * value (sphLegendre 2 1 θ) * Real.sin θ = 1 :=
  sphLegendre_orthonormal 1 2 2 (by norm_num) (by norm_num) (by norm_num) (by norm_num)
example : 2 * Real.pi * ∫ θ in (0 : ℝ)..Real.pi, value (sphLegendre 2 1 θ) * value (sphLegendre 4 1 θ) * Real.sin θ = 0 :=
  sphLegendre_orthonormal 1 2 4 (by norm_num) (by norm_num) (by norm_num) (by norm_num)
example : assocLegendre 3 2 7 = .ub := assocLegendre_outside 3 2 7 (by norm_num) (by norm_num) (by norm_num)
example : assocLegendre 2 3 7 = .ret 0 := assocLegendre_high 2 3 7 (by norm_num)
example : sphLegendre 4 5 1 = .ub := sphLegendre_above 4 (by norm_num) 1
-- The cube in the Hermite and Laguerre bases.
example (x : ℝ) : ∃ c : ℕ → ℝ, (X ^ 3 : ℝ[X]).eval x = ∑ n ∈ Finset.range 4, c n * value (probEval n x) := by
  obtain ⟨c, -, h⟩ := expansion _ _ _ _ _ prob_basis (X ^ 3) 3 (by simp) x
  exact ⟨c, h⟩
-- A constant function: the second derivative of `1 * P_0` is zero, so the coefficient is exact.
example : ∃ P : ℕ → ℝ[X], (∀ (l : ℕ) (x : ℝ), legendreEval l x = .ret ((P l).eval x)) ∧
    (ContDiffOn ℝ 2 (fun x => 1 * (P 0).eval x) (Set.Icc (-1) 1) → (∀ x ∈ Set.Icc (-1 : ℝ) 1,
      |iteratedDerivWithin 2 (fun x => 1 * (P 0).eval x) (Set.Icc (-1) 1) x| ≤ 0) →
    ∃ c k, legendreBasis.computeCoefficient 20 (fun _ => 1) 0 (1 / 10 ^ 6) = .ret c ∧ k ≤ 20 ∧
      |c - (∫ x in (-1 : ℝ)..1, 1 * (P 0).eval x) / (2 / (2 * (0 : ℕ) + 1))| ≤ (2 * (0 : ℕ) + 1) / 2 * (8 * 0 / (12 * ((2 ^ k : ℕ) : ℝ) ^ 2))) :=
  legendre_coefficient 20 (by norm_num) (by norm_num) (fun _ => 1) 0 (1 / 10 ^ 6) 0
example : ContDiffOn ℝ 2 (fun x => 1 * (legP 0).eval x) (Set.Icc (-1) 1) ∧ ∀ x ∈ Set.Icc (-1 : ℝ) 1,
    |iteratedDerivWithin 2 (fun x => 1 * (legP 0).eval x) (Set.Icc (-1) 1) x| ≤ 0 := by
  have : (fun x : ℝ => 1 * (legP 0).eval x) = fun _ => 1 := by
    ext x
    simp [legP]
  rw [this]
  refine ⟨contDiffOn_const, fun x hx => ?_⟩
  rw [iteratedDerivWithin_const, if_neg (by norm_num)]
  simp
example : factorialInt 20 = .ret 2432902008176640000 := factorialInt_spec 20 le_rfl
example : factorialInt 21 = .ub := factorialInt_overflow 21 (by norm_num)
example : ∃ v, factorialStirling 10 = .ret v ∧ v ≤ (Nat.factorial 10 : ℕ) ∧ ((Nat.factorial 10 : ℕ) : ℝ) ≤ v * Real.exp (1 / (12 * (10 : ℕ))) :=
  factorialStirling_spec 10 (by norm_num)

end Verif.Ortho
