import Verif.Integ.TrapLemmas
import Mathlib.NumberTheory.Bernoulli
import Mathlib.Algebra.Polynomial.Eval.Degree

/-!
# The trapezoidal rule on polynomials

On a polynomial the trapezoidal sum with `N` panels is a polynomial in `1/N^2` whose constant term is the integral.
-/

set_option autoImplicit false

namespace Verif.Integ

open Polynomial

/-- The expansion of the trapezoidal sum of `y^m` on `[0, 1]` in powers of `1/N^2`. -/
noncomputable def powExpansion (m : ℕ) : ℝ[X] :=
  ∑ i ∈ Finset.range (m / 2 + 1), C (((bernoulli (2 * i) * ((m + 1).choose (2 * i)) / (m + 1) : ℚ)) : ℝ) * X ^ i

theorem powExpansion_degree (m : ℕ) : (powExpansion m).natDegree ≤ m / 2 := by
  refine natDegree_sum_le_of_forall_le _ _ fun i hi => ?_
  refine (natDegree_C_mul_X_pow_le _ _).trans ?_
  have := Finset.mem_range.mp hi
  omega

theorem powExpansion_zero (m : ℕ) : (powExpansion m).eval 0 = 1 / (m + 1) := by
  rw [powExpansion, eval_finset_sum, Finset.sum_range_succ']
  simp

theorem sum_range_evens (g : ℕ → ℝ) (m : ℕ) (h1 : g 1 = 0) (hodd : ∀ i, Odd i → 1 < i → g i = 0) :
    ∑ i ∈ Finset.range (m + 1), g i = ∑ i ∈ Finset.range (m / 2 + 1), g (2 * i) := by
  have hz : ∀ i, g (2 * i + 1) = 0 := by
    intro i
    rcases Nat.eq_zero_or_pos i with rfl | h
    · simpa using h1
    · exact hodd _ ⟨i, rfl⟩ (by omega)
  rcases Nat.even_or_odd' m with ⟨c, hc | hc⟩
  · subst hc
    rw [show 2 * c / 2 = c by omega, Finset.sum_range_succ, sum_range_double, Finset.sum_range_succ]
    congr 1
    exact Finset.sum_congr rfl fun i _ => by rw [hz, add_zero]
  · subst hc
    rw [show (2 * c + 1) / 2 = c by omega, show 2 * c + 1 + 1 = 2 * (c + 1) by ring, sum_range_double]
    exact Finset.sum_congr rfl fun i _ => by rw [hz, add_zero]

/-- The sum of `m`-th powers below `N`, divided by `N^(m+1)`. -/
theorem power_sum (m N : ℕ) (hN : 0 < N) (hm : 0 < m) :
    (∑ k ∈ Finset.range N, (k : ℝ) ^ m) / (N : ℝ) ^ (m + 1) + 1 / (2 * N) = (powExpansion m).eval (1 / (N : ℝ) ^ 2) := by
  have hN' : (N : ℝ) ≠ 0 := by positivity
  have h : (∑ k ∈ Finset.range N, (k : ℝ) ^ m) =
      ∑ i ∈ Finset.range (m + 1), ((bernoulli i * ((m + 1).choose i) / (m + 1) : ℚ) : ℝ) * (N : ℝ) ^ (m + 1 - i) := by
    have := congrArg (fun q : ℚ => (q : ℝ)) (sum_range_pow N m)
    push_cast at this
    rw [this]
    refine Finset.sum_congr rfl fun i _ => ?_
    push_cast
    ring
  have h' : (∑ k ∈ Finset.range N, (k : ℝ) ^ m) / (N : ℝ) ^ (m + 1) =
      ∑ i ∈ Finset.range (m + 1), ((bernoulli i * ((m + 1).choose i) / (m + 1) : ℚ) : ℝ) * (1 / (N : ℝ) ^ i) := by
    rw [h, div_eq_mul_inv, Finset.sum_mul]
    refine Finset.sum_congr rfl fun i hi => ?_
    have hi := Finset.mem_range.mp hi
    have : (N : ℝ) ^ (m + 1) = (N : ℝ) ^ (m + 1 - i) * (N : ℝ) ^ i := by
      rw [← pow_add]
      congr 1
      omega
    rw [this]
    field_simp
  set g : ℕ → ℝ := fun i => if i = 1 then 0 else ((bernoulli i * ((m + 1).choose i) / (m + 1) : ℚ) : ℝ) * (1 / (N : ℝ) ^ i)
    with hg
  have hsplit : ∑ i ∈ Finset.range (m + 1), ((bernoulli i * ((m + 1).choose i) / (m + 1) : ℚ) : ℝ) * (1 / (N : ℝ) ^ i) =
      (∑ i ∈ Finset.range (m + 1), g i) - 1 / (2 * N) := by
    rw [eq_sub_iff_add_eq, eq_comm, ← sub_eq_iff_eq_add', eq_comm, ← sub_eq_zero, sub_eq_zero] 
    rw [← Finset.sum_sub_distrib, Finset.sum_eq_single 1]
    · simp only [hg, if_true, bernoulli_one, Nat.choose_one_right, pow_one]
      push_cast
      field_simp
      norm_num
    · intro i _ hi
      simp [hg, hi]
    · intro hh
      exact absurd (Finset.mem_range.mpr (by omega)) hh
  rw [h', hsplit, sub_add_cancel, sum_range_evens g m (by simp [hg])]
  · rw [powExpansion, eval_finset_sum]
    refine Finset.sum_congr rfl fun i _ => ?_
    have : 2 * i ≠ 1 := by omega
    simp only [hg, this, if_false, eval_mul, eval_C, eval_pow, eval_X]
    rw [one_div_pow, ← pow_mul]
  · intro i hi h1
    simp only [hg, show i ≠ 1 by omega, if_false, bernoulli_eq_zero_of_odd hi h1]
    simp

theorem node_unit (N : ℕ) (k : ℝ) : node 0 1 N k = k / N := by simp [node, div_eq_mul_inv]

theorem trapezoid_pow (m N : ℕ) (hN : 0 < N) :
    trapezoid (fun y => y ^ m) 0 1 N = (powExpansion m).eval (1 / (N : ℝ) ^ 2) := by
  have hN' : (N : ℝ) ≠ 0 := by positivity
  rcases Nat.eq_zero_or_pos m with rfl | hm
  · simp [trapezoid, powExpansion, hN']
  rw [← power_sum m N hN hm, trapezoid]
  simp only [node_unit]
  have hsh : ∑ k ∈ Finset.range N, ((k : ℝ) + 1) ^ m = (∑ k ∈ Finset.range N, (k : ℝ) ^ m) + (N : ℝ) ^ m := by
    have h1 := Finset.sum_range_succ' (fun k : ℕ => (k : ℝ) ^ m) N
    have h2 := Finset.sum_range_succ (fun k : ℕ => (k : ℝ) ^ m) N
    push_cast at h1
    rw [h2] at h1
    rw [zero_pow hm.ne', add_zero] at h1
    exact h1.symm
  have e : ∀ k : ℕ, (1 - 0 : ℝ) / N * ((((k : ℝ) / N) ^ m + (((k : ℝ) + 1) / N) ^ m) / 2) =
      1 / (2 * (N : ℝ) ^ (m + 1)) * ((k : ℝ) ^ m + ((k : ℝ) + 1) ^ m) := by
    intro k
    rw [div_pow, div_pow]
    field_simp
    ring
  rw [Finset.sum_congr rfl fun k _ => e k, ← Finset.mul_sum, Finset.sum_add_distrib, hsh]
  field_simp
  ring

/-- The rule on an interval is the rule on the unit interval. -/
theorem trapezoid_unit (f : ℝ → ℝ) (a b : ℝ) (N : ℕ) :
    trapezoid f a b N = (b - a) * trapezoid (fun y => f (a + (b - a) * y)) 0 1 N := by
  rw [trapezoid, trapezoid, Finset.mul_sum]
  refine Finset.sum_congr rfl fun k _ => ?_
  simp only [node_unit, node]
  have e : ∀ x : ℝ, a + x * ((b - a) / N) = a + (b - a) * (x / N) := fun x => by ring
  rw [e, e]
  ring_nf

/-- The polynomial of the rescaled variable. -/
noncomputable def rescale (p : ℝ[X]) (a b : ℝ) : ℝ[X] := p.comp (C a + C (b - a) * X)

theorem rescale_eval (p : ℝ[X]) (a b y : ℝ) : (rescale p a b).eval y = p.eval (a + (b - a) * y) := by
  simp [rescale]

theorem rescale_degree (p : ℝ[X]) (a b : ℝ) : (rescale p a b).natDegree ≤ p.natDegree := by
  refine natDegree_comp_le.trans ?_
  have : (C a + C (b - a) * X : ℝ[X]).natDegree ≤ 1 := by
    refine natDegree_add_le_of_degree_le (by simp) ?_
    exact (natDegree_C_mul_le _ _).trans natDegree_X_le
  calc p.natDegree * (C a + C (b - a) * X : ℝ[X]).natDegree ≤ p.natDegree * 1 := Nat.mul_le_mul_left _ this
    _ = p.natDegree := mul_one _

/-- The expansion of the trapezoidal sum of a polynomial. -/
noncomputable def expansion (p : ℝ[X]) (a b : ℝ) : ℝ[X] :=
  ∑ m ∈ Finset.range (p.natDegree + 1), C ((b - a) * (rescale p a b).coeff m) * powExpansion m

theorem expansion_degree (p : ℝ[X]) (a b : ℝ) : (expansion p a b).natDegree ≤ p.natDegree / 2 := by
  refine natDegree_sum_le_of_forall_le _ _ fun m hm => ?_
  have := Finset.mem_range.mp hm
  refine (natDegree_C_mul_le _ _).trans ((powExpansion_degree m).trans (Nat.div_le_div_right (by omega)))

theorem eval_range (q : ℝ[X]) (n : ℕ) (h : q.natDegree ≤ n) (y : ℝ) :
    q.eval y = ∑ m ∈ Finset.range (n + 1), q.coeff m * y ^ m := by
  rw [eval_eq_sum_range' (by omega : q.natDegree < n + 1)]

theorem trapezoid_sum (ι : Type) (s : Finset ι) (c : ι → ℝ) (g : ι → ℝ → ℝ) (a b : ℝ) (N : ℕ) :
    trapezoid (fun y => ∑ m ∈ s, c m * g m y) a b N = ∑ m ∈ s, c m * trapezoid (g m) a b N := by
  simp only [trapezoid, Finset.mul_sum]
  rw [Finset.sum_comm]
  refine Finset.sum_congr rfl fun k _ => ?_
  rw [← Finset.sum_add_distrib, div_eq_mul_inv (Finset.sum _ _), Finset.sum_mul, Finset.mul_sum]
  refine Finset.sum_congr rfl fun m _ => ?_
  ring

theorem trapezoid_poly (p : ℝ[X]) (a b : ℝ) (N : ℕ) (hN : 0 < N) :
    trapezoid (fun x => p.eval x) a b N = (expansion p a b).eval (1 / (N : ℝ) ^ 2) := by
  rw [trapezoid_unit]
  have : (fun y => p.eval (a + (b - a) * y)) = fun y => ∑ m ∈ Finset.range (p.natDegree + 1), (rescale p a b).coeff m * y ^ m := by
    funext y
    rw [← rescale_eval, eval_range _ _ (rescale_degree p a b)]
  rw [this, trapezoid_sum, expansion, eval_finset_sum, Finset.mul_sum]
  refine Finset.sum_congr rfl fun m _ => ?_
  rw [trapezoid_pow m N hN]
  simp
  ring

theorem expansion_zero (p : ℝ[X]) (a b : ℝ) : (expansion p a b).eval 0 = ∫ x in a..b, p.eval x := by
  have h1 : ∫ x in a..b, p.eval x = (b - a) * ∫ y in (0 : ℝ)..1, p.eval (a + (b - a) * y) := by
    have := intervalIntegral.mul_integral_comp_add_mul (f := fun x => p.eval x) (a := 0) (b := 1) (c := b - a) (d := a)
    rw [this]
    congr 1 <;> ring
  rw [h1]
  have : (fun y => p.eval (a + (b - a) * y)) = fun y => ∑ m ∈ Finset.range (p.natDegree + 1), (rescale p a b).coeff m * y ^ m := by
    funext y
    rw [← rescale_eval, eval_range _ _ (rescale_degree p a b)]
  rw [this, intervalIntegral.integral_finset_sum, expansion, eval_finset_sum, Finset.mul_sum]
  · refine Finset.sum_congr rfl fun m _ => ?_
    rw [intervalIntegral.integral_const_mul, integral_pow]
    simp [powExpansion_zero]
    ring
  · intro m _
    exact (Continuous.intervalIntegrable (by fun_prop) _ _)

end Verif.Integ
