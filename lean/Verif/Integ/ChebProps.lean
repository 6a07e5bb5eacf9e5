import Verif.Integ.ChebModel
import Verif.LoopLemmas
import Mathlib.Analysis.SpecialFunctions.Trigonometric.Chebyshev.ChebyshevGauss

/-!
# Gauss-Chebyshev quadrature (C78)
-/

set_option autoImplicit false

namespace Verif.Integ

open Verif Polynomial

/-! ## The loops -/

theorem fill_both (n : ℕ) (g k f w : ℕ → ℝ) (body : List ℝ × List ℝ → ℕ → Outcome (List ℝ × List ℝ))
    (h : ∀ i < n, ∀ p : List ℝ × List ℝ, body p i =
      (Outcome.store p.1 i (f i) >>= fun x => Outcome.store p.2 i (w i) >>= fun y => .ret (x, y))) :
    forRange n (tab n g, tab n k) body = .ret (tab n f, tab n w) := by
  obtain ⟨t, ht, x, y, rfl, hxy⟩ := forRange_rule
    (fun j t => ∃ x y, t = (tab n x, tab n y) ∧ ∀ i < j, x i = f i ∧ y i = w i) n (tab n g, tab n k) body
    ⟨g, k, rfl, fun i hi => absurd hi (Nat.not_lt_zero i)⟩ (by
      rintro i t hi ⟨x, y, rfl, hxy⟩
      refine ⟨(tab n fun j => if j = i then f i else x j, tab n fun j => if j = i then w i else y j), ?_, _, _, rfl, ?_⟩
      · rw [h i hi]
        dsimp only
        rw [store_tab x hi, Outcome.bind_ret, store_tab y hi, Outcome.bind_ret]
      · intro j hj
        rcases Nat.lt_succ_iff_lt_or_eq.mp hj with h' | rfl
        · simp only [if_neg (Nat.ne_of_lt h')]
          exact hxy j h'
        · simp)
  rw [ht, tab_congr (fun i hi => (hxy i hi).1), tab_congr (fun i hi => (hxy i hi).2)]

theorem withRule_eq (f : ℝ → ℝ) (n : ℕ) (x w : ℕ → ℝ) :
    integrateWithRule f ⟨tab n x, tab n w, n⟩ = .ret (∑ i ∈ Finset.range n, w i * f (x i)) := by
  rw [integrateWithRule, forRange_sum n 0 _ (fun i => w i * f (x i)), zero_add]
  intro i hi s
  rw [ruleStep]
  dsimp only
  rw [index_tab w hi, Outcome.bind_ret, index_tab x hi, Outcome.bind_ret]

theorem cheb1_rule (n : ℕ) : chebyshev1Rule n =
    .ret ⟨tab n fun i => Real.cos (Real.pi * (2 * i + 1) / (2 * n)), tab n fun _ => Real.pi / n, n⟩ := by
  rw [chebyshev1Rule, QuadRule.new, if_neg (by omega)]
  simp only [Outcome.bind_ret, Int.toNat_natCast]
  rw [gaussChebyshev1, if_neg (by simp)]
  simp only [replicate_eq_tab, length_tab]
  rw [fill_both n _ _ _ _ (cheb1Step n) (fun i _ p => rfl)]
  rfl

theorem cheb2_rule (n : ℕ) : chebyshev2Rule n =
    .ret ⟨tab n fun i => Real.cos (Real.pi * (i + 1) / (n + 1)),
      tab n fun i => Real.pi / (n + 1) * Real.sin (Real.pi * (i + 1) / (n + 1)) * Real.sin (Real.pi * (i + 1) / (n + 1)), n⟩ := by
  rw [chebyshev2Rule, QuadRule.new, if_neg (by omega)]
  simp only [Outcome.bind_ret, Int.toNat_natCast]
  rw [gaussChebyshev2, if_neg (by simp)]
  simp only [replicate_eq_tab, length_tab]
  rw [fill_both n _ _ _ _ (cheb2Step n) (fun i _ p => rfl)]
  rfl

/-! ## Sums over the circle -/

theorem circle_sum (N k : ℕ) (hk : 0 < k) (hkN : k < 2 * N) :
    ∑ j ∈ Finset.range (2 * N), Real.cos (k * (Real.pi * j / N)) = 0 := by
  have hN : (N : ℂ) ≠ 0 := by
    have : N ≠ 0 := by omega
    exact_mod_cast this
  have hz : (∑ j ∈ Finset.range (2 * N), Complex.exp (k * (Real.pi * j / N) * Complex.I)) = 0 := by
    have e : ∀ j : ℕ, Complex.exp (k * (Real.pi * j / N) * Complex.I) = Complex.exp (k * (Real.pi / N) * Complex.I) ^ j := by
      intro j
      rw [← Complex.exp_nat_mul]
      congr 1
      ring
    simp only [e]
    have hne : Complex.exp (k * (Real.pi / N) * Complex.I) ≠ 1 := by
      rw [Ne, Complex.exp_eq_one_iff]
      rintro ⟨m, hm⟩
      have hpi : (Real.pi : ℂ) ≠ 0 := by exact_mod_cast Real.pi_ne_zero
      have h1 : (k : ℂ) = 2 * N * m := by
        field_simp at hm
        linear_combination hm
      have h2 : (k : ℤ) = 2 * N * m := by exact_mod_cast h1
      rcases lt_or_ge m 1 with h | h
      · nlinarith
      · nlinarith
    rw [geom_sum_eq hne, ← Complex.exp_nat_mul]
    have : ((2 * N : ℕ) : ℂ) * (k * (Real.pi / N) * Complex.I) = k * (2 * Real.pi * Complex.I) := by
      push_cast
      field_simp
    rw [this, Complex.exp_nat_mul_two_pi_mul_I, sub_self, zero_div]
  have hre := congrArg Complex.re hz
  rw [Complex.re_sum, Complex.zero_re] at hre
  rw [← hre]
  refine Finset.sum_congr rfl fun j _ => ?_
  rw [show ((k : ℂ) * (Real.pi * j / N) * Complex.I) = ((k * (Real.pi * j / N) : ℝ) : ℂ) * Complex.I by push_cast; ring,
    Complex.exp_ofReal_mul_I_re]

/-- The average of a polynomial over equidistant points of the circle is its integral for the weight of the first kind. -/
theorem circle_average (N : ℕ) (hN : 0 < N) (g : ℝ[X]) (hg : g.degree < 2 * N) :
    ∫ x, g.eval x ∂Chebyshev.measureT =
      Real.pi / (2 * N) * ∑ j ∈ Finset.range (2 * N), g.eval (Real.cos (Real.pi * j / N)) := by
  have hmem : g ∈ degreeLT ℝ (2 * N) := by
    rw [mem_degreeLT]
    exact_mod_cast hg
  rw [← Sequence.span_degreeLT (Chebyshev.chebyshevTsequence ℝ) (by simp),
    show Set.Iio (2 * N) = Finset.range (2 * N) by simp,
    Submodule.mem_span_image_finset_iff_exists_fun'] at hmem
  obtain ⟨c, rfl⟩ := hmem
  have hNr : (N : ℝ) ≠ 0 := by positivity
  simp_rw [eval_finsetSum, eval_smul]
  rw [MeasureTheory.integral_finsetSum, Finset.sum_comm, Finset.mul_sum]
  · refine Finset.sum_congr rfl fun i hi => ?_
    simp_rw [smul_eq_mul, MeasureTheory.integral_const_mul, Chebyshev.chebyshevTsequence]
    rw [← Finset.mul_sum, mul_left_comm]
    congr 1
    rcases Nat.eq_zero_or_pos i with rfl | hi0
    · rw [Nat.cast_zero, Chebyshev.integral_eval_T_real_measureT_zero]
      simp
      field_simp
    · rw [Chebyshev.integral_eval_T_real_measureT_of_ne_zero (by omega)]
      have := circle_sum N i hi0 (Finset.mem_range.mp hi)
      simp only [Chebyshev.T_real_cos]
      rw [show ((i : ℤ) : ℝ) = (i : ℝ) by simp, this, mul_zero]
  · simp_rw [← eval_smul]
    exact fun i hi => Chebyshev.integrable_measureT (by fun_prop)

theorem circle_half (N : ℕ) (hN : 0 < N) (g : ℝ[X]) (h1 : g.eval 1 = 0) (h2 : g.eval (-1) = 0) :
    ∑ j ∈ Finset.range (2 * N), g.eval (Real.cos (Real.pi * j / N)) =
      2 * ∑ j ∈ Finset.range (N - 1), g.eval (Real.cos (Real.pi * (j + 1) / N)) := by
  have hNr : (N : ℝ) ≠ 0 := by positivity
  obtain ⟨M, rfl⟩ : ∃ M, N = M + 1 := ⟨N - 1, by omega⟩
  have e1 : ∑ j ∈ Finset.range (M + 1), g.eval (Real.cos (Real.pi * j / (M + 1 : ℕ))) =
      ∑ j ∈ Finset.range M, g.eval (Real.cos (Real.pi * (j + 1) / (M + 1 : ℕ))) := by
    rw [Finset.sum_range_succ']
    simp [h1]
  have e2 : ∑ j ∈ Finset.range (M + 1), g.eval (Real.cos (Real.pi * ((M + 1 + j : ℕ) : ℝ) / (M + 1 : ℕ))) =
      ∑ j ∈ Finset.range M, g.eval (Real.cos (Real.pi * (j + 1) / (M + 1 : ℕ))) := by
    rw [Finset.sum_range_succ']
    have h0 : Real.pi * ((M + 1 + 0 : ℕ) : ℝ) / (M + 1 : ℕ) = Real.pi := by
      rw [add_zero]
      field_simp
    rw [h0, Real.cos_pi, h2, add_zero, ← Finset.sum_range_reflect]
    refine Finset.sum_congr rfl fun j hj => ?_
    have hj' : j < M := Finset.mem_range.mp hj
    have hc : ((M - 1 - j : ℕ) : ℝ) = M - 1 - j := by
      rw [Nat.cast_sub (by omega), Nat.cast_sub (by omega)]
      simp
    have : Real.pi * ((M + 1 + (M - 1 - j + 1) : ℕ) : ℝ) / (M + 1 : ℕ) = 2 * Real.pi - Real.pi * (j + 1) / (M + 1 : ℕ) := by
      push_cast [hc] at hNr ⊢
      field_simp
      ring
    rw [this, Real.cos_two_pi_sub]
  rw [show 2 * (M + 1) = (M + 1) + (M + 1) by ring, Finset.sum_range_add, e1, e2]
  simp only [Nat.add_sub_cancel]
  ring

/-! ## Properties -/

/-- **C78.**  `IntegrateGaussChebyshev1` with `n` points integrates a polynomial of degree below `2n` exactly against
`1/sqrt(1 - x^2)`. -/
theorem integrateChebyshev1_exact (n : ℕ) (hn : 0 < n) (p : ℝ[X]) (hp : p.natDegree < 2 * n) :
    integrateChebyshev1 (fun x => p.eval x) n = .ret ⟨∫ x in (-1 : ℝ)..1, p.eval x * (√(1 - x ^ 2))⁻¹, 0, 1, true⟩ := by
  rw [integrateChebyshev1, cheb1_rule, Outcome.bind_ret, withRule_eq, Outcome.bind_ret]
  congr 2
  have h := Chebyshev.integral_eq_sumZeroes (n := n) (P := p) (by omega)
    (lt_of_le_of_lt degree_le_natDegree (by exact_mod_cast hp))
  rw [Chebyshev.integral_measureT] at h
  simp only [Real.sqrt_inv] at h
  rw [h, Chebyshev.sumZeroes, ← Finset.mul_sum]
  congr 1
  refine Finset.sum_congr rfl fun i _ => ?_
  congr 2
  ring

example : (X ^ 39 - C 2 * X + C 1 : ℝ[X]).natDegree < 2 * 20 := by
  have : (X ^ 39 - C 2 * X + C 1 : ℝ[X]).natDegree ≤ 39 := by compute_degree
  omega

/-- **C78.**  `IntegrateGaussChebyshev2` with `n` points integrates a polynomial of degree below `2n` exactly against
`sqrt(1 - x^2)`. -/
theorem integrateChebyshev2_exact (n : ℕ) (p : ℝ[X]) (hp : p.natDegree < 2 * n) :
    integrateChebyshev2 (fun x => p.eval x) n = .ret ⟨∫ x in (-1 : ℝ)..1, p.eval x * √(1 - x ^ 2), 0, 1, true⟩ := by
  rw [integrateChebyshev2, cheb2_rule, Outcome.bind_ret, withRule_eq, Outcome.bind_ret]
  congr 2
  have hw : (C (1 : ℝ) - X ^ 2 : ℝ[X]).natDegree ≤ 2 := by compute_degree
  have hd : (p * (C 1 - X ^ 2)).natDegree < 2 * (n + 1) := by
    refine lt_of_le_of_lt natDegree_mul_le ?_
    omega
  have h := circle_average (n + 1) (by omega) (p * (C 1 - X ^ 2))
    (lt_of_le_of_lt degree_le_natDegree (by exact_mod_cast hd))
  rw [circle_half (n + 1) (by omega) _ (by simp) (by simp), Chebyshev.integral_measureT] at h
  have e : ∫ x in (-1 : ℝ)..1, p.eval x * √(1 - x ^ 2) = ∫ x in (-1 : ℝ)..1, (p * (C 1 - X ^ 2)).eval x * √(1 - x ^ 2)⁻¹ := by
    refine intervalIntegral.integral_congr fun x hx => ?_
    rw [Set.uIcc_of_le (by norm_num)] at hx
    have h0 : 0 ≤ 1 - x ^ 2 := by nlinarith [hx.1, hx.2]
    simp only [eval_mul, eval_sub, eval_C, eval_pow, eval_X, Real.sqrt_inv]
    rw [mul_assoc]
    congr 1
    nth_rw 2 [← Real.mul_self_sqrt h0]
    rcases eq_or_ne (√(1 - x ^ 2)) 0 with hs | hs
    · simp [hs]
    · field_simp
  rw [e, h]
  simp only [Nat.add_sub_cancel]
  rw [← mul_assoc, Finset.mul_sum]
  refine Finset.sum_congr rfl fun i _ => ?_
  simp only [eval_mul, eval_sub, eval_C, eval_pow, eval_X]
  rw [← Real.sin_sq]
  push_cast
  field_simp

example : (X ^ 39 - C 2 * X + C 1 : ℝ[X]).natDegree < 2 * 20 := by
  have : (X ^ 39 - C 2 * X + C 1 : ℝ[X]).natDegree ≤ 39 := by compute_degree
  omega

/-- **C78.**  The nodes of both rules lie strictly between `-1` and `1` and the weights are positive. -/
theorem chebyshev_nodes (n : ℕ) :
    (∃ r, chebyshev1Rule n = .ret r ∧ r.nodes.length = n ∧ r.weights.length = n ∧ (∀ x ∈ r.nodes, -1 < x ∧ x < 1) ∧
      ∀ w ∈ r.weights, 0 < w) ∧
    ∃ r, chebyshev2Rule n = .ret r ∧ r.nodes.length = n ∧ r.weights.length = n ∧ (∀ x ∈ r.nodes, -1 < x ∧ x < 1) ∧
      ∀ w ∈ r.weights, 0 < w := by
  have key : ∀ t : ℝ, 0 < t → t < 1 → (-1 < Real.cos (Real.pi * t) ∧ Real.cos (Real.pi * t) < 1) ∧ 0 < Real.sin (Real.pi * t) := by
    intro t h0 h1
    have hp := Real.pi_pos
    have a1 : 0 < Real.pi * t := by positivity
    have a2 : Real.pi * t < Real.pi := by nlinarith
    refine ⟨⟨?_, ?_⟩, Real.sin_pos_of_pos_of_lt_pi a1 a2⟩
    · rw [← Real.cos_pi]
      exact Real.cos_lt_cos_of_nonneg_of_le_pi a1.le le_rfl a2
    · rw [← Real.cos_zero]
      exact Real.cos_lt_cos_of_nonneg_of_le_pi le_rfl a2.le a1
  have mem : ∀ (g : ℕ → ℝ) (P : ℝ → Prop), (∀ i < n, P (g i)) → ∀ x ∈ tab n g, P x := by
    intro g P h x hx
    obtain ⟨i, hi⟩ := List.mem_iff_getElem?.mp hx
    rw [getElem?_tab] at hi
    split at hi
    · rename_i h'
      obtain rfl := Option.some.inj hi
      exact h i h'
    · exact absurd hi (by simp)
  refine ⟨⟨_, cheb1_rule n, length_tab .., length_tab .., mem _ _ ?_, mem _ _ ?_⟩,
    ⟨_, cheb2_rule n, length_tab .., length_tab .., mem _ _ ?_, mem _ _ ?_⟩⟩
  · intro i hi
    have hi' : (i : ℝ) + 1 ≤ n := by exact_mod_cast hi
    have hn : (0 : ℝ) < n := by linarith [Nat.cast_nonneg (α := ℝ) i]
    have := (key ((2 * i + 1) / (2 * n)) (by positivity) (by rw [div_lt_one (by positivity)]; linarith)).1
    rwa [← mul_div_assoc] at this
  · intro i hi
    have hi' : (i : ℝ) + 1 ≤ n := by exact_mod_cast hi
    have hn : (0 : ℝ) < n := by linarith [Nat.cast_nonneg (α := ℝ) i]
    have := Real.pi_pos
    positivity
  · intro i hi
    have hi' : (i : ℝ) + 1 ≤ n := by exact_mod_cast hi
    have := (key ((i + 1) / (n + 1)) (by positivity) (by rw [div_lt_one (by positivity)]; linarith)).1
    rwa [← mul_div_assoc] at this
  · intro i hi
    have hi' : (i : ℝ) + 1 ≤ n := by exact_mod_cast hi
    have := (key ((i + 1) / (n + 1)) (by positivity) (by rw [div_lt_one (by positivity)]; linarith)).2
    rw [← mul_div_assoc] at this
    have := Real.pi_pos
    positivity

/-- **C78, corners.**  A negative number of points is refused; with no points the answer is zero, reported as converged. -/
theorem chebyshev_corners (f : ℝ → ℝ) :
    (∀ n : ℤ, n < 0 → integrateChebyshev1 f n = .exn .lengthError ∧ integrateChebyshev2 f n = .exn .lengthError) ∧
    integrateChebyshev1 f 0 = .ret ⟨0, 0, 1, true⟩ ∧ integrateChebyshev2 f 0 = .ret ⟨0, 0, 1, true⟩ := by
  refine ⟨fun n hn => ?_, ?_, ?_⟩
  · rw [integrateChebyshev1, integrateChebyshev2, chebyshev1Rule, chebyshev2Rule, QuadRule.new, if_pos hn]
    exact ⟨rfl, rfl⟩
  · have := cheb1_rule 0
    rw [integrateChebyshev1, show (0 : ℤ) = ((0 : ℕ) : ℤ) from rfl, this, Outcome.bind_ret, withRule_eq]
    simp
  · have := cheb2_rule 0
    rw [integrateChebyshev2, show (0 : ℤ) = ((0 : ℕ) : ℤ) from rfl, this, Outcome.bind_ret, withRule_eq]
    simp

/-- **C78.**  Vectors of different lengths are refused. -/
theorem chebyshev_refuses (x w : List ℝ) (h : w.length ≠ x.length) :
    gaussChebyshev1 x w = .exn (.mml "VectorDimensionError") ∧ gaussChebyshev2 x w = .exn (.mml "VectorDimensionError") := by
  rw [gaussChebyshev1, gaussChebyshev2, if_pos h, if_pos h]
  exact ⟨rfl, rfl⟩

end Verif.Integ
