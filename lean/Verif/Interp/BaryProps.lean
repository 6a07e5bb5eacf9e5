import Verif.Interp.BaryLemmas
import Mathlib.Tactic.IntervalCases
import Mathlib.Analysis.SpecialFunctions.Sqrt

/-!
# The barycentric rational interpolation (C84)
-/

set_option autoImplicit false

namespace Verif.Interp

open Verif Finset Polynomial Lagrange

/-- The constructor rejects an order which is negative or not below the number of points. -/
theorem bary_new_errors (x y : List ℝ) (d : ℤ) (h : d < 0 ∨ (x.length : ℤ) ≤ d) :
    Bary.new x y d = .exn (.mml "RealFuncInterpInitError") := by
  rw [Bary.new]
  split_ifs <;> first | rfl | omega

example : Bary.new [0, 1, 2] [5, 6, 7] 3 = .exn (.mml "RealFuncInterpInitError") := bary_new_errors _ _ 3 (Or.inr (by norm_num))

/-- For points in order the object made is a rational function without poles, defined on the whole line, with the values given at
the points: a quotient of a polynomial of degree below `n` by one of degree below `n - d`. -/
theorem bary_spec (n d : ℕ) (hd : d < n) (x y : ℕ → ℝ) (hx : Increasing n x ∨ Decreasing n x) :
    ∃ f, Bary.new (tab n x) (tab n y) d = .ret f ∧ (∀ i < n, f.eval (x i) = .ret (y i)) ∧
      ∃ P Q : ℝ[X], P.natDegree < n ∧ Q.natDegree < n - d ∧ (∀ z, Q.eval z ≠ 0) ∧ ∀ z, f.eval z = .ret (P.eval z / Q.eval z) := by
  have hdis := sorted_distinct hx
  refine ⟨_, bary_new_eq hdis hd y, fun i hi => fh_node hdis y i hi, fhP n d x y, fhQ n d x, ?_, ?_, fhQ_ne hx hd, fh_eval hx hd y⟩
  · have : (fhP n d x y).natDegree ≤ n - 1 := by
      refine natDegree_sum_le_of_forall_le _ _ fun i hi => ?_
      rw [mem_range] at hi
      have h1 : (nodal (outside n d i) x).natDegree = n - d - 1 := by rw [natDegree_nodal, card_outside (by omega)]
      have h2 : (interpolate (win d i) x y).natDegree ≤ d := by
        have := degree_interpolate_lt y (hdis.injOn (i := i) (d := d) (by omega))
        rw [Nat.card_Ico, show i + d + 1 - i = d + 1 by omega] at this
        by_cases h0 : interpolate (win d i) x y = 0
        · rw [h0, natDegree_zero]
          omega
        · exact Nat.lt_succ_iff.mp ((natDegree_lt_iff_degree_lt h0).mpr this)
      refine natDegree_mul_le.trans ?_
      refine (Nat.add_le_add (natDegree_C_mul_le _ _) h2).trans ?_
      omega
    omega
  · have : (fhQ n d x).natDegree ≤ n - d - 1 := by
      refine natDegree_sum_le_of_forall_le _ _ fun i hi => ?_
      rw [mem_range] at hi
      refine (natDegree_C_mul_le _ _).trans ?_
      rw [natDegree_nodal, card_outside (by omega)]
    omega

/-- The hypotheses of `bary_spec` are met. -/
example : ∃ f, Bary.new (tab 5 fun i => (i : ℝ) ^ 2) (tab 5 fun i => (-1) ^ i) 2 = .ret f ∧ f.eval 9 = .ret (-1) := by
  have hinc : Increasing 5 fun i => (i : ℝ) ^ 2 := by
    intro i j hij _
    have h1 : (i : ℝ) < j := by exact_mod_cast hij
    have h0 : (0 : ℝ) ≤ i := Nat.cast_nonneg i
    dsimp only
    nlinarith
  obtain ⟨f, hf, hv, -⟩ := bary_spec 5 2 (by norm_num) (fun i => (i : ℝ) ^ 2) (fun i => (-1) ^ i) (Or.inl hinc)
  have := hv 3 (by norm_num)
  norm_num at this
  exact ⟨f, hf, this⟩

/-- Polynomials of degree at most `d` are reproduced. -/
theorem bary_exact (n d : ℕ) (hd : d < n) (x : ℕ → ℝ) (hx : Increasing n x ∨ Decreasing n x) (p : ℝ[X]) (hp : p.natDegree ≤ d) :
    ∃ f, Bary.new (tab n x) (tab n fun i => p.eval (x i)) d = .ret f ∧ ∀ z, f.eval z = .ret (p.eval z) := by
  have hdis := sorted_distinct hx
  refine ⟨_, bary_new_eq hdis hd _, fun z => ?_⟩
  rw [fh_eval hx hd]
  have : fhP n d x (fun i => p.eval (x i)) = fhQ n d x * p := by
    rw [fhP, fhQ, sum_mul]
    refine sum_congr rfl fun i hi => ?_
    rw [mem_range] at hi
    rw [interp_window hdis (by omega) p hp]
  rw [this, eval_mul, mul_div_cancel_left₀ _ (fhQ_ne hx hd z)]

/-- The hypotheses of `bary_exact` are met. -/
example : ∃ f, Bary.new (tab 5 fun i => (i : ℝ)) (tab 5 fun i => (i : ℝ) ^ 2) 2 = .ret f ∧ f.eval (1 / 2) = .ret (1 / 4) := by
  obtain ⟨f, hf, hv⟩ := bary_exact 5 2 (by norm_num) (fun i => (i : ℝ)) (Or.inl fun i j hij _ => Nat.cast_lt.mpr hij) (X ^ 2)
    (by rw [natDegree_X_pow])
  simp only [eval_pow, eval_X] at hf hv
  exact ⟨f, hf, by rw [hv]; norm_num⟩

/-- Away from the points, whatever their order, the value is the blend of the interpolating polynomials of all runs of `d + 1`
neighbouring points, run `i` with weight `(-1)ⁱ / ((z - xᵢ)⋯(z - xᵢ₊d))`, as long as the weights do not add up to zero. -/
theorem bary_blend (n d : ℕ) (hd : d < n) (x y : ℕ → ℝ) (hx : Distinct n x) :
    ∃ f, Bary.new (tab n x) (tab n y) d = .ret f ∧ (∀ i < n, f.eval (x i) = .ret (y i)) ∧ ∀ z, (∀ i < n, z ≠ x i) →
      ∀ l : ℕ → ℝ, (∀ i < n - d, l i = (-1) ^ i / ∏ j ∈ Ico i (i + d + 1), (z - x j)) →
      f.eval z = if ∑ i ∈ range (n - d), l i = 0 then .ub
        else .ret ((∑ i ∈ range (n - d), l i * (interpolate (Ico i (i + d + 1)) x y).eval z) / ∑ i ∈ range (n - d), l i) := by
  refine ⟨_, bary_new_eq hx hd y, fun i hi => fh_node hx y i hi, fun z hz l hl => ?_⟩
  rw [fh_between y z hz, fh_blend hd y z hz, fh_blend_one hx hd z hz]
  have e1 : ∑ i ∈ range (n - d), l i = ∑ i ∈ range (n - d), lam d x z i := sum_congr rfl fun i hi => hl i (mem_range.mp hi)
  have e2 : ∑ i ∈ range (n - d), l i * (interpolate (Ico i (i + d + 1)) x y).eval z =
      ∑ i ∈ range (n - d), lam d x z i * (interpolate (win d i) x y).eval z := sum_congr rfl fun i hi => by
    rw [hl i (mem_range.mp hi), lam]
  rw [e1, e2]
  rfl

/-- With the largest order the result is the interpolating polynomial, whatever the order of the points. -/
theorem bary_full (n : ℕ) (hn : 0 < n) (x y : ℕ → ℝ) (hx : Distinct n x) :
    ∃ f, Bary.new (tab n x) (tab n y) ((n - 1 : ℕ) : ℤ) = .ret f ∧ ∀ z, f.eval z = .ret ((interpolate (range n) x y).eval z) := by
  obtain ⟨f, hf, hv, hb⟩ := bary_blend n (n - 1) (by omega) x y hx
  refine ⟨f, hf, fun z => ?_⟩
  have hw : Ico 0 (0 + (n - 1) + 1) = range n := by
    rw [range_eq_Ico]
    congr 1
    omega
  by_cases hz : ∀ i < n, z ≠ x i
  · have hne : ∏ j ∈ range n, (z - x j) ≠ 0 := prod_ne_zero_iff.mpr fun j hj => sub_ne_zero.mpr (hz j (mem_range.mp hj))
    rw [hb z hz _ fun _ _ => rfl, show n - (n - 1) = 1 by omega, range_one, sum_singleton, sum_singleton, hw, if_neg, mul_div_cancel_left₀]
    · rw [pow_zero]
      exact one_div_ne_zero hne
    · rw [pow_zero]
      exact one_div_ne_zero hne
  · push Not at hz
    obtain ⟨k, hk, rfl⟩ := hz
    have hinj : Set.InjOn x (range n) := by
      rw [← hw]
      exact hx.injOn (by omega)
    rw [hv k hk, eval_interpolate_at_node y hinj (mem_range.mpr hk)]

/-- The hypotheses of `bary_full` are met by points which are out of order. -/
example : ∃ f, Bary.new (tab 3 fun i => if i = 1 then (7 : ℝ) else i) (tab 3 fun i => (i : ℝ)) 2 = .ret f := by
  obtain ⟨f, hf, -⟩ := bary_full 3 (by norm_num) (fun i => if i = 1 then (7 : ℝ) else i) (fun i => (i : ℝ)) (by
    intro i j hij hj
    interval_cases j
    · omega
    · obtain rfl : i = 0 := by omega
      norm_num
    · interval_cases i <;> norm_num)
  exact ⟨f, hf⟩

/-- The weights reported are those of the definition, and an index outside the table is rejected. -/
theorem bary_getWeight (n d : ℕ) (hd : d < n) (x y : ℕ → ℝ) (hx : Distinct n x) (f : Bary)
    (hf : Bary.new (tab n x) (tab n y) d = .ret f) (k : ℤ) :
    f.getWeight k = if 0 ≤ k ∧ k < n then .ret (∑ i ∈ (range (n - d)).filter fun i => i ≤ k.toNat ∧ k.toNat ≤ i + d,
        (-1) ^ i / ∏ j ∈ (Ico i (i + d + 1)).erase k.toNat, (x k.toNat - x j))
      else .exn (.mml "IndexError") := by
  rw [bary_new_eq hx hd] at hf
  cases hf
  rw [Bary.getWeight, fhObj]
  dsimp only
  rw [length_tab]
  split_ifs with h1 h2 h2
  · omega
  · rfl
  · rw [index_tab _ (by omega), fhWeight, ← sum_filter]
    refine congrArg _ (sum_congr rfl fun i _ => ?_)
    rw [nodalWeight, prod_inv_distrib, div_eq_mul_inv]
  · omega

/-- With points out of order the denominator can vanish: for the points `0, 2, 1` with order zero the division by zero happens at
`2 - √2`, a place inside the table. -/
theorem bary_unsorted_pole : ∃ f, Bary.new (tab 3 fun i => if i = 0 then (0 : ℝ) else if i = 1 then 2 else 1) (tab 3 fun i => (i : ℝ)) 0 = .ret f ∧
    f.eval (2 - Real.sqrt 2) = .ub := by
  have hx : Distinct 3 fun i => if i = 0 then (0 : ℝ) else if i = 1 then 2 else 1 := by
    intro i j hij hj
    interval_cases j
    · omega
    · obtain rfl : i = 0 := by omega
      norm_num
    · interval_cases i <;> norm_num
  obtain ⟨f, hf, -, hb⟩ := bary_blend 3 0 (by norm_num) _ (fun i => (i : ℝ)) hx
  refine ⟨f, hf, ?_⟩
  have h2 : Real.sqrt 2 * Real.sqrt 2 = 2 := Real.mul_self_sqrt (by norm_num)
  have hpos : 0 ≤ Real.sqrt 2 := Real.sqrt_nonneg 2
  have hn0 : 2 - Real.sqrt 2 ≠ 0 := fun h => by nlinarith
  have hn1 : Real.sqrt 2 ≠ 0 := fun h => by rw [h] at h2; norm_num at h2
  have hn2 : 1 - Real.sqrt 2 ≠ 0 := fun h => by nlinarith
  rw [hb (2 - Real.sqrt 2) (fun i hi => by
    interval_cases i
    · simpa using hn0
    · simpa using hn1
    · norm_num
      intro h
      apply hn2
      linarith) _ fun _ _ => rfl, if_pos]
  simp only [Nat.sub_zero, sum_range_succ, range_zero, sum_empty, Nat.Ico_succ_singleton, prod_singleton]
  norm_num
  have e : 2 - Real.sqrt 2 - 1 = 1 - Real.sqrt 2 := by ring
  rw [e]
  field_simp
  nlinarith

/-- A repeated abscissa is not detected: the weights divide by zero. -/
theorem bary_repeated : Bary.new [0, 0] [1, 2] 1 = .ub := by
  norm_num [Bary.new, weightsStep, weight, weightStep, windowStep, forRange, forFromTo, fdiv, Outcome.index, Outcome.store]

/-- Order zero is not the piecewise constant function which the documentation announces. -/
theorem bary_zero_not_constant : ∃ f, Bary.new [0, 1] [0, 1] 0 = .ret f ∧ f.eval (1 / 2) = .ret (1 / 2) := by
  refine ⟨⟨[0, 1], [0, 1], 0, [1, -1]⟩, ?_, ?_⟩
  · norm_num [Bary.new, weightsStep, weight, weightStep, windowStep, forRange, forFromTo, fdiv, Outcome.index, Outcome.store]
    rfl
  · norm_num [Bary.eval, Bary.step, forRange, fdiv, Outcome.index]

/-- Order one is not the piecewise linear function which the documentation announces: that has the value `1/2` here. -/
theorem bary_one_not_linear : ∃ f, Bary.new [0, 1, 2] [0, 1, 0] 1 = .ret f ∧ f.eval (1 / 2) = .ret (3 / 4) := by
  refine ⟨⟨[0, 1, 2], [0, 1, 0], 1, [-1, 2, -1]⟩, ?_, ?_⟩
  · norm_num [Bary.new, weightsStep, weight, weightStep, windowStep, forRange, forFromTo, fdiv, Outcome.index, Outcome.store]
    rfl
  · norm_num [Bary.eval, Bary.step, forRange, fdiv, Outcome.index]

end Verif.Interp
