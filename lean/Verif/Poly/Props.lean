import Verif.Poly.Div
import Verif.Poly.Interp
import Mathlib.Data.Rat.Defs
import Mathlib.Algebra.Order.Ring.Rat
import Mathlib.Tactic.NormNum

/-!
# Polynomials (C34, C35, C36)

`toPoly v` is the mathematical polynomial whose coefficients are the list `v`.
-/

set_option autoImplicit false

namespace Verif.Poly

open Polynomial

variable {K : Type} [Field K] [DecidableEq K]

/-! ## C34: arithmetic agrees with evaluation -/

/-- **C34.**  Evaluation returns the power sum of the coefficients, for every polynomial and point. -/
theorem eval_spec (v : List K) (x : K) :
    eval v x = .ret (∑ i ∈ Finset.range v.length, v.getD i 0 * x ^ i) := by
  obtain ⟨n, f, rfl⟩ := exists_tab v 0
  rw [eval_tab, pl_eval, length_tab]
  congr 1
  exact Finset.sum_congr rfl fun i hi => by rw [getD_tab _ _ _ (Finset.mem_range.1 hi)]

/-- Evaluation in the library is evaluation of the mathematical polynomial. -/
theorem eval_toPoly (v : List K) (x : K) : eval v x = .ret ((toPoly v).eval x) := by
  obtain ⟨n, f, rfl⟩ := exists_tab v 0
  rw [eval_tab, toPoly_tab]

/-- **C34.**  `+` adds. -/
theorem add_spec (a b : List K) : ∃ w, add a b = .ret w ∧ toPoly w = toPoly a + toPoly b := by
  obtain ⟨n, f, rfl⟩ := exists_tab a 0
  obtain ⟨m, g, rfl⟩ := exists_tab b 0
  refine ⟨_, add_tab n m f g, ?_⟩
  ext i
  rw [coeff_add, toPoly_tab, toPoly_tab, toPoly_tab, pl_coeff, pl_coeff, pl_coeff]
  by_cases h : i < max n m
  · rw [if_pos h]
  · rw [if_neg h, if_neg (by omega), if_neg (by omega), add_zero]

/-- **C34.**  `-` subtracts. -/
theorem sub_spec (a b : List K) : ∃ w, sub a b = .ret w ∧ toPoly w = toPoly a - toPoly b := by
  obtain ⟨n, f, rfl⟩ := exists_tab a 0
  obtain ⟨m, g, rfl⟩ := exists_tab b 0
  refine ⟨_, sub_tab n m f g, ?_⟩
  ext i
  rw [coeff_sub, toPoly_tab, toPoly_tab, toPoly_tab, pl_coeff, pl_coeff, pl_coeff]
  by_cases h : i < max n m
  · rw [if_pos h]
  · rw [if_neg h, if_neg (by omega), if_neg (by omega), sub_zero]

/-- **C34.**  Unary `-` negates. -/
theorem neg_spec (a : List K) : ∃ w, neg a = .ret w ∧ toPoly w = -toPoly a := by
  obtain ⟨n, f, rfl⟩ := exists_tab a 0
  refine ⟨_, neg_tab n f, ?_⟩
  ext i
  rw [coeff_neg, toPoly_tab, toPoly_tab, pl_coeff, pl_coeff]
  split <;> simp

/-- **C34.**  `*` multiplies, unless both operands have no coefficients at all. -/
theorem mul_spec_partial (a b : List K) (h : ¬ (a = [] ∧ b = [])) :
    ∃ w, mul a b = .ret w ∧ toPoly w = toPoly a * toPoly b := by
  obtain ⟨n, f, rfl⟩ := exists_tab a 0
  obtain ⟨m, g, rfl⟩ := exists_tab b 0
  have hnm : 0 < n + m := by
    rcases Nat.eq_zero_or_pos (n + m) with h0 | h0
    · refine absurd ⟨?_, ?_⟩ h
      · rw [show n = 0 by omega]; rfl
      · rw [show m = 0 by omega]; rfl
    · exact h0
  obtain ⟨w, h1, h2⟩ := mul_tab n m hnm f g
  exact ⟨_, h1, by rw [toPoly_tab, toPoly_tab, toPoly_tab, h2]⟩

/-- The excluded case: multiplying two polynomials without coefficients throws. -/
theorem mul_empty_throws : mul ([] : List K) [] = .exn .lengthError := rfl

example : ¬ (([1, 2] : List ℚ) = [] ∧ ([3] : List ℚ) = []) := by simp

/-- **C34.**  Scalar operations. -/
theorem scalar_spec (v : List K) (c : K) :
    (∃ w, addScalar v c = .ret w ∧ toPoly w = toPoly v + C c) ∧
    (∃ w, subScalar v c = .ret w ∧ toPoly w = toPoly v - C c) ∧
    (∃ w, scalarSub c v = .ret w ∧ toPoly w = C c - toPoly v) ∧
    toPoly (mulScalar v c) = C c * toPoly v ∧
    (c ≠ 0 → C c * toPoly (divScalar v c) = toPoly v) := by
  have key : ∀ (u : List K) (d : K), ∃ w, addAt (if u.isEmpty then [0] else u) 0 d = .ret w ∧
      toPoly w = toPoly u + C d := by
    intro u d
    obtain ⟨n, f, rfl⟩ := exists_tab u 0
    cases n with
    | zero =>
      have e1 : (if (tab 0 f).isEmpty then [(0 : K)] else tab 0 f) = tab 1 (fun _ => 0) := by simp [tab]
      rw [e1]
      refine ⟨_, addAt_tab _ (by omega) d, ?_⟩
      rw [toPoly_tab, toPoly_tab, pl_zero, pl_update 1 (fun _ => (0 : K)) 0 (by omega)]
      simp [pl]
    | succ n =>
      have e1 : (if (tab (n + 1) f).isEmpty then [(0 : K)] else tab (n + 1) f) = tab (n + 1) f := by
        rw [if_neg]
        rw [List.isEmpty_iff]
        intro h
        have := congrArg List.length h
        simp at this
      rw [e1]
      refine ⟨_, addAt_tab f (by omega) d, ?_⟩
      rw [toPoly_tab, toPoly_tab, pl_update _ _ _ (by omega), pow_zero, mul_one]
  have hmap : ∀ (g : K → K) (e : K), (∀ z, g z = e * z) → toPoly (v.map g) = C e * toPoly v := by
    intro g e hg
    ext i
    rw [coeff_C_mul, toPoly_coeff, toPoly_coeff, List.getD, List.getD, List.getElem?_map]
    cases v[i]? with
    | none => simp
    | some z => simp [hg]
  refine ⟨key v c, ?_, ?_, hmap _ c (fun z => mul_comm z c), ?_⟩
  · obtain ⟨w, h1, h2⟩ := key v (-c)
    exact ⟨w, h1, by rw [h2, C_neg]; ring⟩
  · obtain ⟨u, h1, h2⟩ := neg_spec v
    obtain ⟨w, h3, h4⟩ := key u c
    refine ⟨w, by rw [scalarSub, h1, Outcome.bind_ret, h3], ?_⟩
    rw [h4, h2]; ring
  · intro hc
    rw [divScalar, hmap _ c⁻¹ (fun z => by rw [div_eq_mul_inv, mul_comm]), ← mul_assoc, ← C_mul,
      mul_inv_cancel₀ hc, C_1, one_mul]

/-- **C34** in terms of values: sums, differences and products of polynomials evaluate to the sums, differences
and products of the values. -/
theorem arith_eval_partial (a b : List K) (h : ¬ (a = [] ∧ b = [])) (x : K) :
    ∃ ya yb, eval a x = .ret ya ∧ eval b x = .ret yb ∧
      (add a b >>= fun w => eval w x) = .ret (ya + yb) ∧
      (sub a b >>= fun w => eval w x) = .ret (ya - yb) ∧
      (mul a b >>= fun w => eval w x) = .ret (ya * yb) := by
  refine ⟨_, _, eval_toPoly a x, eval_toPoly b x, ?_, ?_, ?_⟩
  · obtain ⟨w, h1, h2⟩ := add_spec a b
    rw [h1, Outcome.bind_ret, eval_toPoly, h2, eval_add]
  · obtain ⟨w, h1, h2⟩ := sub_spec a b
    rw [h1, Outcome.bind_ret, eval_toPoly, h2, eval_sub]
  · obtain ⟨w, h1, h2⟩ := mul_spec_partial a b h
    rw [h1, Outcome.bind_ret, eval_toPoly, h2, eval_mul]

/-- **C34.**  `==` holds exactly for equal polynomials, whatever trailing zeros the operands carry. -/
theorem isEqual_iff (a b : List K) : isEqual a b = true ↔ toPoly a = toPoly b := by
  rw [isEqual, List.all_eq_true]
  constructor
  · intro h
    ext i
    rw [toPoly_coeff, toPoly_coeff]
    by_cases hi : i < max a.length b.length
    · have := h i (List.mem_range.2 hi)
      rw [decide_eq_true_iff] at this
      have e : ∀ v : List K, (if i < v.length then v.getD i 0 else 0) = v.getD i 0 := by
        intro v
        split
        · rfl
        · next hv => simp [List.getD, List.getElem?_eq_none (Nat.le_of_not_lt hv)]
      rwa [e, e] at this
    · simp [List.getD, List.getElem?_eq_none (show a.length ≤ i by omega),
        List.getElem?_eq_none (show b.length ≤ i by omega)]
  · intro h i hi
    rw [decide_eq_true_iff]
    have := congrArg (fun p => p.coeff i) h
    simp only [toPoly_coeff] at this
    have e : ∀ v : List K, (if i < v.length then v.getD i 0 else 0) = v.getD i 0 := by
      intro v
      split
      · rfl
      · next hv => simp [List.getD, List.getElem?_eq_none (Nat.le_of_not_lt hv)]
    rw [e, e, this]

example : isEqual ([1, 2, 0] : List ℚ) [1, 2] = true ∧ isEqual ([1, 2, 3] : List ℚ) [1, 2] = false := by
  constructor <;> simp [isEqual, List.range_succ]

/-- **C34.**  `Reduce` keeps the polynomial and leaves no zero leading coefficient, so that the degree the class
reports (`size - 1`) is the degree of the polynomial. -/
theorem reduce_spec (v : List K) :
    toPoly (reduce v) = toPoly v ∧ ∀ h : reduce v ≠ [], (reduce v).getLast h ≠ 0 := by
  constructor
  · ext i
    rw [toPoly_coeff, toPoly_coeff]
    unfold reduce
    induction v using List.reverseRecOn with
    | nil => simp
    | append_singleton v c ih =>
      by_cases hc : c = 0
      · rw [List.rdropWhile_concat_pos _ _ _ (by simpa using hc), ih]
        subst hc
        simp only [List.getD]
        by_cases hi : i < v.length
        · rw [List.getElem?_append_left hi]
        · rw [List.getElem?_eq_none (Nat.le_of_not_lt hi), List.getElem?_append_right (Nat.le_of_not_lt hi)]
          rcases h : i - v.length with _ | k <;> simp
      · rw [List.rdropWhile_concat_neg _ _ _ (by simpa using hc)]
  · intro h
    have := List.rdropWhile_last_not (fun c : K => decide (c = 0)) v h
    simpa [reduce] using this

/-! ## C35: division -/

/-- **C35.**  For a nonzero divisor whose degree is at most the number of coefficients of the dividend, `poldiv`
returns the quotient and remainder: `u = q v + r` with `deg r < deg v`, and the quotient has no zero leading
coefficient. -/
theorem poldiv_spec_partial (u v : List K) (hv : toPoly v ≠ 0) (hlen : (toPoly v).natDegree ≤ u.length) :
    ∃ q r, poldiv u v = .ret (q, r) ∧ toPoly u = toPoly q * toPoly v + toPoly r ∧
      (toPoly r).degree < (toPoly v).degree ∧ ∀ h : q ≠ [], q.getLast h ≠ 0 := by
  obtain ⟨N, u, rfl⟩ := exists_tab u 0
  obtain ⟨M, v, rfl⟩ := exists_tab v 0
  simp only [toPoly_tab, length_tab] at hv hlen ⊢
  rcases topNonzero_tab M v M le_rfl with ⟨h1, h2⟩ | ⟨nv, hnv, h1, h2, h3⟩
  · exact absurd (by unfold pl; exact Finset.sum_eq_zero fun i hi => by rw [h2 i (Finset.mem_range.1 hi)]; simp) hv
  · have hpv : pl M v = pl (nv + 1) v := pl_extend (by omega) v (fun i hi hi' => h3 i (by omega) hi')
    have hdeg : (pl M v).degree = nv := by
      apply le_antisymm
      · rw [hpv, degree_le_iff_coeff_zero]
        intro m hm
        have hm : nv < m := by exact_mod_cast hm
        rw [pl_coeff, if_neg (by omega)]
      · apply le_degree_of_ne_zero
        rw [pl_coeff, if_pos hnv]; exact h2
    have hnN : nv ≤ N := by
      rw [natDegree_eq_of_degree_eq_some hdeg] at hlen; exact hlen
    obtain ⟨q, r, hloop, hI⟩ := divLoop N M nv hnv u v h2
    simp only [poldiv, length_tab, h1, Outcome.bind_ret, hloop]
    rw [forFromTo_fill nv N N le_rfl _ (fun _ => 0) _ (fun i _ _ r => rfl), Outcome.bind_ret]
    have hr : ∀ g : ℕ → K, (∀ i < nv, g i = r i) → pl nv g = pl (min nv N) r := by
      intro g hg
      rw [show min nv N = nv by omega]; exact pl_congr hg
    rcases topNonzero_tab N q N le_rfl with ⟨k1, k2⟩ | ⟨nq, hnq, k1, k2, k3⟩
    · rw [k1, Outcome.bind_ret]
      simp only
      rw [copyLoop 0 N (Nat.zero_le _), Outcome.bind_ret, copyLoop nv N hnN, Outcome.bind_ret]
      refine ⟨_, _, rfl, ?_, ?_, ?_⟩
      · rw [toPoly_tab, toPoly_tab, hI, hpv, hr _ (fun i hi => by rw [if_neg (by omega)]), pl_zero,
          pl_extend (Nat.zero_le N) q (fun i _ hi => k2 i hi), pl_zero]
      · rw [hdeg, toPoly_tab]; exact pl_degree_lt _ _
      · intro h; exact absurd rfl h
    · rw [k1, Outcome.bind_ret]
      simp only
      rw [copyLoop (nq + 1) N (by omega), Outcome.bind_ret, copyLoop nv N hnN, Outcome.bind_ret]
      refine ⟨_, _, rfl, ?_, ?_, ?_⟩
      · rw [toPoly_tab, toPoly_tab, hI, hpv, hr _ (fun i hi => by rw [if_neg (by omega)]),
          pl_extend (show nq + 1 ≤ N by omega) q (fun i hi hi' => k3 i (by omega) hi')]
      · rw [hdeg, toPoly_tab]; exact pl_degree_lt _ _
      · intro h
        rw [List.getLast_eq_getElem]
        simpa [tab] using k2

/-- **C35.**  A zero divisor (with any number of zero coefficients) is rejected. -/
theorem poldiv_zero (u v : List K) (hv : toPoly v = 0) : poldiv u v = .exn (.mml "DivisionByZeroError") := by
  obtain ⟨M, v, rfl⟩ := exists_tab v 0
  rcases topNonzero_tab M v M le_rfl with ⟨h1, h2⟩ | ⟨nv, hnv, h1, h2, h3⟩
  · simp only [poldiv, length_tab, h1, Outcome.bind_ret]
  · have := congrArg (fun p => p.coeff nv) hv
    simp only [toPoly_tab, pl_coeff, if_pos hnv, coeff_zero] at this
    exact absurd this h2

/-- **C35 fails** for dividends of degree below `deg v - 1`: the remainder is copied from beyond the end of the
dividend's coefficients. -/
theorem poldiv_short_ub (u v : List K) (hlen : u.length < (toPoly v).natDegree) : poldiv u v = .ub := by
  obtain ⟨N, u, rfl⟩ := exists_tab u 0
  obtain ⟨M, v, rfl⟩ := exists_tab v 0
  simp only [toPoly_tab, length_tab] at hlen
  rcases topNonzero_tab M v M le_rfl with ⟨h1, h2⟩ | ⟨nv, hnv, h1, h2, h3⟩
  · have : pl M v = 0 := by
      unfold pl; exact Finset.sum_eq_zero fun i hi => by rw [h2 i (Finset.mem_range.1 hi)]; simp
    rw [this] at hlen; simp at hlen
  · have hpv : pl M v = pl (nv + 1) v := pl_extend (by omega) v (fun i hi hi' => h3 i (by omega) hi')
    have hnN : N < nv := by
      have : (pl (nv + 1) v).natDegree ≤ nv := natDegree_le_iff_coeff_eq_zero.2 fun m hm => by
        rw [pl_coeff, if_neg (by omega)]
      rw [hpv] at hlen; omega
    obtain ⟨q, r, hloop, hI⟩ := divLoop N M nv hnv u v h2
    simp only [poldiv, length_tab, h1, Outcome.bind_ret, hloop]
    have h0 : forFromTo nv N (tab N r) (fun r j => Outcome.store r j 0) = .ret (tab N r) := by
      rw [forFromTo, show N - nv = 0 by omega]; rfl
    rw [h0, Outcome.bind_ret]
    rcases topNonzero_tab N q N le_rfl with ⟨k1, k2⟩ | ⟨nq, hnq, k1, k2, k3⟩
    · rw [k1, Outcome.bind_ret]
      simp only
      rw [copyLoop 0 N (Nat.zero_le _), Outcome.bind_ret, copyLoop_short nv N hnN, Outcome.bind_ub]
    · rw [k1, Outcome.bind_ret]
      simp only
      rw [copyLoop (nq + 1) N (by omega), Outcome.bind_ret, copyLoop_short nv N hnN, Outcome.bind_ub]

/-- A dividend and divisor in the normal range, and the constant 1 divided by `x^2 + 1`. -/
example : toPoly ([1, 1] : List ℚ) ≠ 0 ∧ (toPoly ([1, 1] : List ℚ)).natDegree ≤ [3, 4, 5].length := by
  have h : toPoly ([1, 1] : List ℚ) = 1 + X := by simp [toPoly, Finset.sum_range_succ]
  refine ⟨fun h0 => ?_, ?_⟩
  · have := congrArg (fun p => p.coeff 0) h0
    rw [h] at this; simp at this
  · exact natDegree_le_iff_coeff_eq_zero.2 fun m hm => by
      have hm : 3 < m := by simpa using hm
      rw [toPoly_coeff]
      simp [List.getD, List.getElem?_eq_none (show ([1, 1] : List ℚ).length ≤ m by simp; omega)]

example : poldiv ([1] : List ℚ) [1, 0, 1] = .ub := rfl

/-! ## C36: derivative, integral and interpolation -/

/-- **C36.**  `derivative` is the formal derivative. -/
theorem derivative_spec (v : List K) :
    ∃ w, derivative v = .ret w ∧ toPoly w = Polynomial.derivative (toPoly v) := by
  obtain ⟨n, f, rfl⟩ := exists_tab v 0
  refine ⟨_, derivative_tab n f, ?_⟩
  ext i
  rw [toPoly_tab, toPoly_tab, coeff_derivative, pl_coeff, pl_coeff]
  by_cases h : i < n - 1
  · rw [if_pos h, if_pos (by omega)]; push_cast; ring
  · rw [if_neg h, if_neg (by omega), zero_mul]

/-- **C36.**  `integral` is an antiderivative without constant term, for fields of characteristic zero. -/
theorem integral_spec [CharZero K] (v : List K) :
    ∃ w, integral v = .ret w ∧ Polynomial.derivative (toPoly w) = toPoly v ∧ (toPoly w).coeff 0 = 0 := by
  obtain ⟨n, f, rfl⟩ := exists_tab v 0
  refine ⟨_, integral_tab n f, ?_, ?_⟩
  · ext i
    rw [coeff_derivative, toPoly_tab, toPoly_tab, pl_coeff, pl_coeff]
    by_cases h : i < n
    · rw [if_pos h, if_pos (by omega), if_neg (by omega), Nat.add_sub_cancel]
      have : ((i : K) + 1) ≠ 0 := by exact_mod_cast Nat.succ_ne_zero i
      push_cast
      rw [div_mul_cancel₀ _ this]
    · rw [if_neg h, if_neg (by omega), zero_mul]
  · rw [toPoly_tab, pl_coeff, if_pos (by omega), if_pos rfl]

/-- **C36.**  Differentiating the integral gives back exactly the coefficients. -/
theorem derivative_integral [CharZero K] (v : List K) : (integral v >>= derivative) = .ret v := by
  obtain ⟨n, f, rfl⟩ := exists_tab v 0
  rw [integral_tab, Outcome.bind_ret, derivative_tab]
  congr 1
  refine tab_congr fun i hi => ?_
  have : ((i + 1 : ℕ) : K) ≠ 0 := by exact_mod_cast Nat.succ_ne_zero i
  rw [if_neg (by omega), Nat.add_sub_cancel, div_mul_cancel₀ _ this]

/-- **C36.**  `Derive` stores the value and the derivatives at `x` up to the length of the output vector, for
every polynomial with at least one coefficient and every nonempty output vector. -/
theorem derive_spec (v : List K) (hv : v ≠ []) (x : K) (pd : List K) (hpd : pd ≠ []) :
    ∃ w, derive v x pd = .ret w ∧ w.length = pd.length ∧
      ∀ j < pd.length, w.getD j 0 = (Polynomial.derivative^[j] (toPoly v)).eval x := by
  obtain ⟨n, f, rfl⟩ := exists_tab v 0
  obtain ⟨m, g, rfl⟩ := exists_tab pd 0
  have hn : n ≠ 0 := by rintro rfl; exact hv rfl
  have hm : 0 < m := by rcases Nat.eq_zero_or_pos m with rfl | h; · exact absurd rfl hpd
                        · exact h
  obtain ⟨nc, rfl⟩ := Nat.exists_eq_succ_of_ne_zero hn
  refine ⟨_, derive_tab nc m hm f x g, by simp, ?_⟩
  intro j hj
  rw [length_tab] at hj
  rw [getD_tab _ _ _ hj, toPoly_tab, taylor_coeff]
  have := congrArg (fun F => F (pl (nc + 1) f)) (factorial_smul_hasseDeriv (R := K) j)
  simp only [LinearMap.smul_apply] at this
  rw [← this, nsmul_eq_mul, eval_mul, eval_natCast, mul_comm]

example : ([1, 2, 3] : List ℚ) ≠ [] ∧ ([0, 0] : List ℚ) ≠ [] := by simp

/-- **C36.**  For pairwise distinct nodes, `FromValues` returns a polynomial with as many coefficients as nodes
that takes the given value at every node. -/
theorem fromValues_spec (x y : List K) (hxy : x.length = y.length) (hne : x ≠ []) (hx : x.Nodup) :
    ∃ p, fromValues x y = .ret p ∧ p.length = x.length ∧
      ∀ i < x.length, eval p (x.getD i 0) = .ret (y.getD i 0) := by
  obtain ⟨n, x, rfl⟩ := exists_tab x 0
  obtain ⟨m, y, rfl⟩ := exists_tab y 0
  rw [length_tab, length_tab] at hxy
  subst hxy
  have hn : 0 < n := by rcases Nat.eq_zero_or_pos n with rfl | h; · exact absurd rfl hne
                        · exact h
  have hinj : ∀ i < n, ∀ j < n, j ≠ i → x i ≠ x j := by
    intro i hi j hj hji h
    have := List.nodup_iff_injective_getElem.1 hx (a₁ := ⟨i, by simpa⟩) (a₂ := ⟨j, by simpa⟩) (by simpa [tab] using h)
    simp only [Fin.mk.injEq] at this
    exact hji this.symm
  have hany : ((List.range n).any (fun i => (List.range n).any (fun j =>
      decide (i < j) && decide ((tab n x).getD i 0 = (tab n x).getD j 0)))) = false := by
    rw [List.any_eq_false]
    intro i hi
    rw [Bool.not_eq_true, List.any_eq_false]
    intro j hj
    rw [List.mem_range] at hi hj
    rw [getD_tab _ _ _ hi, getD_tab _ _ _ hj]
    simp only [Bool.and_eq_true, decide_eq_true_eq, not_and]
    intro hij
    exact hinj i hi j hj (by omega)
  refine ⟨tab n (fun k => ∑ j ∈ Finset.range n,
      (prodX x n /ₘ (X - C (x j))).coeff k * (y j / (prodX x n).derivative.eval (x j))), ?_, by simp, ?_⟩
  · simp only [fromValues, length_tab, ne_eq, not_true, if_false, hn.ne', hany, Bool.false_eq_true]
    rw [masterPoly_tab n hn, Outcome.bind_ret, fromValues_loop n hn]
  · intro i hi
    rw [length_tab] at hi
    rw [getD_tab _ _ _ hi, getD_tab _ _ _ hi, eval_tab]
    congr 1
    have hpl : pl n (fun k => ∑ j ∈ Finset.range n,
        (prodX x n /ₘ (X - C (x j))).coeff k * (y j / (prodX x n).derivative.eval (x j))) =
        ∑ j ∈ Finset.range n, C (y j / (prodX x n).derivative.eval (x j)) * (prodX x n /ₘ (X - C (x j))) := by
      ext k
      rw [pl_coeff, finsetSum_coeff]
      simp only [coeff_C_mul]
      split
      · exact Finset.sum_congr rfl fun j _ => mul_comm _ _
      · next hk =>
        exact (Finset.sum_eq_zero fun j _ => by rw [divX_coeff_high x n _ k (by omega), mul_zero]).symm
    rw [hpl, eval_finsetSum, Finset.sum_eq_single i]
    · rw [eval_mul, eval_C, divX_eval_self x n i hi,
        div_mul_cancel₀ _ (derivative_ne x n i hi (hinj i hi))]
    · intro j hj hji
      rw [eval_mul, divX_eval_ne x n i j hi (Finset.mem_range.1 hj) (hinj i hi j (Finset.mem_range.1 hj) hji), mul_zero]
    · intro h; exact absurd (Finset.mem_range.2 hi) h

/-- **C36.**  Mismatched, empty or repeated nodes are rejected. -/
theorem fromValues_rejects (x y : List K) (h : x.length ≠ y.length ∨ x = [] ∨ ¬ x.Nodup) :
    fromValues x y = .exn (.mml "ArgumentError") := by
  by_cases h1 : x.length ≠ y.length
  · rw [fromValues, if_pos h1]
  · rw [fromValues, if_neg h1]
    by_cases h2 : x.length = 0
    · rw [if_pos h2]
    · rw [if_neg h2, if_pos]
      have hd : ¬ x.Nodup := by
        rcases h with h | h | h
        · exact absurd h h1
        · exact absurd (by rw [h]; rfl) h2
        · exact h
      rw [List.nodup_iff_injective_getElem] at hd
      simp only [Function.Injective, not_forall] at hd
      obtain ⟨⟨i, hi⟩, ⟨j, hj⟩, hij, hne⟩ := hd
      have hne' : i ≠ j := fun h => hne (by simp [h])
      simp only at hij
      rw [List.any_eq_true]
      rcases Nat.lt_or_gt_of_ne hne' with hlt | hlt
      · refine ⟨i, List.mem_range.2 hi, List.any_eq_true.2 ⟨j, List.mem_range.2 hj, ?_⟩⟩
        simp [hlt, List.getD, hi, hj, hij]
      · refine ⟨j, List.mem_range.2 hj, List.any_eq_true.2 ⟨i, List.mem_range.2 hi, ?_⟩⟩
        simp [hlt, List.getD, hi, hj, hij]

example : ([0, 1, 2] : List ℚ).length = ([5, 7, 1] : List ℚ).length ∧ ([0, 1, 2] : List ℚ) ≠ [] ∧
    ([0, 1, 2] : List ℚ).Nodup := by decide

example : ¬ ([0, 1, 0] : List ℚ).Nodup := by decide

end Verif.Poly
