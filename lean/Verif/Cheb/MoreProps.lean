import Verif.Cheb.Props
import Mathlib.MeasureTheory.Integral.IntervalIntegral.FundThmCalculus
import Mathlib.Analysis.SpecialFunctions.Integrals.Basic

/-!
# The Chebyshev approximation (C105): calculus, conversion, truncation, roots
-/

set_option autoImplicit false

namespace Verif.Cheb

open Verif Polynomial

/-- The polynomial in `x` that an object evaluates on its interval, using all its coefficients. -/
noncomputable def Approx.full (p : Approx) : ℝ[X] := (series p.c p.coef.length).comp (affine p.a p.b)

theorem value_full (p : Approx) (hp : p.WF) (hm : p.m = p.coef.length) (x : ℝ) (hx : x ∈ Set.Icc p.a p.b) :
    p.value x = .ret (p.full.eval x) := by
  rw [value_eq p hp, if_pos hx, Approx.full, eval_comp, affine_eval, hm]

theorem full_tab (n : ℕ) (hn : 1 ≤ n) (c : ℕ → ℝ) (a b : ℝ) (m : ℕ) :
    (⟨tab n c, a, b, m⟩ : Approx).full = (series c n).comp (affine a b) := by
  rw [Approx.full]
  simp only [length_tab]
  exact congrArg (fun q => q.comp (affine a b)) (series_congr n hn fun k hk => getD_tab n c 0 hk)

theorem affine_derivative (a b : ℝ) : derivative (affine a b) = C (2 / (b - a)) := by
  rw [affine]
  simp

/-- `Derivative()` of an object that uses all its coefficients is its derivative. -/
theorem derivative_exact (p : Approx) (hp : p.WF) (hm : p.m = p.coef.length) :
    ∃ q, p.derivative = .ret q ∧ q.WF ∧ q.a = p.a ∧ q.b = p.b ∧
      ∃ P : ℝ[X], ∀ x ∈ Set.Icc p.a p.b, p.value x = .ret (P.eval x) ∧ q.value x = .ret ((derivative P).eval x) := by
  have hn : 1 ≤ p.coef.length := le_trans hp.2.1 hp.2.2
  obtain ⟨d, h1, h2⟩ := derivative_ret p p.coef.length p.c p.coef_eq hp.1 hn
  have hq : Approx.WF ⟨tab p.coef.length d, p.a, p.b, p.coef.length⟩ := ⟨hp.1, hn, by simp⟩
  refine ⟨_, h1, hq, rfl, rfl, p.full, fun x hx => ⟨value_full p hp hm x hx, ?_⟩⟩
  rw [value_full _ hq (by simp) x hx, full_tab _ hn, Approx.full, derivative_comp, affine_derivative, h2]
  simp only [eval_comp, eval_mul, eval_C]

/-- A truncated object: `Derivative()` ignores the truncation, and is the derivative of the object with all coefficients in use. -/
theorem derivative_ignores_truncation (p : Approx) (m : ℕ) : Approx.derivative { p with m := m } = p.derivative := rfl

/-- `Integral()` with at least two coefficients: the integral from `a`, less the term that the fixed number of coefficients cannot
hold.  Missing from the full claim: that term is zero only when the last coefficient is. -/
theorem integral_partial (p : Approx) (hp : p.WF) (hm : p.m = p.coef.length) (hn : 2 ≤ p.coef.length) :
    ∃ q, p.integral = .ret q ∧ q.WF ∧ q.a = p.a ∧ q.b = p.b ∧ q.value p.a = .ret 0 ∧
      ∃ P : ℝ[X], ∀ x ∈ Set.Icc p.a p.b, p.value x = .ret (P.eval x) ∧
        q.value x = .ret ((∫ t in p.a..x, P.eval t) - (p.b - p.a) / 4 * p.c (p.coef.length - 1) / p.coef.length *
          ((Chebyshev.T ℝ p.coef.length).eval (toUnit p.a p.b x) - (-1) ^ p.coef.length)) := by
  set n := p.coef.length with hn'
  have hab := hp.1
  have hba : p.b - p.a ≠ 0 := by linarith
  have hn0 : (n : ℝ) ≠ 0 := by positivity
  obtain ⟨I, h1, h2, h3⟩ := integral_ret p n p.c p.coef_eq hp.1 hn
  have hq : Approx.WF ⟨tab n I, p.a, p.b, n⟩ := ⟨hp.1, by simp only; omega, by simp⟩
  have hta : toUnit p.a p.b p.a = -1 := by
    rw [toUnit]
    field_simp
    ring
  refine ⟨_, h1, hq, rfl, rfl, ?_, p.full, fun x hx => ⟨value_full p hp hm x hx, ?_⟩⟩
  · rw [value_full _ hq (by simp) p.a ⟨le_rfl, hab.le⟩, full_tab _ (by omega), eval_comp, affine_eval, hta, h3]
  · rw [value_full _ hq (by simp) x hx, full_tab _ (by omega)]
    congr 1
    -- both sides have the same derivative
    set R : ℝ[X] := (series I n).comp (affine p.a p.b) + C ((p.b - p.a) / 4 * p.c (n - 1) / n) *
      ((Chebyshev.T ℝ (n : ℤ)).comp (affine p.a p.b) - C ((-1) ^ n)) with hR
    have hRd : derivative R = p.full := by
      rw [hR, derivative_add, derivative_C_mul, derivative_sub, derivative_C, derivative_comp, derivative_comp, affine_derivative,
        h2, Chebyshev.T_derivative_eq_U, Approx.full, ← hn']
      simp only [mul_comp, sub_comp, C_comp, Int.cast_natCast, natCast_comp, sub_zero]
      have e1 : C (2 / (p.b - p.a)) * C ((p.b - p.a) / 2) = (1 : ℝ[X]) := by
        rw [← C_mul]
        rw [show 2 / (p.b - p.a) * ((p.b - p.a) / 2) = 1 by field_simp, C_1]
      have e2 : C ((p.b - p.a) / 4 * p.c (n - 1) / n) * C (2 / (p.b - p.a)) * (n : ℝ[X]) = C (p.c (n - 1) / 2) := by
        rw [← C_eq_natCast, ← C_mul, ← C_mul]
        congr 1
        field_simp
        ring
      linear_combination ((series p.c n).comp (affine p.a p.b) - C (p.c (n - 1) / 2) * (Chebyshev.U ℝ ((n : ℤ) - 1)).comp (affine p.a p.b)) * e1
        + ((Chebyshev.U ℝ ((n : ℤ) - 1)).comp (affine p.a p.b)) * e2
    have hint : ∫ t in p.a..x, p.full.eval t = R.eval x - R.eval p.a := by
      rw [← hRd]
      refine intervalIntegral.integral_eq_sub_of_hasDerivAt (fun t _ => R.hasDerivAt t) ?_
      exact (derivative R).continuous.intervalIntegrable _ _
    have hRa : R.eval p.a = 0 := by
      rw [hR]
      simp only [eval_add, eval_comp, affine_eval, hta, h3, eval_mul, eval_sub, eval_C, Chebyshev.T_eval_neg_one, Int.cast_negOnePow,
        zpow_natCast, sub_self, mul_zero, add_zero]
    rw [hint, hRa, hR]
    simp only [eval_add, eval_comp, affine_eval, eval_mul, eval_sub, eval_C]
    ring

/-- `Integral()` is exact when the last coefficient is zero. -/
theorem integral_exact (p : Approx) (hp : p.WF) (hm : p.m = p.coef.length) (hn : 2 ≤ p.coef.length) (h0 : p.c (p.coef.length - 1) = 0) :
    ∃ q, p.integral = .ret q ∧ q.WF ∧ ∃ P : ℝ[X], ∀ x ∈ Set.Icc p.a p.b, p.value x = .ret (P.eval x) ∧
        q.value x = .ret (∫ t in p.a..x, P.eval t) := by
  obtain ⟨q, h1, h2, -, -, -, P, h3⟩ := integral_partial p hp hm hn
  refine ⟨q, h1, h2, P, fun x hx => ⟨(h3 x hx).1, ?_⟩⟩
  rw [(h3 x hx).2, h0]
  simp

/-- With one coefficient (or none) `Integral()` reads before the beginning of the array. -/
theorem integral_one_ub (p : Approx) (hn : p.coef.length ≤ 1) : p.integral = .ub := by
  rw [Approx.integral]
  have : forFromTo 1 (p.coef.length - 1) (List.replicate p.coef.length (0 : ℝ), (0 : ℝ), (1 : ℝ))
      (intStep p.coef (0.25 * (p.b - p.a))) = .ret (List.replicate p.coef.length 0, 0, 1) := by
    rw [forFromTo, show p.coef.length - 1 - 1 = 0 by omega, forRange]
  rw [this, Outcome.bind_ret, indexZ, if_pos (by omega), Outcome.bind_ub]

/-- The full claim fails: the identity function on `[-1, 1]` from two samples has the integral zero. -/
theorem integral_not_exact : ∃ p q, fromFunction (fun x => .ret x) (-1) 1 2 = .ret p ∧ p.integral = .ret q ∧
    (∀ x ∈ Set.Icc (-1 : ℝ) 1, p.value x = .ret x) ∧ q.value 0 = .ret 0 ∧ ∫ t in (-1 : ℝ)..0, t = -1 / 2 := by
  have hd : (X : ℝ[X]).degree < ((2 : ℕ) : WithBot ℕ) := by
    rw [degree_X]
    norm_num
  obtain ⟨p, h1, hw, hx⟩ := fromFunction_polynomial X (-1) 1 2 (by norm_num) (by norm_num) hd
  have h2 := fromFunction_ret (fun x => Outcome.ret x) (fun x => x) (-1) 1 2 (by norm_num) (by norm_num) (fun _ _ => rfl)
  simp only [eval_X] at h1 hx
  have hpe := Outcome.ret.inj (h1.symm.trans h2)
  have hl : p.coef.length = 2 := by rw [hpe]; simp
  have ha : p.a = -1 := by rw [hpe]
  have hb : p.b = 1 := by rw [hpe]
  obtain ⟨q, h3, -, -, -, -, P, h4⟩ := integral_partial p hw (by rw [hpe]; simp) (by omega)
  refine ⟨p, q, h1, h3, fun x hx' => hx x hx', ?_, ?_⟩
  · have hP : ∀ t ∈ Set.Icc (-1 : ℝ) 1, P.eval t = t := by
      intro t ht
      have := (h4 t (by rw [ha, hb]; exact ht)).1
      rw [hx t ht] at this
      exact (Outcome.ret.inj this).symm
    have h5 := (h4 0 (by rw [ha, hb]; constructor <;> norm_num)).2
    have hc1 : p.c 1 = 1 := by
      have := hx 1 (by constructor <;> norm_num)
      have e2 := hx (-1) (by constructor <;> norm_num)
      have hm2 : p.m = 2 := by rw [hpe]
      rw [value_spec p hw 1 (by rw [ha, hb]; constructor <;> norm_num), hm2, ha, hb] at this
      rw [value_spec p hw (-1) (by rw [ha, hb]; constructor <;> norm_num), hm2, ha, hb] at e2
      have f1 := Outcome.ret.inj this
      have f2 := Outcome.ret.inj e2
      simp [Finset.sum_Ico_succ_top, toUnit] at f1 f2
      norm_num at f1 f2
      linarith
    rw [h5, hl, ha, hb, hc1]
    have hint : ∫ t in (-1 : ℝ)..0, P.eval t = -1 / 2 := by
      rw [intervalIntegral.integral_congr (g := fun t => t)]
      · rw [integral_id]; norm_num
      · intro t ht
        rw [Set.uIcc_of_le (by norm_num)] at ht
        exact hP t ⟨ht.1, by linarith [ht.2]⟩
    rw [hint]
    norm_num [toUnit, Chebyshev.T_two]
  · rw [integral_id]; norm_num

/-- Integrating a polynomial that leaves room for one more degree. -/
theorem integral_polynomial (g : ℝ[X]) (a b : ℝ) (n : ℕ) (hn : 2 ≤ n) (hab : a < b) (hg : g.degree < (n - 1 : ℕ)) :
    ∃ p q, fromFunction (fun x => .ret (g.eval x)) a b n = .ret p ∧ p.integral = .ret q ∧
      ∀ x ∈ Set.Icc a b, q.value x = .ret (∫ t in a..x, g.eval t) := by
  have hg' : g.degree < n := lt_of_lt_of_le hg (by exact_mod_cast Nat.sub_le n 1)
  obtain ⟨p, h1, hw, hx⟩ := fromFunction_polynomial g a b n (by omega) hab hg'
  have h2 := fromFunction_ret (fun x => Outcome.ret (g.eval x)) (fun x => g.eval x) a b n (by omega) hab (fun _ _ => rfl)
  have hpe := Outcome.ret.inj (h1.symm.trans h2)
  have hl : p.coef.length = n := by rw [hpe]; simp
  have ha : p.a = a := by rw [hpe]
  have hb : p.b = b := by rw [hpe]
  -- the last coefficient vanishes
  have hlast : p.c (n - 1) = 0 := by
    rw [hpe, Approx.c]
    simp only
    rw [getD_tab _ _ _ (by omega)]
    set r : ℝ[X] := g.comp (C (0.5 * (b - a)) * X + C (0.5 * (b + a))) with hr
    have hrd : r.degree < (n - 1 : ℕ) := by
      refine comp_degree g (n - 1) (by omega) hg _ (natDegree_linear ?_)
      have : 0 < b - a := by linarith
      positivity
    have hser := series_dct n (by omega) r (lt_of_lt_of_le hrd (by exact_mod_cast Nat.sub_le n 1))
    have hv : (fun k => r.eval (node n k)) = fun k => g.eval (node n k * (0.5 * (b - a)) + 0.5 * (b + a)) := by
      funext k
      rw [hr, eval_comp]
      simp only [eval_add, eval_mul, eval_C, eval_X]
      congr 1
      ring
    rw [hv] at hser
    set c := dct n fun k => g.eval (node n k * (0.5 * (b - a)) + 0.5 * (b + a)) with hc
    have hco := congrArg (fun q => q.coeff (n - 1)) hser
    simp only [coeff_eq_zero_of_degree_lt hrd] at hco
    rw [series, coeff_add, finsetSum_coeff, coeff_C, if_neg (by omega), zero_add,
      Finset.sum_eq_single (n - 1)] at hco
    · rw [coeff_C_mul] at hco
      have hT : (Chebyshev.T ℝ ((n - 1 : ℕ) : ℤ)).coeff (n - 1) ≠ 0 := by
        have h1 := Chebyshev.leadingCoeff_T ℝ ((n - 1 : ℕ) : ℤ)
        rw [leadingCoeff, Chebyshev.natDegree_T, Int.natAbs_natCast] at h1
        rw [h1]
        positivity
      exact (mul_eq_zero.mp hco).resolve_right hT
    · intro j hj hne
      rw [coeff_C_mul, coeff_eq_zero_of_natDegree_lt, mul_zero]
      rw [Chebyshev.natDegree_T, Int.natAbs_natCast]
      have := Finset.mem_Ico.mp hj
      omega
    · intro h
      exact absurd (Finset.mem_Ico.mpr ⟨by omega, by omega⟩) h
  obtain ⟨q, h3, -, P, h4⟩ := integral_exact p hw (by rw [hpe]; simp) (by omega) (by rw [hl]; exact hlast)
  rw [ha, hb] at h4
  refine ⟨p, q, h1, h3, fun x hx' => ?_⟩
  rw [(h4 x hx').2]
  congr 1
  refine intervalIntegral.integral_congr fun t ht => ?_
  rw [Set.uIcc_of_le hx'.1] at ht
  have ht' : t ∈ Set.Icc a b := ⟨ht.1, ht.2.trans hx'.2⟩
  have := (h4 t ht').1
  rw [hx t ht'] at this
  exact (Outcome.ret.inj this).symm

/-- Round trip: differentiating the exact integral gives the object back. -/
theorem derivative_integral (p : Approx) (hp : p.WF) (hm : p.m = p.coef.length) (hn : 2 ≤ p.coef.length)
    (h0 : p.c (p.coef.length - 1) = 0) :
    ∃ q r, p.integral = .ret q ∧ q.derivative = .ret r ∧ ∀ x ∈ Set.Icc p.a p.b, r.value x = p.value x := by
  obtain ⟨I, h1, h2, h3⟩ := integral_ret p p.coef.length p.c p.coef_eq hp.1 hn
  have hab := hp.1
  have hba : p.b - p.a ≠ 0 := by linarith
  obtain ⟨d, h4, h5⟩ := derivative_ret ⟨tab p.coef.length I, p.a, p.b, p.coef.length⟩ p.coef.length I rfl hp.1 (by omega)
  refine ⟨_, _, h1, h4, fun x hx => ?_⟩
  have hq : Approx.WF ⟨tab p.coef.length d, p.a, p.b, p.coef.length⟩ := ⟨hp.1, by simp only; omega, by simp⟩
  rw [value_full _ hq (by simp) x hx, full_tab _ (by omega), value_full p hp hm x hx, Approx.full, h5, h2, h0]
  simp only [zero_div, C_0, zero_mul, sub_zero]
  rw [← mul_assoc, ← C_mul, show 2 / (p.b - p.a) * ((p.b - p.a) / 2) = 1 by field_simp, C_1, one_mul]

/-! ## Conversion -/

/-- `ToPolynomial(m)` is, in the variable of `[-1, 1]`, the polynomial that `Eval(x, m)` evaluates. -/
theorem toPolynomial_spec (p : Approx) (hp : p.WF) (m : ℕ) (hm : 1 ≤ m) (hmn : m ≤ p.m) :
    ∃ v, p.toPolynomialN m = .ret v ∧ v.length = m ∧
      ∀ x ∈ Set.Icc p.a p.b, p.eval x m = Poly.eval v (toUnit p.a p.b x) := by
  obtain ⟨v, h1, h2, h3⟩ := toPolynomialN_eq p p.coef.length m p.c p.coef_eq hm (hmn.trans hp.2.2)
  refine ⟨v, h1, h2, fun x hx => ?_⟩
  have hw : Approx.WF { p with m := m } := ⟨hp.1, hm, hmn.trans hp.2.2⟩
  rw [eval_spec p hp x m hm hmn, value_eq _ hw, if_pos hx]
  have : Poly.eval v (toUnit p.a p.b x) = .ret ((Poly.toPoly v).eval (toUnit p.a p.b x)) := by
    conv_lhs => rw [eq_tab v 0]
    rw [Poly.eval_tab, ← Poly.toPoly_tab, ← eq_tab v 0]
  rw [this, h3]
  rfl

/-- The same through `operator()` and the default `ToPolynomial()`. -/
theorem toPolynomial_value (p : Approx) (hp : p.WF) :
    ∃ v, p.toPolynomial = .ret v ∧ ∀ x ∈ Set.Icc p.a p.b, p.value x = Poly.eval v (toUnit p.a p.b x) := by
  obtain ⟨v, h1, -, h2⟩ := toPolynomial_spec p hp p.m hp.2.1 le_rfl
  refine ⟨v, h1, fun x hx => ?_⟩
  rw [← h2 x hx, eval_spec p hp x p.m hp.2.1 le_rfl]

/-! ## Truncation -/

theorem truncLoop_spec (n : ℕ) (c : ℕ → ℝ) (thr : ℝ) : ∀ m, 1 ≤ m → m ≤ n →
    ∃ k, truncLoop (tab n c) thr m = .ret k ∧ 1 ≤ k ∧ k ≤ m ∧ (∀ j, k ≤ j → j < m → |c j| < thr) ∧
      (k = 1 ∨ thr ≤ |c (k - 1)|) := by
  intro m
  induction m with
  | zero => intro h; omega
  | succ m ih =>
    intro h1 hmn
    rw [truncLoop]
    by_cases hm : m + 1 > 1
    · rw [if_pos hm, index_tab _ (by omega), Outcome.bind_ret]
      by_cases hc : |c m| < thr
      · rw [if_pos hc]
        obtain ⟨k, hk, h2, h3, h4, h5⟩ := ih (by omega) (by omega)
        refine ⟨k, hk, h2, by omega, fun j hj hjm => ?_, h5⟩
        by_cases hjm' : j = m
        · exact hjm' ▸ hc
        · exact h4 j hj (by omega)
      · rw [if_neg hc]
        exact ⟨m + 1, rfl, by omega, le_rfl, fun j hj hjm => by omega, Or.inr (not_lt.mp hc)⟩
    · rw [if_neg hm]
      exact ⟨m + 1, rfl, by omega, le_rfl, fun j hj hjm => by omega, Or.inl (by omega)⟩

/-- `Truncate(t)` keeps the smallest number `k ≥ 1` of terms such that every dropped coefficient is below `t` in absolute value, and
changes the value by at most the sum of the dropped coefficients. -/
theorem truncate_spec (p : Approx) (hp : p.WF) (thr : ℝ) :
    ∃ q, p.truncate thr = .ret q ∧ q.WF ∧ q.coef = p.coef ∧ q.a = p.a ∧ q.b = p.b ∧ q.m ≤ p.m ∧
      (∀ j, q.m ≤ j → j < p.m → |p.c j| < thr) ∧
      (∀ k, 1 ≤ k → k ≤ p.m → (∀ j, k ≤ j → j < p.m → |p.c j| < thr) → q.m ≤ k) ∧
      ∀ x ∈ Set.Icc p.a p.b, ∃ u v, p.value x = .ret u ∧ q.value x = .ret v ∧
        |u - v| ≤ ∑ j ∈ Finset.Ico q.m p.m, |p.c j| := by
  obtain ⟨k, hk, h1, h2, h3, h4⟩ := truncLoop_spec p.coef.length p.c thr p.m hp.2.1 hp.2.2
  rw [← p.coef_eq] at hk
  have hw : Approx.WF { p with m := k } := ⟨hp.1, h1, h2.trans hp.2.2⟩
  refine ⟨{ p with m := k }, by rw [Approx.truncate, hk, Outcome.bind_ret], hw, rfl, rfl, rfl, h2, h3, ?_, ?_⟩
  · intro k' hk1 hk2 hk3
    rcases h4 with rfl | h4
    · exact hk1
    · by_contra hlt
      have hlt : k' < k := not_le.mp hlt
      exact absurd (hk3 (k - 1) (by omega) (by omega)) (not_lt.mpr h4)
  · intro x hx
    refine ⟨_, _, value_spec p hp x hx, value_spec _ hw x hx, ?_⟩
    have hc : Approx.c { p with m := k } = p.c := rfl
    simp only [hc]
    rw [← Finset.sum_Ico_consecutive _ h1 h2]
    have hba : 0 < p.b - p.a := by have := hp.1; linarith
    have ht : |toUnit p.a p.b x| ≤ 1 := by
      rw [toUnit, abs_le, le_div_iff₀ hba, div_le_iff₀ hba]
      constructor <;> linarith [hx.1, hx.2]
    rw [show ∀ A B D : ℝ, A + (B + D) - (A + B) = D from fun A B D => by ring]
    refine (Finset.abs_sum_le_sum_abs _ _).trans (Finset.sum_le_sum fun j _ => ?_)
    rw [abs_mul]
    exact mul_le_of_le_one_right (abs_nonneg _) (Chebyshev.abs_eval_T_real_le_one _ ht)

/-- Every operation keeps an object well formed. -/
theorem operations_wf (p : Approx) (hp : p.WF) (thr : ℝ) (m : ℤ) (q : Approx)
    (h : p.truncate thr = .ret q ∨ p.setNumTerms m = .ret q ∨ p.derivative = .ret q ∨ p.integral = .ret q) : q.WF := by
  have hn : 1 ≤ p.coef.length := le_trans hp.2.1 hp.2.2
  rcases h with h | h | h | h
  · obtain ⟨q', h1, h2, -⟩ := truncate_spec p hp thr
    rw [h] at h1
    exact Outcome.ret.inj h1 ▸ h2
  · rw [Approx.setNumTerms] at h
    split at h
    · exact absurd h (by simp)
    · rename_i hm
      rw [← Outcome.ret.inj h]
      exact ⟨hp.1, by simp only; omega, by simp only; omega⟩
  · obtain ⟨d, h1, -⟩ := derivative_ret p p.coef.length p.c p.coef_eq hp.1 hn
    rw [h] at h1
    rw [Outcome.ret.inj h1]
    exact ⟨hp.1, hn, by simp⟩
  · by_cases h2 : 2 ≤ p.coef.length
    · obtain ⟨d, h1, -⟩ := integral_ret p p.coef.length p.c p.coef_eq hp.1 h2
      rw [h] at h1
      rw [Outcome.ret.inj h1]
      exact ⟨hp.1, hn, by simp⟩
    · rw [integral_one_ub p (by omega)] at h
      exact absurd h (by simp)

/-! ## `MaxError` -/

/-- `MaxError` over `N ≥ 1` steps is the largest error at the `N + 1` equidistant points (and so never above the true maximum). -/
theorem maxError_spec (p : Approx) (hp : p.WF) (f : ℝ → ℝ) (N : ℕ) (hN : 1 ≤ N) :
    ∃ E, p.maxError f N = .ret E ∧ 0 ≤ E ∧
      (∀ i ≤ N, ∃ v, p.value (p.a + i * (p.b - p.a) / N) = .ret v ∧ |v - f (p.a + i * (p.b - p.a) / N)| ≤ E) ∧
      (∃ i ≤ N, ∃ v, p.value (p.a + i * (p.b - p.a) / N) = .ret v ∧ |v - f (p.a + i * (p.b - p.a) / N)| = E) := by
  have hNr : (N : ℝ) ≠ 0 := by positivity
  have hab : 0 < p.b - p.a := by have := hp.1; linarith
  have hval : ∀ i ≤ N, ∃ v, p.value (p.a + i * (p.b - p.a) / N) = .ret v := by
    intro i hi
    have hi' : (i : ℝ) ≤ N := by exact_mod_cast hi
    refine ⟨_, value_spec p hp _ ⟨?_, ?_⟩⟩
    · have : 0 ≤ (i : ℝ) * (p.b - p.a) / N := by positivity
      linarith
    · have : (i : ℝ) * (p.b - p.a) / N ≤ p.b - p.a := by
        rw [div_le_iff₀ (by positivity)]
        nlinarith
      linarith
  choose! v hv using hval
  obtain ⟨E, hE, hP⟩ := forRange_rule
    (fun j (E : ℝ) => 0 ≤ E ∧ (∀ i < j, |v i - f (p.a + i * (p.b - p.a) / N)| ≤ E) ∧
      (0 < j → ∃ i : ℕ, i < j ∧ |v i - f (p.a + i * (p.b - p.a) / N)| = E) ∧ (j = 0 → E = 0)) (N + 1) 0 (errStep p f N)
    ⟨le_rfl, fun i hi => absurd hi (Nat.not_lt_zero i), fun h => absurd h (lt_irrefl 0), fun _ => rfl⟩ (by
      rintro j E hj ⟨h1, h2, h3, h4⟩
      refine ⟨_, by rw [errStep, quot, if_neg (by exact_mod_cast hNr), Outcome.bind_ret, Int.cast_natCast, hv j (by omega), Outcome.bind_ret], ?_⟩
      have habs : 0 ≤ |v j - f (p.a + j * (p.b - p.a) / N)| := abs_nonneg _
      split_ifs with hgt
      · refine ⟨habs, fun i hi => ?_, fun _ => ⟨j, by omega, rfl⟩, fun h => absurd h (by simp)⟩
        by_cases hij : i = j
        · rw [hij]
        · exact (h2 i (by omega)).trans hgt.le
      · refine ⟨h1, fun i hi => ?_, fun _ => ?_, fun h => absurd h (by simp)⟩
        · by_cases hij : i = j
          · rw [hij]; exact not_lt.mp hgt
          · exact h2 i (by omega)
        · by_cases hj0 : j = 0
          · subst hj0
            refine ⟨0, by omega, ?_⟩
            have := h4 rfl
            subst this
            exact le_antisymm (not_lt.mp hgt) habs
          · obtain ⟨i, hi, e⟩ := h3 (by omega)
            exact ⟨i, by omega, e⟩)
  refine ⟨E, ?_, hP.1, fun i hi => ⟨v i, hv i hi, hP.2.1 i (by omega)⟩, ?_⟩
  · rw [Approx.maxError, show ((N : ℤ) + 1).toNat = N + 1 by omega, hE]
  · obtain ⟨i, hi, e⟩ := hP.2.2.1 (by omega)
    exact ⟨i, by omega, v i, hv i (by omega), e⟩

/-! ## Roots and extrema -/

/-- `ChebyshevRoots(n)` are the `n` zeros of `T_n`, in decreasing order. -/
theorem chebyshevRoots_spec (n : ℕ) (hn : 0 < n) :
    ∃ v, chebyshevRoots n = .ret v ∧ v.length = n ∧ v.SortedGT ∧ ∀ x, x ∈ v ↔ (Chebyshev.T ℝ n).eval x = 0 := by
  have hnr : (0 : ℝ) < n := by exact_mod_cast hn
  refine ⟨tab n fun k => Real.cos (Real.pi * (2 * k + 1) / (2 * n)), ?_, by simp, ?_, ?_⟩
  · rw [chebyshevRoots, if_neg (by omega), Int.toNat_natCast, replicate_eq_tab,
      forRange_fill n n le_rfl _ (fun k : ℕ => Real.cos (Real.pi * (2 * k + 1) / (2 * n))) _ (fun i hi r => rfl)]
    congr 1
    exact tab_congr fun k hk => if_pos hk
  · rw [List.sortedGT_iff_pairwise, tab, List.pairwise_map]
    refine List.Pairwise.imp_of_mem ?_ (List.pairwise_lt_range (n := n))
    intro i j hi hj hij
    have hj' : (j : ℝ) + 1 ≤ n := by exact_mod_cast List.mem_range.mp hj
    have hij' : (i : ℝ) < j := by exact_mod_cast hij
    refine Real.strictAntiOn_cos ⟨by positivity, ?_⟩ ⟨by positivity, ?_⟩ ?_
    · rw [div_le_iff₀ (by positivity)]; nlinarith [Real.pi_pos]
    · rw [div_le_iff₀ (by positivity)]; nlinarith [Real.pi_pos]
    · apply div_lt_div_of_pos_right _ (by positivity)
      nlinarith [Real.pi_pos]
  · intro x
    have h := Chebyshev.roots_T_real n
    have hne := Chebyshev.T_ne_zero ℝ (n : ℤ)
    rw [← IsRoot.def, ← mem_roots hne, h, Finset.mem_val, Finset.mem_image, tab, List.mem_map]
    constructor
    · rintro ⟨k, hk, rfl⟩
      exact ⟨k, by simpa using hk, by congr 1; ring⟩
    · rintro ⟨k, hk, rfl⟩
      exact ⟨k, by simpa using hk, by congr 1; ring⟩

/-- `ChebyshevExtrema(n)` are the `n + 1` points of `[-1, 1]` where `|T_n| = 1`, in decreasing order from `1` to `-1`, and the signs
alternate. -/
theorem chebyshevExtrema_spec (n : ℕ) (hn : 0 < n) :
    ∃ v, chebyshevExtrema n = .ret v ∧ v.length = n + 1 ∧ v.SortedGT ∧ (∀ x, x ∈ v ↔ |(Chebyshev.T ℝ n).eval x| = 1) ∧
      ∀ k ≤ n, (Chebyshev.T ℝ n).eval (v.getD k 0) = (-1) ^ k := by
  have hnr : (0 : ℝ) < n := by exact_mod_cast hn
  refine ⟨tab (n + 1) fun k => Real.cos (Real.pi * k / n), ?_, by simp, ?_, ?_, ?_⟩
  · rw [chebyshevExtrema, if_neg (by omega), Int.toNat_natCast, replicate_eq_tab,
      forRange_fill (n + 1) (n + 1) le_rfl _ (fun k : ℕ => Real.cos (Real.pi * k / n)) _ (fun i hi r => rfl)]
    congr 1
    exact tab_congr fun k hk => if_pos hk
  · rw [List.sortedGT_iff_pairwise, tab, List.pairwise_map]
    refine List.Pairwise.imp_of_mem ?_ (List.pairwise_lt_range (n := n + 1))
    intro i j hi hj hij
    have hj' : (j : ℝ) ≤ n := by
      have := List.mem_range.mp hj
      exact_mod_cast (show j ≤ n by omega)
    have hij' : (i : ℝ) < j := by exact_mod_cast hij
    refine Real.strictAntiOn_cos ⟨by positivity, ?_⟩ ⟨by positivity, ?_⟩ ?_
    · rw [div_le_iff₀ (by positivity)]; nlinarith [Real.pi_pos]
    · rw [div_le_iff₀ (by positivity)]; nlinarith [Real.pi_pos]
    · apply div_lt_div_of_pos_right _ (by positivity)
      nlinarith [Real.pi_pos]
  · intro x
    rw [Chebyshev.abs_eval_T_real_eq_one_iff (by omega), tab, List.mem_map]
    constructor
    · rintro ⟨k, hk, rfl⟩
      exact ⟨k, by simpa [Nat.lt_succ_iff] using hk, by congr 1; ring⟩
    · rintro ⟨k, hk, rfl⟩
      exact ⟨k, by simpa [Nat.lt_succ_iff] using hk, by congr 1; ring⟩
  · intro k hk
    rw [getD_tab _ _ _ (by omega), show Real.pi * (k : ℝ) / n = k * Real.pi / n by ring,
      Chebyshev.eval_T_real_cos_int_mul_pi_div (by omega), Int.cast_negOnePow, zpow_natCast]

/-- A size that is not positive is refused. -/
theorem roots_errors (n : ℤ) (h : n ≤ 0) :
    chebyshevRoots n = .exn .invalidArgument ∧ chebyshevExtrema n = .exn .invalidArgument := by
  rw [chebyshevRoots, chebyshevExtrema, if_pos h, if_pos h]
  exact ⟨rfl, rfl⟩

/-! ## Concrete objects -/

/-- `Derivative`, `Truncate`, `ToPolynomial` on `1 + T₁ + 5 T₂` over `[0, 2]`. -/
example : (⟨[2, 1, 5], 0, 2, 3⟩ : Approx).WF ∧ (⟨[2, 1, 5], 0, 2, 3⟩ : Approx).m = (⟨[2, 1, 5], 0, 2, 3⟩ : Approx).coef.length ∧
    2 ≤ (⟨[2, 1, 5], 0, 2, 3⟩ : Approx).coef.length :=
  ⟨⟨by norm_num, by norm_num, by simp⟩, by simp, by simp⟩

/-- A last coefficient equal to zero. -/
example : (⟨[2, 1, 0], 0, 2, 3⟩ : Approx).WF ∧ (⟨[2, 1, 0], 0, 2, 3⟩ : Approx).c 2 = 0 :=
  ⟨⟨by norm_num, by norm_num, by simp⟩, by simp [Approx.c]⟩

example : ∃ q, (⟨[2, 1, 5, 0.5, 0.1], 0, 2, 5⟩ : Approx).truncate 1 = .ret q ∧ q.m = 3 := by
  refine ⟨⟨[2, 1, 5, 0.5, 0.1], 0, 2, 3⟩, ?_, rfl⟩
  rw [Approx.truncate]
  simp only [truncLoop, Outcome.index]
  norm_num [abs_of_pos]

end Verif.Cheb
