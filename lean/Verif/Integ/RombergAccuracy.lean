import Verif.Integ.RombergProps
import Mathlib.Topology.Algebra.Polynomial
import Mathlib.Analysis.Calculus.Taylor
import Mathlib.Analysis.Complex.ExponentialBounds

/-!
# How far extrapolation amplifies errors, and the accuracy of `IntegrateRomberg` (C75)
-/

set_option autoImplicit false

namespace Verif.Integ

open Verif Polynomial

/-- A bound on the amplification of errors by extrapolation from `m + 1` stages. -/
noncomputable def amp (q : ℝ) : ℕ → ℝ
  | 0 => 1
  | m + 1 => amp q m * ((1 + q ^ (m + 1)) / (1 - q ^ (m + 1)))

theorem nev_le (q : ℝ) (h0 : 0 < q) (h1 : q < 1) (T : ℕ → ℝ) (δ : ℝ) (hT : ∀ k, |T k| ≤ δ) (m i : ℕ) :
    |nev (fun i => q ^ i) T i m| ≤ amp q m * δ := by
  induction m generalizing i with
  | zero => rw [nev_zero, amp, one_mul]; exact hT i
  | succ m ih =>
    rw [nev_succ _ _ (pow_right_strictAnti₀ h0 h1).injective]
    have hq : q ^ (m + 1) < 1 := pow_lt_one₀ h0.le h1 (by omega)
    have hqp : 0 < q ^ (m + 1) := pow_pos h0 _
    have hi : 0 < q ^ i := pow_pos h0 _
    have e : (q ^ i * nev (fun i => q ^ i) T (i + 1) m - q ^ (i + (m + 1)) * nev (fun i => q ^ i) T i m) /
        (q ^ i - q ^ (i + (m + 1))) =
        (nev (fun i => q ^ i) T (i + 1) m - q ^ (m + 1) * nev (fun i => q ^ i) T i m) / (1 - q ^ (m + 1)) := by
      rw [pow_add q i]
      rw [show q ^ i * nev (fun i => q ^ i) T (i + 1) m - q ^ i * q ^ (m + 1) * nev (fun i => q ^ i) T i m =
        q ^ i * (nev (fun i => q ^ i) T (i + 1) m - q ^ (m + 1) * nev (fun i => q ^ i) T i m) by ring,
        show q ^ i - q ^ i * q ^ (m + 1) = q ^ i * (1 - q ^ (m + 1)) by ring, mul_div_mul_left _ _ hi.ne']
    rw [e, abs_div, abs_of_pos (show 0 < 1 - q ^ (m + 1) by linarith), amp, div_le_iff₀ (by linarith)]
    have h2 := ih (i + 1)
    have h3 := ih i
    have h4 := abs_sub (nev (fun i => q ^ i) T (i + 1) m) (q ^ (m + 1) * nev (fun i => q ^ i) T i m)
    rw [abs_mul, abs_of_pos hqp] at h4
    have h5 := mul_le_mul_of_nonneg_left h3 hqp.le
    have hne : 1 - q ^ (m + 1) ≠ 0 := by linarith
    rw [show amp q m * ((1 + q ^ (m + 1)) / (1 - q ^ (m + 1))) * δ * (1 - q ^ (m + 1)) =
      amp q m * δ + q ^ (m + 1) * (amp q m * δ) by field_simp]
    linarith

theorem extrapolated_le (q : ℝ) (h0 : 0 < q) (h1 : q < 1) (T : ℕ → ℝ) (δ : ℝ) (hT : ∀ k, |T k| ≤ δ) (K j : ℕ) (hK : 1 ≤ K)
    (hKj : K ≤ j + 1) : |extrapolated q T K j| ≤ amp q (K - 1) * δ := by
  rw [extrapolated_eq_nev q T K j hK hKj]
  exact nev_le q h0 h1 T δ hT _ _

theorem extrapolated_sub (q : ℝ) (T T' : ℕ → ℝ) (K j : ℕ) :
    extrapolated q T K j - extrapolated q T' K j = extrapolated q (fun k => T k - T' k) K j := by
  rw [extrapolated, extrapolated, extrapolated, ← eval_sub, ← map_sub]
  rfl

/-- A product bounded by `c (1 - x q^m)` from `m = 1` on. -/
theorem amp_le_of (q c x : ℝ) (h0 : 0 < q) (h1 : q < 1) (hc : 0 ≤ c) (hx0 : 0 ≤ x) (hx : 2 * q ≤ (1 - q) * x) (hx1 : x ≤ 1)
    (hbase : (1 + q) / (1 - q) ≤ c * (1 - x * q)) (hone : 1 ≤ c) (m : ℕ) : amp q m ≤ c := by
  have key : ∀ m, amp q (m + 1) ≤ c * (1 - x * q ^ (m + 1)) := by
    intro m
    induction m with
    | zero =>
      simpa [amp] using hbase
    | succ m ih =>
      have hq : q ^ (m + 1 + 1) < 1 := pow_lt_one₀ h0.le h1 (by omega)
      have hqp : 0 < q ^ (m + 1) := pow_pos h0 _
      have hs : q ^ (m + 1 + 1) = q ^ (m + 1) * q := pow_succ _ _
      rw [amp, ← mul_div_assoc, div_le_iff₀ (by linarith)]
      have h2 : amp q (m + 1) * (1 + q ^ (m + 1 + 1)) ≤ c * (1 - x * q ^ (m + 1)) * (1 + q ^ (m + 1 + 1)) :=
        mul_le_mul_of_nonneg_right ih (by positivity)
      refine h2.trans ?_
      rw [mul_assoc, mul_assoc]
      refine mul_le_mul_of_nonneg_left ?_ hc
      rw [hs]
      nlinarith [mul_nonneg hqp.le (mul_nonneg hqp.le (mul_nonneg hx0 h0.le)), mul_le_mul_of_nonneg_left hx hqp.le,
        mul_nonneg hqp.le (mul_nonneg hqp.le (mul_nonneg hx0 (mul_nonneg h0.le h0.le)))]
  cases m with
  | zero => simpa [amp] using hone
  | succ m =>
    refine (key m).trans ?_
    have : 0 ≤ c * (x * q ^ (m + 1)) := by positivity
    linarith

theorem amp_quarter (m : ℕ) : amp (1 / 4) m ≤ 2 :=
  amp_le_of (1 / 4) 2 (2 / 3) (by norm_num) (by norm_num) (by norm_num) (by norm_num) (by norm_num) (by norm_num)
    (by norm_num) (by norm_num) m

theorem amp_ninth (m : ℕ) : amp (1 / 9) m ≤ 4 / 3 :=
  amp_le_of (1 / 9) (4 / 3) (1 / 4) (by norm_num) (by norm_num) (by norm_num) (by norm_num) (by norm_num) (by norm_num)
    (by norm_num) (by norm_num) m

/-! ## Rules depend on the values in the interval -/

theorem node_mem (a b : ℝ) (N : ℕ) (hN : 0 < N) (k : ℝ) (h0 : 0 ≤ k) (h1 : k ≤ N) : node a b N k ∈ Set.uIcc a b := by
  have hN' : (0 : ℝ) < N := by exact_mod_cast hN
  have e : node a b N k = a + (k / N) * (b - a) := by
    rw [node]
    ring
  have h2 : 0 ≤ k / N := by positivity
  have h3 : k / N ≤ 1 := (div_le_one hN').mpr h1
  rw [e, Set.mem_uIcc]
  rcases le_total a b with h | h
  · left
    constructor <;> nlinarith
  · right
    constructor <;> nlinarith

theorem trapezoid_close (f g : ℝ → ℝ) (a b δ : ℝ) (N : ℕ) (hN : 0 < N) (h : ∀ x ∈ Set.uIcc a b, |f x - g x| ≤ δ) :
    |trapezoid f a b N - trapezoid g a b N| ≤ |b - a| * δ := by
  have hN' : (0 : ℝ) < N := by exact_mod_cast hN
  rw [trapezoid, trapezoid, ← Finset.sum_sub_distrib]
  refine (Finset.abs_sum_le_sum_abs _ _).trans ?_
  have : ∀ k ∈ Finset.range N, |(b - a) / N * ((f (node a b N k) + f (node a b N (k + 1))) / 2) -
      (b - a) / N * ((g (node a b N k) + g (node a b N (k + 1))) / 2)| ≤ |b - a| * δ / N := by
    intro k hk
    have hk' : (k : ℝ) + 1 ≤ N := by exact_mod_cast Finset.mem_range.mp hk
    have hk0 : (0 : ℝ) ≤ k := Nat.cast_nonneg k
    have h1 := h _ (node_mem a b N hN k hk0 (by linarith))
    have h2 := h _ (node_mem a b N hN (k + 1) (by linarith) hk')
    rw [← mul_sub, abs_mul, abs_div, Nat.abs_cast, mul_div_right_comm]
    refine mul_le_mul_of_nonneg_left ?_ (by positivity)
    rw [abs_le] at h1 h2 ⊢
    constructor <;> linarith [h1.1, h1.2, h2.1, h2.2]
  refine (Finset.sum_le_sum this).trans ?_
  rw [Finset.sum_const, Finset.card_range, nsmul_eq_mul, mul_div_cancel₀ _ hN'.ne']

theorem integral_close (f g : ℝ → ℝ) (a b δ : ℝ) (hf : IntervalIntegrable f MeasureTheory.volume a b)
    (hg : IntervalIntegrable g MeasureTheory.volume a b)
    (h : ∀ x ∈ Set.uIoo a b, |f x - g x| ≤ δ) : |(∫ x in a..b, f x) - ∫ x in a..b, g x| ≤ |b - a| * δ := by
  rw [← intervalIntegral.integral_sub hf hg, mul_comm, ← Real.norm_eq_abs]
  refine intervalIntegral.norm_integral_le_of_norm_le_const_ae ?_
  have h0 : ∀ᵐ x : ℝ, x ≠ max a b := by
    rw [MeasureTheory.ae_iff]
    simp
  filter_upwards [h0] with x hx hmem
  rw [Real.norm_eq_abs]
  refine h x ?_
  rw [Set.mem_uIoc] at hmem
  rw [Set.uIoo, Set.mem_Ioo]
  rcases hmem with h | h
  · refine ⟨(min_le_left _ _).trans_lt h.1, lt_of_le_of_ne (h.2.trans (le_max_right _ _)) hx⟩
  · refine ⟨(min_le_right _ _).trans_lt h.1, lt_of_le_of_ne (h.2.trans (le_max_left _ _)) hx⟩

/-! ## Accuracy -/

/-- **C75.**  Whatever the tolerance and whether or not it reports convergence, the answer of `IntegrateRomberg` is as accurate
as polynomial approximation: if some polynomial of degree at most `2K - 1` is within `δ` of the integrand on the interval, the
error is at most three times the length of the interval times `δ`. -/
theorem integrateRomberg_accuracy (M K : ℕ) (f : ℝ → ℝ) (a b eps δ : ℝ) (p : ℝ[X]) (hK : 2 ≤ K) (hKM : K ≤ M) (hM : M ≤ 32)
    (hp : p.natDegree ≤ 2 * K - 1) (hf : IntervalIntegrable f MeasureTheory.volume a b)
    (hfp : ∀ x ∈ Set.uIcc a b, |f x - p.eval x| ≤ δ) :
    ∃ r, integrateRomberg M K f a b eps = .ret r ∧ |r.value - ∫ x in a..b, f x| ≤ 3 * |b - a| * δ := by
  obtain ⟨r, hr, i, _, _, h3, _, h5, _⟩ := integrateRomberg_spec M K f a b eps hK hKM hM
  refine ⟨r, hr, ?_⟩
  have h1 := romberg_exact p a b K i (by omega) h3 hp
  have h2 := extrapolated_sub (1 / 4) (fun k => trapezoid f a b (2 ^ k)) (fun k => trapezoid (fun x => p.eval x) a b (2 ^ k)) K i
  have h4 := extrapolated_le (1 / 4) (by norm_num) (by norm_num)
    (fun k => trapezoid f a b (2 ^ k) - trapezoid (fun x => p.eval x) a b (2 ^ k)) (|b - a| * δ)
    (fun k => trapezoid_close f _ a b δ (2 ^ k) (by positivity) hfp) K i (by omega) h3
  rw [← h2, h1, ← h5] at h4
  have h6 := integral_close f (fun x => p.eval x) a b δ hf (p.continuous.intervalIntegrable _ _)
    (fun x hx => hfp x (Set.uIoo_subset_uIcc_self hx))
  have hδ : 0 ≤ |b - a| * δ := mul_nonneg (abs_nonneg _) ((abs_nonneg _).trans (hfp a Set.left_mem_uIcc))
  have h7 := mul_le_mul_of_nonneg_right (amp_quarter (K - 1)) hδ
  rw [abs_le] at h4 h6 ⊢
  constructor <;> linarith [h4.1, h4.2, h6.1, h6.2]

example : ∃ r, integrateRomberg 20 5 (fun x => x ^ 9 + |x| / 1000) (-1) 1 (1 / 10 ^ 10) = .ret r ∧
    |r.value - ∫ x in (-1 : ℝ)..1, (x ^ 9 + |x| / 1000)| ≤ 3 * |1 - (-1)| * (1 / 1000) := by
  refine integrateRomberg_accuracy 20 5 _ _ _ _ _ (X ^ 9) (by norm_num) (by norm_num) (by norm_num) (by simp)
    (Continuous.intervalIntegrable (by fun_prop) _ _) ?_
  intro x hx
  rw [Set.uIcc_of_le (by norm_num), Set.mem_Icc] at hx
  have : |x| ≤ 1 := abs_le.mpr hx
  simp only [eval_pow, eval_X, add_sub_cancel_left]
  rw [abs_div, abs_abs]
  norm_num
  linarith

/-- The Taylor polynomial. -/
theorem exists_taylor (f : ℝ → ℝ) (a b C : ℝ) (n : ℕ) (hab : a ≤ b) (hf : ContDiffOn ℝ (n + 1) f (Set.Icc a b))
    (hC : ∀ y ∈ Set.Icc a b, |iteratedDerivWithin (n + 1) f (Set.Icc a b) y| ≤ C) :
    ∃ p : ℝ[X], p.natDegree ≤ n ∧ ∀ x ∈ Set.Icc a b, |f x - p.eval x| ≤ C * (b - a) ^ (n + 1) / n.factorial := by
  refine ⟨∑ k ∈ Finset.range (n + 1), Polynomial.C ((k.factorial : ℝ)⁻¹ * iteratedDerivWithin k f (Set.Icc a b) a) *
    (X - Polynomial.C a) ^ k, ?_, ?_⟩
  · refine natDegree_sum_le_of_forall_le _ _ fun k hk => ?_
    have := Finset.mem_range.mp hk
    refine (natDegree_C_mul_le _ _).trans (natDegree_pow_le.trans ?_)
    rw [natDegree_X_sub_C]
    omega
  · intro x hx
    have h := taylor_mean_remainder_bound hab hf hx (fun y hy => by rw [Real.norm_eq_abs]; exact hC y hy)
    rw [taylor_within_apply, Real.norm_eq_abs] at h
    have e : (∑ k ∈ Finset.range (n + 1), Polynomial.C ((k.factorial : ℝ)⁻¹ * iteratedDerivWithin k f (Set.Icc a b) a) *
        (X - Polynomial.C a) ^ k).eval x =
        ∑ k ∈ Finset.range (n + 1), ((k.factorial : ℝ)⁻¹ * (x - a) ^ k) • iteratedDerivWithin k f (Set.Icc a b) a := by
      rw [eval_finset_sum]
      refine Finset.sum_congr rfl fun k _ => ?_
      simp only [eval_mul, eval_C, eval_pow, eval_sub, eval_X, smul_eq_mul]
      ring
    rw [e]
    refine h.trans ?_
    have hC0 : 0 ≤ C := (abs_nonneg _).trans (hC a (Set.left_mem_Icc.mpr hab))
    have : (x - a) ^ (n + 1) ≤ (b - a) ^ (n + 1) := pow_le_pow_left₀ (by linarith [hx.1]) (by linarith [hx.2]) _
    gcongr

/-- **C75.**  For an integrand with `2K` continuous derivatives, the last bounded by `C`, the error of `IntegrateRomberg` is at
most `3 C (b - a)^(2K+1) / (2K-1)!`. -/
theorem integrateRomberg_smooth (M K : ℕ) (f : ℝ → ℝ) (a b eps C : ℝ) (hK : 2 ≤ K) (hKM : K ≤ M) (hM : M ≤ 32) (hab : a ≤ b)
    (hf : ContDiffOn ℝ (2 * K : ℕ) f (Set.Icc a b))
    (hC : ∀ y ∈ Set.Icc a b, |iteratedDerivWithin (2 * K) f (Set.Icc a b) y| ≤ C) :
    ∃ r, integrateRomberg M K f a b eps = .ret r ∧
      |r.value - ∫ x in a..b, f x| ≤ 3 * (C * (b - a) ^ (2 * K + 1) / (2 * K - 1).factorial) := by
  obtain ⟨n, hn⟩ : ∃ n, 2 * K = n + 1 := ⟨2 * K - 1, by omega⟩
  rw [hn] at hf hC
  obtain ⟨p, hp, hfp⟩ := exists_taylor f a b C n hab (by exact_mod_cast hf) hC
  obtain ⟨r, hr, h⟩ := integrateRomberg_accuracy M K f a b eps _ p hK hKM hM (by omega)
    (ContinuousOn.intervalIntegrable (by rw [Set.uIcc_of_le hab]; exact hf.continuousOn))
    (by rw [Set.uIcc_of_le hab]; exact hfp)
  refine ⟨r, hr, h.trans (le_of_eq ?_)⟩
  rw [hn, abs_of_nonneg (by linarith), Nat.add_sub_cancel, pow_succ (b - a) (n + 1)]
  ring

/-- With the default `K = 5` and at most 20 rounds, the exponential over the unit interval. -/
example : ∃ r, integrateRomberg 20 5 Real.exp 0 1 (1 / 10 ^ 10) = .ret r ∧
    |r.value - ∫ x in (0 : ℝ)..1, Real.exp x| ≤ 3 * (3 * (1 - 0) ^ (2 * 5 + 1) / (2 * 5 - 1).factorial) := by
  refine integrateRomberg_smooth 20 5 Real.exp 0 1 _ 3 (by norm_num) (by norm_num) (by norm_num) (by norm_num)
    (Real.contDiff_exp.contDiffOn) ?_
  intro y hy
  rw [iteratedDerivWithin_eq_iteratedDeriv (uniqueDiffOn_Icc (by norm_num)) Real.contDiff_exp.contDiffAt hy,
    iteratedDeriv_eq_iterate, Real.iter_deriv_exp, abs_of_pos (Real.exp_pos y)]
  have h1 : Real.exp y ≤ Real.exp 1 := Real.exp_le_exp.mpr hy.2
  linarith [Real.exp_one_lt_d9]

end Verif.Integ
