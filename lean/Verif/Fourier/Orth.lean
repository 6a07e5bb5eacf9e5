import Verif.Fourier.Stage
import Mathlib.Algebra.BigOperators.Field

/-! # Helper lemmas: orthogonality of the exponentials, cosines and sines -/

set_option autoImplicit false

noncomputable section

namespace Verif.Fourier

open Real (pi)
open Complex (I)

/-- Sum of the powers of a root of unity. -/
theorem sum_exp (N : ℕ) (hN : 0 < N) (a : ℤ) :
    ∑ k ∈ Finset.range N, Complex.exp (2 * pi * I * a * k / N) = if (N : ℤ) ∣ a then (N : ℂ) else 0 := by
  have hN' : (N : ℂ) ≠ 0 := by exact_mod_cast hN.ne'
  have hpi : (2 * pi * I : ℂ) ≠ 0 := Complex.two_pi_I_ne_zero
  have hpow : ∀ k : ℕ, Complex.exp (2 * pi * I * a * k / N) = Complex.exp (2 * pi * I * a / N) ^ k := by
    intro k
    rw [← Complex.exp_nat_mul]; congr 1; ring
  simp only [hpow]
  by_cases h : (N : ℤ) ∣ a
  · rw [if_pos h]
    obtain ⟨b, rfl⟩ := h
    have : Complex.exp (2 * pi * I * ((N * b : ℤ) : ℂ) / N) = 1 := by
      rw [← exp_int_mul_two_pi_I b]; congr 1; push_cast; field_simp
    simp only [this, one_pow, Finset.sum_const, Finset.card_range, nsmul_eq_mul, mul_one]
  · rw [if_neg h]
    have hne : Complex.exp (2 * pi * I * a / N) ≠ 1 := by
      intro h1
      obtain ⟨b, hb⟩ := (Complex.exp_eq_one_iff).1 h1
      apply h
      refine ⟨b, ?_⟩
      have h3 : (a : ℂ) = (N : ℂ) * b := by
        field_simp at hb
        have h4 : (2 * pi * I : ℂ) * a = (2 * pi * I) * (N * b) := by linear_combination (2 * pi * I) * hb
        exact mul_left_cancel₀ hpi h4
      exact_mod_cast h3
    have hN1 : Complex.exp (2 * pi * I * a / N) ^ N = 1 := by
      rw [← Complex.exp_nat_mul, ← exp_int_mul_two_pi_I a]
      congr 1; field_simp
    have := geom_sum_mul (Complex.exp (2 * pi * I * a / N)) N
    rw [hN1, sub_self] at this
    exact (mul_eq_zero.1 this).resolve_right (sub_ne_zero.2 hne)

theorem small_dvd {N : ℕ} {a b : ℕ} (ha : a < N) (hb : b < N) : (N : ℤ) ∣ (a : ℤ) - b ↔ a = b := by
  constructor
  · intro h
    have := Int.eq_zero_of_abs_lt_dvd h (by rw [abs_lt]; omega)
    omega
  · rintro rfl; simp

theorem dft_inversion (N : ℕ) (hN : 0 < N) (x : ℕ → ℂ) (n : ℕ) (hn : n < N) :
    (∑ k ∈ Finset.range N, (∑ t ∈ Finset.range N, x t * wexp 1 N k t) * wexp (-1) N n k) / N = x n := by
  have hN' : (N : ℂ) ≠ 0 := by exact_mod_cast hN.ne'
  have h1 : ∀ t < N, ∑ k ∈ Finset.range N, wexp 1 N k t * wexp (-1) N n k = if t = n then (N : ℂ) else 0 := by
    intro t ht
    have := sum_exp N hN ((n : ℤ) - t)
    rw [← Finset.sum_congr rfl (fun k _ => ?_)] at this
    · exact this.trans (by simp only [small_dvd hn ht, eq_comm])
    · rw [wexp, wexp, ← Complex.exp_add]
      congr 1; push_cast; ring
  have h2 : ∑ k ∈ Finset.range N, (∑ t ∈ Finset.range N, x t * wexp 1 N k t) * wexp (-1) N n k =
      ∑ t ∈ Finset.range N, x t * ∑ k ∈ Finset.range N, wexp 1 N k t * wexp (-1) N n k := by
    simp only [Finset.sum_mul, Finset.mul_sum]
    rw [Finset.sum_comm]
    exact Finset.sum_congr rfl fun _ _ => Finset.sum_congr rfl fun _ _ => by ring
  rw [h2, Finset.sum_congr rfl (fun t ht => by rw [h1 t (Finset.mem_range.1 ht)])]
  simp [hn, hN']

/-- The other direction: transforming an inverse transform. -/
theorem dft_inversion' (N : ℕ) (hN : 0 < N) (X : ℕ → ℂ) (k : ℕ) (hk : k < N) :
    ∑ n ∈ Finset.range N, (∑ t ∈ Finset.range N, X t * wexp (-1) N n t) / N * wexp 1 N k n = X k := by
  have hN' : (N : ℂ) ≠ 0 := by exact_mod_cast hN.ne'
  have h1 : ∀ t < N, ∑ n ∈ Finset.range N, wexp (-1) N n t * wexp 1 N k n = if t = k then (N : ℂ) else 0 := by
    intro t ht
    have := sum_exp N hN ((t : ℤ) - k)
    rw [← Finset.sum_congr rfl (fun k _ => ?_)] at this
    · exact this.trans (by simp only [small_dvd ht hk])
    · rw [wexp, wexp, ← Complex.exp_add]
      congr 1; push_cast; ring
  have h2 : ∑ n ∈ Finset.range N, (∑ t ∈ Finset.range N, X t * wexp (-1) N n t) / N * wexp 1 N k n =
      ∑ t ∈ Finset.range N, X t / N * ∑ n ∈ Finset.range N, wexp (-1) N n t * wexp 1 N k n := by
    simp only [Finset.sum_mul, Finset.mul_sum, Finset.sum_div]
    rw [Finset.sum_comm]
    exact Finset.sum_congr rfl fun _ _ => Finset.sum_congr rfl fun _ _ => by ring
  rw [h2, Finset.sum_congr rfl (fun t ht => by rw [h1 t (Finset.mem_range.1 ht)])]
  simp [hk, hN']

/-! ## The DFT loops -/

theorem wexp_one_eq (N k n : ℕ) :
    (⟨Real.cos (-(2 * pi) * k * n / N), Real.sin (-(2 * pi) * k * n / N)⟩ : ℂ) = wexp 1 N k n := by
  rw [mk_cos_sin, wexp]; congr 1; push_cast; ring

theorem wexp_neg_one_eq (N k n : ℕ) :
    (⟨Real.cos (2 * pi * k * n / N), Real.sin (2 * pi * k * n / N)⟩ : ℂ) = wexp (-1) N n k := by
  rw [mk_cos_sin, wexp]; congr 1; push_cast; ring

theorem dftForwardBin_tab (N : ℕ) (x : ℕ → ℂ) (k : ℕ) :
    dftForwardBin (tab N x) k = .ret (∑ t ∈ Finset.range N, x t * wexp 1 N k t) := by
  simp only [dftForwardBin, length_tab, wexp_one_eq]
  rw [forRange_sum N 0 _ (fun n => x n * wexp 1 N k n), zero_add]
  intro i hi s
  simp only [index_tab x hi, Outcome.bind_ret]

theorem dftForward_tab (N : ℕ) (hN : 0 < N) (x : ℕ → ℂ) :
    dftForward (tab N x) = .ret (tab N (fun k => ∑ t ∈ Finset.range N, x t * wexp 1 N k t)) := by
  simp only [dftForward, length_tab, validateNonEmpty, if_neg hN.ne', Outcome.bind_ret, replicate_eq_tab,
    dftForwardBin_tab]
  rw [forRange_fill N N le_rfl _ (fun k => ∑ t ∈ Finset.range N, x t * wexp 1 N k t) _ (fun _ _ _ => rfl)]
  congr 1
  exact tab_congr fun i hi => if_pos hi

theorem dftInverse_tab (N : ℕ) (hN : 0 < N) (X : ℕ → ℂ) :
    dftInverse (tab N X) = .ret (tab N (fun n => (∑ t ∈ Finset.range N, X t * wexp (-1) N n t) / N)) := by
  simp only [dftInverse, length_tab, validateNonEmpty, if_neg hN.ne', Outcome.bind_ret, replicate_eq_tab,
    wexp_neg_one_eq]
  rw [forRange_fill N N le_rfl _ (fun n => (∑ t ∈ Finset.range N, X t * wexp (-1) N n t) / N)]
  · congr 1
    exact tab_congr fun i hi => if_pos hi
  · intro n hn r
    rw [forRange_sum N 0 _ (fun k => X k * wexp (-1) N n k), zero_add, Outcome.bind_ret]
    · simp
    · intro i hi s
      simp only [index_tab X hi, Outcome.bind_ret]

theorem fftInverse_tab (m : ℕ) (X : ℕ → ℂ) :
    fftInverse (tab (2 ^ m) X) =
      .ret (tab (2 ^ m) (fun n => (∑ t ∈ Finset.range (2 ^ m), X t * wexp (-1) (2 ^ m) n t) / ((2 ^ m : ℕ) : ℂ))) := by
  simp only [fftInverse, fftTransform_tab (-1) (by decide) m X, Outcome.bind_ret, length_tab]
  obtain ⟨t, ht, hP⟩ := forRange_rule
    (fun i v => v = tab (2 ^ m) (fun n => if n < i then
        (∑ t ∈ Finset.range (2 ^ m), X t * wexp (-1) (2 ^ m) n t) / ((2 ^ m : ℕ) : ℂ)
      else ∑ t ∈ Finset.range (2 ^ m), X t * wexp (-1) (2 ^ m) n t)) (2 ^ m)
    (tab (2 ^ m) (fun k => ∑ t ∈ Finset.range (2 ^ m), X t * wexp (-1) (2 ^ m) k t))
    (fun r i => do
      let x ← Outcome.index r i
      Outcome.store r i (x * (((1 / ((2 ^ m : ℕ) : ℝ) : ℝ)) : ℂ)))
    (by simp)
    (by
      rintro i v hi rfl
      refine ⟨_, by rw [index_tab _ hi, Outcome.bind_ret, store_tab _ hi], ?_⟩
      refine tab_congr fun k hk => ?_
      by_cases h1 : k = i
      · subst h1
        rw [if_pos rfl, if_neg (by omega), if_pos (by omega)]
        push_cast; ring
      · rw [if_neg h1]
        by_cases h2 : k < i
        · rw [if_pos h2, if_pos (by omega)]
        · rw [if_neg h2, if_neg (by omega)])
  rw [ht, hP]
  congr 1
  exact tab_congr fun i hi => if_pos hi

/-! ## Cosine sums -/

theorem sum_cos_full (N : ℕ) (hN : 0 < N) (a : ℤ) :
    ∑ k ∈ Finset.range (2 * N), Real.cos (pi * k * a / N) = if (2 * N : ℤ) ∣ a then 2 * (N : ℝ) else 0 := by
  have hN' : (N : ℂ) ≠ 0 := by exact_mod_cast hN.ne'
  have h := congrArg Complex.re (sum_exp (2 * N) (by omega) a)
  rw [Complex.re_sum] at h
  have e : ∀ k : ℕ, (Complex.exp (2 * pi * I * a * k / ((2 * N : ℕ) : ℂ))).re = Real.cos (pi * k * a / N) := by
    intro k
    rw [← Complex.exp_ofReal_mul_I_re]
    congr 2; push_cast; field_simp
  simp only [e] at h
  rw [h]
  push_cast
  split_ifs
  · simp
  · simp

theorem cos_reflect (N : ℕ) (hN : 0 < N) (a : ℤ) (k : ℕ) (hk : k ≤ 2 * N) :
    Real.cos (pi * ((2 * N - k : ℕ) : ℝ) * a / N) = Real.cos (pi * k * a / N) := by
  have hN' : (N : ℝ) ≠ 0 := by exact_mod_cast hN.ne'
  rw [Nat.cast_sub hk]
  have : (pi * (((2 * N : ℕ) : ℝ) - k) * a / N) = a * (2 * pi) - pi * k * a / N := by
    push_cast; field_simp
  rw [this, Real.cos_int_mul_two_pi_sub]

theorem sum_cos (N : ℕ) (hN : 0 < N) (a : ℤ) :
    ∑ k ∈ Finset.Ico 1 N, Real.cos (pi * k * a / N) =
      if (2 * N : ℤ) ∣ a then (N : ℝ) - 1 else if Even a then -1 else 0 := by
  have hN' : (N : ℝ) ≠ 0 := by exact_mod_cast hN.ne'
  have h := sum_cos_full N hN a
  have hsplit : ∑ k ∈ Finset.range (2 * N), Real.cos (pi * k * a / N) =
      1 + ∑ k ∈ Finset.Ico 1 N, Real.cos (pi * k * a / N) + Real.cos (a * pi) +
        ∑ k ∈ Finset.Ico 1 N, Real.cos (pi * k * a / N) := by
    have h1 : ∑ k ∈ Finset.range (2 * N), Real.cos (pi * k * a / N) =
        ∑ k ∈ Finset.range N, Real.cos (pi * k * a / N) +
          ∑ k ∈ Finset.Ico N (2 * N), Real.cos (pi * k * a / N) :=
      (Finset.sum_range_add_sum_Ico _ (by omega)).symm
    have h2 : ∑ k ∈ Finset.range N, Real.cos (pi * k * a / N) =
        1 + ∑ k ∈ Finset.Ico 1 N, Real.cos (pi * k * a / N) := by
      rw [← Finset.sum_range_add_sum_Ico _ (show 1 ≤ N by omega)]
      simp
    have h3 : ∑ k ∈ Finset.Ico N (2 * N), Real.cos (pi * k * a / N) =
        Real.cos (a * pi) + ∑ k ∈ Finset.Ico (N + 1) (2 * N), Real.cos (pi * k * a / N) := by
      rw [Finset.sum_eq_sum_Ico_succ_bot (by omega)]
      congr 2; field_simp
    have h4 : ∑ k ∈ Finset.Ico (N + 1) (2 * N), Real.cos (pi * k * a / N) =
        ∑ k ∈ Finset.Ico 1 N, Real.cos (pi * k * a / N) := by
      refine Finset.sum_nbij' (fun k => 2 * N - k) (fun k => 2 * N - k) ?_ ?_ ?_ ?_ ?_
      · intro k hk; simp only [Finset.mem_Ico] at hk ⊢; omega
      · intro k hk; simp only [Finset.mem_Ico] at hk ⊢; omega
      · intro k hk; simp only [Finset.mem_Ico] at hk ⊢; omega
      · intro k hk; simp only [Finset.mem_Ico] at hk ⊢; omega
      · intro k hk
        simp only [Finset.mem_Ico] at hk
        rw [cos_reflect N hN a k (by omega)]
    rw [h1, h2, h3, h4]; ring
  rw [hsplit] at h
  by_cases h1 : (2 * N : ℤ) ∣ a
  · rw [if_pos h1] at h ⊢
    obtain ⟨b, rfl⟩ := h1
    have : Real.cos (((2 * N * b : ℤ) : ℝ) * pi) = 1 := by
      rw [← Real.cos_int_mul_two_pi (N * b)]; congr 1; push_cast; ring
    rw [this] at h; linarith
  · rw [if_neg h1] at h ⊢
    rcases Int.even_or_odd a with he | ho
    · rw [if_pos he]
      rw [Real.cos_int_mul_pi, he.neg_one_zpow] at h; linarith
    · rw [if_neg (Int.not_even_iff_odd.2 ho)]
      rw [Real.cos_int_mul_pi, ho.neg_one_zpow] at h; linarith

/-- Orthogonality of the DCT-II basis. -/
theorem dct_orth (N : ℕ) (hN : 0 < N) (m n : ℕ) (hm : m < N) (hn : n < N) :
    1 / 2 + ∑ k ∈ Finset.Ico 1 N,
        Real.cos (pi * k * (m + 1 / 2) / N) * Real.cos (pi * k * (n + 1 / 2) / N) =
      if m = n then (N : ℝ) / 2 else 0 := by
  have hN' : (N : ℝ) ≠ 0 := by exact_mod_cast hN.ne'
  have e : ∀ k : ℕ, Real.cos (pi * k * (m + 1 / 2) / N) * Real.cos (pi * k * (n + 1 / 2) / N) =
      (Real.cos (pi * k * (((m : ℤ) - n : ℤ) : ℝ) / N) + Real.cos (pi * k * (((m : ℤ) + n + 1 : ℤ) : ℝ) / N)) / 2 := by
    intro k
    have h1 : pi * k * (((m : ℤ) - n : ℤ) : ℝ) / N = pi * k * (m + 1 / 2) / N - pi * k * (n + 1 / 2) / N := by
      push_cast; ring
    have h2 : pi * k * (((m : ℤ) + n + 1 : ℤ) : ℝ) / N = pi * k * (m + 1 / 2) / N + pi * k * (n + 1 / 2) / N := by
      push_cast; ring
    rw [h1, h2, Real.cos_sub, Real.cos_add]; ring
  simp only [e]
  rw [← Finset.sum_div, Finset.sum_add_distrib, sum_cos N hN, sum_cos N hN]
  have h2 : ¬ (2 * N : ℤ) ∣ (m : ℤ) + n + 1 := by
    intro h
    have := Int.le_of_dvd (by omega) h
    omega
  rw [if_neg h2]
  by_cases h : m = n
  · subst h
    have : ¬ Even ((m : ℤ) + m + 1) := by rw [Int.not_even_iff_odd]; exact ⟨m, by ring⟩
    simp only [sub_self, dvd_zero, if_true, if_neg this]
    ring
  · have h1 : ¬ (2 * N : ℤ) ∣ (m : ℤ) - n := by
      intro h'
      have := Int.eq_zero_of_abs_lt_dvd h' (by rw [abs_lt]; omega)
      omega
    rw [if_neg h1, if_neg h]
    have : Even ((m : ℤ) + n + 1) ↔ ¬ Even ((m : ℤ) - n) := by
      simp only [Int.even_iff]; omega
    by_cases h3 : Even ((m : ℤ) - n)
    · rw [if_pos h3, if_neg (by tauto)]; ring
    · rw [if_neg h3, if_pos (by tauto)]; ring

/-- Orthogonality of the DST-I basis. -/
theorem dst_orth (N : ℕ) (m n : ℕ) (hm : m < N) (hn : n < N) :
    ∑ k ∈ Finset.range N, Real.sin (pi * (m + 1) * (k + 1) / (N + 1)) * Real.sin (pi * (k + 1) * (n + 1) / (N + 1)) =
      if m = n then ((N : ℝ) + 1) / 2 else 0 := by
  have hN' : ((N : ℝ) + 1) ≠ 0 := by positivity
  have e : ∀ k : ℕ, Real.sin (pi * (m + 1) * (k + 1) / (N + 1)) * Real.sin (pi * (k + 1) * (n + 1) / (N + 1)) =
      (Real.cos (pi * ((1 + k : ℕ) : ℝ) * (((m : ℤ) - n : ℤ) : ℝ) / ((N + 1 : ℕ) : ℝ)) -
        Real.cos (pi * ((1 + k : ℕ) : ℝ) * (((m : ℤ) + n + 2 : ℤ) : ℝ) / ((N + 1 : ℕ) : ℝ))) / 2 := by
    intro k
    have h1 : pi * ((1 + k : ℕ) : ℝ) * (((m : ℤ) - n : ℤ) : ℝ) / ((N + 1 : ℕ) : ℝ) =
        pi * (m + 1) * (k + 1) / (N + 1) - pi * (k + 1) * (n + 1) / (N + 1) := by
      push_cast; ring
    have h2 : pi * ((1 + k : ℕ) : ℝ) * (((m : ℤ) + n + 2 : ℤ) : ℝ) / ((N + 1 : ℕ) : ℝ) =
        pi * (m + 1) * (k + 1) / (N + 1) + pi * (k + 1) * (n + 1) / (N + 1) := by
      push_cast; ring
    rw [h1, h2, Real.cos_sub, Real.cos_add]; ring
  have hs : ∀ a : ℤ, ∑ k ∈ Finset.range N, Real.cos (pi * ((1 + k : ℕ) : ℝ) * (a : ℝ) / ((N + 1 : ℕ) : ℝ)) =
      ∑ k ∈ Finset.Ico 1 (N + 1), Real.cos (pi * k * a / ((N + 1 : ℕ) : ℝ)) := by
    intro a
    rw [Finset.sum_Ico_eq_sum_range, Nat.add_sub_cancel]
  simp only [e]
  rw [← Finset.sum_div, Finset.sum_sub_distrib, hs, hs, sum_cos (N + 1) (by omega), sum_cos (N + 1) (by omega)]
  have h2 : ¬ (2 * (N + 1 : ℕ) : ℤ) ∣ (m : ℤ) + n + 2 := by
    intro h
    have := Int.le_of_dvd (by omega) h
    omega
  rw [if_neg h2]
  by_cases h : m = n
  · subst h
    have : Even ((m : ℤ) + m + 2) := ⟨m + 1, by ring⟩
    simp only [sub_self, dvd_zero, if_true, if_pos this]
    push_cast; ring
  · have h1 : ¬ (2 * (N + 1 : ℕ) : ℤ) ∣ (m : ℤ) - n := by
      intro h'
      have := Int.eq_zero_of_abs_lt_dvd h' (by rw [abs_lt]; omega)
      omega
    rw [if_neg h1, if_neg h]
    have : Even ((m : ℤ) + n + 2) ↔ Even ((m : ℤ) - n) := by
      simp only [Int.even_iff]; omega
    by_cases h3 : Even ((m : ℤ) - n)
    · rw [if_pos h3, if_pos (by tauto)]; ring
    · rw [if_neg h3, if_neg (by tauto)]; ring

end Verif.Fourier
