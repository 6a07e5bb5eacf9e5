import Verif.Fourier.Orth

/-! # Helper lemmas: the DCT and DST loops -/

set_option autoImplicit false

noncomputable section

namespace Verif.Fourier

open Real (pi)
open Complex (I)

/-- The DCT-II coefficients. -/
def dctCoef (N : ℕ) (x : ℕ → ℝ) (k : ℕ) : ℝ :=
  2 / N * ∑ n ∈ Finset.range N, x n * Real.cos (pi * k * (n + 1 / 2) / N)

/-- The inverse DCT-II values. -/
def idctVal (N : ℕ) (c : ℕ → ℝ) (n : ℕ) : ℝ :=
  c 0 / 2 + ∑ k ∈ Finset.Ico 1 N, c k * Real.cos (pi * k * (n + 1 / 2) / N)

/-- The DST-I values. -/
def dstVal (N : ℕ) (x : ℕ → ℝ) (k : ℕ) : ℝ :=
  Real.sqrt (2 / (N + 1)) * ∑ n ∈ Finset.range N, x n * Real.sin (pi * (k + 1) * (n + 1) / (N + 1))

theorem dctForwardReference_tab (N : ℕ) (hN : 0 < N) (x : ℕ → ℝ) :
    dctForwardReference (tab N x) = .ret (tab N (dctCoef N x)) := by
  simp only [dctForwardReference, length_tab, if_neg hN.ne', replicate_eq_tab]
  rw [forRange_fill N N le_rfl _ (dctCoef N x)]
  · congr 1
    exact tab_congr fun i hi => if_pos hi
  · intro k hk r
    rw [forRange_sum N 0 _ (fun n => x n * Real.cos (pi * k * (n + 1 / 2) / N)), zero_add, Outcome.bind_ret]
    · rfl
    · intro i hi s
      simp only [index_tab x hi, Outcome.bind_ret]

theorem dctInverseReference_tab (N : ℕ) (hN : 0 < N) (c : ℕ → ℝ) :
    dctInverseReference (tab N c) = .ret (tab N (idctVal N c)) := by
  simp only [dctInverseReference, length_tab, if_neg hN.ne', replicate_eq_tab, index_tab c hN, Outcome.bind_ret]
  rw [forRange_fill N N le_rfl _ (idctVal N c)]
  · congr 1
    exact tab_congr fun i hi => if_pos hi
  · intro n hn r
    rw [forFromTo_sum 1 N (c 0 / 2) _ (fun k => c k * Real.cos (pi * k * (n + 1 / 2) / N)), Outcome.bind_ret]
    · rfl
    · intro i _ hi s
      simp only [index_tab c hi, Outcome.bind_ret]

theorem dstForward_tab (N : ℕ) (hN : 0 < N) (x : ℕ → ℝ) :
    dstForward (tab N x) = .ret (tab N (dstVal N x)) := by
  simp only [dstForward, length_tab, if_neg hN.ne', replicate_eq_tab]
  rw [forRange_fill N N le_rfl _ (dstVal N x)]
  · congr 1
    exact tab_congr fun i hi => if_pos hi
  · intro k hk r
    rw [forRange_sum N 0 _ (fun n => x n * Real.sin (pi * (k + 1) * (n + 1) / (N + 1))), zero_add,
      Outcome.bind_ret]
    · rfl
    · intro i hi s
      simp only [index_tab x hi, Outcome.bind_ret]

theorem re_exp_mul (a : ℝ) (t u : ℝ) :
    (Complex.exp ((t : ℂ) * I) * ((a : ℂ) * Complex.exp ((u : ℂ) * I))).re = a * Real.cos (t + u) := by
  rw [← Complex.exp_ofReal_mul_I_re (t + u)]
  rw [mul_left_comm, ← Complex.exp_add, Complex.re_ofReal_mul]
  congr 3; push_cast; ring

theorem wexp_real (isign : ℤ) (L k t : ℕ) :
    wexp isign L k t = Complex.exp (((-isign * (2 * pi) * k * t / L : ℝ) : ℂ) * I) := by
  rw [wexp]; congr 1; push_cast; ring

theorem dctForwardFast_tab (m : ℕ) (x : ℕ → ℝ) :
    dctForwardFast (tab (2 ^ m) x) = .ret (tab (2 ^ m) (dctCoef (2 ^ m) x)) := by
  have hpos : 0 < 2 ^ m := by positivity
  have hpow : isPowerOfTwo (2 ^ m) = true := (isPowerOfTwo_iff _).2 ⟨m, rfl⟩
  simp only [dctForwardFast, length_tab, if_neg hpos.ne', hpow, Bool.not_true, Bool.false_eq_true, if_false,
    replicate_eq_tab]
  have hpow2 : 2 * 2 ^ m = 2 ^ (m + 1) := by rw [pow_succ]; ring
  generalize hN : 2 ^ m = N at *
  have hN' : (N : ℝ) ≠ 0 := by exact_mod_cast hpos.ne'
  rw [forRange_fill N (2 * N) (by omega) _ (fun n => (⟨x n, 0⟩ : ℂ)), Outcome.bind_ret,
    forFromTo_fill N (2 * N) (2 * N) le_rfl _ (fun n => (⟨x (2 * N - 1 - n), 0⟩ : ℂ)), Outcome.bind_ret]
  rotate_left
  · intro i h1 h2 r
    simp only [index_tab x (show 2 * N - 1 - i < N by omega), Outcome.bind_ret]
  · intro i h1 r
    simp only [index_tab x h1, Outcome.bind_ret]
  have hfft := fftTransform_tab 1 (by decide) (m + 1)
    (fun k => if N ≤ k ∧ k < 2 * N then (⟨x (2 * N - 1 - k), 0⟩ : ℂ) else if k < N then ⟨x k, 0⟩ else 0)
  rw [← hpow2] at hfft
  rw [hfft, Outcome.bind_ret, forRange_fill N N le_rfl _ (dctCoef N x)]
  · congr 1
    exact tab_congr fun i hi => if_pos hi
  · intro k hk r
    rw [index_tab _ (by omega), Outcome.bind_ret]
    congr 1
    rw [mk_cos_sin, Finset.mul_sum, Complex.re_sum, ← Finset.sum_range_add_sum_Ico _ (show N ≤ 2 * N by omega)]
    have h1 : ∀ t < N, (Complex.exp (((-pi * k / ((2 * N : ℕ) : ℝ) : ℝ) : ℂ) * I) *
        ((if N ≤ t ∧ t < 2 * N then (⟨x (2 * N - 1 - t), 0⟩ : ℂ) else if t < N then ⟨x t, 0⟩ else 0) *
          wexp 1 (2 * N) k t)).re = x t * Real.cos (pi * k * (t + 1 / 2) / N) := by
      intro t ht
      rw [if_neg (by omega), if_pos ht, wexp_real]
      have : (⟨x t, 0⟩ : ℂ) = ((x t : ℝ) : ℂ) := rfl
      rw [this, re_exp_mul, ← Real.cos_neg]
      congr 2; push_cast; field_simp; ring
    have h2 : ∑ t ∈ Finset.Ico N (2 * N), (Complex.exp (((-pi * k / ((2 * N : ℕ) : ℝ) : ℝ) : ℂ) * I) *
        ((if N ≤ t ∧ t < 2 * N then (⟨x (2 * N - 1 - t), 0⟩ : ℂ) else if t < N then ⟨x t, 0⟩ else 0) *
          wexp 1 (2 * N) k t)).re = ∑ t ∈ Finset.range N, x t * Real.cos (pi * k * (t + 1 / 2) / N) := by
      refine Finset.sum_nbij' (fun t => 2 * N - 1 - t) (fun t => 2 * N - 1 - t) ?_ ?_ ?_ ?_ ?_
      · intro t ht; simp only [Finset.mem_Ico, Finset.mem_range] at ht ⊢; omega
      · intro t ht; simp only [Finset.mem_Ico, Finset.mem_range] at ht ⊢; omega
      · intro t ht; simp only [Finset.mem_Ico, Finset.mem_range] at ht ⊢; omega
      · intro t ht; simp only [Finset.mem_Ico, Finset.mem_range] at ht ⊢; omega
      · intro t ht
        simp only [Finset.mem_Ico] at ht
        rw [if_pos ht, wexp_real]
        have e1 : (⟨x (2 * N - 1 - t), 0⟩ : ℂ) = ((x (2 * N - 1 - t) : ℝ) : ℂ) := rfl
        rw [e1, re_exp_mul]
        congr 1
        have e2 : ((2 * N - 1 - t : ℕ) : ℝ) = 2 * N - 1 - t := by
          rw [Nat.cast_sub (by omega), Nat.cast_sub (by omega)]; push_cast; ring
        rw [e2, ← Real.cos_neg, ← Real.cos_nat_mul_two_pi_sub _ k]
        · congr 1
          push_cast; field_simp; ring
    rw [Finset.sum_congr rfl (fun t ht => h1 t (Finset.mem_range.1 ht)), h2, dctCoef]
    ring

theorem dctInverseFast_tab (m : ℕ) (c : ℕ → ℝ) :
    dctInverseFast (tab (2 ^ m) c) = .ret (tab (2 ^ m) (idctVal (2 ^ m) c)) := by
  have hpos : 0 < 2 ^ m := by positivity
  have hpow : isPowerOfTwo (2 ^ m) = true := (isPowerOfTwo_iff _).2 ⟨m, rfl⟩
  simp only [dctInverseFast, length_tab, if_neg hpos.ne', hpow, Bool.not_true, Bool.false_eq_true, if_false,
    replicate_eq_tab, mk_cos_sin]
  have hpow2 : 2 * 2 ^ m = 2 ^ (m + 1) := by rw [pow_succ]; ring
  generalize hN : 2 ^ m = N at *
  have hN' : (N : ℝ) ≠ 0 := by exact_mod_cast hpos.ne'
  set e : ℕ → ℂ := fun k => Complex.exp (((pi * k / ((2 * N : ℕ) : ℝ) : ℝ) : ℂ) * I) with he
  rw [forRange_fill N (2 * N) (by omega) _ (fun k => (c k : ℂ) * e k), Outcome.bind_ret]
  rotate_left
  · intro i h1 r
    simp only [index_tab c h1, Outcome.bind_ret, he]
  obtain ⟨t, ht, hP⟩ := forFromTo_rule
    (fun i v => v = tab (2 * N) (fun k => if k < N then (c k : ℂ) * e k else
      if 2 * N - k < i then (starRingEnd ℂ) ((c (2 * N - k) : ℂ) * e (2 * N - k)) else 0)) 1 N hpos
    (tab (2 * N) fun k => if k < N then (c k : ℂ) * e k else 0)
    (fun Y k => do
      let y ← Outcome.index Y k
      Outcome.store Y (2 * N - k) ((starRingEnd ℂ) y))
    (tab_congr fun k hk => by
      by_cases h : k < N
      · rw [if_pos h, if_pos h]
      · rw [if_neg h, if_neg h, if_neg (by omega)])
    (by
      rintro i v hi1 hi2 rfl
      refine ⟨_, by rw [index_tab _ (by omega), Outcome.bind_ret, store_tab _ (by omega)], ?_⟩
      refine tab_congr fun k hk => ?_
      by_cases h1 : k = 2 * N - i
      · subst h1
        rw [if_pos rfl, if_pos hi2, if_neg (by omega), if_pos (by omega), show 2 * N - (2 * N - i) = i by omega]
      · rw [if_neg h1]
        by_cases h2 : k < N
        · rw [if_pos h2, if_pos h2]
        · rw [if_neg h2, if_neg h2]
          by_cases h3 : 2 * N - k < i
          · rw [if_pos h3, if_pos (by omega)]
          · rw [if_neg h3, if_neg (by omega)])
  rw [ht, hP, Outcome.bind_ret]
  have hfft := fftTransform_tab (-1) (by decide) (m + 1)
    (fun k => if k < N then (c k : ℂ) * e k else
      if 2 * N - k < N then (starRingEnd ℂ) ((c (2 * N - k) : ℂ) * e (2 * N - k)) else 0)
  rw [← hpow2] at hfft
  rw [hfft, Outcome.bind_ret, forRange_fill N N le_rfl _ (idctVal N c)]
  · congr 1
    exact tab_congr fun i hi => if_pos hi
  · intro n hn r
    rw [index_tab _ (by omega), Outcome.bind_ret]
    congr 1
    rw [Complex.re_sum, ← Finset.sum_range_add_sum_Ico _ (show N ≤ 2 * N by omega)]
    have h0 : ∀ k < N, ((c k : ℂ) * e k * wexp (-1) (2 * N) n k).re = c k * Real.cos (pi * k * (n + 1 / 2) / N) := by
      intro k hk
      rw [he, wexp_real, mul_comm, re_exp_mul]
      congr 2; push_cast; field_simp
    have h1 : ∑ k ∈ Finset.range N, ((if k < N then (c k : ℂ) * e k else
        if 2 * N - k < N then (starRingEnd ℂ) ((c (2 * N - k) : ℂ) * e (2 * N - k)) else 0) *
          wexp (-1) (2 * N) n k).re =
        c 0 + ∑ k ∈ Finset.Ico 1 N, c k * Real.cos (pi * k * (n + 1 / 2) / N) := by
      rw [← Finset.sum_range_add_sum_Ico _ (show 1 ≤ N by omega), Finset.sum_range_one]
      congr 1
      · rw [if_pos hpos, h0 0 hpos]; simp
      · refine Finset.sum_congr rfl fun k hk => ?_
        have := (Finset.mem_Ico.1 hk).2
        rw [if_pos this, h0 k this]
    have h2 : ∑ k ∈ Finset.Ico N (2 * N), ((if k < N then (c k : ℂ) * e k else
        if 2 * N - k < N then (starRingEnd ℂ) ((c (2 * N - k) : ℂ) * e (2 * N - k)) else 0) *
          wexp (-1) (2 * N) n k).re =
        ∑ k ∈ Finset.Ico 1 N, c k * Real.cos (pi * k * (n + 1 / 2) / N) := by
      rw [Finset.sum_eq_sum_Ico_succ_bot (by omega), if_neg (by omega), if_neg (by omega), zero_mul, Complex.zero_re,
        zero_add]
      refine Finset.sum_nbij' (fun k => 2 * N - k) (fun k => 2 * N - k) ?_ ?_ ?_ ?_ ?_
      · intro t ht; simp only [Finset.mem_Ico] at ht ⊢; omega
      · intro t ht; simp only [Finset.mem_Ico] at ht ⊢; omega
      · intro t ht; simp only [Finset.mem_Ico] at ht ⊢; omega
      · intro t ht; simp only [Finset.mem_Ico] at ht ⊢; omega
      · intro k hk
        simp only [Finset.mem_Ico] at hk
        rw [if_neg (by omega), if_pos (by omega), ← h0 (2 * N - k) (by omega)]
        have hw : wexp (-1) (2 * N) n k = (starRingEnd ℂ) (wexp (-1) (2 * N) n (2 * N - k)) := by
          rw [wexp_real, wexp_real, ← Complex.exp_conj, map_mul, Complex.conj_ofReal, Complex.conj_I]
          have e2 : ((2 * N - k : ℕ) : ℝ) = 2 * N - k := by
            rw [Nat.cast_sub (by omega)]; push_cast; ring
          have : ((((-(((-1 : ℤ)) : ℝ) * (2 * pi) * n * k / ((2 * N : ℕ) : ℝ) : ℝ)) : ℂ) * I) =
              ((-(((-1 : ℤ)) : ℝ) * (2 * pi) * n * ((2 * N - k : ℕ) : ℝ) / ((2 * N : ℕ) : ℝ) : ℝ) : ℂ) * -I +
                (n : ℤ) * (2 * pi * I) := by
            have hNc : (N : ℂ) ≠ 0 := by exact_mod_cast hpos.ne'
            rw [e2]; push_cast; field_simp; ring
          rw [this, Complex.exp_add, exp_int_mul_two_pi_I, mul_one]
        rw [hw, ← map_mul, Complex.conj_re]
    rw [h1, h2, idctVal]; ring

/-! ## Inversion -/

theorem idct_dct (N : ℕ) (hN : 0 < N) (x : ℕ → ℝ) (n : ℕ) (hn : n < N) :
    idctVal N (dctCoef N x) n = x n := by
  have hN' : (N : ℝ) ≠ 0 := by exact_mod_cast hN.ne'
  have h : idctVal N (dctCoef N x) n =
      2 / N * ∑ m ∈ Finset.range N, x m * (1 / 2 + ∑ k ∈ Finset.Ico 1 N,
        Real.cos (pi * k * (m + 1 / 2) / N) * Real.cos (pi * k * (n + 1 / 2) / N)) := by
    have e : ∑ k ∈ Finset.Ico 1 N, dctCoef N x k * Real.cos (pi * k * (n + 1 / 2) / N) =
        2 / N * ∑ m ∈ Finset.range N, x m * ∑ k ∈ Finset.Ico 1 N,
          Real.cos (pi * k * (m + 1 / 2) / N) * Real.cos (pi * k * (n + 1 / 2) / N) := by
      simp only [dctCoef, Finset.mul_sum, Finset.sum_mul]
      rw [Finset.sum_comm]
      exact Finset.sum_congr rfl fun _ _ => Finset.sum_congr rfl fun _ _ => by ring
    have e0 : dctCoef N x 0 = 2 / N * ∑ m ∈ Finset.range N, x m := by simp [dctCoef]
    have e1 : ∀ S : ℕ → ℝ, ∑ m ∈ Finset.range N, x m * (1 / 2 + S m) =
        (∑ m ∈ Finset.range N, x m) / 2 + ∑ m ∈ Finset.range N, x m * S m := by
      intro S
      rw [Finset.sum_div, ← Finset.sum_add_distrib]
      exact Finset.sum_congr rfl fun _ _ => by ring
    rw [idctVal, e, e0, e1]
    generalize ∑ m ∈ Finset.range N, x m * ∑ k ∈ Finset.Ico 1 N,
      Real.cos (pi * k * (m + 1 / 2) / N) * Real.cos (pi * k * (n + 1 / 2) / N) = S
    ring
  rw [h, Finset.sum_congr rfl (fun m hm => by rw [dct_orth N hN m n (Finset.mem_range.1 hm) hn])]
  simp only [mul_ite, mul_zero, Finset.sum_ite_eq', Finset.mem_range, hn, if_true]
  field_simp

theorem dst_dst (N : ℕ) (x : ℕ → ℝ) (n : ℕ) (hn : n < N) : dstVal N (dstVal N x) n = x n := by
  have hN' : ((N : ℝ) + 1) ≠ 0 := by positivity
  have h : dstVal N (dstVal N x) n =
      (Real.sqrt (2 / (N + 1)) * Real.sqrt (2 / (N + 1))) * ∑ m ∈ Finset.range N, x m * ∑ k ∈ Finset.range N,
        Real.sin (pi * (n + 1) * (k + 1) / (N + 1)) * Real.sin (pi * (k + 1) * (m + 1) / (N + 1)) := by
    simp only [dstVal, Finset.mul_sum, Finset.sum_mul]
    rw [Finset.sum_comm]
    exact Finset.sum_congr rfl fun _ _ => Finset.sum_congr rfl fun _ _ => by ring
  rw [h, Finset.sum_congr rfl (fun m hm => by rw [dst_orth N n m hn (Finset.mem_range.1 hm)]),
    Real.mul_self_sqrt (by positivity)]
  simp only [mul_ite, mul_zero, Finset.sum_ite_eq, Finset.mem_range, hn, if_true]
  field_simp

end Verif.Fourier
