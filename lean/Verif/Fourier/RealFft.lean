import Verif.Fourier.Dct

/-! # Helper lemmas: the FFT of real data -/

set_option autoImplicit false

noncomputable section

namespace Verif.Fourier

open Real (pi)
open Complex (I)

/-- DFT of the even samples. -/
def evenDft (L : ℕ) (x : ℕ → ℝ) (k : ℕ) : ℂ := ∑ t ∈ Finset.range L, (x (2 * t) : ℂ) * wexp 1 L k t

/-- DFT of the odd samples. -/
def oddDft (L : ℕ) (x : ℕ → ℝ) (k : ℕ) : ℂ := ∑ t ∈ Finset.range L, (x (2 * t + 1) : ℂ) * wexp 1 L k t

/-- DFT of real data. -/
def realDft (N : ℕ) (x : ℕ → ℝ) (k : ℕ) : ℂ := ∑ t ∈ Finset.range N, (x t : ℂ) * wexp 1 N k t

/-- DFT of the packed data. -/
def packDft (L : ℕ) (x : ℕ → ℝ) (k : ℕ) : ℂ :=
  ∑ t ∈ Finset.range L, (⟨x (2 * t), x (2 * t + 1)⟩ : ℂ) * wexp 1 L k t

theorem packDft_eq (L : ℕ) (x : ℕ → ℝ) (k : ℕ) : packDft L x k = evenDft L x k + I * oddDft L x k := by
  rw [packDft, evenDft, oddDft, Finset.mul_sum, ← Finset.sum_add_distrib]
  refine Finset.sum_congr rfl fun t _ => ?_
  have : (⟨x (2 * t), x (2 * t + 1)⟩ : ℂ) = (x (2 * t) : ℂ) + I * (x (2 * t + 1) : ℂ) := by
    apply Complex.ext <;> simp
  rw [this]; ring

theorem realDft_eq (L : ℕ) (hL : 0 < L) (x : ℕ → ℝ) (k : ℕ) :
    realDft (2 * L) x k = evenDft L x k + twiddle 1 L ^ k * oddDft L x k := by
  rw [realDft, sum_range_two_mul, evenDft, oddDft, Finset.mul_sum]
  congr 1
  · exact Finset.sum_congr rfl fun t _ => by rw [wexp_even _ _ _ _ hL]
  · exact Finset.sum_congr rfl fun t _ => by rw [wexp_odd _ _ _ _ hL]; ring

theorem wexp_conj (isign : ℤ) (L k t : ℕ) (hL : 0 < L) (hk : k ≤ L) :
    (starRingEnd ℂ) (wexp isign L (L - k) t) = wexp isign L k t := by
  have hLc : (L : ℂ) ≠ 0 := by exact_mod_cast hL.ne'
  rw [wexp_real, wexp_real, ← Complex.exp_conj, map_mul, Complex.conj_ofReal, Complex.conj_I]
  have e2 : ((L - k : ℕ) : ℝ) = L - k := by rw [Nat.cast_sub hk]
  have : ((((-(isign : ℝ) * (2 * pi) * ((L - k : ℕ) : ℝ) * t / (L : ℝ) : ℝ)) : ℂ) * -I) =
      ((-(isign : ℝ) * (2 * pi) * k * t / (L : ℝ) : ℝ) : ℂ) * I + ((isign * t : ℤ) : ℂ) * (2 * pi * I) := by
    rw [e2]; push_cast; field_simp; ring
  rw [this, Complex.exp_add, exp_int_mul_two_pi_I, mul_one]

theorem real_sum_conj (isign : ℤ) (L k : ℕ) (hL : 0 < L) (hk : k ≤ L) (a : ℕ → ℝ) :
    (starRingEnd ℂ) (∑ t ∈ Finset.range L, (a t : ℂ) * wexp isign L (L - k) t) =
      ∑ t ∈ Finset.range L, (a t : ℂ) * wexp isign L k t := by
  rw [map_sum]
  refine Finset.sum_congr rfl fun t _ => ?_
  rw [map_mul, Complex.conj_ofReal, wexp_conj _ _ _ _ hL hk]

theorem packDft_conj (L k : ℕ) (hL : 0 < L) (hk : k ≤ L) (x : ℕ → ℝ) :
    (starRingEnd ℂ) (packDft L x (L - k)) = evenDft L x k - I * oddDft L x k := by
  rw [packDft_eq, map_add, map_mul, Complex.conj_I, evenDft, oddDft, real_sum_conj _ _ _ hL hk,
    real_sum_conj _ _ _ hL hk, evenDft, oddDft]
  ring

theorem wexp_zero (isign : ℤ) (L t : ℕ) : wexp isign L 0 t = 1 := by simp [wexp]

theorem evenDft_zero (L : ℕ) (x : ℕ → ℝ) :
    evenDft L x 0 = ((∑ t ∈ Finset.range L, x (2 * t) : ℝ) : ℂ) := by
  simp [evenDft, wexp_zero]

theorem oddDft_zero (L : ℕ) (x : ℕ → ℝ) :
    oddDft L x 0 = ((∑ t ∈ Finset.range L, x (2 * t + 1) : ℝ) : ℂ) := by
  simp [oddDft, wexp_zero]

theorem twiddle_pow_eq (L k : ℕ) :
    Complex.exp (⟨0, k * (-pi / L)⟩ : ℂ) = twiddle 1 L ^ k := by
  rw [twiddle, ← Complex.exp_nat_mul]
  congr 1
  apply Complex.ext
  · simp
  · simp

theorem twiddle_neg_eq (L k : ℕ) :
    Complex.exp (⟨0, k * (pi / L)⟩ : ℂ) * twiddle 1 L ^ k = 1 := by
  rw [← twiddle_pow_eq, ← Complex.exp_add]
  have : (⟨0, k * (pi / L)⟩ + ⟨0, k * (-pi / L)⟩ : ℂ) = 0 := by
    apply Complex.ext
    · simp
    · simp; ring
  rw [this, Complex.exp_zero]

theorem packReal_tab (L : ℕ) (x : ℕ → ℝ) :
    packReal (tab (2 * L) x) = .ret (tab L (fun i => (⟨x (2 * i), x (2 * i + 1)⟩ : ℂ))) := by
  simp only [packReal, length_tab, show 2 * L / 2 = L by omega, replicate_eq_tab]
  rw [forRange_fill L L le_rfl _ (fun i => (⟨x (2 * i), x (2 * i + 1)⟩ : ℂ))]
  · congr 1
    exact tab_congr fun i hi => if_pos hi
  · intro i hi r
    simp only [index_tab x (show 2 * i < 2 * L by omega), index_tab x (show 2 * i + 1 < 2 * L by omega),
      Outcome.bind_ret]

theorem half_I : (⟨0, 1 / 2⟩ : ℂ) = I / 2 := by
  apply Complex.ext <;> simp
theorem neg_half_I : (⟨0, -(1 / 2)⟩ : ℂ) = -I / 2 := by
  apply Complex.ext <;> simp; norm_num

theorem realMiddle_tab (L k : ℕ) (h0 : 0 < k) (hk : k < L) (x : ℕ → ℝ) :
    realMiddle (tab L (packDft L x)) L k = .ret (realDft (2 * L) x k) := by
  simp only [realMiddle, index_tab _ hk, index_tab _ (show L - k < L by omega), Outcome.bind_ret, twiddle_pow_eq,
    packDft_conj L k (by omega) hk.le, realDft_eq L (by omega), neg_half_I]
  rw [packDft_eq]
  congr 1
  push_cast
  linear_combination (-twiddle 1 L ^ k * oddDft L x k) * Complex.I_mul_I

theorem realDft_zero (L : ℕ) (hL : 0 < L) (x : ℕ → ℝ) :
    realDft (2 * L) x 0 = (((packDft L x 0).re + (packDft L x 0).im : ℝ) : ℂ) := by
  rw [realDft_eq L hL, packDft_eq, evenDft_zero, oddDft_zero]
  simp

theorem realDft_half (L : ℕ) (hL : 0 < L) (x : ℕ → ℝ) :
    realDft (2 * L) x L = (((packDft L x 0).re - (packDft L x 0).im : ℝ) : ℂ) := by
  have h1 : evenDft L x L = evenDft L x 0 := by
    simp only [evenDft]
    exact Finset.sum_congr rfl fun t _ => by rw [← wexp_shift 1 L 0 t hL, Nat.zero_add]
  have h2 : oddDft L x L = oddDft L x 0 := by
    simp only [oddDft]
    exact Finset.sum_congr rfl fun t _ => by rw [← wexp_shift 1 L 0 t hL, Nat.zero_add]
  have h3 : twiddle 1 L ^ L = -1 := by
    have := twiddle_shift 1 (by decide) L 0 hL
    rwa [Nat.zero_add, pow_zero] at this
  rw [realDft_eq L hL, packDft_eq, h1, h2, h3, evenDft_zero, oddDft_zero]
  simp; ring

theorem isPow_two_mul (m : ℕ) : isPowerOfTwo (2 * 2 ^ m) = true :=
  (isPowerOfTwo_iff _).2 ⟨m + 1, by rw [pow_succ]; ring⟩

theorem realForward_tab (m : ℕ) (x : ℕ → ℝ) :
    realForward (tab (2 * 2 ^ m) x) = .ret (tab (2 ^ m + 1) (realDft (2 * 2 ^ m) x)) := by
  have hpos : 0 < 2 ^ m := by positivity
  simp only [realForward, length_tab, validateRealFFTSize, isPow_two_mul, packReal_tab, Outcome.bind_ret,
    fftTransform_tab 1 (by decide) m, Bool.not_true, Bool.or_false, decide_eq_true_eq,
    if_neg (show ¬ 2 * 2 ^ m < 2 by omega), show 2 * 2 ^ m / 2 = 2 ^ m by omega, replicate_eq_tab]
  generalize 2 ^ m = L at *
  change (Outcome.index (tab L (packDft L x)) 0 >>= _) = _
  rw [index_tab _ hpos, Outcome.bind_ret, store_tab _ (by omega), Outcome.bind_ret, store_tab _ (by omega),
    Outcome.bind_ret, forFromTo_fill 1 L (L + 1) (by omega) _ (realDft (2 * L) x)]
  · congr 1
    refine tab_congr fun k hk => ?_
    by_cases h1 : 1 ≤ k ∧ k < L
    · rw [if_pos h1]
    · rw [if_neg h1]
      by_cases h2 : k = L
      · rw [if_pos h2, h2, realDft_half L hpos]; rfl
      · have h3 : k = 0 := by omega
        rw [if_neg h2, if_pos h3, h3, realDft_zero L hpos]; rfl
  · intro k h1 h2 r
    have := realMiddle_tab L k (by omega) h2 x
    rw [show (tab L fun k => ∑ t ∈ Finset.range L, (⟨x (2 * t), x (2 * t + 1)⟩ : ℂ) * wexp 1 L k t) =
      tab L (packDft L x) from rfl, this, Outcome.bind_ret]

/-- The recombination recovers the packed transform. -/
theorem realRecombine_eq (L k : ℕ) (hk : k ≤ L) (hL : 0 < L) (x : ℕ → ℝ) :
    realRecombine L k (realDft (2 * L) x k) ((starRingEnd ℂ) (realDft (2 * L) x (L - k))) = packDft L x k := by
  have hc : (starRingEnd ℂ) (realDft (2 * L) x (L - k)) = evenDft L x k - twiddle 1 L ^ k * oddDft L x k := by
    have h1 : realDft (2 * L) x (L - k) = (starRingEnd ℂ) (realDft (2 * L) x (k + L)) := by
      have := real_sum_conj 1 (2 * L) (L - k) (by omega) (by omega) x
      rw [show 2 * L - (L - k) = k + L by omega] at this
      exact this.symm
    rw [h1, Complex.conj_conj, realDft_eq L hL, twiddle_shift 1 (by decide) L k hL]
    have e1 : evenDft L x (k + L) = evenDft L x k := by
      simp only [evenDft, wexp_shift _ _ _ _ hL]
    have e2 : oddDft L x (k + L) = oddDft L x k := by
      simp only [oddDft, wexp_shift _ _ _ _ hL]
    rw [e1, e2]; ring
  simp only [realRecombine, hc, half_I, packDft_eq]
  rw [realDft_eq L hL]
  have := twiddle_neg_eq L k
  push_cast
  linear_combination (I * oddDft L x k) * this

/-- Transforming the packed spectrum back. -/
theorem packDft_inverse (L : ℕ) (hL : 0 < L) (x : ℕ → ℝ) (i : ℕ) (hi : i < L) :
    ∑ t ∈ Finset.range L, packDft L x t * wexp (-1) L i t =
      (L : ℂ) * (⟨x (2 * i), x (2 * i + 1)⟩ : ℂ) := by
  have hLc : (L : ℂ) ≠ 0 := by exact_mod_cast hL.ne'
  have := dft_inversion L hL (fun t => (⟨x (2 * t), x (2 * t + 1)⟩ : ℂ)) i hi
  rw [div_eq_iff hLc] at this
  rw [mul_comm, ← this]; rfl

/-- `RealFFT::Inverse` on the spectrum of `x`, of which only the real parts of the end bins are used. -/
theorem realInverse_tab (m : ℕ) (x : ℕ → ℝ) (S : ℕ → ℂ)
    (h0 : (S 0).re = (realDft (2 * 2 ^ m) x 0).re)
    (hn : (S (2 ^ m)).re = (realDft (2 * 2 ^ m) x (2 ^ m)).re)
    (hS : ∀ k, 0 < k → k < 2 ^ m → S k = realDft (2 * 2 ^ m) x k) :
    realInverse (tab (2 ^ m + 1) S) = .ret (tab (2 * 2 ^ m) x) := by
  have hpos : 0 < 2 ^ m := by positivity
  have hfft := fftTransform_tab (-1) (by decide) m (packDft (2 ^ m) x)
  simp only [realInverse, length_tab, validateMinSize, Nat.add_sub_cancel, replicate_eq_tab]
  generalize 2 ^ m = L at *
  have hLr : (L : ℝ) ≠ 0 := by exact_mod_cast hpos.ne'
  rw [if_neg (by push_cast; omega), Outcome.bind_ret, index_tab _ (by omega), Outcome.bind_ret,
    index_tab _ (by omega), Outcome.bind_ret, store_tab _ (by omega), Outcome.bind_ret,
    forFromTo_fill 1 L L le_rfl _ (packDft L x), Outcome.bind_ret]
  rotate_left
  · intro k h1 h2 r
    rw [index_tab _ (by omega), Outcome.bind_ret, index_tab _ (by omega), Outcome.bind_ret, hS k (by omega) h2,
      hS (L - k) (by omega) (by omega), realRecombine_eq L k h2.le hpos]
  have e : (tab L fun k => if 1 ≤ k ∧ k < L then packDft L x k else
      if k = 0 then (⟨1 / 2 * ((S 0).re + (S L).re), 1 / 2 * ((S 0).re - (S L).re)⟩ : ℂ) else 0) =
      tab L (packDft L x) := by
    refine tab_congr fun k hk => ?_
    by_cases h1 : k = 0
    · subst h1
      rw [if_neg (by omega), if_pos rfl, h0, hn, realDft_zero L hpos, realDft_half L hpos]
      apply Complex.ext
      · simp only [Complex.ofReal_re]; ring
      · simp only [Complex.ofReal_re]; ring
    · rw [if_pos (by omega)]
  rw [e, hfft, Outcome.bind_ret]
  obtain ⟨t, ht, hP⟩ := forRange_rule
    (fun i v => v = tab (2 * L) (fun k => if k < 2 * i then L * x k else 0)) L (tab (2 * L) fun _ => (0 : ℝ))
    (fun result i => do
      let t ← Outcome.index (tab L fun k => ∑ t ∈ Finset.range L, packDft L x t * wexp (-1) L k t) i
      let result ← Outcome.store result (2 * i) t.re
      Outcome.store result (2 * i + 1) t.im)
    (by simp)
    (by
      rintro i v hi rfl
      refine ⟨_, by rw [index_tab _ hi, Outcome.bind_ret, store_tab _ (by omega), Outcome.bind_ret,
        store_tab _ (by omega)], ?_⟩
      rw [packDft_inverse L hpos x i hi]
      refine tab_congr fun k hk => ?_
      by_cases h1 : k = 2 * i + 1
      · rw [if_pos h1, if_pos (by omega), h1]; simp
      · rw [if_neg h1]
        by_cases h2 : k = 2 * i
        · rw [if_pos h2, if_pos (by omega), h2]; simp
        · rw [if_neg h2]
          by_cases h3 : k < 2 * i
          · rw [if_pos h3, if_pos (by omega)]
          · rw [if_neg h3, if_neg (by omega)])
  have e' : (tab (2 * L) fun k => if k < 2 * L then L * x k else 0) = tab (2 * L) fun k => L * x k :=
    tab_congr fun k hk => if_pos hk
  rw [ht, hP, Outcome.bind_ret, e']
  obtain ⟨t', ht', hP'⟩ := forRange_rule
    (fun i v => v = tab (2 * L) (fun k => if k < i then x k else L * x k)) (2 * L)
    (tab (2 * L) fun k => L * x k)
    (fun result i => do
      let x ← Outcome.index result i
      Outcome.store result i (x / L))
    (by simp)
    (by
      rintro i v hi rfl
      refine ⟨_, by rw [index_tab _ hi, Outcome.bind_ret, store_tab _ (by omega)], ?_⟩
      refine tab_congr fun k hk => ?_
      by_cases h1 : k = i
      · rw [if_pos h1, if_neg (by omega), if_pos (by omega), h1]; field_simp
      · rw [if_neg h1]
        by_cases h3 : k < i
        · rw [if_pos h3, if_pos (by omega)]
        · rw [if_neg h3, if_neg (by omega)])
  rw [ht', hP']
  congr 1
  exact tab_congr fun k hk => if_pos hk

/-! ## The packed in-place format -/

/-- The packed format: DC, Nyquist, then real and imaginary parts of the bins 1, 2, …. -/
def packed (L : ℕ) (X : ℕ → ℂ) (j : ℕ) : ℝ :=
  if j = 0 then (X 0).re else if j = 1 then (X L).re
  else if j % 2 = 0 then (X (j / 2)).re else (X (j / 2)).im

theorem realTransform_forward_tab (m : ℕ) (x : ℕ → ℝ) :
    realTransform (tab (2 * 2 ^ m) x) 1 = .ret (tab (2 * 2 ^ m) (packed (2 ^ m) (realDft (2 * 2 ^ m) x))) := by
  have hpos : 0 < 2 ^ m := by positivity
  simp only [realTransform, length_tab, validateRealFFTSize, isPow_two_mul, packReal_tab, Outcome.bind_ret,
    fftTransform_tab 1 (by decide) m, Bool.not_true, Bool.or_false, decide_eq_true_eq,
    if_neg (show ¬ 2 * 2 ^ m < 2 by omega), show 2 * 2 ^ m / 2 = 2 ^ m by omega, if_true]
  generalize 2 ^ m = L at *
  change (Outcome.index (tab L (packDft L x)) 0 >>= _) = _
  rw [index_tab _ hpos, Outcome.bind_ret, store_tab _ (by omega), Outcome.bind_ret, store_tab _ (by omega),
    Outcome.bind_ret]
  obtain ⟨t, ht, hP⟩ := forFromTo_rule
    (fun i v => v = tab (2 * L) (fun k => if k < 2 * i then packed L (realDft (2 * L) x) k else x k)) 1 L hpos
    (tab (2 * L) fun k => if k = 1 then (packDft L x 0).re - (packDft L x 0).im
      else if k = 0 then (packDft L x 0).re + (packDft L x 0).im else x k)
    (fun data k => do
      let x ← realMiddle (tab L (packDft L x)) L k
      let data ← Outcome.store data (2 * k) x.re
      Outcome.store data (2 * k + 1) x.im)
    (tab_congr fun k hk => by
      by_cases h1 : k = 1
      · rw [if_pos h1, if_pos (by omega), h1, packed, if_neg (by omega), if_pos rfl, realDft_half L hpos,
          Complex.ofReal_re]
      · rw [if_neg h1]
        by_cases h2 : k = 0
        · rw [if_pos h2, if_pos (by omega), h2, packed, if_pos rfl, realDft_zero L hpos, Complex.ofReal_re]
        · rw [if_neg h2, if_neg (by omega)])
    (by
      rintro i v hi1 hi2 rfl
      refine ⟨_, by rw [realMiddle_tab L i (by omega) hi2, Outcome.bind_ret, store_tab _ (by omega), Outcome.bind_ret,
        store_tab _ (by omega)], ?_⟩
      refine tab_congr fun k hk => ?_
      by_cases h1 : k = 2 * i + 1
      · rw [if_pos h1, if_pos (by omega), packed, if_neg (by omega), if_neg (by omega), if_neg (by omega), h1,
          show (2 * i + 1) / 2 = i by omega]
      · rw [if_neg h1]
        by_cases h2 : k = 2 * i
        · rw [if_pos h2, if_pos (by omega), packed, if_neg (by omega), if_neg (by omega), if_pos (by omega), h2,
            show (2 * i) / 2 = i by omega]
        · rw [if_neg h2]
          by_cases h3 : k < 2 * i
          · rw [if_pos h3, if_pos (by omega)]
          · rw [if_neg h3, if_neg (by omega)])
  rw [show (tab L fun k => ∑ t ∈ Finset.range L, (⟨x (2 * t), x (2 * t + 1)⟩ : ℂ) * wexp 1 L k t) =
      tab L (packDft L x) from rfl, ht, hP]
  congr 1
  exact tab_congr fun k hk => if_pos hk

theorem realTransform_inverse_tab (m : ℕ) (x : ℕ → ℝ) (isign : ℤ) (hs : isign ≠ 1) (ho : Odd isign) :
    realTransform (tab (2 * 2 ^ m) (packed (2 ^ m) (realDft (2 * 2 ^ m) x))) isign = .ret (tab (2 * 2 ^ m) x) := by
  have hpos : 0 < 2 ^ m := by positivity
  have hfft := fftTransform_tab (-1) (by decide) m (packDft (2 ^ m) x)
  simp only [realTransform, length_tab, validateRealFFTSize, isPow_two_mul, packReal_tab, Outcome.bind_ret,
    fftTransform_tab isign ho m, Bool.not_true, Bool.or_false, decide_eq_true_eq,
    if_neg (show ¬ 2 * 2 ^ m < 2 by omega), show 2 * 2 ^ m / 2 = 2 ^ m by omega, if_neg hs]
  generalize 2 ^ m = L at *
  have hLr : (L : ℝ) ≠ 0 := by exact_mod_cast hpos.ne'
  rw [index_tab _ (by omega), Outcome.bind_ret, index_tab _ (by omega), Outcome.bind_ret, store_tab _ (by omega),
    Outcome.bind_ret, forFromTo_fill 1 L L le_rfl _ (packDft L x), Outcome.bind_ret]
  rotate_left
  · intro k h1 h2 r
    rw [index_tab _ (by omega), Outcome.bind_ret, index_tab _ (by omega), Outcome.bind_ret,
      index_tab _ (by omega), Outcome.bind_ret, index_tab _ (by omega), Outcome.bind_ret]
    congr 1
    rw [← realRecombine_eq L k h2.le hpos x]
    congr 1
    · rw [packed, packed, if_neg (by omega), if_neg (by omega), if_pos (by omega), if_neg (by omega), if_neg (by omega),
        if_neg (by omega), show 2 * k / 2 = k by omega, show (2 * k + 1) / 2 = k by omega]
    · rw [packed, packed, if_neg (by omega), if_neg (by omega), if_pos (by omega), if_neg (by omega), if_neg (by omega),
        if_neg (by omega), show (2 * L - 2 * k) / 2 = L - k by omega, show (2 * L - 2 * k + 1) / 2 = L - k by omega]
      rfl
  have e : ∀ Z : ℕ → ℂ, (tab L fun k => if 1 ≤ k ∧ k < L then packDft L x k else
      if k = 0 then (⟨1 / 2 * (packed L (realDft (2 * L) x) 0 + packed L (realDft (2 * L) x) 1),
        1 / 2 * (packed L (realDft (2 * L) x) 0 - packed L (realDft (2 * L) x) 1)⟩ : ℂ) else Z k) =
      tab L (packDft L x) := by
    intro Z
    refine tab_congr fun k hk => ?_
    by_cases h1 : k = 0
    · subst h1
      rw [if_neg (by omega), if_pos rfl]
      simp only [packed, if_true, if_neg (show ¬ (1 : ℕ) = 0 by omega)]
      rw [realDft_zero L hpos, realDft_half L hpos]
      apply Complex.ext
      · simp only [Complex.ofReal_re]; ring
      · simp only [Complex.ofReal_re]; ring
    · rw [if_pos (by omega)]
  rw [e, hfft, Outcome.bind_ret]
  obtain ⟨t, ht, hP⟩ := forRange_rule
    (fun i v => v = tab (2 * L) (fun k => if k < 2 * i then x k else packed L (realDft (2 * L) x) k)) L
    (tab (2 * L) (packed L (realDft (2 * L) x)))
    (fun result i => do
      let t ← Outcome.index (tab L fun k => ∑ t ∈ Finset.range L, packDft L x t * wexp (-1) L k t) i
      let result ← Outcome.store result (2 * i) (t.re / L)
      Outcome.store result (2 * i + 1) (t.im / L))
    (by simp)
    (by
      rintro i v hi rfl
      refine ⟨_, by rw [index_tab _ hi, Outcome.bind_ret, store_tab _ (by omega), Outcome.bind_ret,
        store_tab _ (by omega)], ?_⟩
      rw [packDft_inverse L hpos x i hi]
      refine tab_congr fun k hk => ?_
      by_cases h1 : k = 2 * i + 1
      · rw [if_pos h1, if_pos (by omega), h1]; simp; field_simp
      · rw [if_neg h1]
        by_cases h2 : k = 2 * i
        · rw [if_pos h2, if_pos (by omega), h2]; simp; field_simp
        · rw [if_neg h2]
          by_cases h3 : k < 2 * i
          · rw [if_pos h3, if_pos (by omega)]
          · rw [if_neg h3, if_neg (by omega)])
  rw [ht, hP]
  congr 1
  exact tab_congr fun k hk => if_pos hk

end Verif.Fourier
