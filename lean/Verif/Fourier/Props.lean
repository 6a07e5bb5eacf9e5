import Verif.Fourier.RealFft
import Verif.Fourier.Spec

/-!
# Properties C31, C32, C33, C62, C63: the transforms
-/

set_option autoImplicit false

noncomputable section

namespace Verif.Fourier

open Real (pi)
open Complex (I)

/-- The specification on a tabulated vector. -/
theorem isDFT_tab (N : ℕ) (x : ℕ → ℂ) :
    IsDFT (tab N x) (tab N (fun k => ∑ t ∈ Finset.range N, x t * wexp 1 N k t)) := by
  refine ⟨by simp, ?_⟩
  intro k hk
  rw [length_tab] at hk ⊢
  rw [getD_tab _ _ _ hk]
  refine Finset.sum_congr rfl fun n hn => ?_
  rw [getD_tab _ _ _ (Finset.mem_range.1 hn), wexp]
  congr 2; push_cast; ring

theorem isIDFT_tab (N : ℕ) (X : ℕ → ℂ) :
    IsIDFT (tab N X) (tab N (fun n => (∑ t ∈ Finset.range N, X t * wexp (-1) N n t) / N)) := by
  refine ⟨by simp, ?_⟩
  intro n hn
  rw [length_tab] at hn ⊢
  rw [getD_tab _ _ _ hn]
  congr 1
  refine Finset.sum_congr rfl fun k hk => ?_
  rw [getD_tab _ _ _ (Finset.mem_range.1 hk), wexp]
  congr 2; push_cast; ring



/-! ## C31: the FFT computes the DFT -/

/-- **C31.**  `FFT::Forward` returns the discrete Fourier transform of every vector whose length is a power of
two. -/
theorem fft_forward_isDFT (x : List ℂ) (m : ℕ) (hm : x.length = 2 ^ m) :
    ∃ X, fftForward x = .ret X ∧ IsDFT x X := by
  rw [eq_tab x 0, hm]
  exact ⟨_, fftTransform_tab 1 (by decide) m _, isDFT_tab _ _⟩

/-- `DFT::Forward` returns the discrete Fourier transform of every nonempty vector. -/
theorem dft_forward_isDFT (x : List ℂ) (hx : x ≠ []) : ∃ X, dftForward x = .ret X ∧ IsDFT x X := by
  have hN : 0 < x.length := List.length_pos_iff.2 hx
  rw [eq_tab x 0]
  exact ⟨_, dftForward_tab _ hN _, isDFT_tab _ _⟩

/-- The fast and the defining transform return the same vector. -/
theorem fft_eq_dft (x : List ℂ) (m : ℕ) (hm : x.length = 2 ^ m) : fftForward x = dftForward x := by
  rw [eq_tab x 0, hm, fftForward, fftTransform_tab 1 (by decide) m, dftForward_tab _ (by positivity)]

/-- The sign convention of the in-place transform: `isign = -1` gives the unnormalised inverse. -/
theorem fft_transform_inverse (x : List ℂ) (m : ℕ) (hm : x.length = 2 ^ m) :
    ∃ X, fftTransform x (-1) = .ret X ∧ X.length = x.length ∧ ∀ k < x.length, X.getD k 0 =
      ∑ n ∈ Finset.range x.length, x.getD n 0 * Complex.exp (2 * pi * I * k * n / x.length) := by
  rw [eq_tab x 0, hm]
  refine ⟨_, fftTransform_tab (-1) (by decide) m _, by simp, ?_⟩
  intro k hk
  rw [length_tab] at hk ⊢
  rw [getD_tab _ _ _ hk]
  refine Finset.sum_congr rfl fun n hn => ?_
  rw [getD_tab _ _ _ (Finset.mem_range.1 hn), wexp]
  congr 2; push_cast; ring

/-- Lengths that are not powers of two are rejected, in both directions and for every sign. -/
theorem fft_rejects (x : List ℂ) (h : ∀ m, x.length ≠ 2 ^ m) (isign : ℤ) :
    fftTransform x isign = .exn .invalidArgument ∧ fftForward x = .exn .invalidArgument ∧
      fftInverse x = .exn .invalidArgument := by
  have key : ∀ s, fftTransform x s = .exn .invalidArgument := by
    intro s
    have hp : isPowerOfTwo x.length = false := by
      rw [Bool.eq_false_iff]
      intro h'
      obtain ⟨m, hm⟩ := (isPowerOfTwo_iff _).1 h'
      exact h m hm
    by_cases h0 : x.length = 0
    · simp [fftTransform, validateFFTSize, validateNonEmpty, h0]
    · simp [fftTransform, validateFFTSize, validateNonEmpty, validatePowerOfTwo, hp, h0]
  exact ⟨key isign, key 1, by simp [fftInverse, key]⟩

/-- The DFT rejects exactly the empty vector. -/
theorem dft_rejects_empty : dftForward [] = .exn .invalidArgument ∧ dftInverse [] = .exn .invalidArgument := by
  constructor <;> simp [dftForward, dftInverse, validateNonEmpty]

/-- `DFT::ComputeBin` returns one entry of the transform, and rejects indices out of range. -/
theorem computeBin_spec (x : List ℂ) (k : ℤ) :
    (k < 0 ∨ x.length ≤ k → computeBin x k = .exn .invalidArgument) ∧
    ∀ j : ℕ, j < x.length → computeBin x j = .ret
      (∑ n ∈ Finset.range x.length, x.getD n 0 * Complex.exp (-2 * pi * I * j * n / x.length)) := by
  constructor
  · intro h
    rw [computeBin, if_pos h]
  · intro j hj
    rw [computeBin, if_neg (by omega), Int.toNat_natCast]
    have := dftForwardBin_tab x.length (fun i => x.getD i 0) j
    rw [← eq_tab x 0] at this
    rw [this]
    congr 1
    refine Finset.sum_congr rfl fun n _ => ?_
    rw [wexp]
    congr 2; push_cast; ring

/-- A case that meets the hypotheses: the transform of (1, 2, 3, 4) starts with 10. -/
example : ∃ X, fftForward [1, 2, 3, 4] = .ret X ∧ X.getD 0 0 = 10 := by
  obtain ⟨X, h, -, hX⟩ := fft_forward_isDFT [1, 2, 3, 4] 2 (by simp)
  refine ⟨X, h, ?_⟩
  rw [hX 0 (by simp)]
  norm_num [Finset.sum_range_succ]

example : fftForward [1, 2, 3] = .exn .invalidArgument := by
  refine (fft_rejects [1, 2, 3] ?_ 1).2.1
  intro m hm
  have h3 : (3 : ℕ) = 2 ^ m := by simpa using hm
  match m, h3 with
  | 0, h => simp at h
  | 1, h => simp at h
  | m + 2, h => rw [pow_add] at h; omega

/-! ## C32: inverses -/

/-- **C32.**  `FFT::Inverse` undoes `FFT::Forward`. -/
theorem fft_roundtrip (x : List ℂ) (m : ℕ) (hm : x.length = 2 ^ m) :
    (fftForward x >>= fftInverse) = .ret x := by
  obtain ⟨N, f, rfl⟩ := exists_tab x 0
  rw [length_tab] at hm
  subst hm
  rw [fftForward, fftTransform_tab 1 (by decide) m, Outcome.bind_ret, fftInverse_tab]
  congr 1
  refine tab_congr fun n hn => ?_
  rw [dft_inversion _ (by positivity) _ n hn]

/-- `FFT::Forward` undoes `FFT::Inverse`. -/
theorem fft_roundtrip' (X : List ℂ) (m : ℕ) (hm : X.length = 2 ^ m) :
    (fftInverse X >>= fftForward) = .ret X := by
  obtain ⟨N, f, rfl⟩ := exists_tab X 0
  rw [length_tab] at hm
  subst hm
  rw [fftInverse_tab, Outcome.bind_ret, fftForward, fftTransform_tab 1 (by decide) m]
  congr 1
  refine tab_congr fun n hn => ?_
  rw [dft_inversion' _ (by positivity) _ n hn]

/-- `DFT::Inverse` undoes `DFT::Forward`, for every nonempty vector. -/
theorem dft_roundtrip (x : List ℂ) (hx : x ≠ []) : (dftForward x >>= dftInverse) = .ret x := by
  have hN : 0 < x.length := List.length_pos_iff.2 hx
  obtain ⟨N, f, rfl⟩ := exists_tab x 0
  rw [length_tab] at hN
  rw [dftForward_tab _ hN, Outcome.bind_ret, dftInverse_tab _ hN]
  congr 1
  refine tab_congr fun n hn => ?_
  rw [dft_inversion _ hN _ n hn]

/-- `DFT::Forward` undoes `DFT::Inverse`. -/
theorem dft_roundtrip' (X : List ℂ) (hX : X ≠ []) : (dftInverse X >>= dftForward) = .ret X := by
  have hN : 0 < X.length := List.length_pos_iff.2 hX
  obtain ⟨N, f, rfl⟩ := exists_tab X 0
  rw [length_tab] at hN
  rw [dftInverse_tab _ hN, Outcome.bind_ret, dftForward_tab _ hN]
  congr 1
  refine tab_congr fun n hn => ?_
  rw [dft_inversion' _ hN _ n hn]

/-- What the inverses compute. -/
theorem dft_inverse_isIDFT (X : List ℂ) (hX : X ≠ []) : ∃ x, dftInverse X = .ret x ∧ IsIDFT X x := by
  have hN : 0 < X.length := List.length_pos_iff.2 hX
  rw [eq_tab X 0]
  exact ⟨_, dftInverse_tab _ hN _, isIDFT_tab _ _⟩

theorem fft_inverse_isIDFT (X : List ℂ) (m : ℕ) (hm : X.length = 2 ^ m) :
    ∃ x, fftInverse X = .ret x ∧ IsIDFT X x := by
  rw [eq_tab X 0, hm]
  exact ⟨_, fftInverse_tab _ _, isIDFT_tab _ _⟩

theorem dftForwardReal_tab (N : ℕ) (hN : 0 < N) (x : ℕ → ℝ) :
    dftForwardReal (tab N x) = dftForward (tab N (fun i => (x i : ℂ))) := by
  simp only [dftForwardReal, length_tab, validateNonEmpty, if_neg hN.ne', Outcome.bind_ret, replicate_eq_tab]
  rw [forRange_fill N N le_rfl _ (fun i => (x i : ℂ)), Outcome.bind_ret]
  · congr 1
    exact tab_congr fun i hi => if_pos hi
  · intro i hi r
    simp only [index_tab x hi, Outcome.bind_ret]
    rfl

/-- `DFT::InverseReal` undoes `DFT::Forward` on real data. -/
theorem dft_real_roundtrip (x : List ℝ) (hx : x ≠ []) : (dftForwardReal x >>= dftInverseReal) = .ret x := by
  have hN : 0 < x.length := List.length_pos_iff.2 hx
  obtain ⟨N, f, rfl⟩ := exists_tab x 0
  rw [length_tab] at hN
  rw [dftForwardReal_tab _ hN, dftForward_tab _ hN, Outcome.bind_ret]
  simp only [dftInverseReal, dftInverse_tab _ hN, Outcome.bind_ret, length_tab, replicate_eq_tab]
  rw [forRange_fill N N le_rfl _ f]
  · congr 1
    exact tab_congr fun i hi => if_pos hi
  · intro i hi r
    rw [index_tab _ hi, Outcome.bind_ret, dft_inversion _ hN _ i hi, Complex.ofReal_re]

example : (fftForward [1, I, 3, -2] >>= fftInverse) = .ret [1, I, 3, -2] := fft_roundtrip _ 2 (by simp)

example : (dftForward [1, I, 3] >>= dftInverse) = .ret [1, I, 3] := dft_roundtrip _ (by simp)

/-! ## C33: cosine and sine transforms -/

theorem isDCT_tab (N : ℕ) (x : ℕ → ℝ) : IsDCT (tab N x) (tab N (dctCoef N x)) := by
  refine ⟨by simp, ?_⟩
  intro k hk
  rw [length_tab] at hk ⊢
  rw [getD_tab _ _ _ hk, dctCoef]
  congr 1
  exact Finset.sum_congr rfl fun n hn => by rw [getD_tab _ _ _ (Finset.mem_range.1 hn)]

theorem isIDCT_tab (N : ℕ) (hN : 0 < N) (c : ℕ → ℝ) : IsIDCT (tab N c) (tab N (idctVal N c)) := by
  refine ⟨by simp, ?_⟩
  intro n hn
  rw [length_tab] at hn ⊢
  rw [getD_tab _ _ _ hn, idctVal, getD_tab _ _ _ hN]
  congr 1
  exact Finset.sum_congr rfl fun k hk => by rw [getD_tab _ _ _ (Finset.mem_Ico.1 hk).2]

theorem dctForward_tab (N : ℕ) (hN : 0 < N) (x : ℕ → ℝ) : dctForward (tab N x) = .ret (tab N (dctCoef N x)) := by
  simp only [dctForward, length_tab, if_neg hN.ne']
  split_ifs with h
  · exact dctForwardReference_tab N hN x
  · have : isPowerOfTwo N = true := by
      by_contra h'
      exact h (by simp [h'])
    obtain ⟨m, rfl⟩ := (isPowerOfTwo_iff _).1 this
    exact dctForwardFast_tab m x

theorem dctInverse_tab (N : ℕ) (hN : 0 < N) (c : ℕ → ℝ) : dctInverse (tab N c) = .ret (tab N (idctVal N c)) := by
  simp only [dctInverse, length_tab, if_neg hN.ne']
  split_ifs with h
  · exact dctInverseReference_tab N hN c
  · have : isPowerOfTwo N = true := by
      by_contra h'
      exact h (by simp [h'])
    obtain ⟨m, rfl⟩ := (isPowerOfTwo_iff _).1 this
    exact dctInverseFast_tab m c

/-- **C33.**  The inverse DCT undoes the DCT for every nonempty vector, whichever of the two algorithms the
size selects. -/
theorem dct_roundtrip (x : List ℝ) (hx : x ≠ []) : (dctForward x >>= dctInverse) = .ret x := by
  have hN : 0 < x.length := List.length_pos_iff.2 hx
  obtain ⟨N, f, rfl⟩ := exists_tab x 0
  rw [length_tab] at hN
  rw [dctForward_tab _ hN, Outcome.bind_ret, dctInverse_tab _ hN]
  congr 1
  exact tab_congr fun n hn => idct_dct _ hN _ n hn

/-- What `DCT::ForwardII` and `DCT::InverseII` compute. -/
theorem dct_forward_isDCT (x : List ℝ) (hx : x ≠ []) : ∃ c, dctForward x = .ret c ∧ IsDCT x c := by
  have hN : 0 < x.length := List.length_pos_iff.2 hx
  rw [eq_tab x 0]
  exact ⟨_, dctForward_tab _ hN _, isDCT_tab _ _⟩

theorem dct_inverse_isIDCT (c : List ℝ) (hc : c ≠ []) : ∃ x, dctInverse c = .ret x ∧ IsIDCT c x := by
  have hN : 0 < c.length := List.length_pos_iff.2 hc
  rw [eq_tab c 0]
  exact ⟨_, dctInverse_tab _ hN _, isIDCT_tab _ hN _⟩

/-- The fast algorithms equal the reference ones at every power-of-two size, and reject other sizes. -/
theorem dct_fast_eq_reference (x : List ℝ) (m : ℕ) (hm : x.length = 2 ^ m) :
    dctForwardFast x = dctForwardReference x ∧ dctInverseFast x = dctInverseReference x := by
  rw [eq_tab x 0, hm, dctForwardFast_tab, dctInverseFast_tab, dctForwardReference_tab _ (by positivity),
    dctInverseReference_tab _ (by positivity)]
  exact ⟨rfl, rfl⟩

theorem dct_fast_rejects (x : List ℝ) (h : ∀ m, x.length ≠ 2 ^ m) :
    dctForwardFast x = .exn .invalidArgument ∧ dctInverseFast x = .exn .invalidArgument := by
  have hp : isPowerOfTwo x.length = false := by
    rw [Bool.eq_false_iff]
    intro h'
    obtain ⟨m, hm⟩ := (isPowerOfTwo_iff _).1 h'
    exact h m hm
  constructor <;> simp [dctForwardFast, dctInverseFast, hp]

theorem dct_rejects_empty : dctForward [] = .exn .invalidArgument ∧ dctInverse [] = .exn .invalidArgument ∧
    dstForward [] = .exn .invalidArgument := by
  simp [dctForward, dctInverse, dstForward]

/-- The DST is its own inverse. -/
theorem dst_roundtrip (x : List ℝ) (hx : x ≠ []) :
    (dstForward x >>= dstInverse) = .ret x ∧ (dstForward x >>= dstForward) = .ret x := by
  have hN : 0 < x.length := List.length_pos_iff.2 hx
  obtain ⟨N, f, rfl⟩ := exists_tab x 0
  rw [length_tab] at hN
  have : (dstForward (tab N f) >>= dstForward) = .ret (tab N f) := by
    rw [dstForward_tab _ hN, Outcome.bind_ret, dstForward_tab _ hN]
    congr 1
    exact tab_congr fun n hn => dst_dst _ _ n hn
  exact ⟨this, this⟩

theorem dst_isDST (x : List ℝ) (hx : x ≠ []) : ∃ X, dstForward x = .ret X ∧ IsDST x X := by
  have hN : 0 < x.length := List.length_pos_iff.2 hx
  rw [eq_tab x 0]
  refine ⟨_, dstForward_tab _ hN _, by simp, ?_⟩
  intro k hk
  rw [length_tab] at hk ⊢
  rw [getD_tab _ _ _ hk, dstVal]
  congr 1
  exact Finset.sum_congr rfl fun n hn => by rw [getD_tab _ _ _ (Finset.mem_range.1 hn)]

example : (dctForward (List.replicate 64 1 ++ [2]) >>= dctInverse) = .ret (List.replicate 64 1 ++ [2]) :=
  dct_roundtrip _ (by simp)

/-- A size at which the fast algorithm is used. -/
example : dctForward (List.replicate 64 1) = dctForwardFast (List.replicate 64 1) ∧
    (dctForward (List.replicate 64 1) >>= dctInverse) = .ret (List.replicate 64 1) := by
  have h : isPowerOfTwo 64 = true := (isPowerOfTwo_iff _).2 ⟨6, rfl⟩
  refine ⟨?_, dct_roundtrip _ (by simp)⟩
  rw [dctForward]
  simp [h, fastDctThreshold]

example : (dstForward [1, 5, -2] >>= dstInverse) = .ret [1, 5, -2] := (dst_roundtrip _ (by simp)).1

/-! ## C62: the FFT of real data -/

/-- **C62.**  `RealFFT::Forward` returns the bins 0 … n/2 of the DFT of the real data. -/
theorem real_forward_spec (x : List ℝ) (m : ℕ) (hm : x.length = 2 ^ (m + 1)) :
    ∃ X, realForward x = .ret X ∧ X.length = x.length / 2 + 1 ∧
      ∀ k, k ≤ x.length / 2 → X.getD k 0 =
        ∑ n ∈ Finset.range x.length, (x.getD n 0 : ℂ) * Complex.exp (-2 * pi * I * k * n / x.length) := by
  have hm' : x.length = 2 * 2 ^ m := by rw [hm, pow_succ]; ring
  rw [eq_tab x 0, hm']
  refine ⟨_, realForward_tab m _, by simp, ?_⟩
  intro k hk
  rw [length_tab] at hk ⊢
  rw [getD_tab _ _ _ (by omega), realDft]
  refine Finset.sum_congr rfl fun n hn => ?_
  rw [getD_tab _ _ _ (Finset.mem_range.1 hn), wexp]
  congr 2; push_cast; ring

/-- `RealFFT::Inverse` undoes `RealFFT::Forward`. -/
theorem real_roundtrip (x : List ℝ) (m : ℕ) (hm : x.length = 2 ^ (m + 1)) :
    (realForward x >>= realInverse) = .ret x := by
  have hm' : x.length = 2 * 2 ^ m := by rw [hm, pow_succ]; ring
  obtain ⟨N, f, rfl⟩ := exists_tab x 0
  rw [length_tab] at hm'
  subst hm'
  rw [realForward_tab, Outcome.bind_ret,
    realInverse_tab m f _ rfl rfl (fun _ _ _ => rfl)]

/-- The full spectrum belonging to half a spectrum. -/
def herm (L : ℕ) (S : ℕ → ℂ) (k : ℕ) : ℂ :=
  if k = 0 then ((S 0).re : ℂ) else if k < L then S k else if k = L then ((S L).re : ℂ)
  else (starRingEnd ℂ) (S (2 * L - k))

theorem wexp_symm (isign : ℤ) (L k t : ℕ) : wexp isign L k t = wexp isign L t k := by
  rw [wexp, wexp]; congr 1; ring

theorem herm_real (L : ℕ) (hL : 0 < L) (S : ℕ → ℂ) (n : ℕ) :
    (starRingEnd ℂ) (∑ k ∈ Finset.range (2 * L), herm L S k * wexp (-1) (2 * L) n k) =
      ∑ k ∈ Finset.range (2 * L), herm L S k * wexp (-1) (2 * L) n k := by
  rw [map_sum, ← Finset.sum_range_add_sum_Ico _ (show 1 ≤ 2 * L by omega),
    ← Finset.sum_range_add_sum_Ico (fun k => herm L S k * wexp (-1) (2 * L) n k) (show 1 ≤ 2 * L by omega)]
  congr 1
  · rw [Finset.sum_range_one, Finset.sum_range_one, wexp_symm, wexp_zero, herm, if_pos rfl, mul_one,
      Complex.conj_ofReal]
  · refine Finset.sum_nbij' (fun k => 2 * L - k) (fun k => 2 * L - k) ?_ ?_ ?_ ?_ ?_
    · intro t ht; simp only [Finset.mem_Ico] at ht ⊢; omega
    · intro t ht; simp only [Finset.mem_Ico] at ht ⊢; omega
    · intro t ht; simp only [Finset.mem_Ico] at ht ⊢; omega
    · intro t ht; simp only [Finset.mem_Ico] at ht ⊢; omega
    · intro k hk
      simp only [Finset.mem_Ico] at hk
      rw [map_mul]
      congr 1
      · rcases lt_trichotomy k L with h | h | h
        · rw [herm, herm, if_neg (by omega), if_pos h, if_neg (by omega), if_neg (by omega), if_neg (by omega),
            show 2 * L - (2 * L - k) = k by omega]
        · subst h
          rw [herm, show 2 * k - k = k by omega, if_neg (by omega), if_neg (by omega), if_pos rfl, Complex.conj_ofReal, herm, if_neg (by omega),
            if_neg (by omega), if_pos rfl]
        · rw [herm, herm, if_neg (by omega), if_neg (by omega), if_neg (by omega), if_neg (by omega),
            if_pos (by omega), Complex.conj_conj]
      · rw [wexp_symm, wexp_symm _ _ n (2 * L - k),
          ← wexp_conj (-1) (2 * L) (2 * L - k) n (by omega) (by omega), show 2 * L - (2 * L - k) = k by omega]

/-- `RealFFT::Inverse` computes the inverse DFT of the conjugate-symmetric extension of its input, for every
input whose length is one more than a power of two.  (The imaginary parts of the end bins are ignored.) -/
theorem real_inverse_spec (S H : List ℂ) (m : ℕ) (hm : S.length = 2 ^ m + 1) (hH : IsHermitianExtension S H) :
    ∃ x : List ℝ, realInverse S = .ret x ∧ IsIDFT H (x.map Complex.ofReal) := by
  have hpos : 0 < 2 ^ m := by positivity
  obtain ⟨hlen, H0, Hn, Hk⟩ := hH
  set s : ℕ → ℂ := fun k => S.getD k 0 with hs
  rw [hm, Nat.add_sub_cancel] at hlen Hn Hk
  have hHt : H = tab (2 * 2 ^ m) (herm (2 ^ m) s) := by
    rw [eq_tab H 0, hlen]
    refine tab_congr fun k hk => ?_
    rcases lt_trichotomy k (2 ^ m) with h | h | h
    · by_cases h0 : k = 0
      · rw [h0, herm, if_pos rfl, H0]
      · rw [herm, if_neg h0, if_pos h, (Hk k (by omega) h).1]
    · rw [herm, if_neg (by omega), if_neg (by omega), if_pos h, h, Hn]
    · have := (Hk (2 * 2 ^ m - k) (by omega) (by omega)).2
      rw [hlen, show 2 * 2 ^ m - (2 * 2 ^ m - k) = k by omega] at this
      rw [herm, if_neg (by omega), if_neg (by omega), if_neg (by omega), this]
  have hSt : S = tab (2 ^ m + 1) s := by rw [eq_tab S 0, hm]
  set z : ℕ → ℂ := fun n => (∑ t ∈ Finset.range (2 * 2 ^ m), herm (2 ^ m) s t * wexp (-1) (2 * 2 ^ m) n t) /
    ((2 * 2 ^ m : ℕ) : ℂ) with hz
  set x : ℕ → ℝ := fun n => (z n).re with hx
  have hreal : ∀ n, ((x n : ℝ) : ℂ) = z n := by
    intro n
    rw [hx]
    apply Complex.conj_eq_iff_re.1
    rw [hz]
    simp only
    rw [map_div₀, herm_real _ hpos, Complex.conj_natCast]
  have hdft : ∀ k, k < 2 * 2 ^ m → realDft (2 * 2 ^ m) x k = herm (2 ^ m) s k := by
    intro k hk
    rw [← dft_inversion' (2 * 2 ^ m) (by omega) (herm (2 ^ m) s) k hk, realDft]
    exact Finset.sum_congr rfl fun n _ => by rw [hreal]
  refine ⟨tab (2 * 2 ^ m) x, ?_, ?_⟩
  · rw [hSt]
    refine realInverse_tab m x s ?_ ?_ ?_
    · rw [hdft 0 (by omega), herm, if_pos rfl, Complex.ofReal_re]
    · rw [hdft (2 ^ m) (by omega), herm, if_neg (by omega), if_neg (by omega), if_pos rfl, Complex.ofReal_re]
    · intro k h1 h2
      rw [hdft k (by omega), herm, if_neg (by omega), if_pos h2]
  · have : (tab (2 * 2 ^ m) x).map Complex.ofReal = tab (2 * 2 ^ m) z := by
      rw [tab, List.map_map, tab]
      exact List.map_congr_left fun n _ => hreal n
    rw [this, hHt]
    exact isIDFT_tab _ _

/-- The in-place transform uses the packed format: data[0] and data[1] hold the bins 0 and n/2, data[2k] and
data[2k+1] the real and imaginary part of bin k. -/
theorem real_transform_spec (x : List ℝ) (m : ℕ) (hm : x.length = 2 ^ (m + 1)) :
    ∃ X y, realForward x = .ret X ∧ realTransform x 1 = .ret y ∧ y.length = x.length ∧
      y.getD 0 0 = (X.getD 0 0).re ∧ y.getD 1 0 = (X.getD (x.length / 2) 0).re ∧
      ∀ k, 0 < k → k < x.length / 2 → y.getD (2 * k) 0 = (X.getD k 0).re ∧ y.getD (2 * k + 1) 0 = (X.getD k 0).im := by
  have hpos : 0 < 2 ^ m := by positivity
  have hm' : x.length = 2 * 2 ^ m := by rw [hm, pow_succ]; ring
  rw [eq_tab x 0, hm']
  refine ⟨_, _, realForward_tab m _, realTransform_forward_tab m _, by simp, ?_, ?_, ?_⟩
  · rw [getD_tab _ _ _ (by omega), getD_tab _ _ _ (by omega), packed, if_pos rfl]
  · rw [length_tab, show 2 * 2 ^ m / 2 = 2 ^ m by omega, getD_tab _ _ _ (by omega), getD_tab _ _ _ (by omega), packed,
      if_neg (by omega), if_pos rfl]
  · intro k h1 h2
    rw [length_tab] at h2
    rw [getD_tab _ _ _ (by omega), getD_tab _ _ _ (by omega), getD_tab _ _ _ (by omega), packed, packed,
      if_neg (by omega), if_neg (by omega), if_pos (by omega), if_neg (by omega), if_neg (by omega), if_neg (by omega),
      show 2 * k / 2 = k by omega, show (2 * k + 1) / 2 = k by omega]
    exact ⟨rfl, rfl⟩

/-- The in-place inverse undoes the in-place transform. -/
theorem real_transform_roundtrip (x : List ℝ) (m : ℕ) (hm : x.length = 2 ^ (m + 1)) :
    (realTransform x 1 >>= fun y => realTransform y (-1)) = .ret x := by
  have hm' : x.length = 2 * 2 ^ m := by rw [hm, pow_succ]; ring
  obtain ⟨N, f, rfl⟩ := exists_tab x 0
  rw [length_tab] at hm'
  subst hm'
  rw [realTransform_forward_tab, Outcome.bind_ret,
    realTransform_inverse_tab m _ (-1) (by decide) (by decide)]

/-- Sizes that are not powers of two from 2 on are rejected. -/
theorem real_rejects (x : List ℝ) (h : ∀ m, x.length ≠ 2 ^ (m + 1)) (isign : ℤ) :
    realForward x = .exn .invalidArgument ∧ realTransform x isign = .exn .invalidArgument := by
  have hp : (decide (x.length < 2) || !isPowerOfTwo x.length) = true := by
    by_contra h'
    simp only [Bool.not_eq_true, Bool.or_eq_false_iff, decide_eq_false_iff_not, Bool.not_eq_false'] at h'
    obtain ⟨m, hm⟩ := (isPowerOfTwo_iff _).1 h'.2
    match m, hm with
    | 0, hm => exact h'.1 (by rw [hm]; norm_num)
    | m + 1, hm => exact h m hm
  constructor <;> simp only [realForward, realTransform, validateRealFFTSize, hp, if_true, Outcome.bind_exn]

/-- A spectrum too short for any signal is rejected. -/
theorem real_inverse_rejects (S : List ℂ) (h : S.length < 2) : realInverse S = .exn .invalidArgument := by
  simp only [realInverse, validateMinSize]
  rw [if_pos (by omega), Outcome.bind_exn]

/-- So is one whose length is not one more than a power of two. -/
theorem real_inverse_rejects_size (S : List ℂ) (h : ∀ m, S.length ≠ 2 ^ m + 1) :
    realInverse S = .exn .invalidArgument := by
  by_cases h2 : S.length < 2
  · exact real_inverse_rejects S h2
  obtain ⟨N, f, rfl⟩ := exists_tab S 0
  rw [length_tab] at h h2
  obtain ⟨L, rfl⟩ : ∃ L, N = L + 1 := ⟨N - 1, by omega⟩
  simp only [realInverse, length_tab, validateMinSize, Nat.add_sub_cancel, replicate_eq_tab]
  rw [if_neg (by push_cast; omega), Outcome.bind_ret, index_tab _ (by omega), Outcome.bind_ret,
    index_tab _ (by omega), Outcome.bind_ret, store_tab _ (by omega), Outcome.bind_ret,
    forFromTo_fill 1 L L le_rfl _ (fun k => realRecombine L k (f k) ((starRingEnd ℂ) (f (L - k)))), Outcome.bind_ret]
  · rw [(fft_rejects _ (fun m hm => h m (by rw [length_tab] at hm; omega)) (-1)).1, Outcome.bind_exn]
  · intro k h1 h2 r
    rw [index_tab _ (by omega), Outcome.bind_ret, index_tab _ (by omega), Outcome.bind_ret]

example : (realForward [1, 2, 3, 5] >>= realInverse) = .ret [1, 2, 3, 5] := real_roundtrip _ 1 (by simp)

example : (realTransform [1, 2, 3, 5] 1 >>= fun y => realTransform y (-1)) = .ret [1, 2, 3, 5] :=
  real_transform_roundtrip _ 1 (by simp)

/-- An extension as `real_inverse_spec` needs it. -/
example : IsHermitianExtension [1, I, 2] [1, I, 2, -I] := by
  refine ⟨by simp, by simp, by simp, ?_⟩
  intro k h0 hk
  have : k = 1 := by simp at hk; omega
  subst this
  simp

/-! ## C63: sizes -/

theorem nextPow_while (n : ℕ) : ∀ fuel e, 0 < fuel → 2 ^ e < 2 * n → n < fuel + 2 ^ e →
    ∃ m, whileFuel (fun power => if power < n then some (2 * power) else none) fuel (2 ^ e) = some (2 ^ m) ∧
      n ≤ 2 ^ m ∧ 2 ^ m < 2 * n := by
  intro fuel
  induction fuel with
  | zero => intro e h0; omega
  | succ fuel ih =>
    intro e h0 h1 h2
    rw [whileFuel]
    by_cases h : 2 ^ e < n
    · simp only [if_pos h]
      obtain ⟨m, h3, h4⟩ := ih (e + 1) (by omega) (by rw [pow_succ]; omega) (by
        have : 0 < 2 ^ e := by positivity
        rw [pow_succ]; omega)
      exact ⟨m, by rw [show 2 * 2 ^ e = 2 ^ (e + 1) by rw [pow_succ]; ring]; exact h3, h4⟩
    · simp only [if_neg h]
      exact ⟨e, rfl, by omega, h1⟩

/-- **C63.**  `NextPowerOfTwo(n)` returns the least power of two that is at least `n` (1 for `n <= 0`). -/
theorem nextPowerOfTwo_spec (n : ℤ) :
    ∃ m, nextPowerOfTwo n = some (2 ^ m) ∧ n ≤ 2 ^ m ∧ ∀ j : ℕ, n ≤ 2 ^ j → m ≤ j := by
  have least : ∀ m : ℕ, 0 < n → (2 : ℤ) ^ m < 2 * n → ∀ j : ℕ, n ≤ 2 ^ j → m ≤ j := by
    intro m _ h1 j h2
    by_contra h
    have h3 : (2 : ℤ) ^ (j + 1) ≤ 2 ^ m := pow_le_pow_right₀ (by norm_num) (by omega)
    rw [pow_succ] at h3
    omega
  rw [nextPowerOfTwo]
  by_cases h0 : n ≤ 0
  · exact ⟨0, by simp [h0], by simp; omega, fun _ _ => Nat.zero_le _⟩
  · rw [if_neg h0]
    obtain ⟨k, rfl⟩ : ∃ k : ℕ, n = k := ⟨n.toNat, by omega⟩
    rw [Int.toNat_natCast]
    by_cases hp : isPowerOfTwo k = true
    · obtain ⟨m, rfl⟩ := (isPowerOfTwo_iff _).1 hp
      rw [if_pos hp]
      exact ⟨m, rfl, by push_cast; exact le_rfl, least m (by omega) (by push_cast at h0 ⊢; omega)⟩
    · rw [if_neg hp]
      obtain ⟨m, h1, h2, h3⟩ := nextPow_while k (k + 1) 0 (by omega) (by rw [pow_zero]; omega) (by omega)
      rw [pow_zero] at h1
      exact ⟨m, h1, by exact_mod_cast h2, least m (by omega) (by exact_mod_cast h3)⟩

/-- `ZeroPad` keeps the data, appends zeros only, and the result can be transformed by the FFT. -/
theorem zeroPad_spec (x : List ℂ) :
    ∃ (m k : ℕ), zeroPad x = .ret (x ++ List.replicate k 0) ∧ x.length + k = 2 ^ m ∧
      ∀ j, x.length ≤ 2 ^ j → m ≤ j := by
  obtain ⟨m, h1, h2, h3⟩ := nextPowerOfTwo_spec (x.length : ℤ)
  have h2' : x.length ≤ 2 ^ m := by exact_mod_cast h2
  refine ⟨m, 2 ^ m - x.length, ?_, by omega, fun j hj => h3 j (by exact_mod_cast hj)⟩
  simp only [zeroPad, h1]
  split_ifs with h
  · simp [h]
  · rw [replicate_eq_tab, forRange_fill x.length (2 ^ m) h2' _ (fun i => x.getD i 0)]
    · congr 1
      apply List.ext_getElem?
      intro i
      rw [getElem?_tab, List.getElem?_append, List.getElem?_replicate]
      by_cases hi : i < x.length
      · rw [if_pos (by omega), if_pos hi, if_pos hi]
        simp [List.getD, hi]
      · rw [if_neg hi, if_neg hi]
        by_cases hi' : i < 2 ^ m
        · rw [if_pos hi', if_pos (by omega)]
        · rw [if_neg hi', if_neg (by omega)]
    · intro i hi r
      simp [Outcome.index, hi, List.getD]

/-- `Log2` returns the exponent of a power of two (and the floor of the logarithm in general). -/
theorem log2_spec (n : ℕ) (hn : 0 < n) : ∃ l, log2 n = some l ∧ 2 ^ l ≤ n ∧ n < 2 ^ (l + 1) := by
  obtain ⟨t, h1, ⟨h2, h3, h4⟩, h5⟩ := whileFuel_rule
    (fun (s : ℕ × ℕ) => if s.1 > 1 then some (s.1 / 2, s.2 + 1) else none)
    (fun s => 0 < s.1 ∧ 2 ^ s.2 * s.1 ≤ n ∧ n < 2 ^ s.2 * (s.1 + 1)) (fun s => s.1)
    (by
      rintro ⟨a, b⟩ s' ⟨i1, i2, i3⟩ hs
      simp only at i1 i2 i3 hs ⊢
      split_ifs at hs with h
      simp only [Option.some.injEq] at hs
      subst hs
      simp only
      refine ⟨⟨by omega, ?_, ?_⟩, by omega⟩
      · refine le_trans ?_ i2
        rw [pow_succ, mul_assoc]
        exact Nat.mul_le_mul_left _ (by omega)
      · refine lt_of_lt_of_le i3 ?_
        rw [pow_succ, mul_assoc]
        exact Nat.mul_le_mul_left _ (by omega))
    (n + 1) (n, 0) ⟨hn, by simp, by simp⟩ (by simp)
  have h6 : t.1 = 1 := by
    split_ifs at h5 with h
    omega
  rw [h6] at h3 h4
  exact ⟨t.2, by simp [log2, h1], by omega, by rw [pow_succ]; omega⟩

theorem log2_pow (m : ℕ) : log2 (2 ^ m) = some m := by
  obtain ⟨l, h1, h2, h3⟩ := log2_spec (2 ^ m) (by positivity)
  have h4 : l ≤ m := (Nat.pow_le_pow_iff_right (by omega)).1 h2
  have h5 : m < l + 1 := (Nat.pow_lt_pow_iff_right (by omega)).1 h3
  rw [h1]; congr 1; omega

example : nextPowerOfTwo 5 = some 8 := by
  obtain ⟨m, h1, h2, h3⟩ := nextPowerOfTwo_spec 5
  have h4 := h3 3 (by norm_num)
  have : m = 3 := by
    by_contra h
    have : m ≤ 2 := by omega
    have h5 : (2 : ℤ) ^ m ≤ 2 ^ 2 := pow_le_pow_right₀ (by norm_num) this
    omega
  rw [h1, this]; norm_num

end Verif.Fourier
