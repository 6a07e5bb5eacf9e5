import Verif.Cheb.Lemmas

/-!
# Helper lemmas for the Chebyshev approximation (C105): derivative, integral, interpolation
-/

set_option autoImplicit false

namespace Verif.Cheb

open Verif Polynomial

/-! ## The derivative of a series -/

theorem derivative_tail (n : ℕ) (I D : ℕ → ℝ) (h : ∀ j, 1 ≤ j → j < n → D (j - 1) - D (j + 1) = 2 * j * I j) :
    ∀ i, 1 ≤ i → i ≤ n →
      ∑ j ∈ Finset.Ico i n, C (I j) * (((j : ℕ) : ℝ[X]) * Chebyshev.U ℝ ((j : ℤ) - 1)) =
        ∑ k ∈ Finset.Ico (i + 1) (n + 1), C (D k) * Chebyshev.T ℝ (k : ℤ) + C (D (i - 1) / 2) * Chebyshev.U ℝ ((i : ℤ) - 1)
          + C (D i / 2) * Chebyshev.U ℝ (i : ℤ) - C (D (n - 1) / 2) * Chebyshev.U ℝ ((n : ℤ) - 1)
          - C (D n / 2) * Chebyshev.U ℝ (n : ℤ) := by
  intro i hi hin
  revert hi
  induction hin using Nat.decreasingInduction with
  | self => intro hi; simp
  | of_succ i hin ih =>
    intro hi
    have ih := ih (by omega)
    rw [Finset.sum_eq_sum_Ico_succ_bot hin, ih, Finset.sum_eq_sum_Ico_succ_bot (show i + 1 < n + 1 by omega)]
    have hU := Chebyshev.two_mul_T_eq_U_sub_U ℝ ((i : ℤ) - 1)
    have e1 : (i : ℤ) - 1 + 2 = ((i + 1 : ℕ) : ℤ) := by push_cast; ring
    rw [e1] at hU
    have e2 : (((i + 1 : ℕ) : ℤ) - 1) = (i : ℤ) := by push_cast; ring
    rw [e2, Nat.add_sub_cancel]
    have hT : Chebyshev.T ℝ ((i + 1 : ℕ) : ℤ) = C (1 / 2) * (Chebyshev.U ℝ ((i + 1 : ℕ) : ℤ) - Chebyshev.U ℝ ((i : ℤ) - 1)) := by
      rw [← hU, ← mul_assoc, show (2 : ℝ[X]) = C 2 from (map_ofNat C 2).symm, ← C_mul]
      norm_num
    have hI : C (I i) * ((i : ℕ) : ℝ[X]) = C (1 / 2) * (C (D (i - 1)) - C (D (i + 1))) := by
      rw [← C_sub, h i hi hin, ← C_mul, ← C_eq_natCast, ← C_mul]
      congr 1
      ring
    have hd : ∀ t : ℝ, C (t / 2) = C (1 / 2) * C t := fun t => by rw [← C_mul]; congr 1; ring
    rw [hT, hd (D i), hd (D (i - 1)), hd (D (i + 1)), ← mul_assoc, hI]
    ring

theorem derivative_series (n : ℕ) (hn : 1 ≤ n) (I D : ℕ → ℝ)
    (h : ∀ j, 1 ≤ j → j < n → D (j - 1) - D (j + 1) = 2 * j * I j) (hD : D n = 0) :
    derivative (series I n) = series D n - C (D (n - 1) / 2) * Chebyshev.U ℝ ((n : ℤ) - 1) := by
  rw [series, derivative_add, derivative_C, zero_add, derivative_sum]
  simp only [derivative_C_mul, Chebyshev.T_derivative_eq_U]
  have := derivative_tail n I D h 1 le_rfl hn
  simp only [Int.cast_natCast]
  rw [this, hD, series]
  simp only [Nat.cast_one, sub_self, Chebyshev.U_zero, Chebyshev.U_one, zero_div, C_0, zero_mul, sub_zero, mul_one]
  rcases Nat.lt_or_ge 1 n with h1 | h1
  · rw [Finset.sum_eq_sum_Ico_succ_bot h1, Finset.sum_Ico_succ_top (show 1 + 1 ≤ n by omega), hD]
    simp only [Nat.cast_one, Chebyshev.T_one, C_0, zero_mul, add_zero]
    have hd : ∀ t : ℝ, C (t / 2) * (2 * X) = C t * X := fun t => by
      rw [← mul_assoc, show (2 : ℝ[X]) = C 2 from (map_ofNat C 2).symm, ← C_mul]
      congr 2
      ring
    rw [hd]
    ring
  · obtain rfl : n = 1 := by omega
    simp [hD]

theorem derStep_loop (n : ℕ) (hn : 2 ≤ n) (c g : ℕ → ℝ) :
    ∃ D, forDown 1 (n - 1) (tab n g) (derStep (tab n c)) = .ret (tab n D) ∧ (∀ k, n ≤ k + 2 → D k = g k) ∧
      ∀ j, 1 ≤ j → j < n - 1 → D (j - 1) - D (j + 1) = 2 * j * c j := by
  obtain ⟨t, ht, D, rfl, hD, hj⟩ := forDown_rule
    (fun i (s : List ℝ) => ∃ D, s = tab n D ∧ (∀ k, n ≤ k + 2 → D k = g k) ∧
      ∀ j, i ≤ j → j < n - 1 → D (j - 1) - D (j + 1) = 2 * j * c j) 1 (n - 1) (by omega) (tab n g) (derStep (tab n c))
    ⟨g, rfl, fun k _ => rfl, fun j h1 h2 => by omega⟩ (by
      rintro i s hi hin ⟨D, rfl, hD, hj⟩
      refine ⟨_, by rw [derStep, index_tab _ (by omega), Outcome.bind_ret, index_tab _ (by omega), Outcome.bind_ret,
        store_tab _ (by omega)], _, rfl, fun k hk => by beta_reduce; rw [if_neg (by omega), hD k hk], fun j h1 h2 => ?_⟩
      beta_reduce
      rw [if_neg (show ¬ j + 1 = i - 1 by omega)]
      by_cases h : j = i
      · subst h
        rw [if_pos rfl]
        ring
      · rw [if_neg (by omega), hj j (by omega) h2])
  exact ⟨D, ht, hD, hj⟩

theorem scale_loop (n : ℕ) (con : ℝ) (D : ℕ → ℝ) :
    forRange n (tab n D) (scaleStep con) = .ret (tab n fun k => D k * con) := by
  obtain ⟨t, ht, hP⟩ := forRange_rule
    (fun i (s : List ℝ) => s = tab n (fun k => if k < i then D k * con else D k)) n (tab n D) (scaleStep con)
    (tab_congr fun k hk => by rw [if_neg (by omega)]) (by
      rintro i s hi rfl
      refine ⟨_, by rw [scaleStep, index_tab _ hi, Outcome.bind_ret, store_tab _ hi], tab_congr fun k hk => ?_⟩
      rcases lt_trichotomy k i with h | h | h
      · rw [if_neg (by omega), if_pos h, if_pos (by omega)]
      · subst h
        rw [if_pos rfl, if_neg (by omega), if_pos (by omega)]
      · rw [if_neg (by omega), if_neg (by omega), if_neg (by omega)])
  rw [ht, hP]
  congr 1
  exact tab_congr fun k hk => by rw [if_pos hk]

theorem series_congr (n : ℕ) (hn : 1 ≤ n) {c d : ℕ → ℝ} (h : ∀ k < n, c k = d k) : series c n = series d n := by
  rw [series, series, h 0 (by omega)]
  congr 1
  exact Finset.sum_congr rfl fun j hj => by rw [h j (Finset.mem_Ico.mp hj).2]

theorem series_smul (n : ℕ) (c : ℕ → ℝ) (s : ℝ) : series (fun k => c k * s) n = C s * series c n := by
  rw [series, series, mul_add, ← C_mul, Finset.mul_sum]
  congr 1
  · congr 1; ring
  · refine Finset.sum_congr rfl fun j _ => ?_
    rw [C_mul]; ring

theorem derivative_ret (p : Approx) (n : ℕ) (c : ℕ → ℝ) (hp : p.coef = tab n c) (hab : p.a < p.b) (hn : 1 ≤ n) :
    ∃ d, p.derivative = .ret ⟨tab n d, p.a, p.b, n⟩ ∧ series d n = C (2 / (p.b - p.a)) * derivative (series c n) := by
  rw [Approx.derivative, hp, length_tab]
  have hne : p.b - p.a ≠ 0 := by linarith
  by_cases h1 : n ≤ 1
  · obtain rfl : n = 1 := by omega
    rw [if_pos le_rfl, fromCoefficients, if_neg (by simp), if_neg (by linarith)]
    refine ⟨fun _ => 0, by rfl, ?_⟩
    simp [series]
  · rw [if_neg h1, replicate_eq_tab, store_tab _ (by omega), Outcome.bind_ret, index_tab _ (by omega), Outcome.bind_ret,
      store_tab _ (by omega), Outcome.bind_ret]
    obtain ⟨D, hD, htop, hj⟩ := derStep_loop n (by omega) c
      (fun k => if k = n - 2 then 2 * ((n : ℝ) - 1) * c (n - 1) else if k = n - 1 then 0 else 0)
    rw [hD, Outcome.bind_ret, quot, if_neg hne, Outcome.bind_ret, scale_loop, Outcome.bind_ret, fromCoefficients,
      length_tab, if_neg (by omega), if_neg (by linarith)]
    refine ⟨_, rfl, ?_⟩
    rw [series_smul]
    congr 1
    have e1 : D (n - 1) = 0 := by rw [htop _ (by omega), if_neg (by omega), if_pos rfl]
    have e2 : D (n - 2) = 2 * ((n : ℝ) - 1) * c (n - 1) := by rw [htop _ (by omega), if_pos rfl]
    have := derivative_series n hn c (fun k => if k < n then D k else 0) (by
      intro j hj1 hjn
      beta_reduce
      rw [if_pos (by omega)]
      by_cases hj2 : j < n - 1
      · rw [if_pos (by omega), hj j hj1 hj2]
      · obtain rfl : j = n - 1 := by omega
        rw [if_neg (by omega), show n - 1 - 1 = n - 2 by omega, e2, Nat.cast_sub hn]
        push_cast
        ring) (by simp)
    rw [this, if_pos (by omega), e1]
    simp only [zero_div, C_0, zero_mul, sub_zero]
    exact series_congr n hn fun k hk => by rw [if_pos hk]

/-! ## The integral -/

theorem intStep_loop (n : ℕ) (hn : 2 ≤ n) (c : ℕ → ℝ) (con : ℝ) :
    forFromTo 1 (n - 1) (tab n fun _ => (0 : ℝ), (0 : ℝ), (1 : ℝ)) (intStep (tab n c) con) =
      .ret (tab n (fun k => if 1 ≤ k ∧ k < n - 1 then con * (c (k - 1) - c (k + 1)) / k else 0),
        ∑ j ∈ Finset.Ico 1 (n - 1), (-1) ^ (j - 1) * (con * (c (j - 1) - c (j + 1)) / j), (-1) ^ (n - 2)) := by
  obtain ⟨t, ht, hP⟩ := forFromTo_rule
    (fun i (s : List ℝ × ℝ × ℝ) => s = (tab n (fun k => if 1 ≤ k ∧ k < i then con * (c (k - 1) - c (k + 1)) / k else 0),
        ∑ j ∈ Finset.Ico 1 i, (-1) ^ (j - 1) * (con * (c (j - 1) - c (j + 1)) / j), (-1) ^ (i - 1))) 1 (n - 1) (by omega)
    (tab n fun _ => (0 : ℝ), (0 : ℝ), (1 : ℝ)) (intStep (tab n c) con) (by
      rw [Prod.mk.injEq]
      exact ⟨tab_congr fun k _ => by rw [if_neg (by omega)], by simp⟩) (by
      rintro i s hi hin rfl
      refine ⟨_, by
        rw [intStep, index_tab _ (by omega), Outcome.bind_ret, index_tab _ (by omega), Outcome.bind_ret,
          store_tab _ (by omega), Outcome.bind_ret], ?_⟩
      rw [Prod.mk.injEq, Prod.mk.injEq]
      refine ⟨tab_congr fun k hk => ?_, ?_, ?_⟩
      · by_cases h : k = i
        · subst h
          rw [if_pos rfl, if_pos (by omega)]
        · rw [if_neg h]
          by_cases h2 : 1 ≤ k ∧ k < i
          · rw [if_pos h2, if_pos (by omega)]
          · rw [if_neg h2, if_neg (by omega)]
      · rw [Finset.sum_Ico_succ_top hi]
      · beta_reduce
        rw [Nat.add_sub_cancel]
        obtain ⟨k, rfl⟩ : ∃ k, i = k + 1 := ⟨i - 1, by omega⟩
        rw [Nat.add_sub_cancel, pow_succ]
        ring)
  rw [ht, hP, show n - 1 - 1 = n - 2 by omega]

theorem series_neg_one (n : ℕ) (c : ℕ → ℝ) :
    (series c n).eval (-1) = c 0 / 2 + ∑ j ∈ Finset.Ico 1 n, c j * (-1) ^ j := by
  rw [series, eval_add, eval_C, eval_finsetSum]
  congr 1
  refine Finset.sum_congr rfl fun j _ => ?_
  rw [eval_mul, eval_C, Chebyshev.T_eval_neg_one, Int.cast_negOnePow, zpow_natCast]

theorem integral_ret (p : Approx) (n : ℕ) (c : ℕ → ℝ) (hp : p.coef = tab n c) (hab : p.a < p.b) (hn : 2 ≤ n) :
    ∃ I, p.integral = .ret ⟨tab n I, p.a, p.b, n⟩ ∧
      derivative (series I n) = C ((p.b - p.a) / 2) * (series c n - C (c (n - 1) / 2) * Chebyshev.U ℝ ((n : ℤ) - 1)) ∧
      (series I n).eval (-1) = 0 := by
  rw [Approx.integral, hp, length_tab, replicate_eq_tab, intStep_loop n hn, Outcome.bind_ret, indexZ, if_neg (by omega),
    show ((n : ℤ) - 2).toNat = n - 2 by omega, index_tab _ (by omega), Outcome.bind_ret, quot, if_neg, Outcome.bind_ret, storeZ,
    if_neg (by omega), show ((n : ℤ) - 1).toNat = n - 1 by omega]
  · simp only
    rw [store_tab _ (by omega), Outcome.bind_ret, store_tab _ (by omega), Outcome.bind_ret, fromCoefficients, length_tab,
      if_neg (by omega), if_neg (by linarith)]
    refine ⟨_, rfl, ?_, ?_⟩
    · have hn1 : ((n : ℝ) - 1) ≠ 0 := by
        have : (2 : ℝ) ≤ n := by exact_mod_cast hn
        linarith
      rw [derivative_series n (by omega) _ (fun k => (if k < n then c k else 0) * ((p.b - p.a) / 2)) (by
        intro j hj hjn
        beta_reduce
        have hj0 : (j : ℝ) ≠ 0 := by positivity
        rw [if_pos (by omega), if_neg (show ¬ j = 0 by omega)]
        by_cases h : j = n - 1
        · subst h
          rw [if_neg (by omega), if_pos rfl, Nat.cast_sub (by omega), show n - 1 - 1 = n - 2 by omega]
          push_cast
          field_simp
          ring
        · rw [if_pos (by omega), if_neg h, if_pos (by omega)]
          field_simp
          ring) (by simp)]
      rw [if_pos (by omega), series_smul, series_congr n (by omega) (d := c) (fun k hk => if_pos hk), mul_sub, ← mul_assoc,
        ← C_mul]
      congr 3
      ring
    · obtain ⟨m, rfl⟩ : ∃ m, n = m + 2 := ⟨n - 2, by omega⟩
      rw [series_neg_one, show m + 2 = (m + 1) + 1 from rfl, Finset.sum_Ico_succ_top (by omega)]
      have hs : ∀ I : ℕ → ℝ, (∀ j, 1 ≤ j → j < m + 1 → I j = 0.25 * (p.b - p.a) * (c (j - 1) - c (j + 1)) / j) →
          ∑ j ∈ Finset.Ico 1 (m + 1), I j * (-1) ^ j =
          -∑ j ∈ Finset.Ico 1 (m + 1), (-1 : ℝ) ^ (j - 1) * (0.25 * (p.b - p.a) * (c (j - 1) - c (j + 1)) / j) := by
        intro I hI
        rw [← Finset.sum_neg_distrib]
        refine Finset.sum_congr rfl fun j hj => ?_
        have hj := Finset.mem_Ico.mp hj
        rw [hI j hj.1 hj.2]
        obtain ⟨k, rfl⟩ : ∃ k, j = k + 1 := ⟨j - 1, by omega⟩
        rw [Nat.add_sub_cancel, pow_succ]
        ring
      rw [hs _ (fun j h1 h2 => by
        beta_reduce
        rw [if_neg (by omega), if_neg (by omega), if_pos (by omega)])]
      beta_reduce
      rw [if_pos rfl, if_neg (by omega), if_pos (by omega)]
      simp only [Nat.add_sub_cancel, show m + 1 + 1 - 1 = m + 1 by omega, show m + 1 + 1 - 2 = m by omega, pow_succ]
      ring
  · have : (2 : ℝ) ≤ n := by exact_mod_cast hn
    linarith

/-! ## Interpolation -/

/-- The transform of the samples `v`. -/
noncomputable def dct (n : ℕ) (v : ℕ → ℝ) (k : ℕ) : ℝ :=
  2 / n * ∑ j ∈ Finset.range n, v j * Real.cos (Real.pi * k * (j + 0.5) / n)

theorem cos_node (n k j : ℕ) : Real.cos (Real.pi * k * (j + 0.5) / n) = (Chebyshev.T ℝ (k : ℤ)).eval (node n j) := by
  rw [node, Chebyshev.T_real_cos]
  congr 1
  push_cast
  ring

theorem dct_T (n i k : ℕ) (hi : i < n) (hk : k < n) :
    dct n (fun j => (Chebyshev.T ℝ (i : ℤ)).eval (node n j)) k = if i = k then (if i = 0 then 2 else 1) else 0 := by
  have hn0 : n ≠ 0 := by omega
  have hn : (n : ℝ) ≠ 0 := by exact_mod_cast hn0
  have h := Chebyshev.integral_eq_sumZeroes (n := n) (P := Chebyshev.T ℝ (i : ℤ) * Chebyshev.T ℝ (k : ℤ)) hn0 (by
    rw [degree_mul, Chebyshev.degree_T, Chebyshev.degree_T]
    norm_cast
    omega)
  have e : dct n (fun j => (Chebyshev.T ℝ (i : ℤ)).eval (node n j)) k =
      2 / Real.pi * Chebyshev.sumZeroes n (Chebyshev.T ℝ (i : ℤ) * Chebyshev.T ℝ (k : ℤ)) := by
    rw [dct, Chebyshev.sumZeroes]
    simp only [cos_node, eval_mul]
    rw [← mul_assoc]
    have : 2 / Real.pi * (Real.pi / n) = 2 / n := by field_simp
    rw [this]
    congr 1
    refine Finset.sum_congr rfl fun j _ => ?_
    have : node n j = Real.cos ((2 * (j : ℝ) + 1) / (2 * n) * Real.pi) := by
      rw [node]
      congr 1
      field_simp
      ring
    rw [this]
  rw [e, ← h]
  simp only [eval_mul]
  by_cases hik : i = k
  · subst hik
    rw [if_pos rfl]
    by_cases h0 : i = 0
    · subst h0
      rw [if_pos rfl]
      have := Chebyshev.integral_eval_T_real_mul_self_measureT_zero
      rw [Nat.cast_zero, this]
      field_simp
    · rw [if_neg h0, Chebyshev.integral_T_real_mul_self_measureT_of_ne_zero h0]
      field_simp
  · rw [if_neg hik, Chebyshev.integral_eval_T_real_mul_eval_T_real_measureT_of_ne hik, mul_zero]

/-- The series computed from the samples of a polynomial of degree below `n` is that polynomial. -/
theorem series_dct (n : ℕ) (hn : 0 < n) (P : ℝ[X]) (hP : P.degree < n) :
    series (dct n fun j => P.eval (node n j)) n = P := by
  have hmem : P ∈ degreeLT ℝ n := by
    rw [mem_degreeLT]
    exact hP
  rw [← Sequence.span_degreeLT (Chebyshev.chebyshevTsequence ℝ) (by simp),
    show Set.Iio n = Finset.range n by simp, Submodule.mem_span_image_finset_iff_exists_fun'] at hmem
  obtain ⟨a, rfl⟩ := hmem
  have hk : ∀ k < n, dct n (fun j => (∑ i ∈ Finset.range n, a i • (Chebyshev.chebyshevTsequence ℝ) i).eval (node n j)) k =
      if k = 0 then 2 * a 0 else a k := by
    intro k hk
    have : dct n (fun j => (∑ i ∈ Finset.range n, a i • (Chebyshev.chebyshevTsequence ℝ) i).eval (node n j)) k =
        ∑ i ∈ Finset.range n, a i * dct n (fun j => (Chebyshev.T ℝ (i : ℤ)).eval (node n j)) k := by
      simp only [dct, eval_finsetSum, eval_smul, smul_eq_mul, Finset.sum_mul]
      rw [Finset.sum_comm, Finset.mul_sum]
      refine Finset.sum_congr rfl fun i _ => ?_
      rw [mul_left_comm, Finset.mul_sum (s := Finset.range n) (a := a i)]
      congr 1
      refine Finset.sum_congr rfl fun j _ => ?_
      simp only [Chebyshev.chebyshevTsequence]
      ring
    rw [this, Finset.sum_eq_single k]
    · rw [dct_T n k k hk hk, if_pos rfl]
      split_ifs with h
      · subst h; ring
      · ring
    · intro i hi hne
      rw [dct_T n i k (Finset.mem_range.mp hi) hk, if_neg hne, mul_zero]
    · intro h
      exact absurd (Finset.mem_range.mpr hk) h
  rw [series_congr n hn hk, series, if_pos rfl, Finset.range_eq_Ico, Finset.sum_eq_sum_Ico_succ_bot hn]
  simp only [Chebyshev.chebyshevTsequence]
  congr 1
  · rw [Nat.cast_zero, Chebyshev.T_zero, smul_eq_C_mul, mul_one]
    congr 1
    ring
  · refine Finset.sum_congr rfl fun j hj => ?_
    rw [if_neg (by have := (Finset.mem_Ico.mp hj).1; omega), smul_eq_C_mul]

theorem fromFunction_ret (func : ℝ → Outcome ℝ) (g : ℝ → ℝ) (a b : ℝ) (n : ℕ) (hn : 0 < n) (hab : a < b)
    (hg : ∀ k < n, func (node n k * (0.5 * (b - a)) + 0.5 * (b + a)) = .ret (g (node n k * (0.5 * (b - a)) + 0.5 * (b + a)))) :
    fromFunction func a b n = .ret ⟨tab n (dct n fun k => g (node n k * (0.5 * (b - a)) + 0.5 * (b + a))), a, b, n⟩ := by
  rw [fromFunction, if_neg (by omega), if_neg (by omega), if_neg (by linarith)]
  simp only [Int.toNat_natCast, replicate_eq_tab]
  rw [forRange_fill n n le_rfl _ (fun k => g (node n k * (0.5 * (b - a)) + 0.5 * (b + a))) _ (by
    intro i hi r
    rw [sampleStep, hg i hi, Outcome.bind_ret]), Outcome.bind_ret,
    tab_congr (g := fun k => g (node n k * (0.5 * (b - a)) + 0.5 * (b + a))) (fun k hk => if_pos hk)]
  rw [forRange_fill n n le_rfl _ (dct n fun k => g (node n k * (0.5 * (b - a)) + 0.5 * (b + a))) _ (by
    intro i hi r
    rw [coefStep, forRange_sum n 0 _ (fun j => g (node n j * (0.5 * (b - a)) + 0.5 * (b + a)) *
      Real.cos (Real.pi * i * (j + 0.5) / n)), Outcome.bind_ret, zero_add]
    · rfl
    · intro j hj s
      rw [dctStep, index_tab _ hj, Outcome.bind_ret]), Outcome.bind_ret,
    tab_congr (g := dct n fun k => g (node n k * (0.5 * (b - a)) + 0.5 * (b + a))) (fun k hk => if_pos hk)]

theorem node_injOn (n : ℕ) : Set.InjOn (node n) (Finset.range n) := by
  intro i hi j hj h
  simp only [Finset.coe_range, Set.mem_Iio] at hi hj
  have hn : (0 : ℝ) < n := by exact_mod_cast (by omega : 0 < n)
  have key : ∀ k : ℕ, k < n → Real.pi * (k + 0.5) / n ∈ Set.Icc 0 Real.pi := by
    intro k hk
    have hk1 : (k : ℝ) + 1 ≤ n := by exact_mod_cast hk
    constructor
    · positivity
    · rw [div_le_iff₀ hn]
      nlinarith [Real.pi_pos]
  have := Real.injOn_cos (key i hi) (key j hj) h
  field_simp at this
  have h2 : (i : ℝ) = j := by
    linarith
  exact_mod_cast h2

theorem nodal_T (n : ℕ) (hn : 0 < n) (y : ℝ) :
    ∏ k ∈ Finset.range n, (y - node n k) = (Chebyshev.T ℝ (n : ℤ)).eval y / 2 ^ (n - 1) := by
  have hcard : (Chebyshev.T ℝ (n : ℤ)).roots.card = (Chebyshev.T ℝ (n : ℤ)).natDegree := by
    rw [Chebyshev.roots_T_real, Chebyshev.natDegree_T, Int.natAbs_natCast, Finset.card_val, Finset.card_image_of_injOn,
      Finset.card_range]
    intro i hi j hj h
    have hn' : (n : ℝ) ≠ 0 := by positivity
    refine node_injOn n hi hj ?_
    rw [node, node]
    have e : ∀ k : ℕ, Real.pi * ((k : ℝ) + 0.5) / n = (2 * k + 1) * Real.pi / (2 * n) := by
      intro k
      field_simp
      ring
    rw [e, e]
    exact h
  have h := Polynomial.C_leadingCoeff_mul_prod_multiset_X_sub_C hcard
  have h2 := congrArg (fun p => Polynomial.eval y p) h
  simp only [Chebyshev.roots_T_real] at h2
  rw [Finset.prod_map_val, Finset.prod_image, eval_mul, eval_C, eval_prod, Chebyshev.leadingCoeff_T, Int.natAbs_natCast] at h2
  · rw [← h2, mul_div_cancel_left₀ _ (by positivity)]
    refine Finset.prod_congr rfl fun k _ => ?_
    rw [eval_sub, eval_X, eval_C, node]
    congr 2
    have hn' : (n : ℝ) ≠ 0 := by positivity
    field_simp
    ring
  · intro i hi j hj h
    have hn' : (n : ℝ) ≠ 0 := by positivity
    refine node_injOn n hi hj ?_
    rw [node, node]
    have e : ∀ k : ℕ, Real.pi * ((k : ℝ) + 0.5) / n = (2 * k + 1) * Real.pi / (2 * n) := by
      intro k
      field_simp
      ring
    rw [e, e]
    exact h

end Verif.Cheb
