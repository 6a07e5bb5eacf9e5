import Verif.Integ.TrapProps
import Verif.Integ.ErrLemmas
import Mathlib.Analysis.SpecialFunctions.Integrals.Basic

/-!
# Accuracy and the reported error of `IntegrateTrap` and `IntegrateSimpson` (C47, C48)
-/

set_option autoImplicit false

namespace Verif.Integ

open Verif Polynomial MeasureTheory

/-! ## Order of accuracy -/

/-- **C47.**  The trapezoidal rule has an error of second order on twice continuously differentiable functions. -/
theorem trapezoid_error (f : ℝ → ℝ) (a b M : ℝ) (N : ℕ) (hN : 0 < N) (hf : ContDiffOn ℝ 2 f (Set.uIcc a b))
    (hM : ∀ x ∈ Set.uIcc a b, |iteratedDerivWithin 2 f (Set.uIcc a b) x| ≤ M) :
    |trapezoid f a b N - ∫ x in a..b, f x| ≤ |b - a| ^ 3 * M / (12 * N ^ 2) := by
  rw [trapezoid_eq_mathlib f a b N hN]
  refine trapezoidal_error_le_of_c2 hf (fun x => ?_) hN
  by_cases hx : x ∈ Set.uIcc a b
  · exact hM x hx
  · rw [iteratedDerivWithin_succ, derivWithin_zero_of_notMem_closure (by rwa [Set.uIcc, isClosed_Icc.closure_eq]), abs_zero]
    exact (abs_nonneg _).trans (hM a Set.left_mem_uIcc)

/-- The number of panels enters squared: a bound for the exponential function. -/
example (N : ℕ) (hN : 0 < N) :
    |trapezoid Real.exp 0 1 N - ∫ x in (0 : ℝ)..1, Real.exp x| ≤ |(1 : ℝ) - 0| ^ 3 * Real.exp 1 / (12 * N ^ 2) := by
  refine trapezoid_error _ 0 1 _ N hN Real.contDiff_exp.contDiffOn fun x hx => ?_
  rw [iteratedDerivWithin_eq_iteratedDeriv (uniqueDiffOn_uIcc (by norm_num)) Real.contDiff_exp.contDiffAt hx,
    iteratedDeriv_eq_iterate, Real.iter_deriv_exp, abs_of_pos (Real.exp_pos x)]
  rw [Set.uIcc_of_le (by norm_num)] at hx
  exact Real.exp_le_exp.mpr hx.2

theorem panel_subset {a b : ℝ} {N k : ℕ} (hN : 0 < N) (hk : k < N) {y : ℝ}
    (hy : |y - node a b N (k + 1 / 2)| ≤ |(b - a) / N / 2|) : y ∈ Set.uIcc a b := by
  have hNr : (0 : ℝ) < N := by positivity
  have hkr : (k : ℝ) + 1 ≤ N := by exact_mod_cast hk
  have hk0 : (0 : ℝ) ≤ k := by positivity
  have hb : b = a + N * ((b - a) / N) := by field_simp; ring
  set w := (b - a) / N with hw
  simp only [node] at hy
  rw [← hw] at hy
  rw [abs_le] at hy
  rcases le_total 0 w with h | h
  · rw [abs_of_nonneg (by linarith)] at hy
    rw [Set.uIcc_of_le (by rw [hb]; nlinarith)]
    constructor
    · nlinarith [hy.1]
    · rw [hb]; nlinarith [hy.2]
  · rw [abs_of_nonpos (by linarith)] at hy
    rw [Set.uIcc_of_ge (by rw [hb]; nlinarith)]
    constructor
    · rw [hb]; nlinarith [hy.1]
    · nlinarith [hy.2]

/-- **C47.**  Simpson's rule has an error of fourth order on four times continuously differentiable functions. -/
theorem simpson_error (f : ℝ → ℝ) (a b M : ℝ) (N : ℕ) (hN : 0 < N) (hf : ∀ x ∈ Set.uIcc a b, ContDiffAt ℝ 4 f x)
    (hM : ∀ x ∈ Set.uIcc a b, |iteratedDeriv 4 f x| ≤ M) :
    |simpson f a b N - ∫ x in a..b, f x| ≤ |b - a| ^ 5 * M / (2880 * N ^ 4) := by
  have hNr : (0 : ℝ) < N := by positivity
  have hd : ∀ n : ℕ, n < 4 → ∀ x ∈ Set.uIcc a b, HasDerivAt (iteratedDeriv n f) (iteratedDeriv (n + 1) f x) x := by
    intro n hn x hx
    have hdiff : DifferentiableAt ℝ (iteratedDeriv n f) x := by
      have := (hf x hx).contDiffWithinAt (s := Set.univ) |>.differentiableWithinAt_iteratedDerivWithin (m := n)
        (by exact_mod_cast hn) (by simpa using uniqueDiffOn_univ)
      rw [iteratedDerivWithin_univ, differentiableWithinAt_univ] at this
      exact this
    rw [iteratedDeriv_succ]
    exact hdiff.hasDerivAt
  have hpanel : ∀ k ∈ Finset.range N, |panelError f (node a b N (k + 1 / 2)) ((b - a) / N / 2)| ≤
      M * |(b - a) / N / 2| ^ 5 / 90 := by
    intro k hk
    have hk := Finset.mem_range.mp hk
    set c := node a b N (k + 1 / 2) with hc
    set T := |(b - a) / N / 2| with hT
    have hsub : ∀ y ∈ Set.Icc (c - T) (c + T), y ∈ Set.uIcc a b := fun y hy =>
      panel_subset hN hk (by rw [abs_le]; constructor <;> linarith [hy.1, hy.2])
    have hb := panelError_bound f (iteratedDeriv 1 f) (iteratedDeriv 2 f) (iteratedDeriv 3 f) c T M (abs_nonneg _)
      (fun y hy => by simpa using hd 0 (by norm_num) y (hsub y hy))
      (fun y hy => hd 1 (by norm_num) y (hsub y hy))
      (fun y hy => hd 2 (by norm_num) y (hsub y hy))
      (fun y hy z hz => by
        have := (convex_Icc (c - T) (c + T)).norm_image_sub_le_of_norm_hasDerivWithin_le (f := iteratedDeriv 3 f)
          (f' := iteratedDeriv 4 f) (C := M) (fun x hx => (hd 3 (by norm_num) x (hsub x hx)).hasDerivWithinAt)
          (fun x hx => hM x (hsub x hx)) hz hy
        simpa [Real.norm_eq_abs] using this)
    rcases abs_choice ((b - a) / N / 2) with h | h
    · rw [hT, h] at hb ⊢
      exact hb
    · have : (b - a) / N / 2 = -T := by rw [hT, h]; ring
      rw [this, panelError_neg, abs_neg]
      exact hb
  have hcont : ContinuousOn f (Set.uIcc a b) := fun x hx => (hf x hx).continuousAt.continuousWithinAt
  rw [abs_sub_comm, simpson_error_sum f a b N hN hcont]
  refine (Finset.abs_sum_le_sum_abs _ _).trans ((Finset.sum_le_sum hpanel).trans (le_of_eq ?_))
  rw [Finset.sum_const, Finset.card_range, nsmul_eq_mul, abs_div, abs_div, abs_of_pos hNr, abs_two]
  field_simp
  ring

/-- The hypotheses are met: the exponential on `[0, 1]`. -/
example : |simpson Real.exp 0 1 8 - ∫ x in (0 : ℝ)..1, Real.exp x| ≤ |1 - 0| ^ 5 * Real.exp 1 / (2880 * (8 : ℕ) ^ 4) := by
  refine simpson_error Real.exp 0 1 (Real.exp 1) 8 (by norm_num) (fun x _ => Real.contDiff_exp.contDiffAt) fun x hx => ?_
  rw [iteratedDeriv_eq_iterate, Real.iter_deriv_exp, abs_of_pos (Real.exp_pos _)]
  rw [Set.uIcc_of_le zero_le_one] at hx
  exact Real.exp_le_exp.mpr hx.2

/-- **C47.**  A result of `IntegrateSimpson` on a smooth function is within the truncation error of the number of panels used,
whether it converged or not. -/
theorem integrateSimpson_accuracy (K : ℕ) (f : ℝ → ℝ) (a b eps M : ℝ) (h1 : 2 ≤ K) (h2 : K ≤ 32)
    (hf : ∀ x ∈ Set.uIcc a b, ContDiffAt ℝ 4 f x) (hM : ∀ x ∈ Set.uIcc a b, |iteratedDeriv 4 f x| ≤ M) :
    ∃ r n, integrateSimpson K f a b eps = .ret r ∧ (n + 1 = r.iterations ∨ r.converged = false ∧ n + 2 = r.iterations) ∧
      |r.value - ∫ x in a..b, f x| ≤ |b - a| ^ 5 * M / (2880 * ((2 ^ n : ℕ) : ℝ) ^ 4) := by
  obtain ⟨r, hr, ha⟩ := integrateSimpson_spec K f a b eps (by omega) h2
  rcases ha with ⟨-, -, -, h4, h5, -, -⟩ | ⟨hc, hi, hv, -, -⟩
  · have h6 := h4.1
    refine ⟨r, r.iterations - 1, hr, Or.inl (by omega), ?_⟩
    rw [h5]
    obtain ⟨n, hn⟩ : ∃ n, r.iterations = n + 1 := ⟨r.iterations - 1, by omega⟩
    rw [hn]
    exact simpson_error f a b M (2 ^ n) (by positivity) hf hM
  · obtain ⟨n, hn⟩ : ∃ n, K = n + 2 := ⟨K - 2, by omega⟩
    refine ⟨r, n, hr, Or.inr ⟨hc, by omega⟩, ?_⟩
    rw [hv, hn]
    exact simpson_error f a b M (2 ^ n) (by positivity) hf hM

/-- **C47.**  The same for `IntegrateTrap`. -/
theorem integrateTrap_accuracy (K : ℕ) (f : ℝ → ℝ) (a b eps M : ℝ) (h1 : 1 ≤ K) (h2 : K ≤ 32)
    (hf : ContDiffOn ℝ 2 f (Set.uIcc a b)) (hM : ∀ x ∈ Set.uIcc a b, |iteratedDerivWithin 2 f (Set.uIcc a b) x| ≤ M) :
    ∃ r n, integrateTrap K f a b eps = .ret r ∧ (n = r.iterations ∨ r.converged = false ∧ n + 1 = r.iterations) ∧
      |r.value - ∫ x in a..b, f x| ≤ |b - a| ^ 3 * M / (12 * ((2 ^ n : ℕ) : ℝ) ^ 2) := by
  obtain ⟨r, hr, ha⟩ := integrateTrap_spec K f a b eps h1 h2
  rcases ha with ⟨-, -, -, -, h5, -, -⟩ | ⟨hc, hi, hv, -, -⟩
  · refine ⟨r, r.iterations, hr, Or.inl rfl, ?_⟩
    rw [h5]
    exact trapezoid_error f a b M (2 ^ r.iterations) (by positivity) hf hM
  · obtain ⟨n, hn⟩ : ∃ n, K = n + 1 := ⟨K - 1, by omega⟩
    refine ⟨r, n, hr, Or.inr ⟨hc, by omega⟩, ?_⟩
    rw [hv, hn]
    exact trapezoid_error f a b M (2 ^ n) (by positivity) hf hM

/-! ## Laws -/

/-- **C47.**  Exchanging the bounds changes the sign. -/
theorem trapezoid_swap (f : ℝ → ℝ) (a b : ℝ) (N : ℕ) (hN : 0 < N) : trapezoid f b a N = -trapezoid f a b N := by
  rw [trapezoid_eq_mathlib f b a N hN, trapezoid_eq_mathlib f a b N hN, trapezoidal_integral_symm f hN]

theorem settles_neg (T : ℕ → ℝ) (eps : ℝ) (i : ℕ) : Settles (fun k => -T k) eps i ↔ Settles T eps i := by
  simp only [Settles, neg_sub_neg, abs_neg]
  rw [abs_sub_comm]

theorem Answer.unique {T U : ℕ → ℝ} {eps : ℝ} {M : ℕ} {r s : Result} (hr : Answer T eps 0 M r) (hs : Answer U eps 0 M s)
    (h : ∀ i, Settles T eps i ↔ Settles U eps i) :
    r.iterations = s.iterations ∧ r.converged = s.converged := by
  rcases hr with ⟨h1, _, h3, h4, _, _, h7⟩ | ⟨h1, h2, _, _, h5⟩ <;>
    rcases hs with ⟨k1, _, k3, k4, _, _, k7⟩ | ⟨k1, k2, _, _, k5⟩
  · refine ⟨?_, by rw [h1, k1]⟩
    rcases lt_trichotomy r.iterations s.iterations with hl | he | hl
    · exact absurd ((h _).mp h4) (k7 _ (Nat.zero_le _) hl)
    · exact he
    · exact absurd ((h _).mpr k4) (h7 _ (Nat.zero_le _) hl)
  · exact absurd ((h _).mp h4) (k5 _ (Nat.zero_le _) h3)
  · exact absurd ((h _).mpr k4) (h5 _ (Nat.zero_le _) k3)
  · exact ⟨by rw [h2, k2], by rw [h1, k1]⟩

/-- **C47.**  `IntegrateTrap` with the bounds exchanged returns the opposite value, with the same error estimate. -/
theorem integrateTrap_swap (M : ℕ) (f : ℝ → ℝ) (a b eps : ℝ) (h1 : 1 ≤ M) (h2 : M ≤ 32) :
    ∃ r, integrateTrap M f a b eps = .ret r ∧ integrateTrap M f b a eps = .ret { r with value := -r.value } := by
  obtain ⟨r, hr, ha⟩ := integrateTrap_spec M f a b eps h1 h2
  obtain ⟨s, hs, hb⟩ := integrateTrap_spec M f b a eps h1 h2
  refine ⟨r, hr, ?_⟩
  have e : (fun k => trapezoid f b a (2 ^ k)) = fun k => -(fun k => trapezoid f a b (2 ^ k)) k := by
    funext k
    exact trapezoid_swap f a b (2 ^ k) (by positivity)
  rw [e] at hb
  obtain ⟨hi, hc⟩ := ha.unique hb fun i => (settles_neg _ eps i).symm
  rw [hs]
  congr 1
  rcases ha with ⟨a1, _, _, _, a5, a6, _⟩ | ⟨a1, a2, a3, a4, _⟩ <;> rcases hb with ⟨b1, _, _, _, b5, b6, _⟩ | ⟨b1, b2, b3, b4, _⟩
  · ext
    · show s.value = -r.value
      rw [b5, a5, ← hi]
    · show s.error = r.error
      rw [b6, a6, ← hi]
      dsimp only
      rw [neg_sub_neg, abs_sub_comm]
    · exact hi.symm
    · exact hc.symm
  · rw [a1, b1] at hc; exact absurd hc (by simp)
  · rw [a1, b1] at hc; exact absurd hc (by simp)
  · ext
    · show s.value = -r.value
      rw [b3, a3]
    · show s.error = r.error
      rw [b4, a4]
    · exact hi.symm
    · exact hc.symm

/-! ## The reported error -/

/-- **C48, disagreement.**  Whenever `IntegrateTrap` or `IntegrateSimpson` runs out of rounds, the reported error is zero,
although the last two estimates differ by at least the tolerance. -/
theorem unconverged_error_zero (M : ℕ) (f : ℝ → ℝ) (a b eps : ℝ) (h1 : 7 ≤ M) (h2 : M ≤ 32) (r : Result)
    (hc : r.converged = false) :
    (integrateTrap M f a b eps = .ret r → r.error = 0 ∧
      |trapezoid f a b (2 ^ (M - 1)) - trapezoid f a b (2 ^ (M - 2))| ≥
        eps * |trapezoid f a b (2 ^ (M - 2))| + eps * (1 / 2 ^ 52)) ∧
    (integrateSimpson M f a b eps = .ret r → r.error = 0 ∧
      |simpson f a b (2 ^ (M - 2)) - simpson f a b (2 ^ (M - 3))| ≥
        eps * |simpson f a b (2 ^ (M - 3))| + eps * (1 / 2 ^ 52)) := by
  obtain ⟨n, rfl⟩ : ∃ n, M = n + 7 := ⟨M - 7, by omega⟩
  constructor
  · intro h
    obtain ⟨s, hs, ha⟩ := integrateTrap_spec (n + 7) f a b eps (by omega) h2
    rw [h] at hs
    cases hs
    rcases ha with ⟨h1, -⟩ | ⟨-, -, -, h4, h5⟩
    · rw [hc] at h1; cases h1
    · refine ⟨h4, ?_⟩
      have := h5 (n + 6) (by omega) (by omega)
      rw [Settles, not_and] at this
      exact not_lt.mp (this (by omega))
  · intro h
    obtain ⟨s, hs, ha⟩ := integrateSimpson_spec (n + 7) f a b eps (by omega) h2
    rw [h] at hs
    cases hs
    rcases ha with ⟨h1, -⟩ | ⟨-, -, -, h4, h5⟩
    · rw [hc] at h1; cases h1
    · refine ⟨h4, ?_⟩
      have := h5 (n + 6) (by omega) (by omega)
      rw [Settles, not_and] at this
      exact not_lt.mp (this (by omega))

/-- **C48.**  A converged result of `IntegrateTrap` carries the distance of its last two estimates, which is below the tolerance. -/
theorem converged_error (M : ℕ) (f : ℝ → ℝ) (a b eps : ℝ) (h1 : 1 ≤ M) (h2 : M ≤ 32) (r : Result)
    (hr : integrateTrap M f a b eps = .ret r) (hc : r.converged = true) :
    6 ≤ r.iterations ∧ r.error = |trapezoid f a b (2 ^ r.iterations) - trapezoid f a b (2 ^ (r.iterations - 1))| ∧
      r.error < eps * |trapezoid f a b (2 ^ (r.iterations - 1))| + eps * (1 / 2 ^ 52) := by
  obtain ⟨s, hs, ha⟩ := integrateTrap_spec M f a b eps h1 h2
  rw [hr] at hs
  cases hs
  rcases ha with ⟨-, -, -, h4, -, h6, -⟩ | ⟨h, -⟩
  · exact ⟨h4.1, h6, by rw [h6]; exact h4.2⟩
  · rw [hc] at h; cases h

/-! ### A function on which the reported error is wrong -/

theorem trapezoid_recip (k : ℕ) :
    trapezoid (fun x => 1 / x) 0 1 (2 ^ k) = (∑ i ∈ Finset.range (2 ^ k - 1), 1 / ((i : ℝ) + 1)) + 1 / (2 * 2 ^ k) := by
  rw [trapezoid_eq_mathlib _ _ _ _ (by positivity), trapezoidal_integral]
  have h2 : (2 : ℝ) ^ k ≠ 0 := by positivity
  rw [mul_add, Finset.mul_sum, add_comm]
  congr 1
  · refine Finset.sum_congr rfl fun i _ => ?_
    have : (i : ℝ) + 1 ≠ 0 := by positivity
    push_cast
    field_simp
    ring
  · push_cast
    simp

theorem recip_step (k : ℕ) :
    1 / 2 - 1 / (4 * 2 ^ k) ≤ trapezoid (fun x => 1 / x) 0 1 (2 ^ (k + 1)) - trapezoid (fun x => 1 / x) 0 1 (2 ^ k) ∧
      trapezoid (fun x => 1 / x) 0 1 (2 ^ (k + 1)) - trapezoid (fun x => 1 / x) 0 1 (2 ^ k) ≤ 1 := by
  rw [trapezoid_recip, trapezoid_recip]
  have hp : 1 ≤ 2 ^ k := Nat.one_le_two_pow
  have hsplit : ∑ i ∈ Finset.range (2 ^ (k + 1) - 1), 1 / ((i : ℝ) + 1) =
      (∑ i ∈ Finset.range (2 ^ k - 1), 1 / ((i : ℝ) + 1)) + ∑ i ∈ Finset.range (2 ^ k), 1 / (((2 ^ k - 1 + i : ℕ) : ℝ) + 1) := by
    rw [← Finset.sum_range_add]
    congr 2
    rw [pow_succ]
    omega
  have h2 : (0 : ℝ) < 2 ^ k := by positivity
  have hlow : (1 / 2 : ℝ) ≤ ∑ i ∈ Finset.range (2 ^ k), 1 / (((2 ^ k - 1 + i : ℕ) : ℝ) + 1) := by
    have : ∑ i ∈ Finset.range (2 ^ k), 1 / (2 * (2 : ℝ) ^ k) ≤ ∑ i ∈ Finset.range (2 ^ k), 1 / (((2 ^ k - 1 + i : ℕ) : ℝ) + 1) := by
      refine Finset.sum_le_sum fun i hi => one_div_le_one_div_of_le (by positivity) ?_
      have hi := Finset.mem_range.mp hi
      have : (2 ^ k - 1 + i : ℕ) + 1 ≤ 2 * 2 ^ k := by omega
      exact_mod_cast this
    rw [Finset.sum_const, Finset.card_range, nsmul_eq_mul] at this
    refine le_trans (le_of_eq ?_) this
    push_cast
    field_simp
  have hhigh : ∑ i ∈ Finset.range (2 ^ k), 1 / (((2 ^ k - 1 + i : ℕ) : ℝ) + 1) ≤ 1 := by
    have : ∑ i ∈ Finset.range (2 ^ k), 1 / (((2 ^ k - 1 + i : ℕ) : ℝ) + 1) ≤ ∑ i ∈ Finset.range (2 ^ k), 1 / ((2 : ℝ) ^ k) := by
      refine Finset.sum_le_sum fun i hi => one_div_le_one_div_of_le (by positivity) ?_
      have : 2 ^ k ≤ (2 ^ k - 1 + i : ℕ) + 1 := by omega
      exact_mod_cast this
    rw [Finset.sum_const, Finset.card_range, nsmul_eq_mul] at this
    refine this.trans (le_of_eq ?_)
    push_cast
    field_simp
  have e : 1 / (2 * (2 : ℝ) ^ (k + 1)) = 1 / (4 * 2 ^ k) := by rw [pow_succ]; ring_nf
  have e' : 1 / (2 * (2 : ℝ) ^ k) = 2 * (1 / (4 * 2 ^ k)) := by field_simp; norm_num
  rw [hsplit, e, e']
  have hpos : 0 < 1 / (4 * (2 : ℝ) ^ k) := by positivity
  constructor <;> linarith

theorem recip_le (k : ℕ) : 0 ≤ trapezoid (fun x => 1 / x) 0 1 (2 ^ k) ∧ trapezoid (fun x => 1 / x) 0 1 (2 ^ k) ≤ k + 1 := by
  induction k with
  | zero =>
    rw [trapezoid_recip]
    norm_num
  | succ k ih =>
    have := recip_step k
    have h2 : 1 / (4 * (2 : ℝ) ^ k) ≤ 1 / 4 := by
      refine one_div_le_one_div_of_le (by norm_num) ?_
      have : (1 : ℝ) ≤ 2 ^ k := one_le_pow₀ (by norm_num)
      linarith
    push_cast
    constructor <;> linarith [this.1, this.2, ih.1, ih.2]

theorem recip_unsettled (eps : ℝ) (he : 0 ≤ eps) (he' : eps ≤ 1 / 10 ^ 3) (i : ℕ) (hi : i < 20) :
    ¬ Settles (fun k => trapezoid (fun x => 1 / x) 0 1 (2 ^ k)) eps i := by
  rintro ⟨h5, h⟩
  obtain ⟨n, rfl⟩ : ∃ n, i = n + 1 := ⟨i - 1, by omega⟩
  dsimp only at h
  rw [Nat.add_sub_cancel] at h
  have h1 := recip_step n
  have h2 := recip_le n
  have h3 : 1 / (4 * (2 : ℝ) ^ n) ≤ 1 / 4 := by
    refine one_div_le_one_div_of_le (by norm_num) ?_
    have : (1 : ℝ) ≤ 2 ^ n := one_le_pow₀ (by norm_num)
    linarith
  have hn : (n : ℝ) ≤ 19 := by exact_mod_cast (by omega : n ≤ 19)
  rw [abs_of_nonneg (by linarith [h1.1]), abs_of_nonneg h2.1] at h
  have : eps * trapezoid (fun x => 1 / x) 0 1 (2 ^ n) ≤ eps * 20 := by
    refine mul_le_mul_of_nonneg_left ?_ he
    linarith [h2.2]
  have h4 : eps * (1 / 2 ^ 52) ≤ 1 / 10 := by
    norm_num at he' ⊢
    linarith
  have h5 : eps * 20 ≤ 1 / 10 := by
    norm_num at he' ⊢
    linarith
  linarith [h1.1]

/-- **C48, disagreement.**  With the default settings on `1/x` over `[0, 1]`, `IntegrateTrap` does not converge and reports the
error zero, although its last two estimates differ by more than a quarter. -/
theorem integrateTrap_misreports :
    ∃ r, integrateTrap 20 (fun x => 1 / x) 0 1 (1 / 10 ^ 6) = .ret r ∧ r.converged = false ∧ r.error = 0 ∧
      1 / 4 ≤ r.value - trapezoid (fun x => 1 / x) 0 1 (2 ^ 18) := by
  obtain ⟨r, hr, ha⟩ := integrateTrap_spec 20 (fun x => 1 / x) 0 1 (1 / 10 ^ 6) (by norm_num) (by norm_num)
  refine ⟨r, hr, ?_⟩
  rcases ha with ⟨-, -, h3, h4, -⟩ | ⟨h1, -, h3, h4, -⟩
  · exact absurd h4 (recip_unsettled _ (by norm_num) (by norm_num) _ h3)
  · refine ⟨h1, h4, ?_⟩
    rw [h3]
    have := (recip_step 18).1
    norm_num at this ⊢
    linarith

/-- **C48, limit.**  Convergence is no guarantee of accuracy: on `sin(64 π x)^2` over `[0, 1]` both integrators report the
value zero with error zero and `converged == true`, although the integral is a half. -/
theorem converged_not_accurate (M : ℕ) (eps : ℝ) (h1 : 7 ≤ M) (h2 : M ≤ 32) (he : 0 < eps) :
    integrateTrap M (fun x => Real.sin (64 * Real.pi * x) ^ 2) 0 1 eps = .ret ⟨0, 0, 6, true⟩ ∧
      integrateSimpson M (fun x => Real.sin (64 * Real.pi * x) ^ 2) 0 1 eps = .ret ⟨0, 0, 6, true⟩ ∧
      ∫ x in (0 : ℝ)..1, Real.sin (64 * Real.pi * x) ^ 2 = 1 / 2 := by
  have hz : ∀ k ≤ 6, trapezoid (fun x => Real.sin (64 * Real.pi * x) ^ 2) 0 1 (2 ^ k) = 0 := by
    intro k hk
    have hnode : ∀ i : ℕ, Real.sin (64 * Real.pi * node 0 1 (2 ^ k) (i : ℝ)) = 0 := by
      intro i
      have h64 : (64 : ℝ) = 2 ^ (6 - k) * 2 ^ k := by
        rw [← pow_add, Nat.sub_add_cancel hk]
        norm_num
      have : 64 * Real.pi * node 0 1 (2 ^ k) (i : ℝ) = ((2 ^ (6 - k) * i : ℕ) : ℝ) * Real.pi := by
        rw [node_unit, h64]
        push_cast
        field_simp
      rw [this]
      exact Real.sin_nat_mul_pi _
    rw [trapezoid]
    refine Finset.sum_eq_zero fun i _ => ?_
    have h' := hnode (i + 1)
    push_cast at h'
    rw [hnode i, h']
    simp
  have hs : ∀ k ≤ 5, simpson (fun x => Real.sin (64 * Real.pi * x) ^ 2) 0 1 (2 ^ k) = 0 := by
    intro k hk
    rw [simpson_eq _ _ _ _ (by positivity), hz k (by omega), ← pow_succ', hz (k + 1) (by omega)]
    simp
  refine ⟨?_, ?_, ?_⟩
  · obtain ⟨r, hr, ha⟩ := integrateTrap_spec M (fun x => Real.sin (64 * Real.pi * x) ^ 2) 0 1 eps (by omega) h2
    rw [hr, ha.const h1 he (hz 5 (by norm_num)) (hz 6 le_rfl)]
  · obtain ⟨r, hr, ha⟩ := integrateSimpson_spec M (fun x => Real.sin (64 * Real.pi * x) ^ 2) 0 1 eps (by omega) h2
    rw [hr, ha.const h1 he (hs 4 (by norm_num)) (hs 5 le_rfl)]
  · rw [intervalIntegral.integral_comp_mul_left (fun y => Real.sin y ^ 2) (by positivity), integral_sin_sq]
    have : Real.sin (64 * Real.pi * 1) = 0 := by
      have := Real.sin_nat_mul_pi 64
      push_cast at this
      rw [mul_one]
      exact this
    rw [this]
    have hpi := Real.pi_pos.ne'
    simp
    field_simp

end Verif.Integ
