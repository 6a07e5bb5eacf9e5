import Verif.Cheb.Model
import Verif.Poly.Lemmas
import Verif.LoopLemmas
import Mathlib.Analysis.SpecialFunctions.Trigonometric.Chebyshev.ChebyshevGauss
import Mathlib.Analysis.SpecialFunctions.Trigonometric.Chebyshev.RootsExtrema
import Mathlib.Tactic

/-!
# Helper lemmas for the Chebyshev approximation (C105)
-/

set_option autoImplicit false

namespace Verif.Cheb

open Verif Polynomial

/-- Specification: the Chebyshev series `c₀/2 + Σ_{1 ≤ j < m} c_j T_j`. -/
noncomputable def series (c : ℕ → ℝ) (m : ℕ) : ℝ[X] :=
  C (c 0 / 2) + ∑ j ∈ Finset.Ico 1 m, C (c j) * Chebyshev.T ℝ j

/-- Specification: the affine map of `[a, b]` onto `[-1, 1]`. -/
noncomputable def toUnit (a b x : ℝ) : ℝ := (2 * x - a - b) / (b - a)

theorem T_step (i : ℕ) (y : ℝ) (hi : 1 ≤ i) :
    (Chebyshev.T ℝ ((i + 1 : ℕ) : ℤ)).eval y =
      2 * y * (Chebyshev.T ℝ (i : ℤ)).eval y - (Chebyshev.T ℝ ((i - 1 : ℕ) : ℤ)).eval y := by
  have h := Chebyshev.T_add_one ℝ (i : ℤ)
  have e : ((i - 1 : ℕ) : ℤ) = (i : ℤ) - 1 := by omega
  rw [e, Nat.cast_add, Nat.cast_one, h]
  simp

theorem T_stepP (i : ℕ) (hi : 1 ≤ i) :
    Chebyshev.T ℝ ((i + 1 : ℕ) : ℤ) = 2 * X * Chebyshev.T ℝ (i : ℤ) - Chebyshev.T ℝ ((i - 1 : ℕ) : ℤ) := by
  have h := Chebyshev.T_add_one ℝ (i : ℤ)
  have e : ((i - 1 : ℕ) : ℤ) = (i : ℤ) - 1 := by omega
  rw [e, Nat.cast_add, Nat.cast_one, h]

theorem clenshaw_eq (n m : ℕ) (c : ℕ → ℝ) (hm : 1 ≤ m) (hmn : m ≤ n) (y : ℝ) :
    clenshaw (tab n c) m y = .ret ((series c m).eval y) := by
  rw [clenshaw]
  obtain ⟨t, ht, hP⟩ := forDown_rule
    (fun i (s : ℝ × ℝ) => s.1 * (Chebyshev.T ℝ (i : ℤ)).eval y - s.2 * (Chebyshev.T ℝ ((i - 1 : ℕ) : ℤ)).eval y =
      ∑ j ∈ Finset.Ico i m, c j * (Chebyshev.T ℝ (j : ℤ)).eval y) 1 m hm (0, 0) (clenshawStep (tab n c) y) (by simp) (by
      intro i s hi him hs
      refine ⟨_, by rw [clenshawStep, index_tab c (by omega), Outcome.bind_ret], ?_⟩
      rw [Finset.sum_eq_sum_Ico_succ_bot him, ← hs, T_step i y hi]
      simp only [Nat.add_sub_cancel]
      ring)
  rw [ht, Outcome.bind_ret, index_tab c (by omega), Outcome.bind_ret]
  congr 1
  simp only [Nat.cast_one, Chebyshev.T_one, eval_X, Nat.sub_self, Nat.cast_zero, Chebyshev.T_zero, eval_one, mul_one] at hP
  rw [series, eval_add, eval_C, eval_finsetSum]
  simp only [eval_mul, eval_C]
  rw [← hP]
  ring

/-! ## `ToPolynomial` -/

theorem polyInner_loop (m K : ℕ) (d dd : ℕ → ℝ) (hK : K < m) :
    forDown 1 (K + 1) (tab m d, tab m dd) polyInner =
      .ret (tab m (fun k => if 1 ≤ k ∧ k ≤ K then 2 * d (k - 1) - dd k else d k),
        tab m (fun k => if 1 ≤ k ∧ k ≤ K then d k else dd k)) := by
  obtain ⟨t, ht, hP⟩ := forDown_rule
    (fun i (s : List ℝ × List ℝ) => s = (tab m (fun k => if i ≤ k ∧ k ≤ K then 2 * d (k - 1) - dd k else d k),
        tab m (fun k => if i ≤ k ∧ k ≤ K then d k else dd k))) 1 (K + 1) (by omega) (tab m d, tab m dd) polyInner (by
      rw [Prod.mk.injEq]
      exact ⟨tab_congr fun k _ => by rw [if_neg (by omega)], tab_congr fun k _ => by rw [if_neg (by omega)]⟩) (by
      rintro i s hi hiK rfl
      refine ⟨_, by
        rw [polyInner]
        simp only
        rw [index_tab _ (by omega), Outcome.bind_ret, index_tab _ (by omega), Outcome.bind_ret, index_tab _ (by omega),
          Outcome.bind_ret, store_tab _ (by omega), Outcome.bind_ret, store_tab _ (by omega), Outcome.bind_ret], ?_⟩
      rw [Prod.mk.injEq]
      refine ⟨tab_congr fun k hk => ?_, tab_congr fun k hk => ?_⟩
      · rcases lt_trichotomy k i with h | h | h
        · rw [if_neg (by omega), if_neg (by omega), if_neg (by omega)]
        · subst h
          rw [if_pos rfl, if_neg (by omega), if_neg (by omega), if_pos (by omega)]
        · rw [if_neg (by omega)]
          by_cases h2 : k ≤ K
          · rw [if_pos (by omega), if_pos (by omega)]
          · rw [if_neg (by omega), if_neg (by omega)]
      · rcases lt_trichotomy k i with h | h | h
        · rw [if_neg (by omega), if_neg (by omega), if_neg (by omega)]
        · subst h
          rw [if_pos rfl, if_neg (by omega), if_pos (by omega)]
        · rw [if_neg (by omega)]
          by_cases h2 : k ≤ K
          · rw [if_pos (by omega), if_pos (by omega)]
          · rw [if_neg (by omega), if_neg (by omega)])
  rw [ht, hP]

open Poly in
/-- Multiplying by `X` shifts the coefficients, when the top one is zero. -/
theorem X_mul_pl (m : ℕ) (d : ℕ → ℝ) (h : ∀ k, m ≤ k + 1 → d k = 0) :
    X * pl m d = pl m (fun k => if k = 0 then 0 else d (k - 1)) := by
  ext k
  cases k with
  | zero => simp [pl_coeff]
  | succ k =>
    rw [coeff_X_mul, pl_coeff, pl_coeff]
    by_cases h1 : k + 1 < m
    · rw [if_pos (by omega), if_pos h1, if_neg (by omega), Nat.add_sub_cancel]
    · rw [if_neg h1]
      split
      · exact h k (by omega)
      · rfl

open Poly in
theorem pl_lin (m : ℕ) (u v w : ℝ) (f g h : ℕ → ℝ) :
    pl m (fun k => u * f k + v * g k + w * h k) = C u * pl m f + C v * pl m g + C w * pl m h := by
  ext k
  simp only [coeff_add, coeff_C_mul, pl_coeff]
  split <;> ring

open Poly in
theorem pl_single (m : ℕ) (hm : 0 < m) (x : ℝ) : pl m (fun k => if k = 0 then x else 0) = C x := by
  ext k
  rw [pl_coeff, coeff_C]
  by_cases h : k = 0
  · subst h; simp [hm]
  · simp [h]

open Poly in
theorem polyOuter_eq (n m j : ℕ) (c d dd : ℕ → ℝ) (hj : 1 ≤ j) (hjm : j + 1 < m) (hmn : m ≤ n)
    (hd : ∀ k, m ≤ k + j + 1 → d k = 0) (hdd : ∀ k, m ≤ k + j + 1 → dd k = 0) :
    ∃ d' dd', polyOuter (tab n c) m (tab m d, tab m dd) j = .ret (tab m d', tab m dd') ∧
      (∀ k, m ≤ k + j → d' k = 0) ∧ (∀ k, m ≤ k + j → dd' k = 0) ∧
      pl m d' = 2 * X * pl m d - pl m dd + C (c j) ∧ pl m dd' = pl m d := by
  rw [polyOuter, polyInner_loop m (m - j) d dd (by omega), Outcome.bind_ret]
  simp only
  rw [index_tab _ (by omega), Outcome.bind_ret, index_tab _ (by omega), Outcome.bind_ret, index_tab _ (by omega),
    Outcome.bind_ret, store_tab _ (by omega), Outcome.bind_ret, store_tab _ (by omega), Outcome.bind_ret]
  refine ⟨fun k => (2 * (if k = 0 then 0 else d (k - 1)) + (-1) * dd k + 1 * (if k = 0 then c j else 0)), d, ?_, ?_, ?_, ?_, rfl⟩
  · congr 2
    · refine tab_congr fun k hk => ?_
      by_cases h0 : k = 0
      · subst h0
        simp
      · rw [if_neg h0, if_neg h0, if_neg h0]
        by_cases h1 : k ≤ m - j
        · rw [if_pos (by omega)]; ring
        · rw [if_neg (by omega), hd k (by omega), hd (k - 1) (by omega), hdd k (by omega)]; ring
    · refine tab_congr fun k hk => ?_
      by_cases h0 : k = 0
      · subst h0
        simp
      · rw [if_neg h0]
        by_cases h1 : k ≤ m - j
        · rw [if_pos (by omega)]
        · rw [if_neg (by omega), hd k (by omega), hdd k (by omega)]
  · intro k hk
    beta_reduce
    rw [if_neg (by omega), if_neg (by omega), hd (k - 1) (by omega), hdd k (by omega)]
    ring
  · intro k hk
    exact hd k (by omega)
  · rw [pl_lin, pl_single m (by omega), ← X_mul_pl m d (fun k hk => hd k (by omega))]
    simp only [map_neg, map_one, map_ofNat]
    ring

theorem polyLast_loop (m : ℕ) (d dd : ℕ → ℝ) (hm : 1 ≤ m) :
    forDown 1 m (tab m d) (polyLast (tab m dd)) =
      .ret (tab m (fun k => if k = 0 then d 0 else d (k - 1) - dd k)) := by
  obtain ⟨t, ht, hP⟩ := forDown_rule
    (fun i (s : List ℝ) => s = tab m (fun k => if i ≤ k then d (k - 1) - dd k else d k)) 1 m hm (tab m d)
    (polyLast (tab m dd)) (tab_congr fun k hk => by rw [if_neg (by omega)]) (by
      rintro i s hi hiK rfl
      refine ⟨_, by
        rw [polyLast, index_tab _ (by omega), Outcome.bind_ret, index_tab _ (by omega), Outcome.bind_ret, store_tab _ (by omega)], ?_⟩
      refine tab_congr fun k hk => ?_
      rcases lt_trichotomy k i with h | h | h
      · rw [if_neg (by omega), if_neg (by omega), if_neg (by omega)]
      · subst h
        rw [if_pos rfl, if_neg (by omega), if_pos (by omega)]
      · rw [if_neg (by omega), if_pos (by omega), if_pos (by omega)])
  rw [ht, hP]
  congr 1
  refine tab_congr fun k hk => ?_
  by_cases h : k = 0
  · subst h; simp
  · rw [if_pos (by omega), if_neg h]

open Poly in
theorem toPolynomialN_eq (p : Approx) (n m : ℕ) (c : ℕ → ℝ) (hp : p.coef = tab n c) (hm : 1 ≤ m) (hmn : m ≤ n) :
    ∃ v, p.toPolynomialN m = .ret v ∧ v.length = m ∧ toPoly v = series c m := by
  rw [Approx.toPolynomialN, hp, length_tab, if_neg (by omega)]
  simp only [Int.toNat_natCast]
  rw [index_tab _ (by omega), Outcome.bind_ret, replicate_eq_tab, store_tab _ (by omega), Outcome.bind_ret]
  rcases Nat.lt_or_ge 1 m with h1 | h1
  · obtain ⟨t, ht, hP⟩ := forDown_rule
      (fun i (s : List ℝ × List ℝ) => ∃ d dd, s = (tab m d, tab m dd) ∧ (∀ k, m ≤ k + i → d k = 0) ∧ (∀ k, m ≤ k + i → dd k = 0) ∧
        pl m d * Chebyshev.T ℝ (i : ℤ) - pl m dd * Chebyshev.T ℝ ((i - 1 : ℕ) : ℤ) =
          ∑ j ∈ Finset.Ico i m, C (c j) * Chebyshev.T ℝ (j : ℤ)) 1 (m - 1) (by omega)
      (tab m (fun k => if k = 0 then c (m - 1) else 0), tab m (fun _ => 0)) (polyOuter (tab n c) m)
      ⟨_, _, rfl, fun k hk => by rw [if_neg (by omega)], fun k hk => rfl, by
        rw [pl_single m (by omega), show Finset.Ico (m - 1) m = {m - 1} by
          ext x; simp only [Finset.mem_Ico, Finset.mem_singleton]; omega, Finset.sum_singleton]
        have : pl m (fun _ => (0 : ℝ)) = 0 := by ext k; rw [pl_coeff]; simp
        rw [this]; ring⟩ (by
      rintro i s hi him ⟨d, dd, rfl, hd, hdd, hs⟩
      obtain ⟨d', dd', e, h1, h2, h3, h4⟩ := polyOuter_eq n m i c d dd hi (by omega) hmn
        (fun k hk => hd k (by omega)) (fun k hk => hdd k (by omega))
      refine ⟨_, e, d', dd', rfl, h1, h2, ?_⟩
      rw [Finset.sum_eq_sum_Ico_succ_bot (by omega), ← hs, T_stepP i hi, h3, h4, Nat.add_sub_cancel]
      ring)
    obtain ⟨d, dd, rfl, hd, hdd, hs⟩ := hP
    rw [ht, Outcome.bind_ret]
    simp only
    rw [polyLast_loop m d dd hm, Outcome.bind_ret, index_tab _ (by omega), Outcome.bind_ret, index_tab _ (by omega),
      Outcome.bind_ret, store_tab _ (by omega)]
    refine ⟨_, rfl, by simp, ?_⟩
    rw [toPoly_tab, pl_congr (g := fun k => 1 * (if k = 0 then 0 else d (k - 1)) + (-1) * dd k +
      (1 / 2) * (if k = 0 then c 0 else 0))]
    · rw [pl_lin, pl_single m (by omega), ← X_mul_pl m d (fun k hk => hd k (by omega)), series]
      simp only [Nat.cast_one, Chebyshev.T_one, Nat.sub_self, Nat.cast_zero, Chebyshev.T_zero, mul_one] at hs
      rw [← hs, ← C_mul]
      simp only [map_neg, map_one]
      rw [show (1 / 2 * c 0) = c 0 / 2 by ring]
      ring
    · intro k hk
      by_cases h : k = 0
      · subst h
        simp
        norm_num
      · rw [if_neg h, if_neg h, if_neg h, if_neg h]
        ring
  · obtain rfl : m = 1 := by omega
    rw [show (1 : ℕ) - 1 = 0 from rfl]
    simp only [forDown, Nat.sub_self, forRange, Nat.zero_sub, Outcome.bind_ret]
    rw [index_tab _ (by omega), Outcome.bind_ret, index_tab _ (by omega), Outcome.bind_ret, store_tab _ (by omega)]
    refine ⟨_, rfl, by simp, ?_⟩
    rw [toPoly_tab, pl_congr (g := fun k => if k = 0 then c 0 / 2 else 0), pl_single 1 (by omega), series]
    · simp
    · intro k hk
      obtain rfl : k = 0 := by omega
      simp
      norm_num
      ring

end Verif.Cheb
