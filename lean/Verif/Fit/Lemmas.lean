import Verif.Fit.Model
import Verif.LoopLemmas
import Mathlib.Tactic

/-! # Helper lemmas: the sums of the line fit -/

set_option autoImplicit false

namespace Verif.Fit

open Verif.LinAlg (divU)

theorem divU_of_ne {x y : ℝ} (h : y ≠ 0) : divU x y = .ret (x / y) := by rw [divU, if_neg h]

theorem sums_tab (n : ℕ) (X Y : ℕ → ℝ) :
    sums n (tab n X) (tab n Y) = .ret ⟨∑ i ∈ Finset.range n, X i, ∑ i ∈ Finset.range n, Y i,
      ∑ i ∈ Finset.range n, X i * X i, ∑ i ∈ Finset.range n, X i * Y i⟩ := by
  obtain ⟨t, ht, hP⟩ := forRange_rule (fun k (s : Sums) => s = ⟨∑ i ∈ Finset.range k, X i, ∑ i ∈ Finset.range k, Y i,
      ∑ i ∈ Finset.range k, X i * X i, ∑ i ∈ Finset.range k, X i * Y i⟩) n ⟨0, 0, 0, 0⟩ (sumStep (tab n X) (tab n Y))
    (by simp) (by
      rintro i t hi rfl
      refine ⟨_, by rw [sumStep, index_tab X hi, index_tab Y hi, Outcome.bind_ret, Outcome.bind_ret], ?_⟩
      simp only [Finset.sum_range_succ])
  rw [sums, ht, hP]

theorem resSum_tab (n : ℕ) (X Y : ℕ → ℝ) (a b : ℝ) :
    resSum n (tab n X) (tab n Y) a b = .ret (∑ i ∈ Finset.range n, (Y i - (a * X i + b)) * (Y i - (a * X i + b))) := by
  rw [resSum, forRange_sum n 0 _ (fun i => (Y i - (a * X i + b)) * (Y i - (a * X i + b))), zero_add]
  intro i hi s
  rw [index_tab X hi, index_tab Y hi, Outcome.bind_ret, Outcome.bind_ret]

theorem totSum_tab (n : ℕ) (Y : ℕ → ℝ) (c : ℝ) :
    totSum n (tab n Y) c = .ret (∑ i ∈ Finset.range n, (Y i - c) * (Y i - c)) := by
  rw [totSum, forRange_sum n 0 _ (fun i => (Y i - c) * (Y i - c)), zero_add]
  intro i hi s
  rw [index_tab Y hi, Outcome.bind_ret]

theorem meanOf_tab {n : ℕ} (hn : n ≠ 0) (Y : ℕ → ℝ) :
    meanOf n (tab n Y) = .ret ((∑ i ∈ Finset.range n, Y i) / n) := by
  rw [meanOf, forRange_sum n 0 _ Y, zero_add, Outcome.bind_ret, divU_of_ne (by exact_mod_cast hn)]
  intro i hi s
  rw [index_tab Y hi, Outcome.bind_ret]

/-- The determinant of the normal equations. -/
noncomputable def det (n : ℕ) (X : ℕ → ℝ) : ℝ :=
  n * (∑ i ∈ Finset.range n, X i * X i) - (∑ i ∈ Finset.range n, X i) * ∑ i ∈ Finset.range n, X i

theorem sum_sq_shift (n : ℕ) (X : ℕ → ℝ) (c d : ℝ) :
    ∑ i ∈ Finset.range n, (c * X i + d) ^ 2 = c ^ 2 * (∑ i ∈ Finset.range n, X i * X i)
      + 2 * c * d * (∑ i ∈ Finset.range n, X i) + n * d ^ 2 := by
  rw [Finset.mul_sum, Finset.mul_sum, ← Finset.sum_add_distrib, show (n : ℝ) * d ^ 2 = ∑ i ∈ Finset.range n, d ^ 2 by simp,
    ← Finset.sum_add_distrib]
  exact Finset.sum_congr rfl fun i _ => by ring

theorem det_eq {n : ℕ} (hn : n ≠ 0) (X : ℕ → ℝ) :
    det n X = n * ∑ i ∈ Finset.range n, (X i - (∑ i ∈ Finset.range n, X i) / n) ^ 2 := by
  have h := sum_sq_shift n X 1 (-((∑ i ∈ Finset.range n, X i) / n))
  simp only [one_mul, ← sub_eq_add_neg] at h
  rw [h, det]
  have : (n : ℝ) ≠ 0 := by exact_mod_cast hn
  field_simp
  ring

theorem det_nonneg (n : ℕ) (X : ℕ → ℝ) : 0 ≤ det n X := by
  rcases Nat.eq_zero_or_pos n with rfl | h
  · simp [det]
  · rw [det_eq h.ne']
    exact mul_nonneg (Nat.cast_nonneg _) (Finset.sum_nonneg fun i _ => sq_nonneg _)

theorem det_eq_zero {n : ℕ} (hn : n ≠ 0) (X : ℕ → ℝ) (h : det n X = 0) : ∀ i < n, X i = (∑ i ∈ Finset.range n, X i) / n := by
  rw [det_eq hn, mul_eq_zero] at h
  rcases h with h | h
  · exact absurd h (by exact_mod_cast hn)
  · intro i hi
    have := (Finset.sum_eq_zero_iff_of_nonneg (fun i _ => sq_nonneg _)).1 h i (Finset.mem_range.2 hi)
    exact sub_eq_zero.1 (pow_eq_zero_iff (two_ne_zero) |>.1 this)

/-- The slope of the fit. -/
noncomputable def slope (n : ℕ) (X Y : ℕ → ℝ) : ℝ :=
  (n * (∑ i ∈ Finset.range n, X i * Y i) - (∑ i ∈ Finset.range n, X i) * ∑ i ∈ Finset.range n, Y i) / det n X

/-- The intercept of the fit. -/
noncomputable def icept (n : ℕ) (X Y : ℕ → ℝ) : ℝ :=
  ((∑ i ∈ Finset.range n, X i * X i) * (∑ i ∈ Finset.range n, Y i)
    - (∑ i ∈ Finset.range n, X i) * ∑ i ∈ Finset.range n, X i * Y i) / det n X

theorem normal {n : ℕ} {X Y : ℕ → ℝ} (h : det n X ≠ 0) :
    (∑ i ∈ Finset.range n, (Y i - (slope n X Y * X i + icept n X Y)) = 0) ∧
    (∑ i ∈ Finset.range n, X i * (Y i - (slope n X Y * X i + icept n X Y)) = 0) := by
  set a := slope n X Y with ha
  set b := icept n X Y with hb
  have e1 : ∑ i ∈ Finset.range n, (Y i - (a * X i + b)) = (∑ i ∈ Finset.range n, Y i) - (a * (∑ i ∈ Finset.range n, X i) + n * b) := by
    rw [Finset.sum_sub_distrib, Finset.sum_add_distrib, ← Finset.mul_sum]
    simp
  have e2 : ∑ i ∈ Finset.range n, X i * (Y i - (a * X i + b)) = (∑ i ∈ Finset.range n, X i * Y i)
      - (a * (∑ i ∈ Finset.range n, X i * X i) + b * (∑ i ∈ Finset.range n, X i)) := by
    rw [Finset.mul_sum, Finset.mul_sum, ← Finset.sum_add_distrib, ← Finset.sum_sub_distrib]
    exact Finset.sum_congr rfl fun i _ => by ring
  rw [e1, e2, ha, hb, slope, icept]
  set sx := ∑ i ∈ Finset.range n, X i
  set sy := ∑ i ∈ Finset.range n, Y i
  set sxx := ∑ i ∈ Finset.range n, X i * X i with hxx
  set sxy := ∑ i ∈ Finset.range n, X i * Y i
  have hd : det n X = n * sxx - sx * sx := rfl
  constructor
  · field_simp
    rw [hd]; ring
  · field_simp
    rw [hd]; ring

/-- Pythagoras: a line whose residuals are orthogonal to the constants and to the abscissas is the best line. -/
theorem pythag {n : ℕ} {X Y : ℕ → ℝ} {a b : ℝ} (h1 : ∑ i ∈ Finset.range n, (Y i - (a * X i + b)) = 0)
    (h2 : ∑ i ∈ Finset.range n, X i * (Y i - (a * X i + b)) = 0) (c d : ℝ) :
    ∑ i ∈ Finset.range n, (Y i - (c * X i + d)) ^ 2 = (∑ i ∈ Finset.range n, (Y i - (a * X i + b)) ^ 2)
      + ∑ i ∈ Finset.range n, ((a - c) * X i + (b - d)) ^ 2 := by
  have e : ∑ i ∈ Finset.range n, (Y i - (c * X i + d)) ^ 2 = (∑ i ∈ Finset.range n, (Y i - (a * X i + b)) ^ 2)
      + (∑ i ∈ Finset.range n, ((a - c) * X i + (b - d)) ^ 2)
      + (2 * (a - c) * (∑ i ∈ Finset.range n, X i * (Y i - (a * X i + b)))
        + 2 * (b - d) * (∑ i ∈ Finset.range n, (Y i - (a * X i + b)))) := by
    rw [Finset.mul_sum, Finset.mul_sum, ← Finset.sum_add_distrib, ← Finset.sum_add_distrib, ← Finset.sum_add_distrib]
    exact Finset.sum_congr rfl fun i _ => by ring
  rw [e, h1, h2]; ring

theorem many_tab (eps : ℝ) (n : ℕ) (X Y : ℕ → ℝ) :
    many eps n (tab n X) (tab n Y) = if |det n X| < eps * max |n * (∑ i ∈ Finset.range n, X i * X i)|
        |(∑ i ∈ Finset.range n, X i) * ∑ i ∈ Finset.range n, X i| then .exn errSing
      else if det n X = 0 then .ub
      else .ret ⟨slope n X Y, icept n X Y,
        Real.sqrt (∑ i ∈ Finset.range n, (Y i - (slope n X Y * X i + icept n X Y)) ^ 2)⟩ := by
  rw [many, sums_tab, Outcome.bind_ret]
  show (if |det n X| < _ then _ else cramer n _ _ _ (det n X)) = _
  by_cases h : |det n X| < eps * max |n * (∑ i ∈ Finset.range n, X i * X i)|
        |(∑ i ∈ Finset.range n, X i) * ∑ i ∈ Finset.range n, X i|
  · rw [if_pos h, if_pos h]
  · rw [if_neg h, if_neg h]
    by_cases h0 : det n X = 0
    · rw [if_pos h0, cramer, h0, divU, if_pos rfl]; rfl
    · rw [if_neg h0, cramer, divU_of_ne h0, Outcome.bind_ret, divU_of_ne h0, Outcome.bind_ret, resSum_tab, Outcome.bind_ret]
      simp only [slope, icept, sq]

end Verif.Fit
