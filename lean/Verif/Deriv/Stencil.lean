import Mathlib.Analysis.Calculus.Taylor

/-!
# Weighted differences and their truncation error

The general fact about finite differences: weights with the right moments give the derivative up to an error controlled by
the first derivative that the moments do not match.
-/

set_option autoImplicit false

namespace Verif.Deriv

/-- The sum of `weight * f (x + offset * h)` over a list of weights and offsets. -/
noncomputable def stencil (l : List (ℝ × ℝ)) (f : ℝ → ℝ) (x h : ℝ) : ℝ := (l.map fun p => p.1 * f (x + p.2 * h)).sum

/-- The sum of `weight * offset ^ m`. -/
noncomputable def moment (l : List (ℝ × ℝ)) (m : ℕ) : ℝ := (l.map fun p => p.1 * p.2 ^ m).sum

/-- The sum of `|weight| * |offset| ^ m`. -/
noncomputable def absMoment (l : List (ℝ × ℝ)) (m : ℕ) : ℝ := (l.map fun p => |p.1| * |p.2| ^ m).sum

/-- Taylor's theorem in the form used here. -/
theorem taylor_bound (f : ℝ → ℝ) (x t M : ℝ) (n : ℕ)
    (hf : ∀ y ∈ Set.uIcc x (x + t), ContDiffAt ℝ (n + 1) f y)
    (hM : ∀ y ∈ Set.uIcc x (x + t), |iteratedDeriv (n + 1) f y| ≤ M) :
    |f (x + t) - ∑ m ∈ Finset.range (n + 1), iteratedDeriv m f x * t ^ m / m.factorial| ≤
      M * |t| ^ (n + 1) / (n + 1).factorial := by
  by_cases ht : t = 0
  · subst ht
    rw [Finset.sum_range_succ']
    simp
  have hx : x ≠ x + t := by
    intro e
    exact ht (by linarith)
  obtain ⟨y, hy, he⟩ := taylor_mean_remainder_lagrange_iteratedDeriv hx
    (fun y hy => (hf y hy).contDiffWithinAt)
  have hy' : y ∈ Set.uIcc x (x + t) := ⟨hy.1.le, hy.2.le⟩
  have hs : taylorWithinEval f n (Set.uIcc x (x + t)) x (x + t) =
      ∑ m ∈ Finset.range (n + 1), iteratedDeriv m f x * t ^ m / m.factorial := by
    rw [taylor_within_apply]
    refine Finset.sum_congr rfl fun m hm => ?_
    rw [iteratedDerivWithin_eq_iteratedDeriv (uniqueDiffOn_uIcc hx) _ Set.left_mem_uIcc, smul_eq_mul, add_sub_cancel_left]
    · ring
    · refine (hf x Set.left_mem_uIcc).of_le ?_
      have : m ≤ n + 1 := by have := Finset.mem_range.mp hm; omega
      exact_mod_cast this
  rw [← hs, he, add_sub_cancel_left, abs_div, abs_mul, abs_pow, Nat.abs_cast]
  gcongr
  exact hM y hy'

theorem abs_stencil_le (l : List (ℝ × ℝ)) (n : ℕ) (r : ℝ → ℝ) (h C : ℝ) (hh : 0 ≤ h)
    (hr : ∀ p ∈ l, |r p.2| ≤ C * |p.2 * h| ^ n) :
    |(l.map fun p => p.1 * r p.2).sum| ≤ absMoment l n * C * h ^ n := by
  induction l with
  | nil => simp [absMoment]
  | cons p l ih =>
    have ih := ih fun q hq => hr q (List.mem_cons_of_mem _ hq)
    have hp := hr p (List.mem_cons_self ..)
    simp only [absMoment, List.map_cons, List.sum_cons] at ih ⊢
    refine (abs_add_le _ _).trans ?_
    rw [abs_mul]
    have : |p.1| * |r p.2| ≤ |p.1| * (C * |p.2 * h| ^ n) := mul_le_mul_of_nonneg_left hp (abs_nonneg _)
    rw [abs_mul, mul_pow, abs_of_nonneg hh] at this
    linarith

/-- If the weights have the moments of the `d`-th derivative up to degree `n`, the weighted sum divided by `h^d` is the
`d`-th derivative up to a multiple of the bound on the derivative of order `n + 1` and of `h ^ (n + 1 - d)`. -/
theorem stencil_error (l : List (ℝ × ℝ)) (f : ℝ → ℝ) (x h M K : ℝ) (n d : ℕ) (hd : d ≤ n) (hh : 0 < h)
    (hK : ∀ p ∈ l, |p.2| ≤ K)
    (hf : ∀ y, |y - x| ≤ K * h → ContDiffAt ℝ (n + 1) f y)
    (hM : ∀ y, |y - x| ≤ K * h → |iteratedDeriv (n + 1) f y| ≤ M)
    (hm : ∀ m ≤ n, moment l m = if m = d then (d.factorial : ℝ) else 0) :
    |stencil l f x h / h ^ d - iteratedDeriv d f x| ≤
      absMoment l (n + 1) / (n + 1).factorial * M * h ^ (n + 1 - d) := by
  have hseg : ∀ p ∈ l, ∀ y ∈ Set.uIcc x (x + p.2 * h), |y - x| ≤ K * h := by
    intro p hp y hy
    have h1 : |y - x| ≤ |p.2 * h| := by
      have := Set.abs_sub_left_of_mem_uIcc hy
      simpa using this
    rw [abs_mul, abs_of_pos hh] at h1
    exact h1.trans (mul_le_mul_of_nonneg_right (hK p hp) hh.le)
  set r : ℝ → ℝ := fun k => f (x + k * h) - ∑ m ∈ Finset.range (n + 1), iteratedDeriv m f x * (k * h) ^ m / m.factorial
    with hr
  have hrb : ∀ p ∈ l, |r p.2| ≤ M / (n + 1).factorial * |p.2 * h| ^ (n + 1) := by
    intro p hp
    have := taylor_bound f x (p.2 * h) M n (fun y hy => hf y (hseg p hp y hy)) (fun y hy => hM y (hseg p hp y hy))
    rw [hr]
    refine this.trans (le_of_eq ?_)
    ring
  have hsplit : ∀ l' : List (ℝ × ℝ), stencil l' f x h =
      (l'.map fun p => p.1 * r p.2).sum +
        ∑ m ∈ Finset.range (n + 1), moment l' m * (iteratedDeriv m f x * h ^ m / m.factorial) := by
    intro l'
    induction l' with
    | nil => simp [stencil, moment]
    | cons p l' ih =>
      simp only [stencil, moment, List.map_cons, List.sum_cons] at ih ⊢
      rw [ih]
      simp only [add_mul, Finset.sum_add_distrib]
      have e : p.1 * f (x + p.2 * h) = p.1 * r p.2 +
          ∑ m ∈ Finset.range (n + 1), p.1 * p.2 ^ m * (iteratedDeriv m f x * h ^ m / m.factorial) := by
        rw [hr]
        dsimp only
        rw [mul_sub, Finset.mul_sum, eq_comm, sub_add_eq_add_sub, sub_eq_iff_eq_add]
        congr 1
        refine Finset.sum_congr rfl fun m _ => ?_
        rw [mul_pow]
        ring
      linarith
  have hsum : ∑ m ∈ Finset.range (n + 1), moment l m * (iteratedDeriv m f x * h ^ m / m.factorial) =
      iteratedDeriv d f x * h ^ d := by
    rw [Finset.sum_eq_single d]
    · rw [hm d hd, if_pos rfl]
      have : (d.factorial : ℝ) ≠ 0 := by exact_mod_cast d.factorial_ne_zero
      field_simp
    · intro m hm' hne
      rw [hm m (by have := Finset.mem_range.mp hm'; omega), if_neg hne, zero_mul]
    · intro h'
      exact absurd (Finset.mem_range.mpr (by omega)) h'
  have hb := abs_stencil_le l (n + 1) r h _ hh.le hrb
  rw [hsplit l, hsum]
  have e : ((l.map fun p => p.1 * r p.2).sum + iteratedDeriv d f x * h ^ d) / h ^ d - iteratedDeriv d f x =
      (l.map fun p => p.1 * r p.2).sum / h ^ d := by
    have : h ^ d ≠ 0 := pow_ne_zero _ hh.ne'
    field_simp
    ring
  rw [e, abs_div, abs_of_pos (pow_pos hh d), div_le_iff₀ (pow_pos hh d)]
  refine hb.trans (le_of_eq ?_)
  have : h ^ (n + 1) = h ^ (n + 1 - d) * h ^ d := by rw [← pow_add]; congr 1; omega
  rw [this]
  ring

end Verif.Deriv
