import Verif.Integ.Model
import Verif.Integ.Spec

/-!
# Facts about the refining trapezoidal sums
-/

set_option autoImplicit false

namespace Verif.Integ

open Verif

theorem subDiv_eq (n : ℕ) (hn : n ≤ 30) : subDiv n = .ret (2 ^ n) := by
  induction n with
  | zero => rfl
  | succ n ih =>
    rw [subDiv, ih (by omega)]
    simp only [Outcome.bind_ret]
    have : 2 ^ n * 2 ≤ 2147483647 := by
      have : 2 ^ n ≤ 2 ^ 29 := Nat.pow_le_pow_right (by norm_num) (by omega)
      omega
    rw [if_pos this, pow_succ]

theorem subDiv_overflow (n : ℕ) (hn : 31 ≤ n) : subDiv n = .ub := by
  induction n, hn using Nat.le_induction with
  | base =>
    rw [subDiv, subDiv_eq 30 le_rfl]
    simp
  | succ n _ ih =>
    rw [subDiv, ih]
    simp

theorem sample_eq (f : ℝ → ℝ) (del : ℝ) (n : ℕ) (x s : ℝ) :
    sample f del n x s = s + ∑ k ∈ Finset.range n, f (x + k * del) := by
  induction n generalizing x s with
  | zero => simp [sample]
  | succ n ih =>
    rw [sample, ih, Finset.sum_range_succ']
    simp only [Nat.cast_zero, zero_mul, add_zero]
    rw [add_assoc, add_comm (f x)]
    congr 2
    refine Finset.sum_congr rfl fun k _ => ?_
    push_cast
    congr 1
    ring

theorem sum_range_double (g : ℕ → ℝ) (N : ℕ) :
    ∑ k ∈ Finset.range (2 * N), g k = ∑ k ∈ Finset.range N, (g (2 * k) + g (2 * k + 1)) := by
  induction N with
  | zero => simp
  | succ N ih =>
    rw [Finset.sum_range_succ, ← ih, show 2 * (N + 1) = 2 * N + 1 + 1 by ring, Finset.sum_range_succ, Finset.sum_range_succ]
    ring

/-- Doubling the number of panels. -/
theorem trapezoid_double (f : ℝ → ℝ) (a b : ℝ) (N : ℕ) (hN : 0 < N) :
    trapezoid f a b (2 * N) =
      1 / 2 * (trapezoid f a b N + (b - a) / N * ∑ k ∈ Finset.range N, f (node a b N (k + 1 / 2))) := by
  have hN' : (N : ℝ) ≠ 0 := by positivity
  rw [trapezoid, trapezoid, sum_range_double, Finset.mul_sum, ← Finset.sum_add_distrib, Finset.mul_sum]
  refine Finset.sum_congr rfl fun k _ => ?_
  have e0 : node a b (2 * N) ((2 * k : ℕ) : ℝ) = node a b N k := by
    simp only [node]; push_cast; field_simp
  have e1 : node a b (2 * N) (((2 * k : ℕ) : ℝ) + 1) = node a b N (k + 1 / 2) := by
    simp only [node]; push_cast; field_simp
  have e2 : node a b (2 * N) ((2 * k + 1 : ℕ) : ℝ) = node a b N (k + 1 / 2) := by
    simp only [node]; push_cast; field_simp
  have e3 : node a b (2 * N) (((2 * k + 1 : ℕ) : ℝ) + 1) = node a b N (k + 1) := by
    simp only [node]; push_cast; field_simp; ring
  rw [e0, e1, e2, e3]
  push_cast
  field_simp
  ring

/-- Simpson's rule from two trapezoidal sums. -/
theorem simpson_eq (f : ℝ → ℝ) (a b : ℝ) (N : ℕ) (hN : 0 < N) :
    simpson f a b N = (4 * trapezoid f a b (2 * N) - trapezoid f a b N) / 3 := by
  rw [trapezoid_double f a b N hN, simpson, trapezoid]
  have e : ∑ k ∈ Finset.range N,
      (b - a) / N * ((f (node a b N k) + 4 * f (node a b N (k + 1 / 2)) + f (node a b N (k + 1))) / 6) =
      1 / 3 * ∑ k ∈ Finset.range N, (b - a) / N * ((f (node a b N k) + f (node a b N (k + 1))) / 2) +
      2 / 3 * ((b - a) / N * ∑ k ∈ Finset.range N, f (node a b N (k + 1 / 2))) := by
    simp only [Finset.mul_sum]
    rw [← Finset.sum_add_distrib]
    refine Finset.sum_congr rfl fun k _ => ?_
    ring
  rw [e]
  ring

/-- The state of the integrator after `k + 1` calls. -/
noncomputable def stage (f : ℝ → ℝ) (a b : ℝ) (k : ℕ) : Trap := ⟨k + 1, trapezoid f a b (2 ^ k)⟩

theorem next_zero (f : ℝ → ℝ) (a b s : ℝ) : Trap.next f a b ⟨0, s⟩ = .ret (stage f a b 0) := by
  simp only [Trap.next, zero_add, if_true, stage, pow_zero, trapezoid, Finset.sum_range_one, node]
  congr 2
  push_cast
  simp
  ring

theorem next_stage (f : ℝ → ℝ) (a b : ℝ) (k : ℕ) (hk : k ≤ 30) :
    Trap.next f a b (stage f a b k) = .ret (stage f a b (k + 1)) := by
  have hN : 0 < 2 ^ k := by positivity
  simp only [Trap.next, stage, Trap.refine, show k + 1 + 1 - 2 = k by omega, subDiv_eq k hk, Outcome.bind_ret]
  rw [if_neg (by omega)]
  congr 2
  rw [show 2 ^ (k + 1) = 2 * 2 ^ k by ring, trapezoid_double f a b _ hN, sample_eq, zero_add]
  have e : ∑ j ∈ Finset.range (2 ^ k), f (a + 1 / 2 * ((b - a) / ((2 ^ k : ℕ) : ℝ)) + j * ((b - a) / ((2 ^ k : ℕ) : ℝ))) =
      ∑ j ∈ Finset.range (2 ^ k), f (node a b (2 ^ k) (j + 1 / 2)) := by
    refine Finset.sum_congr rfl fun j _ => ?_
    simp only [node]
    congr 1
    ring
  rw [e]
  ring

theorem next_overflow (f : ℝ → ℝ) (a b : ℝ) (k : ℕ) (hk : 31 ≤ k) : Trap.next f a b (stage f a b k) = .ub := by
  simp only [Trap.next, stage, Trap.refine, show k + 1 + 1 - 2 = k by omega, subDiv_overflow k hk, Outcome.bind_ub]
  rw [if_neg (by omega)]

end Verif.Integ
