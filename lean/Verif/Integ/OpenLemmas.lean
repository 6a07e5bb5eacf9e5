import Verif.Integ.OpenModel
import Verif.Integ.PolyTrap
import Verif.Integ.RombergProps

/-!
# Facts about the refining midpoint sums
-/

set_option autoImplicit false

namespace Verif.Integ

open Verif Polynomial

theorem triple_eq (n : ℕ) (hn : n ≤ 19) : triple n = .ret (3 ^ n) := by
  induction n with
  | zero => rfl
  | succ n ih =>
    rw [triple, ih (by omega)]
    simp only [Outcome.bind_ret]
    have : 3 ^ n * 3 ≤ 2147483647 := by
      have : 3 ^ n ≤ 3 ^ 18 := Nat.pow_le_pow_right (by norm_num) (by omega)
      omega
    rw [if_pos this, pow_succ]

theorem triple_overflow (n : ℕ) (hn : 20 ≤ n) : triple n = .ub := by
  induction n, hn using Nat.le_induction with
  | base =>
    rw [triple, triple_eq 19 le_rfl]
    simp
  | succ n _ ih =>
    rw [triple, ih]
    simp

theorem sampleTwo_eq (f : ℝ → ℝ) (del ddel : ℝ) (n : ℕ) (x s : ℝ) :
    sampleTwo f del ddel n x s =
      s + ∑ k ∈ Finset.range n, (f (x + k * (ddel + del)) + f (x + k * (ddel + del) + ddel)) := by
  induction n generalizing x s with
  | zero => simp [sampleTwo]
  | succ n ih =>
    rw [sampleTwo, ih, Finset.sum_range_succ']
    simp only [Nat.cast_zero, zero_mul, add_zero]
    have e : ∀ k : ℕ, x + ddel + del + k * (ddel + del) = x + ((k + 1 : ℕ) : ℝ) * (ddel + del) := by
      intro k
      push_cast
      ring
    simp only [e]
    ring

theorem sum_range_triple (g : ℕ → ℝ) (N : ℕ) :
    ∑ k ∈ Finset.range (3 * N), g k = ∑ k ∈ Finset.range N, (g (3 * k) + g (3 * k + 1) + g (3 * k + 2)) := by
  induction N with
  | zero => simp
  | succ N ih =>
    rw [Finset.sum_range_succ, ← ih, show 3 * (N + 1) = 3 * N + 1 + 1 + 1 by ring, Finset.sum_range_succ,
      Finset.sum_range_succ, Finset.sum_range_succ]
    ring

/-- Tripling the number of panels. -/
theorem midpoint_triple (f : ℝ → ℝ) (a b : ℝ) (N : ℕ) (hN : 0 < N) :
    midpoint f a b (3 * N) = (midpoint f a b N + (b - a) / N *
      ∑ k ∈ Finset.range N, (f (node a b N (k + 1 / 6)) + f (node a b N (k + 5 / 6)))) / 3 := by
  have hN' : (N : ℝ) ≠ 0 := by positivity
  rw [midpoint, midpoint, sum_range_triple, Finset.mul_sum, ← Finset.sum_add_distrib, div_eq_mul_inv (Finset.sum _ _),
    Finset.sum_mul]
  refine Finset.sum_congr rfl fun k _ => ?_
  have e0 : node a b (3 * N) (((3 * k : ℕ) : ℝ) + 1 / 2) = node a b N (k + 1 / 6) := by
    simp only [node]; push_cast; field_simp; ring
  have e1 : node a b (3 * N) (((3 * k + 1 : ℕ) : ℝ) + 1 / 2) = node a b N (k + 1 / 2) := by
    simp only [node]; push_cast; field_simp; ring
  have e2 : node a b (3 * N) (((3 * k + 2 : ℕ) : ℝ) + 1 / 2) = node a b N (k + 5 / 6) := by
    simp only [node]; push_cast; field_simp; ring
  rw [e0, e1, e2]
  push_cast
  field_simp
  ring

/-- The midpoint rule from two trapezoidal sums. -/
theorem midpoint_eq (f : ℝ → ℝ) (a b : ℝ) (N : ℕ) (hN : 0 < N) :
    midpoint f a b N = 2 * trapezoid f a b (2 * N) - trapezoid f a b N := by
  rw [trapezoid_double f a b N hN, midpoint, Finset.mul_sum]
  ring

/-- The state of the integrator before round `j`. -/
noncomputable def midBefore (f : ℝ → ℝ) (a b : ℝ) : ℕ → Mid
  | 0 => ⟨0, 0⟩
  | j + 1 => ⟨j + 1, midpoint f a b (3 ^ j)⟩

theorem mid_next (f : ℝ → ℝ) (a b : ℝ) (j : ℕ) (hj : j ≤ 20) :
    (midBefore f a b j).next f a b = .ret (midBefore f a b (j + 1)) := by
  cases j with
  | zero =>
    simp only [midBefore, Mid.next, zero_add, if_true, pow_zero, midpoint, Finset.sum_range_one, node]
    congr 2
    push_cast
    simp
    left
    ring_nf
  | succ k =>
    have hN : 0 < 3 ^ k := by positivity
    have hN' : ((3 ^ k : ℕ) : ℝ) ≠ 0 := by positivity
    simp only [midBefore, Mid.next, Mid.refine, show k + 1 + 1 - 2 = k by omega, triple_eq k (by omega), Outcome.bind_ret]
    rw [if_neg (by omega)]
    congr 2
    rw [show 3 ^ (k + 1) = 3 * 3 ^ k by ring, midpoint_triple f a b _ hN, sampleTwo_eq, zero_add]
    congr 1
    congr 1
    rw [mul_div_right_comm]
    congr 1
    refine Finset.sum_congr rfl fun i _ => ?_
    have e1 : ∀ i : ℝ, a + 1 / 2 * ((b - a) / (3 * ((3 ^ k : ℕ) : ℝ))) + i * ((b - a) / (3 * ((3 ^ k : ℕ) : ℝ)) +
        (b - a) / (3 * ((3 ^ k : ℕ) : ℝ)) + (b - a) / (3 * ((3 ^ k : ℕ) : ℝ))) = node a b (3 ^ k) (i + 1 / 6) := by
      intro i
      simp only [node]
      field_simp
      ring
    have e2 : ∀ i : ℝ, node a b (3 ^ k) (i + 1 / 6) + ((b - a) / (3 * ((3 ^ k : ℕ) : ℝ)) + (b - a) / (3 * ((3 ^ k : ℕ) : ℝ))) =
        node a b (3 ^ k) (i + 5 / 6) := by
      intro i
      simp only [node]
      field_simp
      ring
    rw [e1, e2]

/-- **C79, corner.**  The 22nd call of `MidpointIntegrator::next` overflows an `int`: `JMAX` must not exceed 21. -/
theorem mid_overflows (f : ℝ → ℝ) (a b : ℝ) (j : ℕ) (hj : 21 ≤ j) : (midBefore f a b j).next f a b = .ub := by
  obtain ⟨k, rfl⟩ : ∃ k, j = k + 1 := ⟨j - 1, by omega⟩
  simp only [midBefore, Mid.next, Mid.refine, show k + 1 + 1 - 2 = k by omega, triple_overflow k (by omega), Outcome.bind_ub]
  rw [if_neg (by omega)]

theorem mid_drives (f : ℝ → ℝ) (a b : ℝ) (M : ℕ) (hM : M ≤ 21) :
    Drives (Mid.emit f a b) (fun den => den = 0) (1 / 9) (midBefore f a b) (fun k => midpoint f a b (3 ^ k)) M where
  next := by
    intro j hj
    rw [Mid.emit, mid_next f a b j (by omega)]
    rfl
  pos := by norm_num
  lt_one := by norm_num
  sep := by
    intro p m _ h
    have : (1 / 9 : ℝ) ^ (p + (m + 1)) < (1 / 9) ^ p := pow_right_strictAnti₀ (by norm_num) (by norm_num) (by omega)
    linarith

/-! ## Polynomials -/

/-- The expansion of the midpoint sum of a polynomial in powers of the squared step. -/
noncomputable def midExpansion (p : ℝ[X]) (a b : ℝ) : ℝ[X] :=
  C 2 * (expansion p a b).comp (C (1 / 4) * X) - expansion p a b

theorem midExpansion_degree (p : ℝ[X]) (a b : ℝ) : (midExpansion p a b).natDegree ≤ p.natDegree / 2 := by
  have h := expansion_degree p a b
  refine (natDegree_sub_le _ _).trans (max_le ((natDegree_C_mul_le _ _).trans (natDegree_comp_le.trans ?_)) h)
  have h1 : (C (1 / 4 : ℝ) * X : ℝ[X]).natDegree ≤ 1 := (natDegree_C_mul_le _ _).trans natDegree_X_le
  calc _ ≤ (expansion p a b).natDegree * 1 := Nat.mul_le_mul_left _ h1
    _ ≤ _ := by omega

theorem midExpansion_zero (p : ℝ[X]) (a b : ℝ) : (midExpansion p a b).eval 0 = ∫ x in a..b, p.eval x := by
  rw [← expansion_zero]
  simp only [midExpansion, eval_sub, eval_mul, eval_C, eval_comp, eval_X, mul_zero]
  ring

theorem midpoint_poly (p : ℝ[X]) (a b : ℝ) (i : ℕ) :
    midpoint (fun x => p.eval x) a b (3 ^ i) = (midExpansion p a b).eval ((1 / 9 : ℝ) ^ i) := by
  rw [midpoint_eq _ _ _ _ (by positivity), trapezoid_poly p a b _ (by positivity), trapezoid_poly p a b _ (by positivity)]
  have e : (1 : ℝ) / ((3 ^ i : ℕ) : ℝ) ^ 2 = (1 / 9) ^ i := by
    rw [one_div_pow, Nat.cast_pow, ← pow_mul, mul_comm, pow_mul]
    norm_num
  have e' : (1 : ℝ) / ((2 * 3 ^ i : ℕ) : ℝ) ^ 2 = 1 / 4 * (1 / 9) ^ i := by
    rw [← e]
    push_cast
    field_simp
    norm_num
  rw [e, e']
  simp only [midExpansion, eval_sub, eval_mul, eval_C, eval_comp, eval_X]

end Verif.Integ
