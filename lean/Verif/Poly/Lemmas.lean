import Verif.Poly.Model
import Verif.Poly.Spec
import Verif.LoopLemmas
import Mathlib.Algebra.Polynomial.Eval.Degree
import Mathlib.Algebra.Polynomial.Degree.Lemmas
import Mathlib.Tactic.Ring
import Mathlib.Tactic.LinearCombination

/-! # Helper lemmas on the polynomial model -/

set_option autoImplicit false

namespace Verif.Poly

open Polynomial

variable {K : Type} [Field K]

/-- The polynomial with coefficients `f 0, …, f (n-1)`. -/
noncomputable def pl (n : ℕ) (f : ℕ → K) : K[X] := ∑ i ∈ Finset.range n, C (f i) * X ^ i

theorem pl_succ (n : ℕ) (f : ℕ → K) : pl (n + 1) f = pl n f + C (f n) * X ^ n := Finset.sum_range_succ _ _

theorem pl_zero (f : ℕ → K) : pl 0 f = 0 := rfl

theorem pl_congr {n : ℕ} {f g : ℕ → K} (h : ∀ i < n, f i = g i) : pl n f = pl n g :=
  Finset.sum_congr rfl fun i hi => by rw [h i (Finset.mem_range.1 hi)]

theorem pl_coeff (n : ℕ) (f : ℕ → K) (i : ℕ) : (pl n f).coeff i = if i < n then f i else 0 := by
  simp only [pl, finsetSum_coeff, coeff_C_mul, coeff_X_pow, mul_ite, mul_one, mul_zero]
  simp

theorem pl_eval (n : ℕ) (f : ℕ → K) (x : K) : (pl n f).eval x = ∑ i ∈ Finset.range n, f i * x ^ i := by
  simp [pl, eval_finsetSum]

theorem pl_degree_lt (n : ℕ) (f : ℕ → K) : (pl n f).degree < n := by
  rw [degree_lt_iff_coeff_zero]
  intro m hm
  rw [pl_coeff, if_neg (by omega)]

theorem pl_extend {n m : ℕ} (h : n ≤ m) (f : ℕ → K) (h0 : ∀ i, n ≤ i → i < m → f i = 0) : pl m f = pl n f := by
  ext i
  rw [pl_coeff, pl_coeff]
  by_cases h1 : i < n
  · rw [if_pos h1, if_pos (by omega)]
  · rw [if_neg h1]
    by_cases h2 : i < m
    · rw [if_pos h2, h0 i (by omega) h2]
    · rw [if_neg h2]

theorem toPoly_tab (n : ℕ) (f : ℕ → K) : toPoly (tab n f) = pl n f := by
  unfold toPoly pl
  rw [length_tab]
  exact Finset.sum_congr rfl fun i hi => by rw [getD_tab _ _ _ (Finset.mem_range.1 hi)]

theorem toPoly_coeff (v : List K) (i : ℕ) : (toPoly v).coeff i = v.getD i 0 := by
  obtain ⟨n, f, rfl⟩ := exists_tab v 0
  rw [toPoly_tab, pl_coeff]
  simp only [List.getD, getElem?_tab]
  split <;> rfl

theorem addAt_tab {n : ℕ} (f : ℕ → K) {i : ℕ} (h : i < n) (a : K) :
    addAt (tab n f) i a = .ret (tab n (fun k => if k = i then f k + a else f k)) := by
  simp only [addAt, index_tab f h, Outcome.bind_ret, store_tab f h]
  congr 1
  refine tab_congr fun k _ => ?_
  by_cases hk : k = i
  · subst hk; simp
  · simp [hk]

/-- Horner's rule from the top. -/
theorem horner_sum (f : ℕ → K) (x : K) (n k : ℕ) (h : k ≤ n) :
    ∑ i ∈ Finset.range (n + 1), f i * x ^ i =
      (∑ i ∈ Finset.range (n + 1 - k), f (k + i) * x ^ i) * x ^ k + ∑ i ∈ Finset.range k, f i * x ^ i := by
  have := Finset.sum_range_add_sum_Ico (fun i => f i * x ^ i) (show k ≤ n + 1 by omega)
  rw [← this, Finset.sum_Ico_eq_sum_range, Finset.sum_mul, add_comm]
  congr 1
  exact Finset.sum_congr rfl fun i _ => by rw [pow_add]; ring

theorem eval_tab (n : ℕ) (f : ℕ → K) (x : K) : eval (tab n f) x = .ret ((pl n f).eval x) := by
  cases n with
  | zero => simp [eval, tab, pl_zero]
  | succ n =>
    have he : (tab (n + 1) f).isEmpty = false := by
      rw [List.isEmpty_eq_false_iff]; intro h
      have := congrArg List.length h
      simp at this
    simp only [eval, he, length_tab, Nat.add_sub_cancel, index_tab f (Nat.lt_succ_self n), Outcome.bind_ret]
    simp only [Bool.false_eq_true, if_false]
    obtain ⟨t, ht, hP⟩ := forDown_rule
      (fun i p => p = ∑ k ∈ Finset.range (n + 1 - i), f (i + k) * x ^ k) 0 n (Nat.zero_le _) (f n * 1)
      (fun p i => do
        let c ← Outcome.index (tab (n + 1) f) i
        Outcome.ret (p * x + c)) (by simp)
      (by
        rintro i p _ hi rfl
        refine ⟨_, by rw [index_tab f (by omega), Outcome.bind_ret], ?_⟩
        rw [show n + 1 - i = (n + 1 - (i + 1)) + 1 by omega, Finset.sum_range_succ', Finset.sum_mul]
        simp only [pow_zero, mul_one, add_zero]
        congr 1
        refine Finset.sum_congr rfl fun k _ => ?_
        rw [show i + 1 + k = i + (k + 1) by ring]; ring)
    rw [ht, hP, pl_eval]
    simp

end Verif.Poly
