import Verif.Stats.Model
import Verif.Stats.Spec
import Verif.LoopLemmas
import Verif.Hoare
import Mathlib.Algebra.Order.Ring.Abs
import Mathlib.Algebra.Order.BigOperators.Ring.Finset
import Mathlib.Algebra.BigOperators.Ring.Finset
import Mathlib.Analysis.SpecialFunctions.Pow.Real
import Mathlib.Tactic.Linarith
import Mathlib.Tactic.Ring
import Mathlib.Tactic.NormNum
import Mathlib.Tactic.FieldSimp
import Mathlib.Tactic.Positivity

/-! # Helper lemmas: the accumulating loops of the statistics -/

set_option autoImplicit false

namespace Verif.Stats

open Verif

theorem index_getD {d : List ℝ} {i : ℕ} (h : i < d.length) : Outcome.index d i = .ret (d.getD i 0) := by
  simp [Outcome.index, List.getElem?_eq_getElem h, List.getD]

theorem sum_getD (d : List ℝ) (g : ℝ → ℝ) : ∑ i ∈ Finset.range d.length, g (d.getD i 0) = (d.map g).sum := by
  induction d with
  | nil => simp
  | cons a d ih => rw [List.length_cons, Finset.sum_range_succ', List.map_cons, List.sum_cons, ← ih, add_comm]; rfl

theorem sum_getD₂ (x y : List ℝ) (h : y.length = x.length) (g : ℝ → ℝ → ℝ) :
    ∑ i ∈ Finset.range x.length, g (x.getD i 0) (y.getD i 0) = (List.zipWith g x y).sum := by
  induction x generalizing y with
  | nil => simp
  | cons a x ih =>
    cases y with
    | nil => simp at h
    | cons b y =>
      rw [List.length_cons, Finset.sum_range_succ', List.zipWith_cons_cons, List.sum_cons, ← ih y (by simpa using h), add_comm]
      rfl

theorem quot_of_ne {a b : ℝ} (h : b ≠ 0) : quot a b = .ret (a / b) := by simp [quot, h]

theorem cast_length_ne {d : List ℝ} (h : d ≠ []) : (d.length : ℝ) ≠ 0 := by
  simpa using h

theorem sum_loop (d : List ℝ) : forRange d.length 0 (sumStep d) = .ret d.sum := by
  rw [forRange_sum d.length 0 (sumStep d) (fun i => d.getD i 0) fun i hi s => by simp only [sumStep, index_getD hi]; rfl,
    zero_add, sum_getD d fun x => x]
  simp

theorem avg_eq {d : List ℝ} (h : d ≠ []) : avg d = .ret (mean d) := by
  have hn : 0 < d.length := List.length_pos_iff.2 h
  rw [avg, if_neg (by omega), sum_loop, Outcome.bind_ret, quot_of_ne (cast_length_ne h), mean]

/-- Deviations from the mean add up to zero. -/
theorem sum_dev (d : List ℝ) : (d.map fun x => x - mean d).sum = 0 := by
  rcases eq_or_ne d [] with rfl | h
  · simp
  have : (d.map fun x => x - mean d).sum = d.sum - d.length * mean d := by
    rw [← sum_getD d fun x => x - mean d, Finset.sum_sub_distrib, sum_getD d fun x => x]
    simp
  rw [this, mean]
  have := cast_length_ne h
  field_simp
  ring

theorem coprod_eq (x y : List ℝ) (h : y.length = x.length) :
    coprod x y = ∑ i ∈ Finset.range x.length, (x.getD i 0 - mean x) * (y.getD i 0 - mean y) := by
  rw [sum_getD₂ x y h fun a b => (a - mean x) * (b - mean y), coprod]

theorem devSum_eq (k : ℕ) (d : List ℝ) : devSum k d = ∑ i ∈ Finset.range d.length, (d.getD i 0 - mean d) ^ k := by
  rw [sum_getD d fun x => (x - mean d) ^ k, devSum]

theorem coprod_self (x : List ℝ) : coprod x x = devSum 2 x := by
  rw [coprod_eq x x rfl, devSum_eq]
  exact Finset.sum_congr rfl fun i _ => by ring

theorem coprod_comm (x y : List ℝ) (h : y.length = x.length) : coprod x y = coprod y x := by
  rw [coprod_eq x y h, coprod_eq y x h.symm, h]
  exact Finset.sum_congr rfl fun i _ => by ring

theorem devSum_two_nonneg (d : List ℝ) : 0 ≤ devSum 2 d := by
  rw [devSum_eq]; exact Finset.sum_nonneg fun i _ => sq_nonneg _

theorem devSum_two_eq_zero (d : List ℝ) : devSum 2 d = 0 ↔ ∀ x ∈ d, ∀ y ∈ d, x = y := by
  constructor
  · intro h
    have h0 : ∀ x ∈ d, x = mean d := by
      intro x hx
      obtain ⟨i, hi, rfl⟩ := List.mem_iff_getElem.1 hx
      rw [devSum_eq, Finset.sum_eq_zero_iff_of_nonneg fun i _ => sq_nonneg _] at h
      have := h i (Finset.mem_range.2 hi)
      have := pow_eq_zero_iff (two_ne_zero) |>.1 this
      simp [List.getD, List.getElem?_eq_getElem hi] at this
      linarith
    intro x hx y hy
    rw [h0 x hx, h0 y hy]
  · intro h
    rcases eq_or_ne d [] with rfl | hd
    · simp [devSum]
    obtain ⟨a, ha⟩ := List.exists_mem_of_ne_nil d hd
    have hm : mean d = a := by
      rw [mean, List.sum_eq_card_nsmul d a fun x hx => h x hx a ha]
      have := cast_length_ne hd
      rw [nsmul_eq_mul]; field_simp
    rw [devSum, List.sum_eq_zero]
    intro y hy
    obtain ⟨x, hx, rfl⟩ := List.mem_map.1 hy
    rw [hm, h x hx a ha]; ring

/-- The Cauchy-Schwarz inequality for deviations. -/
theorem coprod_sq_le (x y : List ℝ) (h : y.length = x.length) : coprod x y ^ 2 ≤ devSum 2 x * devSum 2 y := by
  rw [coprod_eq x y h, devSum_eq, devSum_eq, h]
  exact Finset.sum_mul_sq_le_sq_mul_sq _ _ _

theorem mean_affine {d : List ℝ} (h : d ≠ []) (a b : ℝ) : mean (d.map fun x => a * x + b) = a * mean d + b := by
  have hn := cast_length_ne h
  have : (d.map fun x => a * x + b).sum = a * d.sum + d.length * b := by
    rw [← sum_getD d fun x => a * x + b, Finset.sum_add_distrib, ← Finset.mul_sum, sum_getD d fun x => x]
    simp
  rw [mean, mean, this, List.length_map]
  field_simp

theorem devSum_affine {d : List ℝ} (k : ℕ) (a b : ℝ) : devSum k (d.map fun x => a * x + b) = a ^ k * devSum k d := by
  rcases eq_or_ne d [] with rfl | h
  · simp [devSum]
  rw [devSum, mean_affine h, List.map_map, devSum, ← List.sum_map_mul_left]
  congr 1
  refine List.map_congr_left fun x _ => ?_
  simp only [Function.comp]
  rw [← mul_pow]; ring

theorem coprod_affine (x y : List ℝ) (h : y.length = x.length) (a b c e : ℝ) :
    coprod (x.map fun t => a * t + b) (y.map fun t => c * t + e) = a * c * coprod x y := by
  rcases eq_or_ne x [] with rfl | hx
  · simp [coprod]
  have hy : y ≠ [] := by rintro rfl; exact hx (List.length_eq_zero_iff.1 h.symm)
  rw [coprod, mean_affine hx, mean_affine hy, List.zipWith_map, coprod, ← sum_getD₂ x y h, ← sum_getD₂ x y h, Finset.mul_sum]
  exact Finset.sum_congr rfl fun i _ => by ring

end Verif.Stats
