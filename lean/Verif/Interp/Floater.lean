import Verif.Interp.Spec
import Mathlib.LinearAlgebra.Lagrange
import Mathlib.Algebra.Order.BigOperators.Ring.Finset
import Mathlib.Algebra.BigOperators.Intervals
import Mathlib.Tactic.Linarith
import Mathlib.Tactic.NormNum
import Mathlib.Tactic.Positivity
import Mathlib.Tactic.Ring
import Mathlib.Tactic.FieldSimp

/-!
# Blends of polynomials with alternating signs

The theorem of Floater and Hormann: the blend of the interpolating polynomials of all windows of `d + 1` neighbouring points has no
poles.  Does not refer to the model.
-/

set_option autoImplicit false

namespace Verif.Interp

open Finset Polynomial

/-- An alternating sum of growing terms has the sign of the last. -/
theorem alt_inc (b : ℕ → ℝ) (m : ℕ) (hpos : ∀ i < m + 1, 0 < b i) (hlt : ∀ i < m, b i < b (i + 1)) :
    0 < (-1) ^ m * ∑ i ∈ range (m + 1), (-1) ^ i * b i ∧ (-1) ^ m * ∑ i ∈ range (m + 1), (-1) ^ i * b i ≤ b m := by
  induction m with
  | zero => simpa using hpos 0 (by omega)
  | succ m ih =>
    obtain ⟨h1, h2⟩ := ih (fun i hi => hpos i (by omega)) (fun i hi => hlt i (by omega))
    have h3 := hlt m (by omega)
    have e : (-1 : ℝ) ^ (m + 1) * ∑ i ∈ range (m + 1 + 1), (-1) ^ i * b i =
        b (m + 1) - (-1) ^ m * ∑ i ∈ range (m + 1), (-1) ^ i * b i := by
      rw [sum_range_succ _ (m + 1), mul_add, ← mul_assoc, ← mul_pow, neg_one_mul, neg_neg, one_pow, pow_succ]
      ring
    rw [e]
    constructor <;> linarith

/-- An alternating sum of shrinking terms has the sign of the first. -/
theorem alt_dec (m : ℕ) (b : ℕ → ℝ) (hpos : ∀ i < m + 1, 0 < b i) (hlt : ∀ i < m, b (i + 1) < b i) :
    0 < ∑ i ∈ range (m + 1), (-1) ^ i * b i ∧ ∑ i ∈ range (m + 1), (-1) ^ i * b i ≤ b 0 := by
  induction m generalizing b with
  | zero => simpa using hpos 0 (by omega)
  | succ m ih =>
    obtain ⟨h1, h2⟩ := ih (fun i => b (i + 1)) (fun i hi => hpos (i + 1) (by omega)) (fun i hi => hlt (i + 1) (by omega))
    have h3 := hlt 0 (by omega)
    have e : ∑ i ∈ range (m + 1 + 1), (-1) ^ i * b i = b 0 - ∑ i ∈ range (m + 1), (-1) ^ i * b (i + 1) := by
      rw [sum_range_succ', pow_zero, one_mul, add_comm, sub_eq_add_neg, ← sum_neg_distrib]
      congr 1
      refine sum_congr rfl fun i _ => ?_
      rw [pow_succ]
      ring
    rw [e]
    constructor <;> linarith

/-- One term of the denominator. -/
noncomputable def lam (d : ℕ) (x : ℕ → ℝ) (z : ℝ) (i : ℕ) : ℝ := (-1) ^ i / ∏ j ∈ Ico i (i + d + 1), (z - x j)

theorem prod_window (f : ℕ → ℝ) (d i : ℕ) : ∏ j ∈ Ico i (i + d + 1), f j = ∏ j ∈ range (d + 1), f (i + j) := by
  rw [prod_Ico_eq_prod_range, show i + d + 1 - i = d + 1 by omega]

theorem prod_flip (f g : ℕ → ℝ) (s : Finset ℕ) (h : ∀ j ∈ s, f j = -g j) : ∏ j ∈ s, f j = (-1) ^ s.card * ∏ j ∈ s, g j := by
  rw [prod_congr rfl h, Finset.prod_neg]

/-- The denominator does not vanish between the points. -/
theorem lam_pos {n d c : ℕ} {x : ℕ → ℝ} (hx : Increasing n x) (hd : d < n) (hc : c ≤ n) {z : ℝ} (hl : ∀ j < c, x j < z)
    (hr : ∀ j, c ≤ j → j < n → z < x j) : 0 < (-1) ^ (c + d + 1) * ∑ i ∈ range (n - d), lam d x z i := by
  have hsq : ∀ k : ℕ, ((-1 : ℝ) ^ k) * (-1) ^ k = 1 := fun k => by rw [← mul_pow]; norm_num
  have hev : ∀ a b : ℕ, (a + b) % 2 = 0 → (-1 : ℝ) ^ a * (-1) ^ b = 1 := fun a b hab => by
    rw [← pow_add]
    exact Even.neg_one_pow (Nat.even_iff.mpr hab)
  -- the windows on the left
  have g1 : 0 ≤ (-1) ^ (c + d + 1) * ∑ i ∈ range (c - d), lam d x z i ∧
      (0 < c - d → 0 < (-1) ^ (c + d + 1) * ∑ i ∈ range (c - d), lam d x z i) := by
    rcases Nat.eq_zero_or_pos (c - d) with h0 | h0
    · rw [h0]
      simp
    · obtain ⟨m, hm⟩ : ∃ m, c - d = m + 1 := ⟨c - d - 1, by omega⟩
      have := (alt_inc (fun i => 1 / ∏ j ∈ range (d + 1), (z - x (i + j))) m
        (fun i hi => one_div_pos.mpr (prod_pos fun j hj => by
          rw [mem_range] at hj
          have := hl (i + j) (by omega)
          linarith))
        (fun i hi => by
          refine one_div_lt_one_div_of_lt (prod_pos fun j hj => ?_) (prod_lt_prod_of_nonempty (fun j hj => ?_) (fun j hj => ?_) ⟨0, by simp⟩)
          · rw [mem_range] at hj
            have := hl (i + 1 + j) (by omega)
            linarith
          · rw [mem_range] at hj
            have := hl (i + 1 + j) (by omega)
            linarith
          · rw [mem_range] at hj
            have := hx (i + j) (i + 1 + j) (by omega) (by omega)
            linarith)).1
      have e : ∑ i ∈ range (m + 1), lam d x z i = ∑ i ∈ range (m + 1), (-1) ^ i * (1 / ∏ j ∈ range (d + 1), (z - x (i + j))) := by
        refine sum_congr rfl fun i _ => ?_
        rw [lam, prod_window fun j => z - x j]
        ring
      have hs : (-1 : ℝ) ^ (c + d + 1) = (-1) ^ m := by
        have := hev (c + d + 1) m (by omega)
        calc (-1 : ℝ) ^ (c + d + 1) = (-1) ^ (c + d + 1) * ((-1) ^ m * (-1) ^ m) := by rw [hsq, mul_one]
          _ = (-1) ^ m := by rw [← mul_assoc, this, one_mul]
      rw [hm, e, hs]
      exact ⟨this.le, fun _ => this⟩
  -- the windows around the point
  have g2 : ∀ i, c - d ≤ i → i < c → i < n - d → 0 < (-1) ^ (c + d + 1) * lam d x z i := by
    intro i h1 h2 h3
    have hsplit : ∏ j ∈ Ico i (i + d + 1), (z - x j) = (∏ j ∈ Ico i c, (z - x j)) * ∏ j ∈ Ico c (i + d + 1), (z - x j) :=
      (prod_Ico_consecutive _ (by omega) (by omega)).symm
    have p1 : 0 < ∏ j ∈ Ico i c, (z - x j) := prod_pos fun j hj => by
      rw [mem_Ico] at hj
      have := hl j hj.2
      linarith
    have p2 : 0 < ∏ j ∈ Ico c (i + d + 1), (x j - z) := prod_pos fun j hj => by
      rw [mem_Ico] at hj
      have := hr j hj.1 (by omega)
      linarith
    have hneg : ∏ j ∈ Ico c (i + d + 1), (z - x j) = (-1) ^ (i + d + 1 - c) * ∏ j ∈ Ico c (i + d + 1), (x j - z) := by
      rw [prod_flip (fun j => z - x j) (fun j => x j - z) _ fun j _ => (neg_sub _ _).symm, Nat.card_Ico]
    rw [lam, hsplit, hneg]
    have hq : (-1 : ℝ) ^ (c + d + 1) * ((-1) ^ i / ((∏ j ∈ Ico i c, (z - x j)) * ((-1) ^ (i + d + 1 - c) * ∏ j ∈ Ico c (i + d + 1), (x j - z)))) =
        ((-1) ^ (c + d + 1 + i) * (-1) ^ (i + d + 1 - c)) / ((∏ j ∈ Ico i c, (z - x j)) * ∏ j ∈ Ico c (i + d + 1), (x j - z)) := by
      have hne : ((-1 : ℝ) ^ (i + d + 1 - c)) ≠ 0 := pow_ne_zero _ (by norm_num)
      have h5 : ((-1 : ℝ) ^ (i + d + 1 - c))⁻¹ = (-1) ^ (i + d + 1 - c) := by
        rw [inv_eq_iff_eq_inv, ← one_div, eq_div_iff hne, hsq]
      rw [pow_add, div_eq_mul_inv, div_eq_mul_inv, mul_inv, mul_inv, mul_inv, h5]
      ring
    rw [hq, hev _ _ (by omega)]
    positivity
  -- the windows on the right
  have g3 : 0 ≤ (-1) ^ (c + d + 1) * ∑ i ∈ Ico (min c (n - d)) (n - d), lam d x z i ∧
      (c < n - d → 0 < (-1) ^ (c + d + 1) * ∑ i ∈ Ico (min c (n - d)) (n - d), lam d x z i) := by
    rcases Nat.lt_or_ge c (n - d) with h0 | h0
    · obtain ⟨m, hm⟩ : ∃ m, n - d - c = m + 1 := ⟨n - d - c - 1, by omega⟩
      have := (alt_dec m (fun i => 1 / ∏ j ∈ range (d + 1), (x (c + i + j) - z))
        (fun i hi => one_div_pos.mpr (prod_pos fun j hj => by
          rw [mem_range] at hj
          have := hr (c + i + j) (by omega) (by omega)
          linarith))
        (fun i hi => by
          refine one_div_lt_one_div_of_lt (prod_pos fun j hj => ?_) (prod_lt_prod_of_nonempty (fun j hj => ?_) (fun j hj => ?_) ⟨0, by simp⟩)
          · rw [mem_range] at hj
            have := hr (c + i + j) (by omega) (by omega)
            linarith
          · rw [mem_range] at hj
            have := hr (c + i + j) (by omega) (by omega)
            linarith
          · rw [mem_range] at hj
            have := hx (c + i + j) (c + (i + 1) + j) (by omega) (by omega)
            linarith)).1
      have e : (-1) ^ (c + d + 1) * ∑ i ∈ Ico (min c (n - d)) (n - d), lam d x z i =
          ∑ i ∈ range (m + 1), (-1) ^ i * (1 / ∏ j ∈ range (d + 1), (x (c + i + j) - z)) := by
        rw [min_eq_left h0.le, sum_Ico_eq_sum_range, hm, mul_sum]
        refine sum_congr rfl fun i _ => ?_
        rw [lam, prod_window fun j => z - x j, prod_flip (fun j => z - x (c + i + j)) (fun j => x (c + i + j) - z) _
          fun j _ => (neg_sub _ _).symm, card_range]
        have h5 : ((-1 : ℝ) ^ (d + 1))⁻¹ = (-1) ^ (d + 1) := by
          rw [inv_eq_iff_eq_inv, ← one_div, eq_div_iff (pow_ne_zero _ (by norm_num)), hsq]
        rw [div_eq_mul_inv, mul_inv, h5, one_div, show c + d + 1 = c + (d + 1) by ring, pow_add _ c (d + 1), pow_add _ c i]
        have h6 := hsq c
        have h7 := hsq (d + 1)
        calc (-1 : ℝ) ^ c * (-1) ^ (d + 1) * ((-1) ^ c * (-1) ^ i * ((-1) ^ (d + 1) * (∏ j ∈ range (d + 1), (x (c + i + j) - z))⁻¹))
            = ((-1) ^ c * (-1) ^ c) * ((-1) ^ (d + 1) * (-1) ^ (d + 1)) * ((-1) ^ i * (∏ j ∈ range (d + 1), (x (c + i + j) - z))⁻¹) := by ring
          _ = (-1) ^ i * (∏ j ∈ range (d + 1), (x (c + i + j) - z))⁻¹ := by rw [h6, h7]; ring
      rw [e]
      exact ⟨this.le, fun _ => this⟩
    · rw [min_eq_right h0]
      simp
      omega
  have hsum : ∑ i ∈ range (n - d), lam d x z i = ∑ i ∈ range (c - d), lam d x z i +
      ∑ i ∈ Ico (c - d) (min c (n - d)), lam d x z i + ∑ i ∈ Ico (min c (n - d)) (n - d), lam d x z i := by
    rw [add_assoc, sum_Ico_consecutive _ (by omega) (by omega), range_eq_Ico, range_eq_Ico,
      sum_Ico_consecutive _ (by omega) (by omega)]
  have g2' : 0 ≤ (-1) ^ (c + d + 1) * ∑ i ∈ Ico (c - d) (min c (n - d)), lam d x z i := by
    rw [mul_sum]
    refine sum_nonneg fun i hi => ?_
    rw [mem_Ico] at hi
    exact (g2 i (by omega) (by omega) (by omega)).le
  rw [hsum, mul_add, mul_add]
  by_cases h1 : 0 < c - d
  · have := g1.2 h1
    linarith [g3.1]
  by_cases h3 : c < n - d
  · have := g3.2 h3
    linarith [g1.1]
  have : 0 < (-1) ^ (c + d + 1) * ∑ i ∈ Ico (c - d) (min c (n - d)), lam d x z i := by
    rw [mul_sum]
    refine sum_pos (fun i hi => ?_) ⟨c - d, ?_⟩
    · rw [mem_Ico] at hi
      exact g2 i (by omega) (by omega) (by omega)
    · rw [mem_Ico]
      omega
  linarith [g1.1, g3.1]

end Verif.Interp
