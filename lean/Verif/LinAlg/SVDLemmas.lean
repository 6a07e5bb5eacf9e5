import Verif.LinAlg.SVDSpec
import Verif.LinAlg.SVDReorder
import Verif.Mat.DenseProps
import Mathlib.LinearAlgebra.Matrix.Rank

/-! # Helper lemmas: least squares and rank from a singular value decomposition -/

set_option autoImplicit false

namespace Verif.LinAlg.SVD

open Verif.Mat Finset

variable {m n : ℕ} {A U V : ℕ → ℕ → ℝ} {w : ℕ → ℝ}

theorem pos_of_cut {x t : ℝ} (h : 0 < if x > t then x else 0) : 0 < x := by
  by_cases c : x > t
  · rwa [if_pos c] at h
  · rw [if_neg c] at h; exact absurd h (lt_irrefl _)

theorem IsSVD.cut (h : IsSVD m n A U w V) (t : ℝ) : IsSVD m n (cutoff n U w V t) U (fun k => if w k > t then w k else 0) V :=
  ⟨fun j hj k hk h1 h2 => h.orthoU j hj k hk (pos_of_cut h1) (pos_of_cut h2), h.orthoV, fun j hj => by split_ifs; exacts [h.nonneg j hj, le_rfl], fun _ _ _ _ => rfl⟩

theorem sum_delta (n : ℕ) {j : ℕ} (hj : j < n) (f : ℕ → ℝ) : ∑ k ∈ range n, (if j = k then 1 else 0) * f k = f j := by
  simp [Finset.sum_ite_eq, hj]

/-- Expansion of `‖Q d‖²` for orthonormal columns. -/
theorem norm_comb' {r : ℕ} {Q : ℕ → ℕ → ℝ} (d : ℕ → ℝ)
    (h : ∀ j < n, ∀ k < n, d j ≠ 0 → d k ≠ 0 → ∑ i ∈ range r, Q i j * Q i k = if j = k then 1 else 0) : ∑ i ∈ range r, (∑ k ∈ range n, Q i k * d k) ^ 2 = ∑ k ∈ range n, d k ^ 2 := by
  simp only [sq, Finset.sum_mul_sum]
  rw [Finset.sum_comm]
  refine Finset.sum_congr rfl fun j hj => ?_
  rw [Finset.sum_comm]
  have : ∀ k ∈ range n, ∑ i ∈ range r, Q i j * d j * (Q i k * d k) = (if j = k then 1 else 0) * (d j * d k) := by
    intro k hk
    by_cases h1 : d j = 0
    · simp [h1]
    by_cases h2 : d k = 0
    · simp [h2]
    rw [← h j (mem_range.1 hj) k (mem_range.1 hk) h1 h2, Finset.sum_mul]
    exact Finset.sum_congr rfl fun i _ => by ring
  rw [Finset.sum_congr rfl this, sum_delta n (mem_range.1 hj)]

theorem norm_comb {r : ℕ} {Q : ℕ → ℕ → ℝ} (h : ∀ j < n, ∀ k < n, ∑ i ∈ range r, Q i j * Q i k = if j = k then 1 else 0)
    (d : ℕ → ℝ) : ∑ i ∈ range r, (∑ k ∈ range n, Q i k * d k) ^ 2 = ∑ k ∈ range n, d k ^ 2 :=
  norm_comb' d fun j hj k hk _ _ => h j hj k hk

theorem IsSVD.ortho_ne (h : IsSVD m n A U w V) (c : ℕ → ℝ) (j : ℕ) (hj : j < n) (k : ℕ) (hk : k < n) (h1 : w j * c j ≠ 0)
    (h2 : w k * c k ≠ 0) : ∑ i ∈ range m, U i j * U i k = if j = k then 1 else 0 :=
  h.orthoU j hj k hk (lt_of_le_of_ne (h.nonneg j hj) fun e => h1 (by rw [← e, zero_mul]))
    (lt_of_le_of_ne (h.nonneg k hk) fun e => h2 (by rw [← e, zero_mul]))

/-- The matrix with the elements `f`. -/
def toM (r c : ℕ) (f : ℕ → ℕ → ℝ) : Matrix (Fin r) (Fin c) ℝ := fun i j => f i j

theorem toM_apply (r c : ℕ) (f : ℕ → ℕ → ℝ) (i : Fin r) (j : Fin c) : toM r c f i j = f i j := rfl

/-- The columns of a square matrix with orthonormal columns span: its rows are orthonormal too. -/
theorem rows_ortho (h : ∀ j < n, ∀ k < n, ∑ i ∈ range n, V i j * V i k = if j = k then 1 else 0) :
    ∀ j < n, ∀ k < n, ∑ i ∈ range n, V j i * V k i = if j = k then 1 else 0 := by
  have h1 : (toM n n V).transpose * toM n n V = 1 := by
    ext j k
    rw [Matrix.mul_apply, Matrix.one_apply]
    simp only [Matrix.transpose_apply, toM_apply]
    rw [Fin.sum_univ_eq_sum_range (fun i => V i j * V i k) n, h j j.2 k k.2]
    simp [Fin.ext_iff]
  have h2 := mul_eq_one_comm.1 h1
  intro j hj k hk
  have h3 := congrFun (congrFun h2 ⟨j, hj⟩) ⟨k, hk⟩
  rw [Matrix.mul_apply, Matrix.one_apply] at h3
  simp only [Matrix.transpose_apply, toM_apply] at h3
  rw [Fin.sum_univ_eq_sum_range (fun i => V j i * V k i) n] at h3
  rw [h3]
  simp [Fin.ext_iff]

/-- The coordinates of `x` along the right singular vectors. -/
noncomputable def cV (n : ℕ) (V : ℕ → ℕ → ℝ) (x : ℕ → ℝ) (k : ℕ) : ℝ := ∑ j ∈ range n, V j k * x j

/-- The coordinates of `b` along the left singular vectors. -/
noncomputable def cU (m : ℕ) (U : ℕ → ℕ → ℝ) (b : ℕ → ℝ) (k : ℕ) : ℝ := ∑ i ∈ range m, U i k * b i

theorem IsSVD.apply (h : IsSVD m n A U w V) (x : ℕ → ℝ) {i : ℕ} (hi : i < m) :
    ∑ j ∈ range n, A i j * x j = ∑ k ∈ range n, U i k * (w k * cV n V x k) := by
  have : ∀ j ∈ range n, A i j * x j = ∑ k ∈ range n, U i k * w k * V j k * x j := fun j hj => by
    rw [h.prod i hi j (mem_range.1 hj), Finset.sum_mul]
  rw [Finset.sum_congr rfl this, Finset.sum_comm]
  refine Finset.sum_congr rfl fun k _ => ?_
  rw [cV, Finset.mul_sum, Finset.mul_sum]
  exact Finset.sum_congr rfl fun j _ => by ring

theorem IsSVD.resid_eq (h : IsSVD m n A U w V) (b x : ℕ → ℝ) :
    resid2 m n A b x = ∑ k ∈ range n, (w k * cV n V x k - cU m U b k) ^ 2
      + (∑ i ∈ range m, b i ^ 2 - ∑ k ∈ range n, cU m U b k ^ 2) := by
  have e1 : resid2 m n A b x = ∑ i ∈ range m, (∑ k ∈ range n, U i k * (w k * cV n V x k)) ^ 2
      - 2 * (∑ i ∈ range m, (∑ k ∈ range n, U i k * (w k * cV n V x k)) * b i) + ∑ i ∈ range m, b i ^ 2 := by
    rw [resid2, Finset.mul_sum, ← Finset.sum_sub_distrib, ← Finset.sum_add_distrib]
    refine Finset.sum_congr rfl fun i hi => ?_
    rw [h.apply x (mem_range.1 hi)]; ring
  have e2 : ∑ i ∈ range m, (∑ k ∈ range n, U i k * (w k * cV n V x k)) * b i = ∑ k ∈ range n, (w k * cV n V x k) * cU m U b k := by
    simp only [Finset.sum_mul]
    rw [Finset.sum_comm]
    refine Finset.sum_congr rfl fun k _ => ?_
    rw [cU, Finset.mul_sum]
    exact Finset.sum_congr rfl fun i _ => by ring
  rw [e1, norm_comb' _ (h.ortho_ne (cV n V x)), e2, Finset.mul_sum]
  have e3 : ∑ k ∈ range n, (w k * cV n V x k - cU m U b k) ^ 2 = ∑ k ∈ range n, (w k * cV n V x k) ^ 2
      - ∑ k ∈ range n, 2 * (w k * cV n V x k * cU m U b k) + ∑ k ∈ range n, cU m U b k ^ 2 := by
    rw [← Finset.sum_sub_distrib, ← Finset.sum_add_distrib]
    exact Finset.sum_congr rfl fun k _ => by ring
  rw [e3]; ring

/-- `V (Vᵀ x) = x`. -/
theorem IsSVD.expand (h : IsSVD m n A U w V) (x : ℕ → ℝ) {j : ℕ} (hj : j < n) : ∑ k ∈ range n, V j k * cV n V x k = x j := by
  simp only [cV, Finset.mul_sum]
  rw [Finset.sum_comm]
  have : ∀ i ∈ range n, ∑ k ∈ range n, V j k * (V i k * x i) = (if j = i then 1 else 0) * x i := fun i hi => by
    rw [← rows_ortho h.orthoV j hj i (mem_range.1 hi), Finset.sum_mul]
    exact Finset.sum_congr rfl fun k _ => by ring
  rw [Finset.sum_congr rfl this, sum_delta n hj]

theorem IsSVD.norm_eq (h : IsSVD m n A U w V) (x : ℕ → ℝ) : ∑ j ∈ range n, x j ^ 2 = ∑ k ∈ range n, cV n V x k ^ 2 := by
  rw [← norm_comb h.orthoV (cV n V x)]
  exact Finset.sum_congr rfl fun j hj => by rw [h.expand x (mem_range.1 hj)]

/-- `Vᵀ (V y) = y`. -/
theorem IsSVD.coords (h : IsSVD m n A U w V) (y : ℕ → ℝ) {k : ℕ} (hk : k < n) :
    cV n V (fun j => ∑ q ∈ range n, V j q * y q) k = y k := by
  simp only [cV, Finset.mul_sum]
  rw [Finset.sum_comm]
  have : ∀ q ∈ range n, ∑ j ∈ range n, V j k * (V j q * y q) = (if k = q then 1 else 0) * y q := fun q hq => by
    rw [← h.orthoV k hk q (mem_range.1 hq), Finset.sum_mul]
    exact Finset.sum_congr rfl fun j _ => by ring
  rw [Finset.sum_congr rfl this, sum_delta n hk]

/-- The solution of the solver. -/
noncomputable def sol (m n : ℕ) (U : ℕ → ℕ → ℝ) (w : ℕ → ℝ) (V : ℕ → ℕ → ℝ) (b : ℕ → ℝ) (j : ℕ) : ℝ :=
  ∑ k ∈ range n, V j k * (if 0 < w k then cU m U b k / w k else 0)

theorem IsSVD.least (h : IsSVD m n A U w V) (b z : ℕ → ℝ) :
    resid2 m n A b (sol m n U w V b) ≤ resid2 m n A b z ∧
    (resid2 m n A b z ≤ resid2 m n A b (sol m n U w V b) →
      ∑ j ∈ range n, sol m n U w V b j ^ 2 ≤ ∑ j ∈ range n, z j ^ 2 ∧
      (∑ j ∈ range n, z j ^ 2 ≤ ∑ j ∈ range n, sol m n U w V b j ^ 2 → ∀ j < n, z j = sol m n U w V b j)) := by
  have hc : ∀ k ∈ range n, cV n V (sol m n U w V b) k = if 0 < w k then cU m U b k / w k else 0 := fun k hk =>
    h.coords (fun k => if 0 < w k then cU m U b k / w k else 0) (mem_range.1 hk)
  have hterm : ∀ k ∈ range n, (w k * cV n V (sol m n U w V b) k - cU m U b k) ^ 2 ≤ (w k * cV n V z k - cU m U b k) ^ 2 := by
    intro k hk
    rw [hc k hk]
    by_cases hw : 0 < w k
    · rw [if_pos hw, mul_div_cancel₀ _ hw.ne']
      have := sq_nonneg (w k * cV n V z k - cU m U b k)
      simpa using this
    · have : w k = 0 := le_antisymm (not_lt.1 hw) (h.nonneg k (mem_range.1 hk))
      rw [this]; simp
  have hle : resid2 m n A b (sol m n U w V b) ≤ resid2 m n A b z := by
    rw [h.resid_eq, h.resid_eq]
    have := Finset.sum_le_sum hterm
    linarith
  refine ⟨hle, fun hge => ?_⟩
  have heq : ∀ k ∈ range n, (w k * cV n V z k - cU m U b k) ^ 2 = (w k * cV n V (sol m n U w V b) k - cU m U b k) ^ 2 := by
    intro k hk
    rw [h.resid_eq, h.resid_eq] at hge
    have hs := Finset.sum_le_sum hterm
    have hsum : ∑ k ∈ range n, (w k * cV n V (sol m n U w V b) k - cU m U b k) ^ 2
        = ∑ k ∈ range n, (w k * cV n V z k - cU m U b k) ^ 2 := by linarith
    exact ((Finset.sum_eq_sum_iff_of_le hterm).1 hsum k hk).symm
  have hcoord : ∀ k ∈ range n, 0 < w k → cV n V z k = cV n V (sol m n U w V b) k := by
    intro k hk hw
    have h1 := heq k hk
    rw [hc k hk, if_pos hw] at h1 ⊢
    rw [mul_div_cancel₀ _ hw.ne', sub_self, zero_pow two_ne_zero, pow_eq_zero_iff two_ne_zero, sub_eq_zero] at h1
    rw [eq_div_iff hw.ne', mul_comm]; exact h1
  have hsq : ∀ k ∈ range n, cV n V (sol m n U w V b) k ^ 2 ≤ cV n V z k ^ 2 := by
    intro k hk
    by_cases hw : 0 < w k
    · rw [hcoord k hk hw]
    · rw [hc k hk, if_neg hw]; simpa using sq_nonneg _
  refine ⟨by rw [h.norm_eq (sol m n U w V b), h.norm_eq z]; exact Finset.sum_le_sum hsq, fun hge' => ?_⟩
  have hall : ∀ k ∈ range n, cV n V z k = cV n V (sol m n U w V b) k := by
    intro k hk
    by_cases hw : 0 < w k
    · exact hcoord k hk hw
    · rw [h.norm_eq (sol m n U w V b), h.norm_eq z] at hge'
      have h2 := (Finset.sum_eq_sum_iff_of_le hsq).1 (le_antisymm (Finset.sum_le_sum hsq) hge') k hk
      rw [hc k hk, if_neg hw] at h2 ⊢
      have h2 : cV n V z k ^ 2 = 0 := by rw [← h2]; ring
      exact pow_eq_zero_iff two_ne_zero |>.1 h2
  intro j hj
  rw [← h.expand z hj, ← h.expand (sol m n U w V b) hj]
  exact Finset.sum_congr rfl fun k hk => by rw [hall k hk]

theorem IsSVD.rank_eq (h : IsSVD m n A U w V) : (toM m n A).rank = ((range n).filter fun k => 0 < w k).card := by
  have hV : (toM n n V).transpose * toM n n V = 1 := by
    ext j k
    rw [Matrix.mul_apply, Matrix.one_apply]
    simp only [Matrix.transpose_apply, toM_apply]
    rw [Fin.sum_univ_eq_sum_range (fun i => V i j * V i k) n, h.orthoV j j.2 k k.2]
    simp [Fin.ext_iff]
  let D : Matrix (Fin n) (Fin n) ℝ := Matrix.diagonal fun k : Fin n => w k
  have hA : toM m n A = toM m n U * D * (toM n n V).transpose := by
    ext i j
    rw [Matrix.mul_apply]
    simp only [D, Matrix.mul_diagonal, Matrix.transpose_apply, toM_apply]
    rw [Fin.sum_univ_eq_sum_range (fun k => U i k * w k * V j k) n, h.prod i i.2 j j.2]
  let P : Matrix (Fin n) (Fin n) ℝ := Matrix.diagonal fun k : Fin n => if 0 < w k then 1 else 0
  have hU : P * ((toM m n U).transpose * toM m n U) * D = D := by
    ext j k
    simp only [D, P, Matrix.mul_diagonal, Matrix.diagonal_mul]
    rw [Matrix.mul_apply, Matrix.diagonal_apply]
    simp only [Matrix.transpose_apply, toM_apply]
    rw [Fin.sum_univ_eq_sum_range (fun i => U i j * U i k) m]
    by_cases hj : 0 < w j
    · by_cases hk : 0 < w k
      · rw [h.orthoU j j.2 k k.2 hj hk, if_pos hj]
        by_cases e : j = k
        · subst e; simp
        · rw [if_neg e, if_neg (fun e' => e (Fin.ext e'))]; ring
      · have hk0 : w k = 0 := le_antisymm (not_lt.1 hk) (h.nonneg k k.2)
        rw [hk0, mul_zero]
        by_cases e : j = k
        · subst e; rw [if_pos rfl, hk0]
        · rw [if_neg e]
    · rw [if_neg hj]
      have hj0 : w j = 0 := le_antisymm (not_lt.1 hj) (h.nonneg j j.2)
      by_cases e : j = k
      · subst e; rw [if_pos rfl, hj0]; ring
      · rw [if_neg e]; ring
  have h1 : D = P * (toM m n U).transpose * toM m n A * toM n n V := by
    rw [hA, show P * (toM m n U).transpose * (toM m n U * D * (toM n n V).transpose) * toM n n V
      = (P * ((toM m n U).transpose * toM m n U) * D) * ((toM n n V).transpose * toM n n V) by simp only [Matrix.mul_assoc], hU, hV,
      Matrix.mul_one]
  have h2 : (toM m n A).rank = D.rank := by
    apply le_antisymm
    · rw [hA]
      exact (Matrix.rank_mul_le_left _ _).trans (Matrix.rank_mul_le_right _ _)
    · rw [h1]
      exact (Matrix.rank_mul_le_left _ _).trans (Matrix.rank_mul_le_right _ _)
  rw [h2, Matrix.rank_diagonal, Fintype.card_subtype, Finset.card_filter, Finset.card_filter,
    ← Fin.sum_univ_eq_sum_range (fun k => if 0 < w k then 1 else 0) n]
  refine Finset.sum_congr rfl fun k _ => ?_
  have := h.nonneg k k.2
  by_cases hw : 0 < w k
  · rw [if_pos hw, if_pos hw.ne']
  · rw [if_neg hw, if_neg (by rw [not_not]; exact le_antisymm (not_lt.1 hw) this)]

end Verif.LinAlg.SVD
