import Mathlib.Analysis.Calculus.ContDiff.Polynomial
import Mathlib.Analysis.Calculus.IteratedDeriv.Lemmas
import Mathlib.Analysis.Calculus.LocalExtr.Rolle
import Mathlib.Analysis.Calculus.Deriv.Polynomial
import Mathlib.LinearAlgebra.Lagrange
import Mathlib.Data.Finset.Sort
import Mathlib.Topology.Algebra.Polynomial

/-!
# The error of polynomial interpolation

A classical theorem, used for the accuracy of the interpolation classes; does not refer to the model.
-/

set_option autoImplicit false

namespace Verif.Interp

open Polynomial Set

/-- Rolle's theorem repeated: a function with `m + 1` zeros has a zero of its `m`-th derivative. -/
theorem rolle_iter (m : ℕ) {a b : ℝ} (D : ℕ → ℝ → ℝ)
    (hd : ∀ k < m, ∀ x ∈ Ioo a b, HasDerivAt (D k) (D (k + 1) x) x) (hc : ∀ k < m, ContinuousOn (D k) (Icc a b))
    (z : ℕ → ℝ) (hz : ∀ i ≤ m, z i ∈ Icc a b) (hlt : ∀ i < m, z i < z (i + 1)) (h0 : ∀ i ≤ m, D 0 (z i) = 0) :
    ∃ ξ ∈ Icc a b, D m ξ = 0 := by
  induction m generalizing D z with
  | zero => exact ⟨z 0, hz 0 le_rfl, h0 0 le_rfl⟩
  | succ m ih =>
    have step : ∀ i, ∃ w, i ≤ m → z i < w ∧ w < z (i + 1) ∧ D 1 w = 0 := by
      intro i
      by_cases hi : i ≤ m
      · have h1 := hz i (by omega)
        have h2 := hz (i + 1) (by omega)
        obtain ⟨w, hw, hw0⟩ := exists_hasDerivAt_eq_zero (f := D 0) (f' := D 1) (hlt i (by omega))
          ((hc 0 (by omega)).mono (Icc_subset_Icc h1.1 h2.2)) (by rw [h0 i (by omega), h0 (i + 1) (by omega)])
          (fun x hx => hd 0 (by omega) x ⟨h1.1.trans_lt hx.1, hx.2.trans_le h2.2⟩)
        exact ⟨w, fun _ => ⟨hw.1, hw.2, hw0⟩⟩
      · exact ⟨0, fun h => absurd h hi⟩
    choose w hw using step
    refine ih (fun k => D (k + 1)) (fun k hk => hd (k + 1) (by omega)) (fun k hk => hc (k + 1) (by omega)) w (fun i hi => ?_)
      (fun i hi => ?_) (fun i hi => (hw i hi).2.2)
    · have h1 := hz i (by omega)
      have h2 := hz (i + 1) (by omega)
      obtain ⟨k1, k2, -⟩ := hw i hi
      exact ⟨by linarith [h1.1], by linarith [h2.2]⟩
    · obtain ⟨-, k2, -⟩ := hw i (by omega)
      obtain ⟨k1, -, -⟩ := hw (i + 1) (by omega)
      linarith

theorem iterate_derivative_top (p : ℝ[X]) (m : ℕ) (h : p.natDegree ≤ m) :
    (derivative^[m] p) = C ((m.factorial : ℝ) * p.coeff m) := by
  ext k
  rw [coeff_iterate_derivative, coeff_C]
  split
  · rename_i hk
    subst hk
    rw [zero_add, Nat.descFactorial_self, nsmul_eq_mul]
  · rename_i hk
    rw [coeff_eq_zero_of_natDegree_lt (by omega), smul_zero]

/-- The error of the polynomial through the points `x i`, `i ∈ s`, at `z`. -/
theorem interp_error (s : Finset ℕ) (x : ℕ → ℝ) (hs : Set.InjOn x s) {a b : ℝ} (hab : a < b) (g : ℝ → ℝ)
    (hg : ContDiffOn ℝ s.card g (Icc a b)) (hx : ∀ i ∈ s, x i ∈ Icc a b) {z : ℝ} (hz : z ∈ Icc a b) :
    ∃ ξ ∈ Icc a b, g z - (Lagrange.interpolate s x fun i => g (x i)).eval z =
      iteratedDerivWithin s.card g (Icc a b) ξ / s.card.factorial * ∏ i ∈ s, (z - x i) := by
  classical
  by_cases hzs : ∃ i ∈ s, z = x i
  · obtain ⟨i, hi, rfl⟩ := hzs
    refine ⟨x i, hz, ?_⟩
    rw [Lagrange.eval_interpolate_at_node _ hs hi, Finset.prod_eq_zero hi (sub_self _)]
    simp
  push Not at hzs
  set p := Lagrange.interpolate s x fun i => g (x i) with hp
  set ω := Lagrange.nodal s x with hω
  have hωz : ω.eval z ≠ 0 := by
    rw [hω, Lagrange.eval_nodal]
    exact Finset.prod_ne_zero_iff.mpr fun i hi => sub_ne_zero.mpr (hzs i hi)
  set K := (g z - p.eval z) / ω.eval z with hK
  -- the zeros
  set Z := insert z (s.image x) with hZ
  have hcard : Z.card = s.card + 1 := by
    rw [hZ, Finset.card_insert_of_notMem, Finset.card_image_of_injOn hs]
    rw [Finset.mem_image]
    rintro ⟨i, hi, e⟩
    exact hzs i hi e.symm
  let q : ℝ[X] := p + C K * ω
  have hud : UniqueDiffOn ℝ (Icc a b) := uniqueDiffOn_Icc hab
  let D : ℕ → ℝ → ℝ := fun k t => iteratedDerivWithin k g (Icc a b) t - (derivative^[k] q).eval t
  have hD0 : ∀ t ∈ Z, D 0 t = 0 := by
    intro t ht
    simp only [D, iteratedDerivWithin_zero, Function.iterate_zero, id_eq, q, eval_add, eval_mul, eval_C]
    rcases Finset.mem_insert.mp ht with rfl | ht
    · rw [hK]
      field_simp
      ring
    · obtain ⟨i, hi, rfl⟩ := Finset.mem_image.mp ht
      rw [hp, Lagrange.eval_interpolate_at_node _ hs hi, hω, Lagrange.eval_nodal_at_node hi]
      ring
  let e := Z.orderEmbOfFin hcard
  have hZI : ∀ t ∈ Z, t ∈ Icc a b := by
    intro t ht
    rcases Finset.mem_insert.mp ht with rfl | ht
    · exact hz
    · obtain ⟨i, hi, rfl⟩ := Finset.mem_image.mp ht
      exact hx i hi
  let zz : ℕ → ℝ := fun i => if h : i < s.card + 1 then e ⟨i, h⟩ else 0
  have hzz : ∀ i ≤ s.card, zz i ∈ Z := by
    intro i hi
    simp only [zz, dif_pos (show i < s.card + 1 by omega)]
    exact Finset.orderEmbOfFin_mem _ _ _
  obtain ⟨ξ, hξ, hξ0⟩ := rolle_iter s.card D
    (fun k hk t ht => by
      have h1 : DifferentiableWithinAt ℝ (iteratedDerivWithin k g (Icc a b)) (Icc a b) t :=
        hg.differentiableOn_iteratedDerivWithin (by exact_mod_cast hk) hud t (Ioo_subset_Icc_self ht)
      have h2 := h1.hasDerivWithinAt.hasDerivAt (Icc_mem_nhds ht.1 ht.2)
      have h3 := (derivative^[k] q).hasDerivAt t
      have h4 := h2.sub h3
      simp only [D]
      rw [iteratedDerivWithin_succ, Function.iterate_succ_apply']
      exact h4)
    (fun k hk => by
      have h1 := (hg.differentiableOn_iteratedDerivWithin (m := k) (by exact_mod_cast hk) hud).continuousOn
      exact h1.sub (derivative^[k] q).continuousOn)
    zz (fun i hi => hZI _ (hzz i hi))
    (fun i hi => by
      simp only [zz, dif_pos (show i < s.card + 1 by omega), dif_pos (show i + 1 < s.card + 1 by omega)]
      exact (Z.orderEmbOfFin hcard).strictMono (by simp [Fin.lt_def]))
    (fun i hi => hD0 _ (hzz i hi))
  refine ⟨ξ, hξ, ?_⟩
  have hdeg : p.degree < s.card := Lagrange.degree_interpolate_lt _ hs
  have hω1 : ω.natDegree = s.card := by
    rw [hω, Lagrange.natDegree_nodal]
  have htop : (derivative^[s.card] q) = C ((s.card.factorial : ℝ) * K) := by
    rw [iterate_derivative_top q s.card ?_]
    · congr 2
      simp only [q, coeff_add, coeff_C_mul]
      rw [coeff_eq_zero_of_degree_lt hdeg]
      have : ω.coeff s.card = 1 := by
        have := (Lagrange.nodal_monic (s := s) (v := x)).coeff_natDegree
        rwa [← hω, hω1] at this
      rw [this]
      ring
    · refine (natDegree_add_le _ _).trans (max_le ?_ ?_)
      · exact natDegree_le_of_degree_le hdeg.le
      · exact (natDegree_C_mul_le _ _).trans hω1.le
  simp only [D] at hξ0
  rw [htop, eval_C, sub_eq_zero] at hξ0
  rw [hξ0, ← Lagrange.eval_nodal, ← hω, hK]
  have : (s.card.factorial : ℝ) ≠ 0 := by exact_mod_cast s.card.factorial_ne_zero
  field_simp

end Verif.Interp
