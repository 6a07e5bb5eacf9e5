import Verif.Integ.TrapLemmas
import Mathlib.MeasureTheory.Integral.IntervalIntegral.TrapezoidalRule
import Mathlib.Analysis.Calculus.MeanValue
import Mathlib.Analysis.Calculus.IteratedDeriv.Lemmas

/-!
# Error bounds for the composite rules
-/

set_option autoImplicit false

namespace Verif.Integ

open MeasureTheory

theorem trapezoid_eq_mathlib (f : ℝ → ℝ) (a b : ℝ) (N : ℕ) (hN : 0 < N) : trapezoid f a b N = trapezoidal_integral f N a b := by
  have hN' : (N : ℝ) ≠ 0 := by positivity
  have h := sum_trapezoidal_integral_adjacent_intervals (f := f) (a := a) (h := (b - a) / N) hN
  rw [show a + N * ((b - a) / N) = b by field_simp; ring] at h
  rw [← h, trapezoid]
  refine Finset.sum_congr rfl fun k _ => ?_
  rw [trapezoidal_integral_one]
  simp only [node]
  ring

/-- The error of Simpson's rule on `[c - t, c + t]`. -/
noncomputable def panelError (f : ℝ → ℝ) (c t : ℝ) : ℝ :=
  (∫ x in (c - t)..(c + t), f x) - t / 3 * (f (c - t) + 4 * f c + f (c + t))

theorem panelError_neg (f : ℝ → ℝ) (c t : ℝ) : panelError f c (-t) = -panelError f c t := by
  simp only [panelError, sub_neg_eq_add]
  rw [← sub_eq_add_neg, intervalIntegral.integral_symm]
  ring

theorem panelError_bound (f f1 f2 f3 : ℝ → ℝ) (c T M : ℝ) (hT : 0 ≤ T)
    (h0 : ∀ y ∈ Set.Icc (c - T) (c + T), HasDerivAt f (f1 y) y)
    (h1 : ∀ y ∈ Set.Icc (c - T) (c + T), HasDerivAt f1 (f2 y) y)
    (h2 : ∀ y ∈ Set.Icc (c - T) (c + T), HasDerivAt f2 (f3 y) y)
    (h3 : ∀ y ∈ Set.Icc (c - T) (c + T), ∀ z ∈ Set.Icc (c - T) (c + T), |f3 y - f3 z| ≤ M * |y - z|) :
    |panelError f c T| ≤ M * T ^ 5 / 90 := by
  have mem_p : ∀ t ∈ Set.Icc (0 : ℝ) T, c + t ∈ Set.Icc (c - T) (c + T) := by
    intro t ht; constructor <;> linarith [ht.1, ht.2]
  have mem_m : ∀ t ∈ Set.Icc (0 : ℝ) T, c - t ∈ Set.Icc (c - T) (c + T) := by
    intro t ht; constructor <;> linarith [ht.1, ht.2]
  have dp : ∀ (g g' : ℝ → ℝ) (t : ℝ), HasDerivAt g (g' (c + t)) (c + t) → HasDerivAt (fun s => g (c + s)) (g' (c + t)) t := by
    intro g g' t h
    have := h.comp t ((hasDerivAt_id' t).const_add c)
    simpa [Function.comp_def] using this
  have dm : ∀ (g g' : ℝ → ℝ) (t : ℝ), HasDerivAt g (g' (c - t)) (c - t) → HasDerivAt (fun s => g (c - s)) (-g' (c - t)) t := by
    intro g g' t h
    have := h.comp t ((hasDerivAt_id' t).const_sub c)
    simpa [Function.comp_def] using this
  -- third derivative of the error
  set E2 : ℝ → ℝ := fun t => 1 / 3 * (f1 (c + t) - f1 (c - t)) - t / 3 * (f2 (c + t) + f2 (c - t)) with hE2
  set E1 : ℝ → ℝ := fun t => 2 / 3 * (f (c + t) + f (c - t)) - 4 / 3 * f c - t / 3 * (f1 (c + t) - f1 (c - t)) with hE1
  have d2 : ∀ t ∈ Set.Icc (0 : ℝ) T, HasDerivAt E2 (-(t / 3) * (f3 (c + t) - f3 (c - t))) t := by
    intro t ht
    have a1 := dp f1 f2 t (h1 _ (mem_p t ht))
    have a2 := dm f1 f2 t (h1 _ (mem_m t ht))
    have a3 := dp f2 f3 t (h2 _ (mem_p t ht))
    have a4 := dm f2 f3 t (h2 _ (mem_m t ht))
    have := ((a1.sub a2).const_mul (1 / 3)).sub (((hasDerivAt_id' t).div_const 3).mul (a3.add a4))
    refine this.congr_deriv ?_
    simp only [Pi.add_apply]
    ring
  have d1 : ∀ t ∈ Set.Icc (0 : ℝ) T, HasDerivAt E1 (E2 t) t := by
    intro t ht
    have a1 := dp f f1 t (h0 _ (mem_p t ht))
    have a2 := dm f f1 t (h0 _ (mem_m t ht))
    have a3 := dp f1 f2 t (h1 _ (mem_p t ht))
    have a4 := dm f1 f2 t (h1 _ (mem_m t ht))
    have := (((a1.add a2).const_mul (2 / 3)).sub_const (4 / 3 * f c)).sub (((hasDerivAt_id' t).div_const 3).mul (a3.sub a4))
    refine this.congr_deriv ?_
    simp [hE2]
    ring
  have hcont : ContinuousOn f (Set.Icc (c - T) (c + T)) := fun y hy => (h0 y hy).continuousAt.continuousWithinAt
  have hpow : ∀ (n : ℕ) (K t : ℝ), HasDerivAt (fun s : ℝ => K * s ^ (n + 1)) (K * ((n + 1) * t ^ n)) t := by
    intro n K t
    have := (hasDerivAt_pow (n + 1) t).const_mul K
    simpa using this
  have b3 : ∀ t ∈ Set.Ico (0 : ℝ) T, ‖-(t / 3) * (f3 (c + t) - f3 (c - t))‖ ≤ 2 * M / 9 * ((((2 : ℕ) : ℝ) + 1) * t ^ 2) := by
    intro t ht
    have ht' : t ∈ Set.Icc (0 : ℝ) T := ⟨ht.1, ht.2.le⟩
    have := h3 _ (mem_p t ht') _ (mem_m t ht')
    rw [show c + t - (c - t) = 2 * t by ring, abs_of_nonneg (by linarith [ht.1] : (0 : ℝ) ≤ 2 * t)] at this
    rw [norm_mul, Real.norm_eq_abs, Real.norm_eq_abs, abs_neg, abs_of_nonneg (by linarith [ht.1] : 0 ≤ t / 3)]
    calc t / 3 * |f3 (c + t) - f3 (c - t)| ≤ t / 3 * (M * (2 * t)) := mul_le_mul_of_nonneg_left this (by linarith [ht.1])
      _ = _ := by push_cast; ring
  have b2 : ∀ t ∈ Set.Icc (0 : ℝ) T, ‖E2 t‖ ≤ 2 * M / 9 * t ^ (2 + 1) := by
    intro t ht
    refine image_norm_le_of_norm_deriv_right_le_deriv_boundary (f' := fun t => -(t / 3) * (f3 (c + t) - f3 (c - t)))
      (B := fun t => 2 * M / 9 * t ^ (2 + 1)) (fun y hy => (d2 y hy).continuousAt.continuousWithinAt)
      (fun y hy => (d2 y ⟨hy.1, hy.2.le⟩).hasDerivWithinAt) (by simp [hE2]) (fun y => hpow 2 _ y) b3 ht
  have b1 : ∀ t ∈ Set.Icc (0 : ℝ) T, ‖E1 t‖ ≤ M / 18 * t ^ (3 + 1) := by
    intro t ht
    refine image_norm_le_of_norm_deriv_right_le_deriv_boundary (f' := E2)
      (B := fun t => M / 18 * t ^ (3 + 1)) (fun y hy => (d1 y hy).continuousAt.continuousWithinAt)
      (fun y hy => (d1 y ⟨hy.1, hy.2.le⟩).hasDerivWithinAt) (by simp [hE1]; ring) (fun y => hpow 3 _ y) (fun y hy => ?_) ht
    refine (b2 y ⟨hy.1, hy.2.le⟩).trans (le_of_eq ?_)
    push_cast
    ring
  -- the error itself
  have dE : ∀ t ∈ Set.Ico (0 : ℝ) T, HasDerivAt (panelError f c) (E1 t) t := by
    intro t ht
    have ht' : t ∈ Set.Icc (0 : ℝ) T := ⟨ht.1, ht.2.le⟩
    have hint : IntervalIntegrable f volume (c - t) (c + t) := by
      refine ContinuousOn.intervalIntegrable (hcont.mono ?_)
      rw [Set.uIcc_of_le (by linarith [ht.1])]
      exact Set.Icc_subset_Icc (by linarith [ht.2]) (by linarith [ht.2])
    have hnhds : Set.Icc (c - T) (c + T) ∈ nhds (c + t) ∧ Set.Icc (c - T) (c + T) ∈ nhds (c - t) := by
      constructor <;> exact Icc_mem_nhds (by linarith [ht.1, ht.2]) (by linarith [ht.1, ht.2])
    have hmeas : ∀ y, Set.Icc (c - T) (c + T) ∈ nhds y → StronglyMeasurableAtFilter f (nhds y) volume := fun y hy =>
      ⟨_, hy, hcont.aestronglyMeasurable measurableSet_Icc⟩
    have hF : HasDerivAt (fun s => ∫ x in (c - s)..(c + s), f x) (f (c + t) + f (c - t)) t := by
      have := intervalIntegral.integral_hasFDerivAt (f := f) (a := c - t) (b := c + t) hint
        (hmeas _ hnhds.2) (hmeas _ hnhds.1) (h0 _ (mem_m t ht')).continuousAt (h0 _ (mem_p t ht')).continuousAt
      have hc : HasDerivAt (fun s : ℝ => (c - s, c + s)) ((-1 : ℝ), (1 : ℝ)) t :=
        ((hasDerivAt_id' t).const_sub c).prodMk ((hasDerivAt_id' t).const_add c)
      have h := HasFDerivAt.comp_hasDerivAt (x := t) (f := fun s : ℝ => (c - s, c + s)) this hc
      refine h.congr_deriv ?_
      simp
    have a1 := dp f f1 t (h0 _ (mem_p t ht'))
    have a2 := dm f f1 t (h0 _ (mem_m t ht'))
    have := hF.sub (((hasDerivAt_id' t).div_const 3).mul ((a2.add_const (4 * f c)).add a1))
    refine (this.congr_deriv ?_)
    simp [hE1]
    ring
  have hint : ∀ u ∈ Set.Icc (c - T) (c + T), ∀ v ∈ Set.Icc (c - T) (c + T), IntervalIntegrable f volume u v := by
    intro u hu v hv
    refine ContinuousOn.intervalIntegrable (hcont.mono ?_)
    exact Set.uIcc_subset_Icc hu hv
  have hmid : c ∈ Set.Icc (c - T) (c + T) := ⟨by linarith, by linarith⟩
  have hend : c + T ∈ Set.Icc (c - T) (c + T) := ⟨by linarith, by linarith⟩
  have hbeg : c - T ∈ Set.Icc (c - T) (c + T) := ⟨by linarith, by linarith⟩
  have hcE : ContinuousOn (panelError f c) (Set.Icc 0 T) := by
    have e : Set.EqOn (panelError f c) (fun t => ((∫ x in c..(c + t), f x) - ∫ x in c..(c - t), f x) -
        t / 3 * (f (c - t) + 4 * f c + f (c + t))) (Set.Icc 0 T) := by
      intro t ht
      simp only [panelError]
      rw [intervalIntegral.integral_interval_sub_left (hint _ hmid _ (mem_p t ht)) (hint _ hmid _ (mem_m t ht))]
    refine ContinuousOn.congr ?_ e
    have c1 : ContinuousOn (fun t => ∫ x in c..(c + t), f x) (Set.Icc 0 T) := by
      refine (intervalIntegral.continuousOn_primitive_interval (a := c) (b := c + T) (f := f) (μ := volume) ?_).comp
        (by fun_prop) fun t ht => ?_
      · refine (hcont.mono (Set.uIcc_subset_Icc hmid hend)).integrableOn_compact isCompact_uIcc
      · rw [Set.uIcc_of_le (by linarith)]
        exact ⟨by linarith [ht.1], by linarith [ht.2]⟩
    have c2 : ContinuousOn (fun t => ∫ x in c..(c - t), f x) (Set.Icc 0 T) := by
      refine (intervalIntegral.continuousOn_primitive_interval (a := c) (b := c - T) (f := f) (μ := volume) ?_).comp
        (by fun_prop) fun t ht => ?_
      · refine (hcont.mono (Set.uIcc_subset_Icc hmid hbeg)).integrableOn_compact isCompact_uIcc
      · rw [Set.uIcc_of_ge (by linarith)]
        exact ⟨by linarith [ht.2], by linarith [ht.1]⟩
    have c3 : ContinuousOn (fun t => f (c + t)) (Set.Icc 0 T) := hcont.comp (by fun_prop) mem_p
    have c4 : ContinuousOn (fun t => f (c - t)) (Set.Icc 0 T) := hcont.comp (by fun_prop) mem_m
    have c5 : ContinuousOn (fun t : ℝ => t / 3) (Set.Icc 0 T) := (continuous_id.div_const 3).continuousOn
    exact (c1.sub c2).sub (c5.mul ((c4.add continuousOn_const).add c3))
  have := image_norm_le_of_norm_deriv_right_le_deriv_boundary (f := panelError f c) (f' := E1)
    (B := fun t => M / 90 * t ^ (4 + 1)) hcE (fun y hy => (dE y hy).hasDerivWithinAt) (by simp [panelError])
    (fun y => hpow 4 _ y) (fun y hy => (b1 y ⟨hy.1, hy.2.le⟩).trans (le_of_eq (by push_cast; ring)))
    (Set.right_mem_Icc.mpr hT)
  rw [Real.norm_eq_abs] at this
  refine this.trans (le_of_eq ?_)
  ring

/-- The error of the composite Simpson rule is the sum of the errors of the panels. -/
theorem simpson_error_sum (f : ℝ → ℝ) (a b : ℝ) (N : ℕ) (hN : 0 < N) (hf : ContinuousOn f (Set.uIcc a b)) :
    (∫ x in a..b, f x) - simpson f a b N =
      ∑ k ∈ Finset.range N, panelError f (node a b N (k + 1 / 2)) ((b - a) / N / 2) := by
  have hN' : (N : ℝ) ≠ 0 := by positivity
  have hmem : ∀ k : ℕ, k ≤ N → node a b N k ∈ Set.uIcc a b := by
    intro k hk
    have h1 : (0 : ℝ) ≤ (k : ℝ) / N := by positivity
    have h2 : (k : ℝ) / N ≤ 1 := by
      rw [div_le_one (by positivity)]
      exact_mod_cast hk
    rw [show node a b N k = a + (k : ℝ) / N * (b - a) by simp only [node]; ring]
    rcases le_total a b with h | h
    · rw [Set.uIcc_of_le h]
      constructor <;> nlinarith
    · rw [Set.uIcc_of_ge h]
      constructor <;> nlinarith
  have hsum : ∑ k ∈ Finset.range N, ∫ x in (node a b N k)..(node a b N ((k + 1 : ℕ) : ℝ)), f x = ∫ x in a..b, f x := by
    rw [intervalIntegral.sum_integral_adjacent_intervals (a := fun k : ℕ => node a b N (k : ℝ))]
    · congr 1
      · simp [node]
      · simp only [node]; field_simp; ring
    · intro k hk
      refine ContinuousOn.intervalIntegrable (hf.mono ?_)
      exact Set.uIcc_subset_uIcc (hmem k hk.le) (hmem (k + 1) hk)
  rw [← hsum, simpson, ← Finset.sum_sub_distrib]
  refine Finset.sum_congr rfl fun k _ => ?_
  have e1 : node a b N (k + 1 / 2) - (b - a) / N / 2 = node a b N k := by simp only [node]; ring
  have e2 : node a b N (k + 1 / 2) + (b - a) / N / 2 = node a b N (k + 1) := by simp only [node]; ring
  rw [panelError, e1, e2]
  push_cast
  ring


end Verif.Integ
