import Mathlib.Tactic
import Mathlib.Analysis.SpecialFunctions.Trigonometric.Deriv
import Mathlib.LinearAlgebra.Matrix.Block
import Mathlib.Analysis.Real.Pi.Bounds
import Verif.Systems.Maps
import Verif.Systems.ContinuousProps

/-!
# Discrete maps and their Lyapunov exponents: properties
-/

set_option autoImplicit false

namespace Verif.Systems

/-! ## The maps -/

/-- **C131.** The orbit has `n` states, and the state at index `i` is the `(i+1)`-st iterate. -/
theorem orbit_spec {α : Type} (f : α → α) (x : α) (n : ℕ) : (orbit f x n).length = n ∧ ∀ i < n, (orbit f x n)[i]? = some (f^[i + 1] x) := by
  induction n generalizing x with
  | zero => exact ⟨rfl, by simp⟩
  | succ n ih =>
    obtain ⟨h1, h2⟩ := ih (f x)
    refine ⟨by rw [orbit, List.length_cons, h1], fun i hi => ?_⟩
    cases i with
    | zero => rfl
    | succ i => rw [orbit, List.getElem?_cons_succ, h2 i (by omega)]; rfl

/-- **C131.** Logistic map: the Jacobian, and for `0 ≤ r ≤ 4` orbits that start in the unit interval stay there. -/
theorem logistic_spec (r : ℝ) (x : Fin 1 → ℝ) : IsJacobian (Logistic.map r) (Logistic.jacobian r x) x ∧
    (0 ≤ r → r ≤ 4 → 0 ≤ x 0 → x 0 ≤ 1 → ∀ n, ∀ y ∈ orbit (Logistic.map r) x n, 0 ≤ y 0 ∧ y 0 ≤ 1) := by
  constructor
  · intro i j
    fin_cases i; fin_cases j
    apply cubic <;> simp [Logistic.map, Logistic.jacobian, lagrange] <;> intros <;> ring1
  · intro h0 h4 hx0 hx1 n
    induction n generalizing x with
    | zero => simp [orbit]
    | succ n ih =>
      have e : Logistic.map r x 0 = r * x 0 * (1 - x 0) := rfl
      have g0 : 0 ≤ Logistic.map r x 0 := by rw [e]; exact mul_nonneg (mul_nonneg h0 hx0) (by linarith)
      have g1 : Logistic.map r x 0 ≤ 1 := by
        rw [e]
        nlinarith [sq_nonneg (2 * x 0 - 1), mul_nonneg hx0 (sub_nonneg.2 hx1), mul_le_mul_of_nonneg_right h4 (mul_nonneg hx0 (sub_nonneg.2 hx1))]
      intro y hy
      rw [orbit] at hy
      rcases List.mem_cons.1 hy with rfl | hy
      · exact ⟨g0, g1⟩
      · exact ih _ g0 g1 y hy

/-- **C131.** Hénon map: the Jacobian, and its determinant is what `jacobianDeterminant` returns. -/
theorem henon_spec (a b : ℝ) (x : Fin 2 → ℝ) : IsJacobian (Henon.map a b) (Henon.jacobian a b x) x ∧
    (Matrix.of (Henon.jacobian a b x)).det = Henon.jacobianDet b := by
  constructor
  · intro i j
    fin_cases i <;> fin_cases j <;>
      (apply cubic <;> simp [Henon.map, Henon.jacobian, lagrange, Function.update_apply] <;> intros <;> first | ring1 | (right; ring1))
  · rw [Matrix.det_fin_two]
    simp [Henon.jacobian, Henon.jacobianDet]

theorem wrap_spec (p : ℝ) : 0 ≤ Standard.wrap p ∧ Standard.wrap p < 2 * Real.pi ∧ ∃ k : ℤ, Standard.wrap p = p - k * (2 * Real.pi) := by
  have h2 : 0 < 2 * Real.pi := by positivity
  have h0 := Int.floor_le (p / (2 * Real.pi))
  have h1 := Int.lt_floor_add_one (p / (2 * Real.pi))
  rw [le_div_iff₀ h2] at h0
  rw [div_lt_iff₀ h2] at h1
  refine ⟨by rw [Standard.wrap]; linarith, by rw [Standard.wrap]; linarith, ⌊p / (2 * Real.pi)⌋, by rw [Standard.wrap]; ring⟩

theorem wrap_deriv {g : ℝ → ℝ} {g' s : ℝ} (hg : HasDerivAt g g' s) (hn : ∀ k : ℤ, g s ≠ k * (2 * Real.pi)) : HasDerivAt (fun s => Standard.wrap (g s)) g' s := by
  have h2 : 0 < 2 * Real.pi := by positivity
  have h0 := Int.floor_le (g s / (2 * Real.pi))
  have h1 := Int.lt_floor_add_one (g s / (2 * Real.pi))
  set k := ⌊g s / (2 * Real.pi)⌋ with hk
  rw [le_div_iff₀ h2] at h0
  rw [div_lt_iff₀ h2] at h1
  have h0' : (k : ℝ) * (2 * Real.pi) < g s := lt_of_le_of_ne h0 (fun e => hn k e.symm)
  refine (hg.sub_const (2 * Real.pi * k)).congr_of_eventuallyEq ?_
  have hnb : ∀ᶠ u in nhds s, g u ∈ Set.Ioo ((k : ℝ) * (2 * Real.pi)) (((k : ℝ) + 1) * (2 * Real.pi)) := hg.continuousAt (Ioo_mem_nhds h0' h1)
  filter_upwards [hnb] with u hu
  have : ⌊g u / (2 * Real.pi)⌋ = k := by
    rw [Int.floor_eq_iff, le_div_iff₀ h2, div_lt_iff₀ h2]
    exact ⟨hu.1.le, hu.2⟩
  rw [Standard.wrap, this]

/-- **C131.** Standard map: both results lie in `[0, 2π)` and differ from the unwrapped values by whole turns; the determinant of the Jacobian is one;
and the Jacobian is the derivative wherever the unwrapped values are not whole turns. -/
theorem standard_spec (K : ℝ) (x : Fin 2 → ℝ) :
    (∀ i, 0 ≤ Standard.map K x i ∧ Standard.map K x i < 2 * Real.pi) ∧
    (∃ k : ℤ, Standard.map K x 0 = x 0 + K * Real.sin (x 1) - k * (2 * Real.pi)) ∧
    (∃ k : ℤ, Standard.map K x 1 = x 1 + Standard.map K x 0 - k * (2 * Real.pi)) ∧
    (Matrix.of (Standard.jacobian K x)).det = 1 ∧
    ((∀ k : ℤ, x 0 + K * Real.sin (x 1) ≠ k * (2 * Real.pi)) → (∀ k : ℤ, x 1 + (x 0 + K * Real.sin (x 1)) ≠ k * (2 * Real.pi)) →
      IsJacobian (Standard.map K) (Standard.jacobian K x) x) := by
  have e0 : Standard.map K x 0 = Standard.wrap (x 0 + K * Real.sin (x 1)) := rfl
  have e1 : Standard.map K x 1 = Standard.wrap (x 1 + (x 0 + K * Real.sin (x 1))) := rfl
  obtain ⟨a0, a1, k, hk⟩ := wrap_spec (x 0 + K * Real.sin (x 1))
  obtain ⟨b0, b1, l, hl⟩ := wrap_spec (x 1 + (x 0 + K * Real.sin (x 1)))
  refine ⟨fun i => ?_, ⟨k, by rw [e0, hk]⟩, ⟨l - k, by rw [e1, e0, hk, hl]; push_cast; ring⟩, ?_, fun hn0 hn1 i j => ?_⟩
  · fin_cases i
    · exact ⟨a0, a1⟩
    · exact ⟨b0, b1⟩
  · rw [Matrix.det_fin_two]
    simp [Standard.jacobian]
  · have hs := Real.hasDerivAt_sin (x 1)
    fin_cases i <;> fin_cases j
    · have := wrap_deriv (g := fun s => s + K * Real.sin (x 1)) ((hasDerivAt_id (x 0)).add_const _) hn0
      exact this
    · have := wrap_deriv (g := fun s => x 0 + K * Real.sin s) ((hs.const_mul K).const_add _) hn0
      exact this
    · have := wrap_deriv (g := fun s => x 1 + (s + K * Real.sin (x 1))) (((hasDerivAt_id (x 0)).add_const _).const_add _) hn1
      exact this
    · have := wrap_deriv (g := fun s => s + (x 0 + K * Real.sin s)) ((hasDerivAt_id (x 1)).add ((hs.const_mul K).const_add _)) hn1
      exact this

/-- A non-trivial case: none of the two unwrapped values is a whole turn. -/
example : (∀ k : ℤ, (1 : ℝ) + 1 * Real.sin 0 ≠ k * (2 * Real.pi)) ∧ ∀ k : ℤ, (0 : ℝ) + (1 + 1 * Real.sin 0) ≠ k * (2 * Real.pi) := by
  have : ∀ k : ℤ, (1 : ℝ) ≠ k * (2 * Real.pi) := by
    intro k hk
    have hp := Real.pi_gt_three
    rcases le_or_gt k 0 with h | h
    · have : (k : ℝ) ≤ 0 := by exact_mod_cast h
      nlinarith
    · have : (1 : ℝ) ≤ k := by exact_mod_cast h
      nlinarith
  simp only [Real.sin_zero, mul_zero, add_zero, zero_add]
  exact ⟨this, this⟩

/-- **C131.** Tent map: the Jacobian away from the tip, and for `0 ≤ μ ≤ 2` orbits that start in the unit interval stay there. -/
theorem tent_spec (μ : ℝ) (x : Fin 1 → ℝ) : (x 0 ≠ 1 / 2 → IsJacobian (Tent.map μ) (Tent.jacobian μ x) x) ∧
    (0 ≤ μ → μ ≤ 2 → 0 ≤ x 0 → x 0 ≤ 1 → ∀ n, ∀ y ∈ orbit (Tent.map μ) x n, 0 ≤ y 0 ∧ y 0 ≤ 1) := by
  constructor
  · intro hx i j
    fin_cases i; fin_cases j
    have e : (fun s => Tent.map μ (Function.update x 0 s) 0) = fun s => μ * min s (1 - s) := by funext s; simp [Tent.map]
    change HasDerivAt (fun s => Tent.map μ (Function.update x 0 s) 0) (if x 0 < 1 / 2 then μ else -μ) (x 0)
    rw [e]
    by_cases h : x 0 < 1 / 2
    · rw [if_pos h]
      refine (((hasDerivAt_id (x 0)).const_mul μ).congr_deriv (by simp)).congr_of_eventuallyEq ?_
      filter_upwards [Iio_mem_nhds h] with s hs
      rw [Set.mem_Iio] at hs
      rw [min_eq_left (by linarith)]; rfl
    · have h' : 1 / 2 < x 0 := lt_of_le_of_ne (not_lt.1 h) (Ne.symm hx)
      rw [if_neg h]
      refine ((((hasDerivAt_id (x 0)).const_sub 1).const_mul μ).congr_deriv (by simp)).congr_of_eventuallyEq ?_
      filter_upwards [Ioi_mem_nhds h'] with s hs
      rw [Set.mem_Ioi] at hs
      rw [min_eq_right (by linarith)]; rfl
  · intro h0 h2 hx0 hx1 n
    induction n generalizing x with
    | zero => simp [orbit]
    | succ n ih =>
      have e : Tent.map μ x 0 = μ * min (x 0) (1 - x 0) := rfl
      have m0 : 0 ≤ min (x 0) (1 - x 0) := le_min hx0 (by linarith)
      have m1 : min (x 0) (1 - x 0) ≤ 1 / 2 := by
        rcases le_total (x 0) (1 / 2) with h | h
        · exact (min_le_left _ _).trans h
        · exact (min_le_right _ _).trans (by linarith)
      have g0 : 0 ≤ Tent.map μ x 0 := by rw [e]; exact mul_nonneg h0 m0
      have g1 : Tent.map μ x 0 ≤ 1 := by rw [e]; nlinarith
      intro y hy
      rw [orbit] at hy
      rcases List.mem_cons.1 hy with rfl | hy
      · exact ⟨g0, g1⟩
      · exact ih _ g0 g1 y hy

end Verif.Systems
