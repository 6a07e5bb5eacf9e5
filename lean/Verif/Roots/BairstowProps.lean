import Verif.Roots.BairstowLemmas

/-! # C97: Bairstow's method -/

set_option autoImplicit false

namespace Verif.Roots

open Polynomial Outcome
open Verif.Poly (pl)

/-- C97.  `BairstowRoots` of a polynomial with a leading coefficient `a` that is not zero, for all first guesses, throws or gives
numbers that are found factor by factor.  There are as many as the degree if it is even or if `|a| > 10^-12`, else the last one is
missing.  Missing: a bound on the distance to the roots of the given polynomial, for which the steps give none. -/
theorem bairstow_partial (poly : List ℝ) (n : ℕ) (hn : poly.length = n + 1) (a : ℝ) (ha : poly.getLast? = some a) (h0 : a ≠ 0)
    (init : List ℂ) (tol : ℝ) (maxIter : ℤ) :
    bairstowRoots poly init tol maxIter = .exn (.mml "runtime_error") ∨
      ∃ roots, bairstowRoots poly init tol maxIter = .ret roots ∧
        if n % 2 = 0 ∨ 1 / 10 ^ 12 < |a| then
          roots.length = n ∧ Factored tol (∑ i ∈ Finset.range (n + 1), C (poly.getD i 0) * X ^ i) roots
        else roots.length + 1 = n ∧ ∃ r, Factored tol (∑ i ∈ Finset.range (n + 1), C (poly.getD i 0) * X ^ i) (roots ++ [r]) := by
  set f : ℕ → ℝ := fun i => poly.getD i 0 with hf
  have hpoly : poly = tab (n + 1) f := by
    rw [← hn]; exact eq_tab poly 0
  have hlead : f n = a := by
    rw [List.getLast?_eq_getElem?, hn, Nat.add_sub_cancel] at ha
    simp [hf, List.getD, ha]
  have hmain : (bairstowRoots poly init tol maxIter).Sat (LoopResult tol n f) bairstowFails := by
    unfold bairstowRoots
    split_ifs with h
    · obtain rfl : n = 0 := by omega
      show LoopResult _ _ _ _
      rw [LoopResult, if_pos (by left; rfl)]
      refine ⟨rfl, ?_⟩
      rw [Poly.pl_succ, Poly.pl_zero, pow_zero, mul_one, zero_add]
      exact .nil _
    · rw [hn, Nat.add_sub_cancel, hpoly]
      exact bairstowLoop_run _ _ _ n _ _ _ (by omega) (by rw [hlead]; exact h0)
  obtain ⟨hub, hexn, hret⟩ := sat_iff.1 hmain
  cases hres : bairstowRoots poly init tol maxIter with
  | ret roots =>
    refine .inr ⟨roots, rfl, ?_⟩
    have := hret _ hres
    unfold LoopResult at this
    rw [hlead] at this
    exact this
  | exn e => rw [hexn _ hres]; exact .inl rfl
  | ub => exact absurd hres hub

example : ([-6, 11, -6, 1] : List ℝ).length = 3 + 1 ∧ ([-6, 11, -6, 1] : List ℝ).getLast? = some 1 ∧ (1 : ℝ) ≠ 0 := by norm_num

/-- C97, quadratics.  For `a x² + b x + c` with `a² ≥ 10^-15` and at least two iterations the method gives the roots of a quadratic
`x² + u x + v` which, times `a`, has coefficients within the tolerance of the given ones. -/
theorem bairstow_quadratic (a b c : ℝ) (ha : 1 / 10 ^ 15 ≤ a ^ 2) (tol : ℝ) (htol : 0 < tol) (maxIter : ℤ) (hm : 2 ≤ maxIter)
    (init : List ℂ) : ∃ u v r₁ r₂, bairstowRoots [c, b, a] init tol maxIter = .ret [r₁, r₂] ∧
      (quad u v).map Complex.ofRealHom = (X - C r₁) * (X - C r₂) ∧ |b - a * u| < tol ∧ |c - a * v| < tol := by
  have ha0 : a ≠ 0 := by rintro rfl; norm_num at ha
  obtain ⟨k, hk⟩ : ∃ k, maxIter.toNat = k + 2 := ⟨maxIter.toNat - 2, by omega⟩
  have hsyn : ∀ u v (x y z : ℝ), synth [c, b, a] 2 u v [x, y, z] = .ret ([a, 0, 0], b - u * a, c - v * a) := by
    intro u v x y z
    simp [synth, forDown, forRange, synthStep, index, store]
  have hsyn' : ∀ u v (x y z : ℝ), synth [a, 0, 0] 2 u v [x, y, z] = .ret ([0, 0, 0], 0, a) := by
    intro u v x y z
    simp [synth, forDown, forRange, synthStep, index, store]
  have hdet : ∀ u v, bairstowDet u v 0 a = a ^ 2 := by intro u v; unfold bairstowDet; ring
  have hdu : ∀ u v, u - bairstowDu u v (b - u * a) (c - v * a) 0 a = b / a := by
    intro u v; unfold bairstowDu; rw [hdet]; field_simp; ring
  have hdv : ∀ u v, v - bairstowDv u v (b - u * a) (c - v * a) 0 a = c / a := by
    intro u v; unfold bairstowDv; rw [hdet]; field_simp; ring
  have hit : ∀ u v, ∃ u' v' l, bairstowIterate [c, b, a] 2 tol (k + 2) u v [0, 0, 0] [0, 0, 0] = .ret (u', v', l) ∧
      |b - a * u'| < tol ∧ |c - a * v'| < tol := by
    intro u v
    have hu : |b - a * (b / a)| < tol := by
      rw [mul_div_cancel₀ _ ha0, sub_self, abs_zero]; exact htol
    have hv : |c - a * (c / a)| < tol := by
      rw [mul_div_cancel₀ _ ha0, sub_self, abs_zero]; exact htol
    rw [bairstowIterate, hsyn, Outcome.bind_ret]
    dsimp only
    split_ifs with h
    · exact ⟨u, v, _, rfl, by rw [mul_comm a]; exact h.1, by rw [mul_comm a]; exact h.2⟩
    · rw [hsyn', Outcome.bind_ret]
      dsimp only
      rw [hdet, if_neg (by rw [abs_of_nonneg (sq_nonneg a)]; unfold detThreshold; linarith), hdu, hdv]
      split_ifs with h2
      · exact ⟨_, _, _, rfl, hu, hv⟩
      · rw [bairstowIterate, hsyn, Outcome.bind_ret]
        dsimp only
        rw [if_pos (by rw [div_mul_cancel₀ _ ha0, div_mul_cancel₀ _ ha0]; simpa using htol)]
        exact ⟨_, _, _, rfl, hu, hv⟩
  obtain ⟨u, v, l, h1, h2, h3⟩ := hit (firstGuess init true).1 (firstGuess init true).2
  obtain ⟨r₁, r₂, h4, h5⟩ := factorRoots_eq u v
  refine ⟨u, v, r₁, r₂, ?_, h5, h2, h3⟩
  unfold bairstowRoots
  rw [if_neg (by simp)]
  show bairstowLoop init tol maxIter.toNat (0 + 2) true _ = _
  rw [bairstowLoop, hk]
  show (bairstowIterate [c, b, a] 2 tol (k + 2) _ _ [0, 0, 0] [0, 0, 0] >>= _) = _
  rw [h1, Outcome.bind_ret]
  simp [bairstowLoop, lastRoot, h4]

example : (1 : ℝ) / 10 ^ 15 ≤ 1 ^ 2 ∧ (0 : ℝ) < 1 / 10 ^ 10 ∧ (2 : ℤ) ≤ 100 := by norm_num

/-- C97, where it fails: no root is given for a linear polynomial with a small leading coefficient. -/
theorem bairstow_missing (a b : ℝ) (ha : |a| ≤ 1 / 10 ^ 12) (init : List ℂ) (tol : ℝ) (maxIter : ℤ) :
    bairstowRoots [b, a] init tol maxIter = .ret [] := by
  unfold bairstowRoots
  rw [if_neg (by simp)]
  show bairstowLoop init tol maxIter.toNat 1 true _ = _
  rw [bairstowLoop]
  · rw [lastRoot, if_pos rfl]
    show (if |a| > coeffThreshold then _ else _) = _
    exact if_neg (not_lt.2 ha)
  · intro n h; omega

/-- `10^-12 x - 1` has the root `10^12`. -/
example : bairstowRoots [-1, 1 / 10 ^ 12] [] (1 / 10 ^ 10) 100 = .ret [] ∧ (lin (1 / 10 ^ 12) (-1)).IsRoot (10 ^ 12) :=
  ⟨bairstow_missing _ _ (by norm_num [abs_of_pos]) _ _ _, by unfold lin; norm_num [IsRoot]⟩

end Verif.Roots
