import Verif.Integ.GaussSpec
import Verif.Integ.PolyTrap

/-!
# Rules with the right moments integrate polynomials
-/

set_option autoImplicit false

namespace Verif.Integ

open Polynomial

theorem list_sum_abs_le (l : List ℝ) : |l.sum| ≤ (l.map fun x => |x|).sum := by
  induction l with
  | nil => simp
  | cons a l ih =>
    simp only [List.sum_cons, List.map_cons]
    exact (abs_add_le _ _).trans (by linarith)

theorem list_sum_le {ι : Type _} (l : List ι) (f g : ι → ℝ) (h : ∀ x ∈ l, f x ≤ g x) : (l.map f).sum ≤ (l.map g).sum := by
  induction l with
  | nil => simp
  | cons a l ih =>
    simp only [List.sum_cons, List.map_cons]
    exact add_le_add (h a (by simp)) (ih fun x hx => h x (by simp [hx]))

theorem list_sum_finset {ι : Type _} (l : List ι) (s : Finset ℕ) (F : ι → ℕ → ℝ) :
    (l.map fun x => ∑ k ∈ s, F x k).sum = ∑ k ∈ s, (l.map fun x => F x k).sum := by
  induction l with
  | nil => simp
  | cons a l ih => simp only [List.map_cons, List.sum_cons, ih, Finset.sum_add_distrib]

theorem list_sum_mul {ι : Type _} (l : List ι) (c : ℝ) (F : ι → ℝ) : (l.map fun x => c * F x).sum = c * (l.map F).sum := by
  induction l with
  | nil => simp
  | cons a l ih => simp only [List.map_cons, List.sum_cons, ih, mul_add]

theorem integral_unit_pow (k : ℕ) : ∫ x in (-1 : ℝ)..1, x ^ k = (1 + (-1) ^ k) / (k + 1) := by
  rw [integral_pow, one_pow, pow_succ]
  ring

theorem integral_unit (q : ℝ[X]) : ∫ x in (-1 : ℝ)..1, q.eval x =
    ∑ k ∈ Finset.range (q.natDegree + 1), q.coeff k * ((1 + (-1) ^ k) / (k + 1)) := by
  simp only [eval_eq_sum_range]
  rw [intervalIntegral.integral_finsetSum]
  · refine Finset.sum_congr rfl fun k _ => ?_
    rw [intervalIntegral.integral_const_mul, integral_unit_pow]
  · intro k _
    exact (by fun_prop : Continuous fun x : ℝ => q.coeff k * x ^ k).intervalIntegrable _ _

theorem integral_to_unit (f : ℝ → ℝ) (a b : ℝ) :
    ∫ x in a..b, f x = (b - a) / 2 * ∫ t in (-1 : ℝ)..1, f ((a + b) / 2 + (b - a) / 2 * t) := by
  rw [intervalIntegral.mul_integral_comp_add_mul]
  congr 1 <;> ring

theorem Rule.apply_add (r : Rule) (f g : ℝ → ℝ) (a b : ℝ) :
    r.apply (fun x => f x + g x) a b = r.apply f a b + r.apply g a b := by
  rw [Rule.apply, Rule.apply, Rule.apply, ← mul_add]
  congr 1
  induction r with
  | nil => simp
  | cons p l ih =>
    simp only [List.map_cons, List.sum_cons, ih]
    ring

theorem Rule.apply_smul (r : Rule) (c : ℝ) (f : ℝ → ℝ) (a b : ℝ) :
    r.apply (fun x => c * f x) a b = c * r.apply f a b := by
  rw [Rule.apply, Rule.apply]
  have : (r.map fun p => p.2 * (c * f ((a + b) / 2 + (b - a) / 2 * p.1))) =
      r.map fun p => c * (p.2 * f ((a + b) / 2 + (b - a) / 2 * p.1)) := by
    refine List.map_congr_left fun p _ => ?_
    ring
  rw [this, list_sum_mul]
  ring

theorem Rule.apply_poly (r : Rule) (p : ℝ[X]) (a b : ℝ) :
    r.apply (fun x => p.eval x) a b = (b - a) / 2 *
      ∑ k ∈ Finset.range ((p.comp (C ((a + b) / 2) + C ((b - a) / 2) * X)).natDegree + 1),
        (p.comp (C ((a + b) / 2) + C ((b - a) / 2) * X)).coeff k * (r.map fun q => q.2 * q.1 ^ k).sum := by
  rw [Rule.apply]
  congr 1
  have e : ∀ t : ℝ, p.eval ((a + b) / 2 + (b - a) / 2 * t) = (p.comp (C ((a + b) / 2) + C ((b - a) / 2) * X)).eval t := by
    intro t
    rw [eval_comp]
    simp
  simp only [e]
  generalize p.comp (C ((a + b) / 2) + C ((b - a) / 2) * X) = q
  simp only [eval_eq_sum_range, Finset.mul_sum]
  rw [list_sum_finset]
  refine Finset.sum_congr rfl fun k _ => ?_
  rw [← list_sum_mul]
  congr 1
  refine List.map_congr_left fun x _ => ?_
  ring

theorem rescaled_degree (p : ℝ[X]) (c h : ℝ) : (p.comp (C c + C h * X)).natDegree ≤ p.natDegree := by
  refine natDegree_comp_le.trans ?_
  have : (C c + C h * X).natDegree ≤ 1 := by compute_degree
  calc p.natDegree * (C c + C h * X).natDegree ≤ p.natDegree * 1 := Nat.mul_le_mul_left _ this
    _ = p.natDegree := mul_one _

theorem size_nonneg (p : ℝ[X]) (a b : ℝ) : 0 ≤ size p a b := by
  rw [size, Polynomial.sum]
  exact Finset.sum_nonneg fun _ _ => abs_nonneg _

end Verif.Integ
