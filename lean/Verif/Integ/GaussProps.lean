import Verif.Integ.GaussModel
import Verif.Integ.GaussLemmas
import Verif.Integ.RombergProps
import Mathlib.Topology.Algebra.Polynomial

/-!
# The Gauss and Gauss-Kronrod rules (C76)
-/

set_option autoImplicit false

namespace Verif.Integ

open Verif Polynomial

/-! ## What follows from the moments -/

/-- **C76.**  A rule with the right moments up to degree `d` integrates polynomials of degree at most `d` over any interval, up to
the tolerance of the moments. -/
theorem IsRule.poly {r : Rule} {n d : ℕ} {tol : ℝ} (hr : IsRule r n d tol) (p : ℝ[X]) (hp : p.natDegree ≤ d) (a b : ℝ) :
    |r.apply (fun x => p.eval x) a b - ∫ x in a..b, p.eval x| ≤ |b - a| / 2 * tol * size p a b := by
  have e : ∀ t : ℝ, p.eval ((a + b) / 2 + (b - a) / 2 * t) = (p.comp (C ((a + b) / 2) + C ((b - a) / 2) * X)).eval t := by
    intro t
    rw [eval_comp]
    simp
  rw [r.apply_poly, integral_to_unit, size]
  simp only [e]
  have hd := (rescaled_degree p ((a + b) / 2) ((b - a) / 2)).trans hp
  generalize p.comp (C ((a + b) / 2) + C ((b - a) / 2) * X) = q at hd ⊢
  rw [integral_unit, ← mul_sub, ← Finset.sum_sub_distrib, abs_mul, abs_div, abs_two, mul_assoc,
    sum_over_range' q (by simp) _ (Nat.lt_succ_self _)]
  refine mul_le_mul_of_nonneg_left ?_ (by positivity)
  rw [Finset.mul_sum]
  refine (Finset.abs_sum_le_sum_abs _ _).trans (Finset.sum_le_sum fun k hk => ?_)
  rw [← mul_sub, abs_mul, mul_comm tol]
  exact mul_le_mul_of_nonneg_left (hr.moments k (by have := Finset.mem_range.mp hk; omega)) (abs_nonneg _)

theorem IsRule.weight_sum {r : Rule} {n d : ℕ} {tol : ℝ} (hr : IsRule r n d tol) : (r.map Prod.snd).sum ≤ 2 + tol := by
  have h := abs_le.mp (hr.moments 0 (Nat.zero_le _))
  simp only [pow_zero, mul_one, Nat.cast_zero] at h
  have e : (r.map fun p => p.2) = r.map Prod.snd := rfl
  rw [e] at h
  linarith [h.2]

theorem IsRule.apply_bound {r : Rule} {n d : ℕ} {tol : ℝ} (hr : IsRule r n d tol) (g : ℝ → ℝ) (a b δ : ℝ) (hδ : 0 ≤ δ)
    (h : ∀ x ∈ Set.uIcc a b, |g x| ≤ δ) : |r.apply g a b| ≤ |b - a| / 2 * ((2 + tol) * δ) := by
  rw [Rule.apply, abs_mul, abs_div, abs_two]
  refine mul_le_mul_of_nonneg_left ?_ (by positivity)
  refine (list_sum_abs_le _).trans ?_
  rw [List.map_map]
  calc (r.map _).sum ≤ (r.map fun p => δ * p.2).sum := by
        refine list_sum_le _ _ _ fun p hp => ?_
        have hn := hr.nodes p hp
        have hw := hr.weights p hp
        simp only [Function.comp_apply, abs_mul, abs_of_pos hw]
        rw [mul_comm δ]
        refine mul_le_mul_of_nonneg_left (h _ ?_) hw.le
        rcases le_total a b with hab | hab
        · rw [Set.uIcc_of_le hab]
          constructor <;> nlinarith
        · rw [Set.uIcc_of_ge hab]
          constructor <;> nlinarith
    _ = δ * (r.map Prod.snd).sum := list_sum_mul r δ Prod.snd
    _ ≤ (2 + tol) * δ := by
        rw [mul_comm]
        exact mul_le_mul_of_nonneg_right hr.weight_sum hδ

/-- **C76.**  The error on a continuous function is at most about twice the length of the interval times its distance from the
polynomials of degree at most `d`. -/
theorem IsRule.accuracy {r : Rule} {n d : ℕ} {tol : ℝ} (hr : IsRule r n d tol) (f : ℝ → ℝ) (a b δ : ℝ)
    (hf : ContinuousOn f (Set.uIcc a b)) (p : ℝ[X]) (hp : p.natDegree ≤ d) (hδ : ∀ x ∈ Set.uIcc a b, |f x - p.eval x| ≤ δ) :
    |r.apply f a b - ∫ x in a..b, f x| ≤ |b - a| / 2 * ((4 + tol) * δ + tol * size p a b) := by
  have hδ0 : 0 ≤ δ := (abs_nonneg _).trans (hδ a Set.left_mem_uIcc)
  have h1 := hr.poly p hp a b
  have h2 := hr.apply_bound (fun x => f x - p.eval x) a b δ hδ0 hδ
  have h3 : |∫ x in a..b, (f x - p.eval x)| ≤ δ * |b - a| := by
    rw [← Real.norm_eq_abs]
    refine intervalIntegral.norm_integral_le_of_norm_le_const fun x hx => ?_
    rw [Real.norm_eq_abs]
    exact hδ x (Set.uIoc_subset_uIcc hx)
  rw [intervalIntegral.integral_sub hf.intervalIntegrable (p.continuous.intervalIntegrable _ _)] at h3
  have e : r.apply f a b = r.apply (fun x => f x - p.eval x) a b + r.apply (fun x => p.eval x) a b := by
    rw [← Rule.apply_add]
    simp
  rw [e]
  rw [abs_le] at *
  constructor <;> nlinarith [h1.1, h1.2, h2.1, h2.2, h3.1, h3.2]

/-! ## The rules of the code -/

/-- A rule symmetric about zero, from its positive nodes. -/
def sym (l : Rule) : Rule := l ++ l.map fun p => (-p.1, p.2)

/-- Every other entry, from the second on. -/
def odds : List ℝ → List ℝ
  | _ :: b :: l => b :: odds l
  | _ => []

/-- The nodes and weights of `IntegrateGauss10`. -/
noncomputable def gauss10 : Rule := sym (gauss10X.zip gauss10W)

/-- **C76.**  Ten nodes, moments up to degree 19 right to `10^-16`. -/
theorem gauss10_isRule : IsRule gauss10 10 19 (1 / 10 ^ 16) where
  length := rfl
  distinct := by
    simp only [gauss10, sym, odds, gauss10X, gauss10W, List.zip_cons_cons, List.zip_nil_right, List.map_cons, List.map_nil,
      List.cons_append, List.nil_append, List.tail_cons, List.dropLast_cons₂, List.dropLast_singleton, List.getD_cons_succ,
      List.getD_cons_zero, List.nodup_cons, List.mem_cons, List.not_mem_nil, or_false, not_or]
    norm_num
  nodes := by
    simp only [gauss10, sym, odds, gauss10X, gauss10W, List.zip_cons_cons, List.zip_nil_right, List.map_cons, List.map_nil,
      List.cons_append, List.nil_append, List.tail_cons, List.dropLast_cons₂, List.dropLast_singleton, List.getD_cons_succ,
      List.getD_cons_zero, List.forall_mem_cons]
    norm_num
  weights := by
    simp only [gauss10, sym, odds, gauss10X, gauss10W, List.zip_cons_cons, List.zip_nil_right, List.map_cons, List.map_nil,
      List.cons_append, List.nil_append, List.tail_cons, List.dropLast_cons₂, List.dropLast_singleton, List.getD_cons_succ,
      List.getD_cons_zero, List.forall_mem_cons]
    norm_num
  moments := by
    intro k hk
    simp only [gauss10, sym, odds, gauss10X, gauss10W, List.zip_cons_cons, List.zip_nil_right, List.map_cons, List.map_nil,
      List.cons_append, List.nil_append, List.tail_cons, List.dropLast_cons₂, List.dropLast_singleton, List.getD_cons_succ,
      List.getD_cons_zero, List.sum_cons, List.sum_nil]
    interval_cases k <;> norm_num [abs_le]

/-- The Kronrod rule of `IntegrateGK15`. -/
noncomputable def kronrod15 : Rule := (0, wGK15.getD 0 0) :: sym (xGK15.tail.zip wGK15.tail)

/-- **C76.**  Fifteen nodes, moments up to degree 23 right to `10^-34`. -/
theorem kronrod15_isRule : IsRule kronrod15 15 23 (1 / 10 ^ 34) where
  length := rfl
  distinct := by
    simp only [kronrod15, sym, odds, xGK15, wGK15, List.zip_cons_cons, List.zip_nil_right, List.map_cons, List.map_nil,
      List.cons_append, List.nil_append, List.tail_cons, List.dropLast_cons₂, List.dropLast_singleton, List.getD_cons_succ,
      List.getD_cons_zero, List.nodup_cons, List.mem_cons, List.not_mem_nil, or_false, not_or]
    norm_num
  nodes := by
    simp only [kronrod15, sym, odds, xGK15, wGK15, List.zip_cons_cons, List.zip_nil_right, List.map_cons, List.map_nil,
      List.cons_append, List.nil_append, List.tail_cons, List.dropLast_cons₂, List.dropLast_singleton, List.getD_cons_succ,
      List.getD_cons_zero, List.forall_mem_cons]
    norm_num
  weights := by
    simp only [kronrod15, sym, odds, xGK15, wGK15, List.zip_cons_cons, List.zip_nil_right, List.map_cons, List.map_nil,
      List.cons_append, List.nil_append, List.tail_cons, List.dropLast_cons₂, List.dropLast_singleton, List.getD_cons_succ,
      List.getD_cons_zero, List.forall_mem_cons]
    norm_num
  moments := by
    intro k hk
    simp only [kronrod15, sym, odds, xGK15, wGK15, List.zip_cons_cons, List.zip_nil_right, List.map_cons, List.map_nil,
      List.cons_append, List.nil_append, List.tail_cons, List.dropLast_cons₂, List.dropLast_singleton, List.getD_cons_succ,
      List.getD_cons_zero, List.sum_cons, List.sum_nil]
    interval_cases k <;> norm_num [abs_le]

/-- The Gauss rule of `IntegrateGK15`. -/
noncomputable def gauss7 : Rule := (0, wG7.getD 0 0) :: sym ((odds xGK15.tail).zip wG7.tail)

/-- **C76.**  Seven nodes, moments up to degree 13 right to `10^-34`. -/
theorem gauss7_isRule : IsRule gauss7 7 13 (1 / 10 ^ 34) where
  length := rfl
  distinct := by
    simp only [gauss7, sym, odds, xGK15, wG7, List.zip_cons_cons, List.zip_nil_right, List.map_cons, List.map_nil,
      List.cons_append, List.nil_append, List.tail_cons, List.dropLast_cons₂, List.dropLast_singleton, List.getD_cons_succ,
      List.getD_cons_zero, List.nodup_cons, List.mem_cons, List.not_mem_nil, or_false, not_or]
    norm_num
  nodes := by
    simp only [gauss7, sym, odds, xGK15, wG7, List.zip_cons_cons, List.zip_nil_right, List.map_cons, List.map_nil,
      List.cons_append, List.nil_append, List.tail_cons, List.dropLast_cons₂, List.dropLast_singleton, List.getD_cons_succ,
      List.getD_cons_zero, List.forall_mem_cons]
    norm_num
  weights := by
    simp only [gauss7, sym, odds, xGK15, wG7, List.zip_cons_cons, List.zip_nil_right, List.map_cons, List.map_nil,
      List.cons_append, List.nil_append, List.tail_cons, List.dropLast_cons₂, List.dropLast_singleton, List.getD_cons_succ,
      List.getD_cons_zero, List.forall_mem_cons]
    norm_num
  moments := by
    intro k hk
    simp only [gauss7, sym, odds, xGK15, wG7, List.zip_cons_cons, List.zip_nil_right, List.map_cons, List.map_nil,
      List.cons_append, List.nil_append, List.tail_cons, List.dropLast_cons₂, List.dropLast_singleton, List.getD_cons_succ,
      List.getD_cons_zero, List.sum_cons, List.sum_nil]
    interval_cases k <;> norm_num [abs_le]

/-- The Kronrod rule of `IntegrateGK21`. -/
noncomputable def kronrod21 : Rule := (0, wGK21.getD 10 0) :: sym (xGK21.dropLast.zip wGK21.dropLast)

/-- **C76.**  Twenty-one nodes, moments up to degree 31 right to `2 * 10^-33`. -/
theorem kronrod21_isRule : IsRule kronrod21 21 31 (2 / 10 ^ 33) where
  length := rfl
  distinct := by
    simp only [kronrod21, sym, odds, xGK21, wGK21, List.zip_cons_cons, List.zip_nil_right, List.map_cons, List.map_nil,
      List.cons_append, List.nil_append, List.tail_cons, List.dropLast_cons₂, List.dropLast_singleton, List.getD_cons_succ,
      List.getD_cons_zero, List.nodup_cons, List.mem_cons, List.not_mem_nil, or_false, not_or]
    norm_num
  nodes := by
    simp only [kronrod21, sym, odds, xGK21, wGK21, List.zip_cons_cons, List.zip_nil_right, List.map_cons, List.map_nil,
      List.cons_append, List.nil_append, List.tail_cons, List.dropLast_cons₂, List.dropLast_singleton, List.getD_cons_succ,
      List.getD_cons_zero, List.forall_mem_cons]
    norm_num
  weights := by
    simp only [kronrod21, sym, odds, xGK21, wGK21, List.zip_cons_cons, List.zip_nil_right, List.map_cons, List.map_nil,
      List.cons_append, List.nil_append, List.tail_cons, List.dropLast_cons₂, List.dropLast_singleton, List.getD_cons_succ,
      List.getD_cons_zero, List.forall_mem_cons]
    norm_num
  moments := by
    intro k hk
    simp only [kronrod21, sym, odds, xGK21, wGK21, List.zip_cons_cons, List.zip_nil_right, List.map_cons, List.map_nil,
      List.cons_append, List.nil_append, List.tail_cons, List.dropLast_cons₂, List.dropLast_singleton, List.getD_cons_succ,
      List.getD_cons_zero, List.sum_cons, List.sum_nil]
    interval_cases k <;> norm_num [abs_le]

/-- The Gauss rule of `IntegrateGK21`. -/
noncomputable def gauss10' : Rule := sym ((odds xGK21).zip wG10)

/-- **C76.**  Ten nodes, moments up to degree 19 right to `3 * 10^-33`. -/
theorem gauss10'_isRule : IsRule gauss10' 10 19 (3 / 10 ^ 33) where
  length := rfl
  distinct := by
    simp only [gauss10', sym, odds, xGK21, wG10, List.zip_cons_cons, List.zip_nil_right, List.map_cons, List.map_nil,
      List.cons_append, List.nil_append, List.tail_cons, List.dropLast_cons₂, List.dropLast_singleton, List.getD_cons_succ,
      List.getD_cons_zero, List.nodup_cons, List.mem_cons, List.not_mem_nil, or_false, not_or]
    norm_num
  nodes := by
    simp only [gauss10', sym, odds, xGK21, wG10, List.zip_cons_cons, List.zip_nil_right, List.map_cons, List.map_nil,
      List.cons_append, List.nil_append, List.tail_cons, List.dropLast_cons₂, List.dropLast_singleton, List.getD_cons_succ,
      List.getD_cons_zero, List.forall_mem_cons]
    norm_num
  weights := by
    simp only [gauss10', sym, odds, xGK21, wG10, List.zip_cons_cons, List.zip_nil_right, List.map_cons, List.map_nil,
      List.cons_append, List.nil_append, List.tail_cons, List.dropLast_cons₂, List.dropLast_singleton, List.getD_cons_succ,
      List.getD_cons_zero, List.forall_mem_cons]
    norm_num
  moments := by
    intro k hk
    simp only [gauss10', sym, odds, xGK21, wG10, List.zip_cons_cons, List.zip_nil_right, List.map_cons, List.map_nil,
      List.cons_append, List.nil_append, List.tail_cons, List.dropLast_cons₂, List.dropLast_singleton, List.getD_cons_succ,
      List.getD_cons_zero, List.sum_cons, List.sum_nil]
    interval_cases k <;> norm_num [abs_le]

/-- The Kronrod rule of `IntegrateGK31`. -/
noncomputable def kronrod31 : Rule := (0, wGK31.getD 15 0) :: sym (xGK31.dropLast.zip wGK31.dropLast)

/-- **C76.**  Thirty-one nodes, moments up to degree 47 right to `2 * 10^-33`. -/
theorem kronrod31_isRule : IsRule kronrod31 31 47 (2 / 10 ^ 33) where
  length := rfl
  distinct := by
    simp only [kronrod31, sym, odds, xGK31, wGK31, List.zip_cons_cons, List.zip_nil_right, List.map_cons, List.map_nil,
      List.cons_append, List.nil_append, List.tail_cons, List.dropLast_cons₂, List.dropLast_singleton, List.getD_cons_succ,
      List.getD_cons_zero, List.nodup_cons, List.mem_cons, List.not_mem_nil, or_false, not_or]
    norm_num
  nodes := by
    simp only [kronrod31, sym, odds, xGK31, wGK31, List.zip_cons_cons, List.zip_nil_right, List.map_cons, List.map_nil,
      List.cons_append, List.nil_append, List.tail_cons, List.dropLast_cons₂, List.dropLast_singleton, List.getD_cons_succ,
      List.getD_cons_zero, List.forall_mem_cons]
    norm_num
  weights := by
    simp only [kronrod31, sym, odds, xGK31, wGK31, List.zip_cons_cons, List.zip_nil_right, List.map_cons, List.map_nil,
      List.cons_append, List.nil_append, List.tail_cons, List.dropLast_cons₂, List.dropLast_singleton, List.getD_cons_succ,
      List.getD_cons_zero, List.forall_mem_cons]
    norm_num
  moments := by
    intro k hk
    simp only [kronrod31, sym, odds, xGK31, wGK31, List.zip_cons_cons, List.zip_nil_right, List.map_cons, List.map_nil,
      List.cons_append, List.nil_append, List.tail_cons, List.dropLast_cons₂, List.dropLast_singleton, List.getD_cons_succ,
      List.getD_cons_zero, List.sum_cons, List.sum_nil]
    interval_cases k <;> norm_num [abs_le]

/-- The Gauss rule of `IntegrateGK31`. -/
noncomputable def gauss15 : Rule := (0, wG15.getD 7 0) :: sym ((odds xGK31.dropLast).zip wG15.dropLast)

/-- **C76.**  Fifteen nodes, moments up to degree 29 right to `4 * 10^-33`. -/
theorem gauss15_isRule : IsRule gauss15 15 29 (4 / 10 ^ 33) where
  length := rfl
  distinct := by
    simp only [gauss15, sym, odds, xGK31, wG15, List.zip_cons_cons, List.zip_nil_right, List.map_cons, List.map_nil,
      List.cons_append, List.nil_append, List.tail_cons, List.dropLast_cons₂, List.dropLast_singleton, List.getD_cons_succ,
      List.getD_cons_zero, List.nodup_cons, List.mem_cons, List.not_mem_nil, or_false, not_or]
    norm_num
  nodes := by
    simp only [gauss15, sym, odds, xGK31, wG15, List.zip_cons_cons, List.zip_nil_right, List.map_cons, List.map_nil,
      List.cons_append, List.nil_append, List.tail_cons, List.dropLast_cons₂, List.dropLast_singleton, List.getD_cons_succ,
      List.getD_cons_zero, List.forall_mem_cons]
    norm_num
  weights := by
    simp only [gauss15, sym, odds, xGK31, wG15, List.zip_cons_cons, List.zip_nil_right, List.map_cons, List.map_nil,
      List.cons_append, List.nil_append, List.tail_cons, List.dropLast_cons₂, List.dropLast_singleton, List.getD_cons_succ,
      List.getD_cons_zero, List.forall_mem_cons]
    norm_num
  moments := by
    intro k hk
    simp only [gauss15, sym, odds, xGK31, wG15, List.zip_cons_cons, List.zip_nil_right, List.map_cons, List.map_nil,
      List.cons_append, List.nil_append, List.tail_cons, List.dropLast_cons₂, List.dropLast_singleton, List.getD_cons_succ,
      List.getD_cons_zero, List.sum_cons, List.sum_nil]
    interval_cases k <;> norm_num [abs_le]

/-- **C76.**  `IntegrateGauss10` applies its rule. -/
theorem integrateGauss10_eq (f : ℝ → ℝ) (a b : ℝ) : integrateGauss10 f a b = .ret ⟨gauss10.apply f a b, 0, 1, true⟩ := by
  have e1 : (0.5 : ℝ) * (a + b) = (a + b) / 2 := by norm_num; ring
  have e2 : (0.5 : ℝ) * (b - a) = (b - a) / 2 := by norm_num; ring
  have e3 : (0.5 : ℝ) * (b + a) = (a + b) / 2 := by norm_num; ring
  simp [integrateGauss10, e1, e2, e3, Rule.apply, gauss10, sym, odds, gauss10X, gauss10W, gauss10Step, Outcome.index, forRange, forFromTo, sub_eq_add_neg]
  ring_nf

/-- **C76.**  `IntegrateGK15` returns the 15-point sum, and its distance from the 7-point sum as the error estimate. -/
theorem integrateGK15_eq (f : ℝ → ℝ) (a b : ℝ) : integrateGK15 f a b =
    .ret ⟨kronrod15.apply f a b, |kronrod15.apply f a b - gauss7.apply f a b|, 15, true⟩ := by
  have e1 : (0.5 : ℝ) * (a + b) = (a + b) / 2 := by norm_num; ring
  have e2 : (0.5 : ℝ) * (b - a) = (b - a) / 2 := by norm_num; ring
  have e3 : (0.5 : ℝ) * (b + a) = (a + b) / 2 := by norm_num; ring
  simp [integrateGK15, e1, e2, e3, Rule.apply, kronrod15, gauss7, sym, odds, xGK15, wGK15, wG7, gk15Step, gauss7Term, finish, Outcome.index, forRange, forFromTo, sub_eq_add_neg]
  constructor <;> ring_nf

/-- **C76.**  `IntegrateGK21` returns the 21-point sum, and its distance from the 10-point sum as the error estimate. -/
theorem integrateGK21_eq (f : ℝ → ℝ) (a b : ℝ) : integrateGK21 f a b =
    .ret ⟨kronrod21.apply f a b, |kronrod21.apply f a b - gauss10'.apply f a b|, 21, true⟩ := by
  have e1 : (0.5 : ℝ) * (a + b) = (a + b) / 2 := by norm_num; ring
  have e2 : (0.5 : ℝ) * (b - a) = (b - a) / 2 := by norm_num; ring
  simp [integrateGK21, e1, e2, Rule.apply, kronrod21, gauss10', sym, odds, xGK21, wGK21, wG10, bothStep, kronrodStep, finish, Outcome.index, forRange, forFromTo, sub_eq_add_neg]
  constructor <;> ring_nf

/-- **C76.**  `IntegrateGK31` returns the 31-point sum, and its distance from the 15-point sum as the error estimate. -/
theorem integrateGK31_eq (f : ℝ → ℝ) (a b : ℝ) : integrateGK31 f a b =
    .ret ⟨kronrod31.apply f a b, |kronrod31.apply f a b - gauss15.apply f a b|, 31, true⟩ := by
  have e1 : (0.5 : ℝ) * (a + b) = (a + b) / 2 := by norm_num; ring
  have e2 : (0.5 : ℝ) * (b - a) = (b - a) / 2 := by norm_num; ring
  simp [integrateGK31, e1, e2, Rule.apply, kronrod31, gauss15, sym, odds, xGK31, wGK31, wG15, bothStep, kronrodStep, finish, Outcome.index, forRange, forFromTo, sub_eq_add_neg]
  constructor <;> ring_nf

/-! ## In terms of the specification -/

/-- A result is that of a Gauss rule embedded in a Kronrod rule. -/
def Embedded (run : (ℝ → ℝ) → ℝ → ℝ → Outcome GKResult) (n : ℕ) (K G : Rule) : Prop :=
  (∀ p ∈ G, p.1 ∈ K.map Prod.fst) ∧
    ∀ f a b, run f a b = .ret ⟨K.apply f a b, |K.apply f a b - G.apply f a b|, n, true⟩

theorem gk15_embedded : Embedded integrateGK15 15 kronrod15 gauss7 := by
  refine ⟨?_, integrateGK15_eq⟩
  simp [gauss7, kronrod15, sym, odds, xGK15, wG7, wGK15]

theorem gk21_embedded : Embedded integrateGK21 21 kronrod21 gauss10' := by
  refine ⟨?_, integrateGK21_eq⟩
  simp [gauss10', kronrod21, sym, odds, xGK21, wG10, wGK21]

theorem gk31_embedded : Embedded integrateGK31 31 kronrod31 gauss15 := by
  refine ⟨?_, integrateGK31_eq⟩
  simp [gauss15, kronrod31, sym, odds, xGK31, wG15, wGK31]

/-- **C76.**  `IntegrateGauss10` is a ten-point rule, right for polynomials up to degree 19. -/
theorem integrateGauss10_spec : ∃ G : Rule, IsRule G 10 19 (1 / 10 ^ 16) ∧
    ∀ f a b, integrateGauss10 f a b = .ret ⟨G.apply f a b, 0, 1, true⟩ :=
  ⟨gauss10, gauss10_isRule, integrateGauss10_eq⟩

/-- **C76.**  `IntegrateGK15` returns a 15-point sum right for polynomials up to degree 23; the error estimate is its distance
from a 7-point sum over some of the same nodes, right up to degree 13. -/
theorem integrateGK15_spec : ∃ K G : Rule, IsRule K 15 23 (1 / 10 ^ 34) ∧ IsRule G 7 13 (1 / 10 ^ 34) ∧
    Embedded integrateGK15 15 K G :=
  ⟨kronrod15, gauss7, kronrod15_isRule, gauss7_isRule, gk15_embedded⟩

/-- **C76.**  `IntegrateGK21` in the same way with 21 and 10 points, degrees 31 and 19. -/
theorem integrateGK21_spec : ∃ K G : Rule, IsRule K 21 31 (2 / 10 ^ 33) ∧ IsRule G 10 19 (3 / 10 ^ 33) ∧
    Embedded integrateGK21 21 K G :=
  ⟨kronrod21, gauss10', kronrod21_isRule, gauss10'_isRule, gk21_embedded⟩

/-- **C76.**  `IntegrateGK31` in the same way with 31 and 15 points, degrees 47 and 29. -/
theorem integrateGK31_spec : ∃ K G : Rule, IsRule K 31 47 (2 / 10 ^ 33) ∧ IsRule G 15 29 (4 / 10 ^ 33) ∧
    Embedded integrateGK31 31 K G :=
  ⟨kronrod31, gauss15, kronrod31_isRule, gauss15_isRule, gk31_embedded⟩

/-- **C76.**  What this means for a polynomial: `IntegrateGK15` integrates degree 23. -/
theorem integrateGK15_poly (p : ℝ[X]) (hp : p.natDegree ≤ 23) (a b : ℝ) :
    ∃ r, integrateGK15 (fun x => p.eval x) a b = .ret r ∧
      |r.value - ∫ x in a..b, p.eval x| ≤ |b - a| / 2 * (1 / 10 ^ 34) * size p a b :=
  ⟨_, integrateGK15_eq _ a b, kronrod15_isRule.poly p hp a b⟩

/-- `size` is an ordinary number: for `x^2` on `[-1, 3]` it is `(1 + 2t)^2 = 1 + 4t + 4t^2`, so nine. -/
example : size (X ^ 2) (-1) 3 = 9 := by
  have e : ((X : ℝ[X]) ^ 2).comp (C ((-1 + 3) / 2) + C ((3 - -1) / 2) * X) = C 4 * X ^ 2 + C 4 * X + C 1 := by
    rw [pow_comp, X_comp]
    rw [show ((-1 + 3) / 2 : ℝ) = 1 by norm_num, show ((3 - -1) / 2 : ℝ) = 2 by norm_num,
      show (C (4 : ℝ)) = C 2 * C 2 by rw [← C_mul]; norm_num, C_1]
    have : (C (2 : ℝ)) = 2 := rfl
    rw [this]
    ring
  rw [size, e, sum_over_range' _ (by simp) 3 (by
    have : (C (4 : ℝ) * X ^ 2 + C 4 * X + C 1 : ℝ[X]).natDegree ≤ 2 := by compute_degree
    omega)]
  simp [Finset.sum_range_succ, coeff_X, coeff_one]
  norm_num

/-- The same for a smooth integrand: the exponential function on `[0, 1]` is within `25 / (24! * 24)` of its Taylor polynomial. -/
example : |kronrod15.apply Real.exp 0 1 - ∫ x in (0 : ℝ)..1, Real.exp x| ≤ |(1 : ℝ) - 0| / 2 *
    ((4 + 1 / 10 ^ 34) * (25 / (Nat.factorial 24 * 24)) +
      1 / 10 ^ 34 * size (∑ m ∈ Finset.range 24, C (1 / (Nat.factorial m : ℝ)) * X ^ m) 0 1) := by
  refine kronrod15_isRule.accuracy _ 0 1 _ Real.continuous_exp.continuousOn _ ?_ ?_
  · refine natDegree_sum_le_of_forall_le _ _ fun m hm => ?_
    have := Finset.mem_range.mp hm
    exact (natDegree_C_mul_X_pow_le _ _).trans (by omega)
  · intro x hx
    rw [Set.uIcc_of_le (by norm_num)] at hx
    have e : (∑ m ∈ Finset.range 24, C (1 / (Nat.factorial m : ℝ)) * X ^ m : ℝ[X]).eval x =
        ∑ m ∈ Finset.range 24, x ^ m / (Nat.factorial m : ℝ) := by
      rw [eval_finsetSum]
      refine Finset.sum_congr rfl fun m _ => ?_
      simp only [eval_mul, eval_C, eval_pow, eval_X]
      ring
    rw [e]
    have h1 := Real.exp_bound' hx.1 hx.2 (show 0 < 24 by norm_num)
    have h2 := Real.sum_le_exp_of_nonneg hx.1 24
    rw [abs_of_nonneg (by linarith)]
    have h3 : x ^ 24 * ((24 : ℕ) + 1) / (Nat.factorial 24 * (24 : ℕ)) ≤ 25 / (Nat.factorial 24 * 24 : ℝ) := by
      push_cast
      have : x ^ 24 ≤ 1 := pow_le_one₀ hx.1 hx.2
      gcongr
      linarith
    linarith

end Verif.Integ
