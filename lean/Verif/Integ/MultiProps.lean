import Verif.Integ.MultiModel
import Verif.Integ.RombergAccuracy
import Verif.Integ.ErrProps
import Verif.Integ.GaussProps
import Verif.Integ.OpenProps

/-!
# Method dispatch, double and triple integrals (C80)
-/

set_option autoImplicit false

namespace Verif.Integ

open Verif Polynomial MeasureTheory

/-- Settings under which every method returns an answer: at least two rounds of refinement, at most thirty-two. -/
structure Config.Valid (c : Config) : Prop where
  trap : 1 ≤ c.trapSteps ∧ c.trapSteps ≤ 32
  simpson : 2 ≤ c.simpsonSteps ∧ c.simpsonSteps ≤ 32
  romberg : 2 ≤ c.rombergPoints ∧ c.rombergPoints ≤ c.rombergSteps ∧ c.rombergSteps ≤ 32

/-- The settings of a fresh `AlgorithmContext` (MMLBase.h:199-208). -/
noncomputable def Config.initial : Config := ⟨20, 1 / 10 ^ 4, 20, 1 / 10 ^ 5, 20, 5, 1 / 10 ^ 10⟩

theorem Config.initial_valid : Config.initial.Valid := by
  constructor <;> simp [Config.initial]

/-- The largest degree of polynomials a method integrates exactly (for the two Gauss rules up to the rounding of their tables). -/
def degree (c : Config) : Method → ℕ
  | .trap => 1
  | .simpson => 3
  | .romberg => 2 * c.rombergPoints - 1
  | .gauss10 => 19
  | .gk21 => 31

/-- The rounding of the tables of nodes and weights; the refining methods have none. -/
noncomputable def slack : Method → ℝ
  | .trap => 0
  | .simpson => 0
  | .romberg => 0
  | .gauss10 => 1 / 10 ^ 16
  | .gk21 => 1 / 10 ^ 32

theorem slack_nonneg (m : Method) : 0 ≤ slack m := by cases m <;> norm_num [slack]

/-! ## One level -/

theorem simpson_close (f g : ℝ → ℝ) (a b δ : ℝ) (N : ℕ) (hN : 0 < N) (h : ∀ x ∈ Set.uIcc a b, |f x - g x| ≤ δ) :
    |simpson f a b N - simpson g a b N| ≤ |b - a| * δ := by
  have hN' : (0 : ℝ) < N := by exact_mod_cast hN
  rw [simpson, simpson, ← Finset.sum_sub_distrib]
  refine (Finset.abs_sum_le_sum_abs _ _).trans ?_
  have : ∀ k ∈ Finset.range N, |(b - a) / N * ((f (node a b N k) + 4 * f (node a b N (k + 1 / 2)) + f (node a b N (k + 1))) / 6) -
      (b - a) / N * ((g (node a b N k) + 4 * g (node a b N (k + 1 / 2)) + g (node a b N (k + 1))) / 6)| ≤ |b - a| * δ / N := by
    intro k hk
    have hk' : ((k : ℝ) + 1 ≤ N) := by exact_mod_cast Finset.mem_range.mp hk
    have h1 := abs_le.mp (h _ (node_mem a b N hN k (by positivity) (by linarith)))
    have h2 := abs_le.mp (h _ (node_mem a b N hN (k + 1) (by positivity) hk'))
    have h3 := abs_le.mp (h _ (node_mem a b N hN (k + 1 / 2) (by positivity) (by linarith)))
    rw [← mul_sub, abs_mul, abs_div, abs_of_pos hN', div_mul_eq_mul_div]
    refine div_le_div_of_nonneg_right (mul_le_mul_of_nonneg_left ?_ (abs_nonneg _)) hN'.le
    rw [abs_le]
    constructor <;> linarith [h1.1, h1.2, h2.1, h2.2, h3.1, h3.2]
  refine (Finset.sum_le_sum this).trans ?_
  rw [Finset.sum_const, Finset.card_range, nsmul_eq_mul]
  refine le_of_eq ?_
  field_simp

theorem Answer.value {T : ℕ → ℝ} {eps : ℝ} {M : ℕ} {r : Result} (h : Answer T eps 0 M r) (hM : 1 ≤ M) :
    ∃ k, r.value = T k ∧ (k = M - 1 ∨ 5 < k) := by
  rcases h with ⟨-, -, -, h4, h5, -⟩ | ⟨-, -, h3, -⟩
  · exact ⟨_, h5, Or.inr h4.1⟩
  · exact ⟨_, h3, Or.inl rfl⟩

/-- **C80, one level.**  On an integrand within `δ` of a polynomial of the degree the method is made for, every method returns,
and its value is within `2 δ` times the width of the integral of the polynomial, up to the rounding of its tables. -/
theorem run_near (c : Config) (hc : c.Valid) (m : Method) (f : ℝ → ℝ) (a b δ : ℝ) (p : ℝ[X]) (hp : p.natDegree ≤ degree c m)
    (hfp : ∀ x ∈ Set.uIcc a b, |f x - p.eval x| ≤ δ) :
    ∃ r, run c m f a b = .ret r ∧ |r.value - ∫ x in a..b, p.eval x| ≤ |b - a| * (2 * δ + slack m * size p a b) := by
  have hδ : 0 ≤ δ := (abs_nonneg _).trans (hfp a Set.left_mem_uIcc)
  have hw : |b - a| * δ ≤ |b - a| * (2 * δ + 0 * size p a b) :=
    mul_le_mul_of_nonneg_left (by linarith) (abs_nonneg _)
  have hs : 0 ≤ size p a b := by
    rw [size, Polynomial.sum]
    exact Finset.sum_nonneg fun _ _ => abs_nonneg _
  have gauss : ∀ (r : Rule) (n d : ℕ) (tol : ℝ), IsRule r n d tol → 0 ≤ tol → tol ≤ 1 → tol ≤ 2 * slack m → p.natDegree ≤ d →
      |r.apply f a b - ∫ x in a..b, p.eval x| ≤ |b - a| * (2 * δ + slack m * size p a b) := by
    intro r n d tol hr ht0 ht1 ht hd
    have h1 := hr.poly p hd a b
    have h2 := hr.apply_bound (fun x => f x - p.eval x) a b δ hδ hfp
    have h3 : r.apply (fun x => f x - p.eval x) a b = r.apply f a b - r.apply (fun x => p.eval x) a b := by
      rw [Rule.apply, Rule.apply, Rule.apply, ← mul_sub]
      congr 1
      clear hr h1 h2
      induction r with
      | nil => simp
      | cons q r ih =>
        simp only [List.map_cons, List.sum_cons, ih]
        ring
    rw [h3] at h2
    have h4 := abs_add_le (r.apply f a b - r.apply (fun x => p.eval x) a b)
      (r.apply (fun x => p.eval x) a b - ∫ x in a..b, p.eval x)
    rw [sub_add_sub_cancel] at h4
    refine h4.trans ((add_le_add h2 h1).trans ?_)
    have h5 : (2 + tol) * δ ≤ 4 * δ := mul_le_mul_of_nonneg_right (by linarith) hδ
    have h6 : tol * size p a b ≤ 2 * slack m * size p a b := mul_le_mul_of_nonneg_right ht hs
    calc |b - a| / 2 * ((2 + tol) * δ) + |b - a| / 2 * tol * size p a b
        = |b - a| / 2 * ((2 + tol) * δ + tol * size p a b) := by ring
      _ ≤ |b - a| / 2 * (4 * δ + 2 * slack m * size p a b) := mul_le_mul_of_nonneg_left (add_le_add h5 h6) (by positivity)
      _ = |b - a| * (2 * δ + slack m * size p a b) := by ring
  cases m with
  | trap =>
    obtain ⟨r, hr, ha⟩ := integrateTrap_spec c.trapSteps f a b c.trapEps hc.trap.1 hc.trap.2
    obtain ⟨k, hk, -⟩ := ha.value hc.trap.1
    refine ⟨r, hr, ?_⟩
    rw [hk, ← trapezoid_exact p hp a b (2 ^ k) (by positivity)]
    exact (trapezoid_close f _ a b δ (2 ^ k) (by positivity) hfp).trans hw
  | simpson =>
    obtain ⟨r, hr, ha⟩ := integrateSimpson_spec c.simpsonSteps f a b c.simpsonEps (by have := hc.simpson.1; omega) hc.simpson.2
    obtain ⟨k, hk, hk'⟩ := ha.value (by have := hc.simpson.1; omega)
    refine ⟨r, hr, ?_⟩
    obtain ⟨n, rfl⟩ : ∃ n, k = n + 1 := ⟨k - 1, by have := hc.simpson.1; omega⟩
    rw [hk, simpsonEstimate, ← simpson_exact p hp a b (2 ^ n) (by positivity)]
    exact (simpson_close f _ a b δ (2 ^ n) (by positivity) hfp).trans hw
  | romberg =>
    obtain ⟨h1, h2, h3⟩ := hc.romberg
    obtain ⟨r, hr, i, _, _, h4, _, h5, _⟩ := integrateRomberg_spec c.rombergSteps c.rombergPoints f a b c.rombergEps h1 h2 h3
    refine ⟨r, hr, ?_⟩
    have h6 := romberg_exact p a b c.rombergPoints i (by omega) h4 hp
    have h7 := extrapolated_sub (1 / 4) (fun k => trapezoid f a b (2 ^ k)) (fun k => trapezoid (fun x => p.eval x) a b (2 ^ k))
      c.rombergPoints i
    have h8 := extrapolated_le (1 / 4) (by norm_num) (by norm_num)
      (fun k => trapezoid f a b (2 ^ k) - trapezoid (fun x => p.eval x) a b (2 ^ k)) (|b - a| * δ)
      (fun k => trapezoid_close f _ a b δ (2 ^ k) (by positivity) hfp) c.rombergPoints i (by omega) h4
    rw [← h7, h6, ← h5] at h8
    have h9 : 0 ≤ |b - a| * δ := mul_nonneg (abs_nonneg _) hδ
    have h10 := amp_quarter (c.rombergPoints - 1)
    refine h8.trans ((mul_le_mul_of_nonneg_right h10 h9).trans (le_of_eq ?_))
    simp only [slack]
    ring
  | gauss10 =>
    refine ⟨_, integrateGauss10_eq f a b, ?_⟩
    exact gauss _ _ _ _ gauss10_isRule (by norm_num) (by norm_num) (by norm_num [slack]) hp
  | gk21 =>
    refine ⟨⟨kronrod21.apply f a b, |kronrod21.apply f a b - gauss10'.apply f a b|, 21, true⟩, ?_, ?_⟩
    · rw [run, wrapGK21, integrateGK21_eq, Outcome.bind_ret]
    · exact gauss _ _ _ _ kronrod21_isRule (by norm_num) (by norm_num) (by norm_num [slack]) hp

theorem run_returns (c : Config) (hc : c.Valid) (m : Method) (f : ℝ → ℝ) (a b : ℝ) : ∃ r, run c m f a b = .ret r := by
  cases m with
  | trap => exact (integrateTrap_spec c.trapSteps f a b c.trapEps hc.trap.1 hc.trap.2).imp fun _ h => h.1
  | simpson =>
    exact (integrateSimpson_spec c.simpsonSteps f a b c.simpsonEps (by have := hc.simpson.1; omega) hc.simpson.2).imp
      fun _ h => h.1
  | romberg =>
    exact (integrateRomberg_spec c.rombergSteps c.rombergPoints f a b c.rombergEps hc.romberg.1 hc.romberg.2.1
      hc.romberg.2.2).imp fun _ h => h.1
  | gauss10 => exact ⟨_, integrateGauss10_eq f a b⟩
  | gk21 => exact ⟨_, by rw [run, wrapGK21, integrateGK21_eq, Outcome.bind_ret]⟩

/-- **C80, one level.**  As `run_near`, for an integrand only known within `e` of the function `F` that is meant. -/
theorem run_layer (c : Config) (hc : c.Valid) (m : Method) (g F : ℝ → ℝ) (a b e δ s : ℝ) (p : ℝ[X]) (hp : p.natDegree ≤ degree c m)
    (hgF : ∀ x ∈ Set.uIcc a b, |g x - F x| ≤ e) (hFp : ∀ x ∈ Set.uIcc a b, |F x - p.eval x| ≤ δ)
    (hF : IntervalIntegrable F volume a b) (hs : size p a b ≤ s) :
    ∃ r, run c m g a b = .ret r ∧ |r.value - ∫ x in a..b, F x| ≤ |b - a| * (2 * e + 3 * δ + slack m * s) := by
  obtain ⟨r, hr, h⟩ := run_near c hc m g a b (e + δ) p hp fun x hx => by
    have := abs_add_le (g x - F x) (F x - p.eval x)
    rw [sub_add_sub_cancel] at this
    exact this.trans (add_le_add (hgF x hx) (hFp x hx))
  refine ⟨r, hr, ?_⟩
  have h2 := integral_close F (fun x => p.eval x) a b δ hF (p.continuous.intervalIntegrable _ _)
    fun x hx => hFp x (Set.uIoo_subset_uIcc_self hx)
  rw [abs_sub_comm] at h2
  have h3 := abs_add_le (r.value - ∫ x in a..b, p.eval x) ((∫ x in a..b, p.eval x) - ∫ x in a..b, F x)
  rw [sub_add_sub_cancel] at h3
  refine h3.trans ((add_le_add h h2).trans ?_)
  have h4 : |b - a| * (slack m * size p a b) ≤ |b - a| * (slack m * s) :=
    mul_le_mul_of_nonneg_left (mul_le_mul_of_nonneg_left hs (slack_nonneg m)) (abs_nonneg _)
  nlinarith [h4]

/-! ## Two levels -/

theorem nest_eq (inner : ℝ → Outcome Result) (outer : (ℝ → ℝ) → Outcome Result) (h : ∀ x, ∃ r, inner x = .ret r) :
    nest inner outer = outer fun x => valueOf (inner x) := by
  rw [nest, if_pos h]

theorem integrate2D_eq (c : Config) (hc : c.Valid) (m : Method) (f : ℝ → ℝ → ℝ) (x1 x2 : ℝ) (y1 y2 : ℝ → ℝ) :
    integrate2D c f m x1 x2 y1 y2 = run c m (fun x => valueOf (inner2D c m f y1 y2 x)) x1 x2 := by
  rw [integrate2D, nest_eq]
  exact fun x => run_returns c hc m _ _ _

theorem inner3D_eq (c : Config) (hc : c.Valid) (m : Method) (f : ℝ → ℝ → ℝ → ℝ) (y1 y2 : ℝ → ℝ) (z1 z2 : ℝ → ℝ → ℝ) (x : ℝ) :
    inner3D c m f y1 y2 z1 z2 x = run c m (fun y => valueOf (innermost3D c m f z1 z2 x y)) (y1 x) (y2 x) := by
  rw [inner3D, nest_eq]
  exact fun x => run_returns c hc m _ _ _

theorem integrate3D_eq (c : Config) (hc : c.Valid) (m : Method) (f : ℝ → ℝ → ℝ → ℝ) (x1 x2 : ℝ) (y1 y2 : ℝ → ℝ)
    (z1 z2 : ℝ → ℝ → ℝ) :
    integrate3D c f m x1 x2 y1 y2 z1 z2 = run c m (fun x => valueOf (inner3D c m f y1 y2 z1 z2 x)) x1 x2 := by
  rw [integrate3D, nest_eq]
  intro x
  rw [inner3D_eq c hc]
  exact run_returns c hc m _ _ _

/-- **C80.**  `Integrate2D` with any method: if along every line of the region the integrand is within `δ` of a polynomial in `y`,
and the inner integral is within `η` of a polynomial in `x`, both of the degree the method is made for, then the value returned
is the double integral up to the error stated. -/
theorem integrate2D_accuracy (c : Config) (hc : c.Valid) (m : Method) (f : ℝ → ℝ → ℝ) (x1 x2 : ℝ) (y1 y2 : ℝ → ℝ)
    (δ η L s t : ℝ) (p : ℝ → ℝ[X]) (q : ℝ[X])
    (hL : ∀ x ∈ Set.uIcc x1 x2, |y2 x - y1 x| ≤ L)
    (hp : ∀ x ∈ Set.uIcc x1 x2, (p x).natDegree ≤ degree c m) (hps : ∀ x ∈ Set.uIcc x1 x2, size (p x) (y1 x) (y2 x) ≤ s)
    (hfp : ∀ x ∈ Set.uIcc x1 x2, ∀ y ∈ Set.uIcc (y1 x) (y2 x), |f x y - (p x).eval y| ≤ δ)
    (hf : ∀ x ∈ Set.uIcc x1 x2, IntervalIntegrable (f x) volume (y1 x) (y2 x))
    (hq : q.natDegree ≤ degree c m) (hqt : size q x1 x2 ≤ t)
    (hFq : ∀ x ∈ Set.uIcc x1 x2, |(∫ y in y1 x..y2 x, f x y) - q.eval x| ≤ η)
    (hF : IntervalIntegrable (fun x => ∫ y in y1 x..y2 x, f x y) volume x1 x2) :
    ∃ r, integrate2D c f m x1 x2 y1 y2 = .ret r ∧
      |r.value - ∫ x in x1..x2, ∫ y in y1 x..y2 x, f x y| ≤
        |x2 - x1| * (2 * (L * (3 * δ + slack m * s)) + 3 * η + slack m * t) := by
  rw [integrate2D_eq c hc]
  refine run_layer c hc m _ _ x1 x2 _ η t q hq (fun x hx => ?_) hFq hF hqt
  obtain ⟨r, hr, h⟩ := run_layer c hc m (f x) (f x) (y1 x) (y2 x) 0 δ s (p x) (hp x hx) (fun y _ => by simp) (hfp x hx) (hf x hx)
    (hps x hx)
  rw [inner2D, hr, valueOf]
  refine h.trans ?_
  rw [mul_zero, zero_add]
  have hδ : 0 ≤ δ := (abs_nonneg _).trans (hfp x hx _ Set.left_mem_uIcc)
  have := mul_nonneg (slack_nonneg m) ((size_nonneg _ _ _).trans (hps x hx))
  exact mul_le_mul_of_nonneg_right (hL x hx) (by linarith)

theorem size_one (a b : ℝ) : size 1 a b = 1 := by
  rw [size, one_comp, ← C_1, sum_C_index] <;> simp

/-- A ripple of a thousandth on a constant, over the unit square, with the 10-point Gauss rule. -/
example : ∃ r, integrate2D Config.initial (fun x y => 1 + Real.sin (100 * x * y) / 1000) .gauss10 0 1 (fun _ => 0) (fun _ => 1) =
      .ret r ∧
    |r.value - ∫ x in (0 : ℝ)..1, ∫ y in (0 : ℝ)..1, (1 + Real.sin (100 * x * y) / 1000)| ≤
      |(1 : ℝ) - 0| * (2 * (1 * (3 * (1 / 1000) + slack .gauss10 * 1)) + 3 * (1 / 1000) + slack .gauss10 * 1) := by
  have hb : ∀ x y : ℝ, |1 + Real.sin (100 * x * y) / 1000 - (1 : ℝ[X]).eval y| ≤ 1 / 1000 := by
    intro x y
    rw [eval_one, add_sub_cancel_left, abs_div, abs_of_pos (by norm_num : (0 : ℝ) < 1000)]
    exact div_le_div_of_nonneg_right (Real.abs_sin_le_one _) (by norm_num)
  have hcont : Continuous (Function.uncurry fun x y : ℝ => 1 + Real.sin (100 * x * y) / 1000) := by
    unfold Function.uncurry
    fun_prop
  have hcont' : ∀ x : ℝ, Continuous fun y : ℝ => 1 + Real.sin (100 * x * y) / 1000 := fun x => by fun_prop
  refine integrate2D_accuracy _ Config.initial_valid _ _ 0 1 _ _ (1 / 1000) (1 / 1000) 1 1 1 (fun _ => 1) 1
    (fun x _ => by norm_num) (fun x _ => by simp) (fun x _ => (size_one _ _).le) (fun x _ y _ => hb x y)
    (fun x _ => (hcont' x).intervalIntegrable _ _) (by simp) (size_one _ _).le (fun x _ => ?_) ?_
  · have := integral_close (fun y => 1 + Real.sin (100 * x * y) / 1000) (fun y => (1 : ℝ[X]).eval y) 0 1 (1 / 1000)
      ((hcont' x).intervalIntegrable _ _) ((1 : ℝ[X]).continuous.intervalIntegrable _ _) fun y _ => hb x y
    simpa using this
  · exact (intervalIntegral.continuous_parametric_intervalIntegral_of_continuous' hcont 0 1).intervalIntegrable _ _

/-- **C80.**  With the trapezoidal, Simpson and Romberg methods `Integrate2D` computes the double integral exactly when the
integrand is a polynomial in `y` and the inner integral a polynomial in `x` of the degree the method is made for. -/
theorem integrate2D_exact (c : Config) (hc : c.Valid) (m : Method) (hm : m = .trap ∨ m = .simpson ∨ m = .romberg)
    (x1 x2 : ℝ) (y1 y2 : ℝ → ℝ) (p : ℝ → ℝ[X]) (q : ℝ[X])
    (hp : ∀ x ∈ Set.uIcc x1 x2, (p x).natDegree ≤ degree c m) (hq : q.natDegree ≤ degree c m)
    (hF : ∀ x ∈ Set.uIcc x1 x2, (∫ y in y1 x..y2 x, (p x).eval y) = q.eval x) :
    ∃ r, integrate2D c (fun x y => (p x).eval y) m x1 x2 y1 y2 = .ret r ∧
      r.value = ∫ x in x1..x2, ∫ y in y1 x..y2 x, (p x).eval y := by
  have hsl : slack m = 0 := by rcases hm with rfl | rfl | rfl <;> rfl
  rw [integrate2D_eq c hc]
  have hin : ∀ x ∈ Set.uIcc x1 x2, valueOf (inner2D c m (fun x y => (p x).eval y) y1 y2 x) = q.eval x := by
    intro x hx
    obtain ⟨r, hr, h⟩ := run_near c hc m (fun y => (p x).eval y) (y1 x) (y2 x) 0 (p x) (hp x hx) (fun y _ => by simp)
    rw [hsl, mul_zero, zero_mul, add_zero, mul_zero] at h
    rw [inner2D, hr, valueOf, sub_eq_zero.mp (abs_nonpos_iff.mp h), hF x hx]
  obtain ⟨r, hr, h⟩ := run_near c hc m (fun x => valueOf (inner2D c m (fun x y => (p x).eval y) y1 y2 x)) x1 x2 0 q hq fun x hx => by
    rw [hin x hx, sub_self, abs_zero]
  rw [hsl, mul_zero, zero_mul, add_zero, mul_zero] at h
  refine ⟨r, hr, ?_⟩
  rw [sub_eq_zero.mp (abs_nonpos_iff.mp h)]
  exact intervalIntegral.integral_congr fun x hx => (hF x hx).symm

/-- The integral of `x y` over the triangle `0 ≤ y ≤ x ≤ 1`, with Simpson's rule. -/
example : ∃ r, integrate2D Config.initial (fun x y => (C x * X : ℝ[X]).eval y) .simpson 0 1 (fun _ => 0) (fun x => x) = .ret r ∧
    r.value = ∫ x in (0 : ℝ)..1, ∫ y in (0 : ℝ)..x, (C x * X : ℝ[X]).eval y := by
  refine integrate2D_exact _ Config.initial_valid _ (Or.inr (Or.inl rfl)) 0 1 _ _ (fun x => C x * X) (C (1 / 2) * X ^ 3) ?_ ?_ ?_
  · intro x _
    show _ ≤ 3
    compute_degree
    norm_num
  · show _ ≤ 3
    compute_degree
  · intro x _
    simp only [eval_mul, eval_C, eval_X, eval_pow]
    rw [intervalIntegral.integral_const_mul, integral_id]
    ring

/-! ## Three levels -/

/-- **C80.**  `Integrate3D` with any method. -/
theorem integrate3D_accuracy (c : Config) (hc : c.Valid) (m : Method) (f : ℝ → ℝ → ℝ → ℝ) (x1 x2 : ℝ) (y1 y2 : ℝ → ℝ)
    (z1 z2 : ℝ → ℝ → ℝ) (δ η θ L K s t u : ℝ) (p : ℝ → ℝ → ℝ[X]) (q : ℝ → ℝ[X]) (w : ℝ[X])
    (hL : ∀ x ∈ Set.uIcc x1 x2, |y2 x - y1 x| ≤ L)
    (hK : ∀ x ∈ Set.uIcc x1 x2, ∀ y ∈ Set.uIcc (y1 x) (y2 x), |z2 x y - z1 x y| ≤ K)
    (hp : ∀ x ∈ Set.uIcc x1 x2, ∀ y ∈ Set.uIcc (y1 x) (y2 x), (p x y).natDegree ≤ degree c m ∧ size (p x y) (z1 x y) (z2 x y) ≤ s)
    (hfp : ∀ x ∈ Set.uIcc x1 x2, ∀ y ∈ Set.uIcc (y1 x) (y2 x), ∀ z ∈ Set.uIcc (z1 x y) (z2 x y), |f x y z - (p x y).eval z| ≤ δ)
    (hf : ∀ x ∈ Set.uIcc x1 x2, ∀ y ∈ Set.uIcc (y1 x) (y2 x), IntervalIntegrable (f x y) volume (z1 x y) (z2 x y))
    (hq : ∀ x ∈ Set.uIcc x1 x2, (q x).natDegree ≤ degree c m ∧ size (q x) (y1 x) (y2 x) ≤ t)
    (hFq : ∀ x ∈ Set.uIcc x1 x2, ∀ y ∈ Set.uIcc (y1 x) (y2 x), |(∫ z in z1 x y..z2 x y, f x y z) - (q x).eval y| ≤ η)
    (hF : ∀ x ∈ Set.uIcc x1 x2, IntervalIntegrable (fun y => ∫ z in z1 x y..z2 x y, f x y z) volume (y1 x) (y2 x))
    (hw : w.natDegree ≤ degree c m) (hwu : size w x1 x2 ≤ u)
    (hGw : ∀ x ∈ Set.uIcc x1 x2, |(∫ y in y1 x..y2 x, ∫ z in z1 x y..z2 x y, f x y z) - w.eval x| ≤ θ)
    (hG : IntervalIntegrable (fun x => ∫ y in y1 x..y2 x, ∫ z in z1 x y..z2 x y, f x y z) volume x1 x2) :
    ∃ r, integrate3D c f m x1 x2 y1 y2 z1 z2 = .ret r ∧
      |r.value - ∫ x in x1..x2, ∫ y in y1 x..y2 x, ∫ z in z1 x y..z2 x y, f x y z| ≤
        |x2 - x1| * (2 * (L * (2 * (K * (3 * δ + slack m * s)) + 3 * η + slack m * t)) + 3 * θ + slack m * u) := by
  rw [integrate3D_eq c hc]
  refine run_layer c hc m _ _ x1 x2 _ θ u w hw (fun x hx => ?_) hGw hG hwu
  have hδ : 0 ≤ δ := (abs_nonneg _).trans (hfp x hx _ Set.left_mem_uIcc _ Set.left_mem_uIcc)
  have hη : 0 ≤ η := (abs_nonneg _).trans (hFq x hx _ Set.left_mem_uIcc)
  have hK0 : 0 ≤ K := (abs_nonneg _).trans (hK x hx _ Set.left_mem_uIcc)
  have hs0 := mul_nonneg (slack_nonneg m) ((size_nonneg _ _ _).trans (hp x hx _ Set.left_mem_uIcc).2)
  have ht0 := mul_nonneg (slack_nonneg m) ((size_nonneg _ _ _).trans (hq x hx).2)
  rw [inner3D_eq c hc]
  obtain ⟨r, hr, h⟩ := run_layer c hc m (fun y => valueOf (innermost3D c m f z1 z2 x y)) (fun y => ∫ z in z1 x y..z2 x y, f x y z)
    (y1 x) (y2 x) (K * (3 * δ + slack m * s)) η t (q x) (hq x hx).1 (fun y hy => by
      obtain ⟨r, hr, h⟩ := run_layer c hc m (f x y) (f x y) (z1 x y) (z2 x y) 0 δ s (p x y) (hp x hx y hy).1
        (fun z _ => by simp) (hfp x hx y hy) (hf x hx y hy) (hp x hx y hy).2
      rw [innermost3D, hr, valueOf]
      refine h.trans ?_
      rw [mul_zero, zero_add]
      exact mul_le_mul_of_nonneg_right (hK x hx y hy) (by linarith)) (hFq x hx) (hF x hx) (hq x hx).2
  rw [hr, valueOf]
  refine h.trans (mul_le_mul_of_nonneg_right (hL x hx) ?_)
  have := mul_nonneg hK0 (by linarith : 0 ≤ 3 * δ + slack m * s)
  linarith

/-- The volume of the unit cube with the 21-point rule. -/
example : ∃ r, integrate3D Config.initial (fun _ _ _ => 1) .gk21 0 1 (fun _ => 0) (fun _ => 1) (fun _ _ => 0) (fun _ _ => 1) =
      .ret r ∧
    |r.value - ∫ _ in (0 : ℝ)..1, ∫ _ in (0 : ℝ)..1, ∫ _ in (0 : ℝ)..1, (1 : ℝ)| ≤
      |(1 : ℝ) - 0| * (2 * (1 * (2 * (1 * (3 * 0 + slack .gk21 * 1)) + 3 * 0 + slack .gk21 * 1)) + 3 * 0 + slack .gk21 * 1) := by
  refine integrate3D_accuracy _ Config.initial_valid _ _ 0 1 _ _ _ _ 0 0 0 1 1 1 1 1 (fun _ _ => 1) (fun _ => 1) 1
    (fun x _ => by norm_num) (fun x _ y _ => by norm_num) (fun x _ y _ => ⟨by simp, (size_one _ _).le⟩)
    (fun x _ y _ z _ => by simp) (fun x _ y _ => by simp) (fun x _ => ⟨by simp, (size_one _ _).le⟩) (fun x _ y _ => by simp)
    (fun x _ => by simp) (by simp) (size_one _ _).le (fun x _ => by simp) (by simp)

/-- **C80.**  With the trapezoidal, Simpson and Romberg methods `Integrate3D` computes the triple integral exactly when the
integrand and the two partial integrals are polynomials in the next variable of the degree the method is made for. -/
theorem integrate3D_exact (c : Config) (hc : c.Valid) (m : Method) (hm : m = .trap ∨ m = .simpson ∨ m = .romberg)
    (x1 x2 : ℝ) (y1 y2 : ℝ → ℝ) (z1 z2 : ℝ → ℝ → ℝ) (p : ℝ → ℝ → ℝ[X]) (q : ℝ → ℝ[X]) (w : ℝ[X])
    (hp : ∀ x ∈ Set.uIcc x1 x2, ∀ y ∈ Set.uIcc (y1 x) (y2 x), (p x y).natDegree ≤ degree c m)
    (hq : ∀ x ∈ Set.uIcc x1 x2, (q x).natDegree ≤ degree c m) (hw : w.natDegree ≤ degree c m)
    (hF : ∀ x ∈ Set.uIcc x1 x2, ∀ y ∈ Set.uIcc (y1 x) (y2 x), (∫ z in z1 x y..z2 x y, (p x y).eval z) = (q x).eval y)
    (hG : ∀ x ∈ Set.uIcc x1 x2, (∫ y in y1 x..y2 x, (q x).eval y) = w.eval x) :
    ∃ r, integrate3D c (fun x y z => (p x y).eval z) m x1 x2 y1 y2 z1 z2 = .ret r ∧
      r.value = ∫ x in x1..x2, ∫ y in y1 x..y2 x, ∫ z in z1 x y..z2 x y, (p x y).eval z := by
  have hsl : slack m = 0 := by rcases hm with rfl | rfl | rfl <;> rfl
  have key : ∀ (g : ℝ → ℝ) (a b : ℝ) (v : ℝ[X]), v.natDegree ≤ degree c m → (∀ x ∈ Set.uIcc a b, g x = v.eval x) →
      ∃ r, run c m g a b = .ret r ∧ r.value = ∫ x in a..b, v.eval x := by
    intro g a b v hv hg
    obtain ⟨r, hr, h⟩ := run_near c hc m g a b 0 v hv fun x hx => by rw [hg x hx, sub_self, abs_zero]
    rw [hsl, mul_zero, zero_mul, add_zero, mul_zero] at h
    exact ⟨r, hr, sub_eq_zero.mp (abs_nonpos_iff.mp h)⟩
  rw [integrate3D_eq c hc]
  obtain ⟨r, hr, h⟩ := key (fun x => valueOf (inner3D c m (fun x y z => (p x y).eval z) y1 y2 z1 z2 x)) x1 x2 w hw fun x hx => by
    rw [inner3D_eq c hc]
    obtain ⟨r, hr, h⟩ := key (fun y => valueOf (innermost3D c m (fun x y z => (p x y).eval z) z1 z2 x y)) (y1 x) (y2 x) (q x)
      (hq x hx) fun y hy => by
        obtain ⟨r, hr, h⟩ := key (fun z => (p x y).eval z) (z1 x y) (z2 x y) (p x y) (hp x hx y hy) fun z _ => rfl
        rw [innermost3D, hr, valueOf, h, hF x hx y hy]
    rw [hr, valueOf, h, hG x hx]
  refine ⟨r, hr, h.trans (intervalIntegral.integral_congr fun x hx => ?_)⟩
  rw [← hG x hx]
  exact intervalIntegral.integral_congr fun y hy => (hF x hx y hy).symm

/-- The volume of the tetrahedron `x, y, z ≥ 0, x + y + z ≤ 1`, with Romberg integration. -/
example : ∃ r, integrate3D Config.initial (fun _ _ z => (1 : ℝ[X]).eval z) .romberg 0 1 (fun _ => 0) (fun x => 1 - x)
    (fun _ _ => 0) (fun x y => 1 - x - y) = .ret r ∧
    r.value = ∫ x in (0 : ℝ)..1, ∫ y in (0 : ℝ)..(1 - x), ∫ z in (0 : ℝ)..(1 - x - y), (1 : ℝ[X]).eval z := by
  refine integrate3D_exact _ Config.initial_valid _ (Or.inr (Or.inr rfl)) 0 1 _ _ _ _ (fun _ _ => 1) (fun x => C (1 - x) - X)
    (C (1 / 2) * (1 - X) ^ 2) ?_ ?_ ?_ ?_ ?_
  · intro x _ y _
    simp
  · intro x _
    show _ ≤ 9
    compute_degree
    norm_num
  · show _ ≤ 9
    compute_degree
    norm_num
  · intro x _ y _
    simp
  · intro x _
    simp only [eval_sub, eval_C, eval_X, eval_mul, eval_pow, eval_one]
    rw [intervalIntegral.integral_sub (by simp) (by simp)]
    simp only [intervalIntegral.integral_const, integral_id, smul_eq_mul]
    ring

/-! ## Only the region matters -/

theorem run_congr (c : Config) (hc : c.Valid) (m : Method) (f g : ℝ → ℝ) (a b : ℝ) (h : ∀ x ∈ Set.uIcc a b, f x = g x) :
    run c m f a b = run c m g a b := by
  have h0 : ∀ x ∈ Set.uIcc a b, |f x - g x| ≤ 0 := fun x hx => by rw [h x hx, sub_self, abs_zero]
  have ht : (fun k => trapezoid f a b (2 ^ k)) = fun k => trapezoid g a b (2 ^ k) := by
    funext k
    have := trapezoid_close f g a b 0 (2 ^ k) (by positivity) h0
    rw [mul_zero] at this
    exact sub_eq_zero.mp (abs_nonpos_iff.mp this)
  have hr : ∀ (r : Rule) (n d : ℕ) (tol : ℝ), IsRule r n d tol → r.apply f a b = r.apply g a b := by
    intro r n d tol hr
    rw [Rule.apply, Rule.apply]
    congr 2
    refine List.map_congr_left fun q hq => ?_
    have hn := hr.nodes q hq
    rw [h]
    rcases le_total a b with hab | hab
    · rw [Set.uIcc_of_le hab]
      constructor <;> nlinarith
    · rw [Set.uIcc_of_ge hab]
      constructor <;> nlinarith
  have ans : ∀ (T : ℕ → ℝ) (eps : ℝ) (M : ℕ) (r r' : Result), Answer T eps 0 M r → Answer T eps 0 M r' → r = r' := by
    intro T eps M r r' ha hb
    obtain ⟨hi, hc⟩ := ha.unique hb fun _ => Iff.rfl
    rcases ha with ⟨a1, _, _, _, a5, a6, _⟩ | ⟨a1, a2, a3, a4, _⟩ <;>
      rcases hb with ⟨b1, _, _, _, b5, b6, _⟩ | ⟨b1, b2, b3, b4, _⟩
    · ext
      · rw [a5, b5, hi]
      · rw [a6, b6, hi]
      · exact hi
      · exact hc
    · rw [a1, b1] at hc
      exact absurd hc (by simp)
    · rw [a1, b1] at hc
      exact absurd hc (by simp)
    · ext
      · rw [a3, b3]
      · rw [a4, b4]
      · exact hi
      · exact hc
  cases m with
  | trap =>
    obtain ⟨r, hr, ha⟩ := integrateTrap_spec c.trapSteps f a b c.trapEps hc.trap.1 hc.trap.2
    obtain ⟨r', hr', ha'⟩ := integrateTrap_spec c.trapSteps g a b c.trapEps hc.trap.1 hc.trap.2
    rw [ht] at ha
    rw [run, run, hr, hr', ans _ _ _ _ _ ha ha']
  | simpson =>
    obtain ⟨r, hr, ha⟩ := integrateSimpson_spec c.simpsonSteps f a b c.simpsonEps (by have := hc.simpson.1; omega) hc.simpson.2
    obtain ⟨r', hr', ha'⟩ := integrateSimpson_spec c.simpsonSteps g a b c.simpsonEps (by have := hc.simpson.1; omega) hc.simpson.2
    have hs : simpsonEstimate f a b = simpsonEstimate g a b := by
      funext k
      cases k with
      | zero => rw [simpsonEstimate, simpsonEstimate, show trapezoid f a b 1 = trapezoid g a b 1 from congrFun ht 0]
      | succ k =>
        have := simpson_close f g a b 0 (2 ^ k) (by positivity) h0
        rw [mul_zero] at this
        exact sub_eq_zero.mp (abs_nonpos_iff.mp this)
    rw [hs] at ha
    rw [run, run, hr, hr', ans _ _ _ _ _ ha ha']
  | romberg =>
    obtain ⟨h1, h2, h3⟩ := hc.romberg
    obtain ⟨r, hr, ha⟩ := integrateRomberg_spec c.rombergSteps c.rombergPoints f a b c.rombergEps h1 h2 h3
    obtain ⟨r', hr', ha'⟩ := integrateRomberg_spec c.rombergSteps c.rombergPoints g a b c.rombergEps h1 h2 h3
    rw [ht] at ha
    rw [run, run, hr, hr', ha.unique ha']
  | gauss10 => rw [run, run, integrateGauss10_eq, integrateGauss10_eq, hr _ _ _ _ gauss10_isRule]
  | gk21 =>
    rw [run, run, wrapGK21, wrapGK21, integrateGK21_eq, integrateGK21_eq, hr _ _ _ _ kronrod21_isRule,
      hr _ _ _ _ gauss10'_isRule]

/-- **C80.**  `Integrate2D` looks at the integrand only on the closed region: integrands that agree there get the same answer. -/
theorem integrate2D_congr (c : Config) (hc : c.Valid) (m : Method) (f g : ℝ → ℝ → ℝ) (x1 x2 : ℝ) (y1 y2 : ℝ → ℝ)
    (h : ∀ x ∈ Set.uIcc x1 x2, ∀ y ∈ Set.uIcc (y1 x) (y2 x), f x y = g x y) :
    integrate2D c f m x1 x2 y1 y2 = integrate2D c g m x1 x2 y1 y2 := by
  rw [integrate2D_eq c hc, integrate2D_eq c hc]
  refine run_congr c hc m _ _ x1 x2 fun x hx => ?_
  rw [inner2D, inner2D, run_congr c hc m _ _ _ _ (h x hx)]

example : integrate2D Config.initial (fun x y => if x ^ 2 + y ^ 2 ≤ 1 then x * y else 7) .gk21 (-1) 1 (fun x => -√(1 - x ^ 2))
      (fun x => √(1 - x ^ 2)) =
    integrate2D Config.initial (fun x y => x * y) .gk21 (-1) 1 (fun x => -√(1 - x ^ 2)) (fun x => √(1 - x ^ 2)) := by
  refine integrate2D_congr _ Config.initial_valid _ _ _ _ _ _ _ fun x hx y hy => if_pos ?_
  rw [Set.uIcc_of_le (by norm_num)] at hx
  have hx2 : 0 ≤ 1 - x ^ 2 := by nlinarith [hx.1, hx.2]
  rw [Set.uIcc_of_le (by have := Real.sqrt_nonneg (1 - x ^ 2); linarith)] at hy
  have := Real.sq_sqrt hx2
  have := sq_le_sq' hy.1 hy.2
  linarith

/-- **C80.**  `Integrate3D` looks at the integrand only on the closed region. -/
theorem integrate3D_congr (c : Config) (hc : c.Valid) (m : Method) (f g : ℝ → ℝ → ℝ → ℝ) (x1 x2 : ℝ) (y1 y2 : ℝ → ℝ)
    (z1 z2 : ℝ → ℝ → ℝ)
    (h : ∀ x ∈ Set.uIcc x1 x2, ∀ y ∈ Set.uIcc (y1 x) (y2 x), ∀ z ∈ Set.uIcc (z1 x y) (z2 x y), f x y z = g x y z) :
    integrate3D c f m x1 x2 y1 y2 z1 z2 = integrate3D c g m x1 x2 y1 y2 z1 z2 := by
  rw [integrate3D_eq c hc, integrate3D_eq c hc]
  refine run_congr c hc m _ _ x1 x2 fun x hx => ?_
  rw [inner3D_eq c hc, inner3D_eq c hc]
  rw [run_congr c hc m _ (fun y => valueOf (innermost3D c m g z1 z2 x y)) _ _ fun y hy => ?_]
  rw [innermost3D, innermost3D, run_congr c hc m _ _ _ _ (h x hx y hy)]

/-! ## The convergence flag -/

/-- **C80, disagreement.**  The convergence flag of `Integrate2D` only speaks about the outer integral: on `1 / y` over the unit
square, whose integral diverges, no inner integral converges, yet the answer is reported as converged with error estimate zero. -/
theorem integrate2D_hides_failure :
    (∀ x, ∃ r, inner2D Config.initial .trap (fun _ y => 1 / y) (fun _ => 0) (fun _ => 1) x = .ret r ∧ r.converged = false) ∧
      ∃ r, integrate2D Config.initial (fun _ y => 1 / y) .trap 0 1 (fun _ => 0) (fun _ => 1) = .ret r ∧
        r.converged = true ∧ r.error = 0 := by
  have hin : ∃ r, ∀ x, inner2D Config.initial .trap (fun _ y => 1 / y) (fun _ => 0) (fun _ => 1) x = .ret r ∧ r.converged = false := by
    obtain ⟨r, hr, ha⟩ := integrateTrap_spec 20 (fun x => 1 / x) 0 1 (1 / 10 ^ 4) (by norm_num) (by norm_num)
    refine ⟨r, fun x => ⟨hr, ?_⟩⟩
    rcases ha with ⟨-, -, h3, h4, -⟩ | ⟨h1, -⟩
    · exact absurd h4 (recip_unsettled _ (by norm_num) (by norm_num) _ h3)
    · exact h1
  obtain ⟨r, hr⟩ := hin
  refine ⟨fun x => ⟨r, hr x⟩, ?_⟩
  rw [integrate2D_eq _ Config.initial_valid]
  have : (fun x => valueOf (inner2D Config.initial .trap (fun _ y => 1 / y) (fun _ => 0) (fun _ => 1) x)) =
      fun x => (C r.value : ℝ[X]).eval x := by
    funext x
    rw [(hr x).1, valueOf, eval_C]
  rw [this]
  exact ⟨_, integrateTrap_exact 20 (C r.value) (by simp) 0 1 _ (by norm_num) (by norm_num) (by norm_num [Config.initial]), rfl, rfl⟩

/-! ## Dispatch -/

/-- **C80.**  `Integrate` runs the integrator named by the method, with the accuracy asked for; the two Gauss rules take none. -/
theorem integrate_dispatch (c : Config) (f : ℝ → ℝ) (a b eps : ℝ) :
    integrate c f a b .trap eps = integrateTrap c.trapSteps f a b eps ∧
    integrate c f a b .simpson eps = integrateSimpson c.simpsonSteps f a b eps ∧
    integrate c f a b .romberg eps = integrateRomberg c.rombergSteps c.rombergPoints f a b eps ∧
    integrate c f a b .gauss10 eps = integrateGauss10 f a b ∧
    ∃ g, integrateGK21 f a b = .ret g ∧ integrate c f a b .gk21 eps = .ret ⟨g.value, g.error, g.evals, g.converged⟩ := by
  refine ⟨rfl, rfl, rfl, rfl, _, integrateGK21_eq f a b, ?_⟩
  rw [integrate, wrapGK21, integrateGK21_eq, Outcome.bind_ret]

end Verif.Integ
