import Verif.Cheb.Lemmas2
import Verif.Interp.Error

/-!
# The Chebyshev approximation (C105)

Specification: Mathlib's Chebyshev polynomials `T`, `U`; `series`, the sum `c₀/2 + Σ_{1 ≤ j < m} c_j T_j`; `toUnit`, the map of
`[a, b]` onto `[-1, 1]`.
-/

set_option autoImplicit false

namespace Verif.Cheb

open Verif Polynomial

/-! ## The polynomials -/

theorem rec_loop (x u : ℝ) (n : ℕ) (hn : 2 ≤ n) (f : ℕ → ℝ) (h0 : f 0 = 1) (h1 : f 1 = u)
    (h : ∀ k, f (k + 2) = 2 * x * f (k + 1) - f k) :
    ∃ s, forFromTo 2 (n + 1) ⟨1, u, 0⟩ (recStep x) = .ret s ∧ s.curr = f n := by
  obtain ⟨t, ht, hP⟩ := forFromTo_rule
    (fun i (s : Rec) => s.prev2 = f (i - 2) ∧ s.prev1 = f (i - 1) ∧ (2 < i → s.curr = f (i - 1))) 2 (n + 1) (by omega)
    ⟨1, u, 0⟩ (recStep x) ⟨h0.symm, h1.symm, fun h => by omega⟩ (by
      rintro i s hi hin ⟨e2, e1, e0⟩
      obtain ⟨k, rfl⟩ : ∃ k, i = k + 2 := ⟨i - 2, by omega⟩
      rw [show k + 2 - 2 = k by omega] at e2
      rw [show k + 2 - 1 = k + 1 by omega] at e1
      refine ⟨_, rfl, ?_, ?_, fun _ => ?_⟩
      · rw [show k + 2 + 1 - 2 = k + 1 by omega]
        exact e1
      · rw [show k + 2 + 1 - 1 = k + 2 by omega, h, e1, e2]
      · rw [show k + 2 + 1 - 1 = k + 2 by omega, h, e1, e2])
  exact ⟨t, ht, by simpa using hP.2.2 (by omega)⟩

/-- `ChebyshevT(n, x)` is the Chebyshev polynomial of the first kind. -/
theorem chebyshevT_spec (n : ℕ) (x : ℝ) : chebyshevT n x = .ret ((Chebyshev.T ℝ n).eval x) := by
  rw [chebyshevT, if_neg (by omega)]
  by_cases h0 : n = 0
  · subst h0; simp
  · rw [if_neg (by omega)]
    by_cases h1 : n = 1
    · subst h1; simp
    · rw [if_neg (by omega), Int.toNat_natCast]
      obtain ⟨s, hs, e⟩ := rec_loop x x n (by omega) (fun k => (Chebyshev.T ℝ (k : ℤ)).eval x) (by simp) (by simp) (by
        intro k
        have := Chebyshev.T_add_two ℝ (k : ℤ)
        push_cast
        rw [this]
        simp)
      rw [hs, Outcome.bind_ret, e]

/-- `ChebyshevU(n, x)` is the Chebyshev polynomial of the second kind. -/
theorem chebyshevU_spec (n : ℕ) (x : ℝ) : chebyshevU n x = .ret ((Chebyshev.U ℝ n).eval x) := by
  rw [chebyshevU, if_neg (by omega)]
  by_cases h0 : n = 0
  · subst h0; simp
  · rw [if_neg (by omega)]
    by_cases h1 : n = 1
    · subst h1; simp
    · rw [if_neg (by omega), Int.toNat_natCast]
      obtain ⟨s, hs, e⟩ := rec_loop x (2 * x) n (by omega) (fun k => (Chebyshev.U ℝ (k : ℤ)).eval x) (by simp) (by simp) (by
        intro k
        have := Chebyshev.U_add_two ℝ (k : ℤ)
        push_cast
        rw [this]
        simp)
      rw [hs, Outcome.bind_ret, e]

/-- The trigonometric definition, without Mathlib's polynomials: `T_n(cos θ) = cos nθ` and `U_n(cos θ) sin θ = sin (n+1)θ`. -/
theorem chebyshev_trig (n : ℕ) (θ : ℝ) : chebyshevT n (Real.cos θ) = .ret (Real.cos (n * θ)) ∧
    ∃ u, chebyshevU n (Real.cos θ) = .ret u ∧ u * Real.sin θ = Real.sin ((n + 1) * θ) := by
  refine ⟨?_, _, chebyshevU_spec n _, ?_⟩
  · rw [chebyshevT_spec, Chebyshev.T_real_cos]; simp
  · have := Chebyshev.U_real_cos θ (n : ℤ)
    simpa using this

/-- A negative degree is refused. -/
theorem chebyshev_errors (n : ℤ) (x : ℝ) (h : n < 0) :
    chebyshevT n x = .exn (.mml "ArgumentError") ∧ chebyshevU n x = .exn (.mml "ArgumentError") := by
  rw [chebyshevT, chebyshevU, if_pos h, if_pos h]
  exact ⟨rfl, rfl⟩

example : chebyshevT 3 2 = .ret 26 := by
  have h := chebyshevT_spec 3 2
  rw [show ((3 : ℕ) : ℤ) = 1 + 2 by norm_num, Chebyshev.T_add_two] at h
  simp only [show (1 : ℤ) + 1 = 2 by norm_num, Chebyshev.T_two, Chebyshev.T_one] at h
  rw [show (3 : ℤ) = 1 + 2 by norm_num, h]
  norm_num [eval_ofNat]

/-! ## Objects -/

/-- The state of every approximation built by a constructor from data: a proper interval and at least one term in use. -/
def Approx.WF (p : Approx) : Prop := p.a < p.b ∧ 1 ≤ p.m ∧ p.m ≤ p.coef.length

/-- The coefficients of an object as a function. -/
def Approx.c (p : Approx) (j : ℕ) : ℝ := p.coef.getD j 0

theorem Approx.coef_eq (p : Approx) : p.coef = tab p.coef.length p.c := eq_tab p.coef 0

theorem domain_iff {a b x : ℝ} (hab : a < b) : ¬ (x - a) * (x - b) > 0 ↔ x ∈ Set.Icc a b := by
  rw [Set.mem_Icc]
  constructor
  · intro h
    constructor
    · by_contra h1
      exact h (mul_pos_of_neg_of_neg (by linarith) (by linarith))
    · by_contra h1
      exact h (mul_pos (by linarith) (by linarith))
  · rintro ⟨h1, h2⟩ h
    nlinarith [mul_nonneg (sub_nonneg.mpr h1) (sub_nonneg.mpr h2)]

theorem value_eq (p : Approx) (hp : p.WF) (x : ℝ) :
    p.value x = if x ∈ Set.Icc p.a p.b then .ret ((series p.c p.m).eval (toUnit p.a p.b x)) else .exn (.mml "domain_error") := by
  rw [Approx.value]
  by_cases hx : x ∈ Set.Icc p.a p.b
  · rw [if_pos hx, if_neg ((domain_iff hp.1).mpr hx), if_neg (by have := hp.2.1; omega), quot,
      if_neg (by have := hp.1; intro h; linarith), Outcome.bind_ret, p.coef_eq, clenshaw_eq _ _ _ hp.2.1 hp.2.2, toUnit]
  · rw [if_neg hx, if_pos (by by_contra h; exact hx ((domain_iff hp.1).mp h))]

/-- Inside the interval the value is the sum of the first `m` terms of the series, with the first one halved. -/
theorem value_spec (p : Approx) (hp : p.WF) (x : ℝ) (hx : x ∈ Set.Icc p.a p.b) :
    p.value x = .ret (p.c 0 / 2 + ∑ j ∈ Finset.Ico 1 p.m, p.c j * (Chebyshev.T ℝ j).eval (toUnit p.a p.b x)) := by
  rw [value_eq p hp, if_pos hx, series, eval_add, eval_C, eval_finsetSum]
  simp

/-- Outside the interval an exception is thrown. -/
theorem value_outside (p : Approx) (hp : p.WF) (x : ℝ) (hx : x ∉ Set.Icc p.a p.b) :
    p.value x = .exn (.mml "domain_error") := by
  rw [value_eq p hp, if_neg hx]

/-- `Eval(x, m)` is the value of the object that uses `m` terms. -/
theorem eval_spec (p : Approx) (hp : p.WF) (x : ℝ) (m : ℕ) (hm : 1 ≤ m) (hmn : m ≤ p.m) :
    p.eval x m = Approx.value { p with m := m } x := by
  rw [Approx.eval, Approx.value, if_neg (by omega), Int.toNat_natCast]
  split_ifs with h1 h2
  · rfl
  · exact absurd h2 (by simp only; omega)
  · rfl

/-- The bad arguments of `Eval`, `SetNumTerms`, `ToPolynomial` and `Coefficient`, and the good ones of the second and last. -/
theorem access_spec (p : Approx) (x : ℝ) (m : ℤ) :
    (m ≤ 0 ∨ m > p.m → p.eval x m = .exn .invalidArgument) ∧
    (m ≤ 0 ∨ m > p.coef.length → p.setNumTerms m = .exn .invalidArgument ∧ p.toPolynomialN m = .exn .invalidArgument) ∧
    (m < 0 ∨ m ≥ p.coef.length → p.coefficient m = .exn .outOfRange) ∧
    (0 < m → m ≤ p.coef.length → p.setNumTerms m = .ret { p with m := m.toNat }) ∧
    (0 ≤ m → m < p.coef.length → p.coefficient m = .ret (p.c m.toNat)) := by
  refine ⟨fun h => by rw [Approx.eval, if_pos h], fun h => by rw [Approx.setNumTerms, Approx.toPolynomialN, if_pos h, if_pos h]; simp,
    fun h => by rw [Approx.coefficient, if_pos h], fun h1 h2 => by rw [Approx.setNumTerms, if_neg (by omega)], fun h1 h2 => ?_⟩
  rw [Approx.coefficient, if_neg (by omega), p.coef_eq, index_tab _ (by omega)]

example : (⟨[2, 1, 5], 0, 2, 3⟩ : Approx).WF ∧ (⟨[2, 1, 5], 0, 2, 3⟩ : Approx).value 1 = .ret (-4) ∧
    (⟨[2, 1, 5], 0, 2, 3⟩ : Approx).value 3 = .exn (.mml "domain_error") := by
  have hw : (⟨[2, 1, 5], 0, 2, 3⟩ : Approx).WF := ⟨by norm_num, by norm_num, by simp⟩
  refine ⟨hw, ?_, value_outside _ hw _ (by simp; norm_num)⟩
  rw [value_spec _ hw 1 (by simp)]
  simp [Finset.sum_Ico_succ_top, Approx.c, toUnit, Chebyshev.T_two]
  norm_num

/-! ## Construction -/

/-- The `k`-th sampling point in `[a, b]`. -/
noncomputable def point (a b : ℝ) (n k : ℕ) : ℝ := (a + b) / 2 + (b - a) / 2 * Real.cos (Real.pi * (2 * k + 1) / (2 * n))

theorem point_eq (a b : ℝ) (n k : ℕ) (hn : 0 < n) : node n k * (0.5 * (b - a)) + 0.5 * (b + a) = point a b n k := by
  have : (n : ℝ) ≠ 0 := by positivity
  rw [node, point, show Real.pi * ((k : ℝ) + 0.5) / n = Real.pi * (2 * k + 1) / (2 * n) by field_simp; ring]
  ring

/-- The affine substitution as a polynomial. -/
noncomputable def affine (a b : ℝ) : ℝ[X] := C (2 / (b - a)) * X + C (-(a + b) / (b - a))

theorem affine_eval (a b x : ℝ) : (affine a b).eval x = toUnit a b x := by
  rw [affine, toUnit]
  simp only [eval_add, eval_mul, eval_C, eval_X]
  ring

theorem affine_natDegree (a b : ℝ) (hab : a < b) : (affine a b).natDegree = 1 := by
  rw [affine]
  exact natDegree_linear (by have : b - a ≠ 0 := by linarith
                             positivity)

theorem toUnit_point (a b : ℝ) (hab : a < b) (y : ℝ) : toUnit a b (y * (0.5 * (b - a)) + 0.5 * (b + a)) = y := by
  have : b - a ≠ 0 := by linarith
  rw [toUnit]
  field_simp
  ring

theorem comp_degree (q : ℝ[X]) (n : ℕ) (hn : 0 < n) (hq : q.degree < n) (r : ℝ[X]) (hr : r.natDegree = 1) : (q.comp r).degree < n := by
  rcases eq_or_ne q 0 with rfl | h0
  · rw [zero_comp, degree_zero]
    exact WithBot.bot_lt_coe n
  · have h1 := (natDegree_lt_iff_degree_lt h0).mpr hq
    refine lt_of_le_of_lt degree_le_natDegree ?_
    rw [natDegree_comp, hr, mul_one]
    exact_mod_cast h1

/-- The approximation of a function is the polynomial of degree below `n` through its values at the `n` sampling points. -/
theorem fromFunction_interpolates (g : ℝ → ℝ) (a b : ℝ) (n : ℕ) (hn : 0 < n) (hab : a < b) :
    ∃ p, fromFunction (fun x => .ret (g x)) a b n = .ret p ∧ p.WF ∧ p.a = a ∧ p.b = b ∧ p.m = n ∧ p.coef.length = n ∧
      ∃ P : ℝ[X], P.degree < n ∧ (∀ k < n, P.eval (point a b n k) = g (point a b n k)) ∧
        ∀ x ∈ Set.Icc a b, p.value x = .ret (P.eval x) := by
  rw [fromFunction_ret _ g a b n hn hab (fun _ _ => rfl)]
  set v : ℕ → ℝ := fun k => g (node n k * (0.5 * (b - a)) + 0.5 * (b + a)) with hv
  set q := Lagrange.interpolate (Finset.range n) (node n) v with hq
  have hqd : q.degree < n := by
    have := Lagrange.degree_interpolate_lt (r := v) (node_injOn n)
    rwa [Finset.card_range] at this
  have hqv : ∀ k < n, q.eval (node n k) = v k := fun k hk =>
    Lagrange.eval_interpolate_at_node v (node_injOn n) (Finset.mem_range.mpr hk)
  have hwf : Approx.WF ⟨tab n (dct n v), a, b, n⟩ := ⟨hab, hn, by simp⟩
  have hser : series (dct n v) n = q := by
    have := series_dct n hn q hqd
    rw [← this]
    refine series_congr n hn fun k hk => ?_
    rw [dct, dct]
    congr 1
    refine Finset.sum_congr rfl fun j hj => ?_
    rw [hqv j (Finset.mem_range.mp hj)]
  refine ⟨_, rfl, hwf, rfl, rfl, rfl, by simp, q.comp (affine a b), comp_degree q n hn hqd _ (affine_natDegree a b hab), ?_, ?_⟩
  · intro k hk
    rw [eval_comp, affine_eval, ← point_eq a b n k hn, toUnit_point a b hab, hqv k hk]
  · intro x hx
    rw [value_eq _ hwf, if_pos hx, eval_comp, affine_eval, ← hser]
    congr 2
    exact series_congr n hn fun k hk => getD_tab n _ _ hk

theorem point_injOn (a b : ℝ) (n : ℕ) (hab : a < b) : Set.InjOn (point a b n) (Finset.range n) := by
  intro i hi j hj h
  have hn : 0 < n := by simp only [Finset.coe_range, Set.mem_Iio] at hi; omega
  refine node_injOn n hi hj ?_
  rw [← point_eq a b n i hn, ← point_eq a b n j hn] at h
  have h1 : (0.5 * (b - a)) ≠ 0 := by
    have : 0 < b - a := by linarith
    positivity
  have : node n i * (0.5 * (b - a)) = node n j * (0.5 * (b - a)) := by linarith
  exact mul_right_cancel₀ h1 this

theorem point_mem (a b : ℝ) (n k : ℕ) (hab : a < b) : point a b n k ∈ Set.Icc a b := by
  rw [point]
  have h1 := Real.neg_one_le_cos (Real.pi * (2 * k + 1) / (2 * n))
  have h2 := Real.cos_le_one (Real.pi * (2 * k + 1) / (2 * n))
  constructor <;> nlinarith

/-- A polynomial of degree below `n` is reproduced exactly. -/
theorem fromFunction_polynomial (g : ℝ[X]) (a b : ℝ) (n : ℕ) (hn : 0 < n) (hab : a < b) (hg : g.degree < n) :
    ∃ p, fromFunction (fun x => .ret (g.eval x)) a b n = .ret p ∧ p.WF ∧ ∀ x ∈ Set.Icc a b, p.value x = .ret (g.eval x) := by
  obtain ⟨p, h1, h2, -, -, -, -, P, h3, h4, h5⟩ := fromFunction_interpolates (fun x => g.eval x) a b n hn hab
  refine ⟨p, h1, h2, fun x hx => ?_⟩
  have : P = g := by
    refine Polynomial.eq_of_degrees_lt_of_eval_index_eq (Finset.range n) (point_injOn a b n hab) ?_ ?_ fun k hk =>
      h4 k (Finset.mem_range.mp hk)
    · rwa [Finset.card_range]
    · rwa [Finset.card_range]
  rw [h5 x hx, this]

open Poly in
/-- `FromPolynomial` with enough coefficients (in particular with the default number) is exact. -/
theorem fromPolynomial_exact (v : List ℝ) (a b : ℝ) (n : ℤ) (hv : v ≠ []) (hn : n ≤ 0 ∨ (v.length : ℤ) ≤ n) (hab : a < b) :
    ∃ p, fromPolynomial v a b n = .ret p ∧ p.WF ∧ ∀ x ∈ Set.Icc a b, p.value x = Poly.eval v x := by
  have hl : 0 < v.length := List.length_pos_iff.mpr hv
  have he : ∀ x, Poly.eval v x = .ret ((toPoly v).eval x) := by
    intro x
    rw [eq_tab v 0, eval_tab, toPoly_tab]
  obtain ⟨N, hN, hvN⟩ : ∃ N : ℕ, (if n ≤ 0 then (v.length : ℤ) else n) = N ∧ v.length ≤ N := by
    split_ifs with h
    · exact ⟨v.length, rfl, le_rfl⟩
    · exact ⟨n.toNat, by omega, by omega⟩
  have hf : Poly.eval v = fun x => .ret ((toPoly v).eval x) := funext he
  rw [fromPolynomial, hN, hf]
  refine fromFunction_polynomial (toPoly v) a b N (by omega) hab ?_
  rw [eq_tab v 0, toPoly_tab]
  exact lt_of_lt_of_le (pl_degree_lt _ _) (by exact_mod_cast hvN)

/-- The error bound for a function with `n` continuous derivatives. -/
theorem fromFunction_error (g : ℝ → ℝ) (a b : ℝ) (n : ℕ) (hn : 0 < n) (hab : a < b) (hg : ContDiffOn ℝ n g (Set.Icc a b))
    (M : ℝ) (hM : ∀ t ∈ Set.Icc a b, |iteratedDerivWithin n g (Set.Icc a b) t| ≤ M) :
    ∃ p, fromFunction (fun x => .ret (g x)) a b n = .ret p ∧ ∀ x ∈ Set.Icc a b, ∃ v, p.value x = .ret v ∧
      |g x - v| ≤ M / n.factorial * ((b - a) / 2) ^ n / 2 ^ (n - 1) := by
  obtain ⟨p, h1, h2, -, -, -, -, P, h3, h4, h5⟩ := fromFunction_interpolates g a b n hn hab
  refine ⟨p, h1, fun x hx => ⟨_, h5 x hx, ?_⟩⟩
  have hP : P = Lagrange.interpolate (Finset.range n) (point a b n) fun k => g (point a b n k) := by
    refine Lagrange.eq_interpolate_of_eval_eq _ (point_injOn a b n hab) (by rwa [Finset.card_range]) fun k hk =>
      h4 k (Finset.mem_range.mp hk)
  obtain ⟨ξ, hξ, e⟩ := Interp.interp_error (Finset.range n) (point a b n) (point_injOn a b n hab) hab g
    (by rwa [Finset.card_range]) (fun i _ => point_mem a b n i hab) hx
  rw [hP, e, Finset.card_range]
  have hba : 0 < b - a := by linarith
  have hprod : ∏ i ∈ Finset.range n, (x - point a b n i) =
      ((b - a) / 2) ^ n * ((Chebyshev.T ℝ (n : ℤ)).eval (toUnit a b x) / 2 ^ (n - 1)) := by
    have hc : ((b - a) / 2) ^ n = ∏ _k ∈ Finset.range n, (b - a) / 2 := by rw [Finset.prod_const, Finset.card_range]
    rw [← nodal_T n hn, hc, ← Finset.prod_mul_distrib]
    refine Finset.prod_congr rfl fun k _ => ?_
    rw [← point_eq a b n k hn, toUnit]
    field_simp
    ring
  rw [hprod]
  have hT : |(Chebyshev.T ℝ (n : ℤ)).eval (toUnit a b x)| ≤ 1 := by
    refine Chebyshev.abs_eval_T_real_le_one n ?_
    rw [toUnit, abs_le, le_div_iff₀ hba, div_le_iff₀ hba]
    constructor <;> linarith [hx.1, hx.2]
  have hM0 := hM ξ hξ
  have hMn : 0 ≤ M := le_trans (abs_nonneg _) hM0
  rw [abs_mul, abs_div, abs_mul, abs_div, abs_of_pos (show (0 : ℝ) < n.factorial by positivity),
    abs_of_pos (show (0 : ℝ) < ((b - a) / 2) ^ n by positivity), abs_of_pos (show (0 : ℝ) < 2 ^ (n - 1) by positivity)]
  calc |iteratedDerivWithin n g (Set.Icc a b) ξ| / n.factorial * (((b - a) / 2) ^ n *
        (|(Chebyshev.T ℝ (n : ℤ)).eval (toUnit a b x)| / 2 ^ (n - 1)))
      ≤ M / n.factorial * (((b - a) / 2) ^ n * (1 / 2 ^ (n - 1))) := by gcongr
    _ = M / n.factorial * ((b - a) / 2) ^ n / 2 ^ (n - 1) := by ring

/-- The bad arguments of the constructors. -/
theorem construct_errors (func : ℝ → Outcome ℝ) (c : List ℝ) (a b : ℝ) (n : ℤ) :
    (n < 0 → fromFunction func a b n = .exn (.mml "VectorInitializationError")) ∧
    (n = 0 ∨ (0 < n ∧ b ≤ a) → fromFunction func a b n = .exn .invalidArgument) ∧
    (c = [] ∨ b ≤ a → fromCoefficients c a b = .exn .invalidArgument) ∧
    (c ≠ [] → a < b → fromCoefficients c a b = .ret ⟨c, a, b, c.length⟩) := by
  refine ⟨fun h => by rw [fromFunction, if_pos h], fun h => ?_, fun h => ?_, fun h1 h2 => ?_⟩
  · rcases h with rfl | ⟨h1, h2⟩
    · rw [fromFunction, if_neg (by omega), if_pos le_rfl]
    · rw [fromFunction, if_neg (by omega), if_neg (by omega), if_pos h2]
  · rw [fromCoefficients]
    rcases h with rfl | h
    · rfl
    · rw [if_pos (show a ≥ b from h)]
      split <;> rfl
  · rw [fromCoefficients, if_neg (by simpa using h1), if_neg (by simpa using h2)]

/-- Exactness at work: `x²` on `[0, 2]` from three samples. -/
example : ∃ p, fromFunction (fun x => .ret (x ^ 2)) 0 2 3 = .ret p ∧ p.value 1.5 = .ret 2.25 := by
  have hd : ((X : ℝ[X]) ^ 2).degree < ((3 : ℕ) : WithBot ℕ) := by
    rw [degree_X_pow]
    norm_num
  obtain ⟨p, h1, -, h2⟩ := fromFunction_polynomial (X ^ 2) 0 2 3 (by norm_num) (by norm_num) hd
  refine ⟨p, ?_, ?_⟩
  · rw [← h1]
    simp
  · rw [h2 _ (by constructor <;> norm_num)]
    simp
    norm_num

end Verif.Cheb
