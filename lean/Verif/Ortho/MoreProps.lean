import Verif.Ortho.Props
import Verif.Cheb.MoreProps
import Verif.Integ.ErrProps
import Mathlib.Analysis.SpecialFunctions.Stirling
import Mathlib.Analysis.SpecialFunctions.Integrals.Basic

/-!
# The orthogonal bases (C106), continued
-/

set_option autoImplicit false

namespace Verif.Ortho

open Verif Polynomial MeasureTheory
open Verif.Cheb (quot)

/-! ## Hermite polynomials of the probabilists -/

theorem hermite_derivative (n : ℕ) : derivative (Polynomial.hermite (n + 1)) = ((n : ℤ[X]) + 1) * Polynomial.hermite n := by
  induction n with
  | zero => simp
  | succ n ih =>
    rw [Polynomial.hermite_succ (n + 1)]
    simp only [derivative_sub, derivative_mul, derivative_X, ih, derivative_add, derivative_natCast, derivative_one]
    have := Polynomial.hermite_succ n
    push_cast
    linear_combination -((n : ℤ[X]) + 1) * this

/-- The Hermite polynomials of the probabilists with real coefficients. -/
noncomputable def heP (n : ℕ) : ℝ[X] := (Polynomial.hermite n).map (Int.castRingHom ℝ)

theorem heP_next (n : ℕ) : heP (n + 1) = X * heP n - derivative (heP n) := by
  rw [heP, Polynomial.hermite_succ, Polynomial.map_sub, Polynomial.map_mul, map_X, heP, derivative_map]

theorem heP_deriv (n : ℕ) : derivative (heP (n + 1)) = ((n : ℝ[X]) + 1) * heP n := by
  rw [heP, derivative_map, hermite_derivative, Polynomial.map_mul, heP]
  simp

theorem heP_three : Three heP (fun _ => 1) (fun _ => 0) (fun n => -n) where
  zero := by simp [heP]
  one := by simp [heP]
  step := by
    intro n
    rw [heP_next (n + 1), heP_deriv]
    push_cast
    simp only [C_neg, C_add, C_1, C_0, ← cast_C]
    ring
  ne := by intro n; norm_num

theorem half_integrable (q : ℝ[X]) : Integrable (fun x : ℝ => q.eval x * Real.exp (-0.5 * x * x)) := by
  induction q using Polynomial.induction_on' with
  | add p q hp hq =>
    refine (hp.add hq).congr (Filter.Eventually.of_forall fun x => ?_)
    simp only [Pi.add_apply, eval_add]
    ring
  | monomial k r =>
    have h := integrable_rpow_mul_exp_neg_mul_sq (b := 0.5) (by norm_num) (s := k)
      (by have : (0 : ℝ) ≤ k := Nat.cast_nonneg k; linarith)
    refine (h.const_mul r).congr (Filter.Eventually.of_forall fun x => ?_)
    simp only [eval_monomial, Real.rpow_natCast]
    rw [show -0.5 * x * x = -0.5 * x ^ 2 by ring]
    ring

theorem heP_integral (n : ℕ) : ∫ x : ℝ, (heP (n + 1)).eval x * Real.exp (-0.5 * x * x) = 0 := by
  have h : ∀ x : ℝ, HasDerivAt (fun x => -((heP n).eval x * Real.exp (-0.5 * x * x))) ((heP (n + 1)).eval x * Real.exp (-0.5 * x * x)) x := by
    intro x
    have h1 := (heP n).hasDerivAt x
    have h2 : HasDerivAt (fun x : ℝ => Real.exp (-0.5 * x * x)) (Real.exp (-0.5 * x * x) * ((-0.5 * 1) * x + -0.5 * x * 1)) x :=
      (((hasDerivAt_id x).const_mul (-0.5)).mul (hasDerivAt_id x)).exp
    refine (h1.mul h2).neg.congr_deriv ?_
    rw [heP_next]
    simp only [eval_sub, eval_mul, eval_X]
    ring
  exact integral_eq_zero_of_hasDerivAt_of_integrable h (half_integrable _) (half_integrable _).neg

theorem prob_orthogonal : Orthogonal Set.univ probWeight heP (fun n => n.factorial * Real.sqrt (2 * Real.pi)) :=
  heP_three.orthogonal
    (fun q => (half_integrable q).integrableOn)
    (fun n => by rw [Measure.restrict_univ]; exact heP_integral n) _
    (by
      rw [Measure.restrict_univ]
      have := integral_gaussian 0.5
      rw [Nat.factorial_zero, Nat.cast_one, one_mul, show 2 * Real.pi = Real.pi / 0.5 by ring, ← this]
      refine integral_congr_ae (Filter.Eventually.of_forall fun x => ?_)
      beta_reduce
      rw [show -0.5 * x * x = -0.5 * x ^ 2 by ring])
    (fun n => by
      rw [Nat.factorial_succ]
      push_cast
      ring)
    (fun n => by positivity)

theorem two_rpow (n : ℕ) : (2 : ℝ) ^ (-0.5 * (n : ℝ)) = (Real.sqrt 2)⁻¹ ^ n := by
  rw [show (-0.5 * (n : ℝ)) = (-(1 / 2)) * n by norm_num, Real.rpow_mul (by norm_num), Real.rpow_natCast, Real.rpow_neg (by norm_num),
    Real.sqrt_eq_rpow]

theorem prob_eq (n : ℕ) (x : ℝ) : (Real.sqrt 2)⁻¹ ^ n * (herP n).eval (x / Real.sqrt 2) = (heP n).eval x := by
  have hs : Real.sqrt 2 * Real.sqrt 2 = 2 := Real.mul_self_sqrt (by norm_num)
  have h0 : Real.sqrt 2 ≠ 0 := by positivity
  have hi : (Real.sqrt 2)⁻¹ * (Real.sqrt 2)⁻¹ * 2 = 1 := by
    rw [← mul_inv, hs]; norm_num
  induction n using Nat.strong_induction_on with
  | _ n ih =>
    match n with
    | 0 => simp [herP, heP]
    | 1 =>
      simp only [herP, heP, pow_one, eval_mul, eval_ofNat, eval_X, Polynomial.hermite_one, map_X]
      rw [div_eq_mul_inv]
      linear_combination x * hi
    | n + 2 =>
      have e1 := ih (n + 1) (by omega)
      have e0 := ih n (by omega)
      rw [heP_three.step, herP]
      simp only [eval_mul, eval_sub, eval_add, eval_ofNat, eval_natCast, eval_one, eval_X, eval_C]
      rw [← e1, ← e0, div_eq_mul_inv]
      push_cast
      linear_combination ((Real.sqrt 2)⁻¹ ^ (n + 1) * x * (herP (n + 1)).eval (x * (Real.sqrt 2)⁻¹) -
        (Real.sqrt 2)⁻¹ ^ n * ((n : ℝ) + 1) * (herP n).eval (x * (Real.sqrt 2)⁻¹)) * hi

/-- `ProbabilistHermiteBasis` is the system of Mathlib's Hermite polynomials. -/
theorem prob_basis : IsBasis Set.univ probEval probWeight probNorm (fun n => (Polynomial.hermite n).map (Int.castRingHom ℝ)) := by
  refine ⟨_, prob_orthogonal, ?_, ?_, ?_⟩
  · intro n x
    rw [probEval, if_neg (by omega), Int.toNat_natCast, hermite_eq, Outcome.bind_ret]
    push_cast
    rw [two_rpow, prob_eq]
    rfl
  · intro n
    rw [probNorm, if_neg (by omega), Int.toNat_natCast, fact_run, Outcome.bind_ret]
  · intro n hn
    exact ⟨fun x => by rw [probEval, if_pos hn], by rw [probNorm, if_pos hn]⟩

/-! ## Laguerre -/

/-- `LaguerreBasis` is the system of Laguerre polynomials: orthonormal on the half-line with weight `exp (-x)`, equal to one at zero,
and solutions of Laguerre's equation. -/
theorem laguerre_basis : ∃ P, IsBasis (Set.Ioi 0) laguerreEval laguerreWeight laguerreNorm P ∧ (∀ n, (P n).eval 0 = 1) ∧
    ∀ n, X * derivative (derivative (P n)) + (1 - X) * derivative (P n) + (n : ℝ[X]) * P n = 0 := by
  refine ⟨lagP 0, ⟨fun _ => 1, ?_, ?_, ?_, ?_⟩, ?_, ?_⟩
  · have h := laguerre_orthogonal 0 (by norm_num)
    simp only [Real.rpow_zero, one_mul, zero_add, Real.Gamma_nat_eq_factorial] at h
    refine ⟨h.degree, h.integrable, h.orth, ?_, fun _ => one_pos⟩
    intro n
    have := h.norm n
    rwa [div_self (by positivity)] at this
  · intro n x
    rw [laguerreEval, if_neg (by omega), Int.toNat_natCast, laguerre_eq]
  · intro n
    rw [laguerreNorm, if_neg (by omega)]
  · intro n hn
    exact ⟨fun x => by rw [laguerreEval, if_pos hn], by rw [laguerreNorm, if_pos hn]⟩
  · intro n
    rw [lagP_eval_zero]
    refine Finset.prod_eq_one fun k _ => ?_
    rw [zero_add, div_self (by positivity)]
  · intro n
    have := lagP_ode 0 n
    rwa [zero_add, C_1] at this

theorem laguerre_recurs : Recurs laguerreEval laguerreRec := by
  have h3 := lagP_three 0
  simp only [add_zero] at h3
  refine recurs_of h3 ?_ ?_ ?_
  · intro n x
    rw [laguerreEval, if_neg (by omega), Int.toNat_natCast, laguerre_eq]
  · intro n
    rw [laguerreRec, if_neg (by omega)]
    push_cast
    rfl
  · intro n hn
    rw [laguerreRec, if_pos hn]

theorem gamma_prod (α : ℝ) (hα : -1 < α) (n : ℕ) :
    forFromTo 1 (n + 1) (Real.Gamma (α + 1)) (fun r (k : ℕ) => .ret (r * (α + k))) = .ret (Real.Gamma (α + n + 1)) := by
  obtain ⟨t, ht, hP⟩ := forFromTo_rule (fun i (r : ℝ) => r = Real.Gamma (α + i)) 1 (n + 1) (by omega) (Real.Gamma (α + 1))
    (fun r (k : ℕ) => .ret (r * (α + k))) (by simp) (by
      rintro i r hi _ rfl
      refine ⟨_, rfl, ?_⟩
      have h1 : (1 : ℝ) ≤ i := by exact_mod_cast hi
      push_cast
      rw [← add_assoc, Real.Gamma_add_one (by linarith : α + (i : ℝ) ≠ 0)]
      ring)
  rw [ht, hP]
  push_cast
  rw [add_assoc]

/-- `AssociatedLaguerreBasis` is the system of generalised Laguerre polynomials: orthogonal on the half-line with weight
`x^α exp (-x)`; its value at zero is the binomial coefficient of `n + α` over `n`. -/
theorem genLaguerre_basis (α : ℝ) (hα : -1 < α) : assocLaguerreNew α = .ret α ∧
    ∃ P, IsBasis (Set.Ioi 0) (genLaguerreEval α) (genLaguerreWeight α) (genLaguerreNorm α) P ∧
      (∀ n, (P n).eval 0 = ∏ k ∈ Finset.range n, (α + k + 1) / (k + 1)) ∧
      ∀ n, X * derivative (derivative (P n)) + (C (α + 1) - X) * derivative (P n) + (n : ℝ[X]) * P n = 0 := by
  refine ⟨by rw [assocLaguerreNew, if_neg (by linarith)], lagP α, ⟨_, laguerre_orthogonal α hα, genLaguerre_eq α, ?_, ?_⟩, lagP_eval_zero α, lagP_ode α⟩
  · intro n
    rw [genLaguerreNorm, if_neg (by omega), Int.toNat_natCast, fact_run, Outcome.bind_ret, gamma_prod α hα, Outcome.bind_ret,
      quot_ret _ _ (by positivity)]
  · intro n hn
    exact ⟨fun x => by rw [genLaguerreEval, if_pos hn], by rw [genLaguerreNorm, if_pos hn]⟩

/-- Parameters up to `-1` are refused. -/
theorem genLaguerre_refused (α : ℝ) (hα : α ≤ -1) : assocLaguerreNew α = .exn .invalidArgument := by
  rw [assocLaguerreNew, if_pos hα]

theorem genLaguerre_recurs (α : ℝ) : Recurs (genLaguerreEval α) (genLaguerreRec α) := by
  refine recurs_of (lagP_three α) (genLaguerre_eq α) ?_ ?_
  · intro n
    rw [genLaguerreRec, if_neg (by omega)]
    push_cast
    rfl
  · intro n hn
    rw [genLaguerreRec, if_pos hn]

/-- The special function `AssocLaguerre` is the same as the basis function, and `Laguerre` the one for zero. -/
theorem assocLaguerre_spec (n m : ℕ) (x : ℝ) : assocLaguerre n m x = genLaguerreEval m n x ∧ laguerre n x = genLaguerreEval 0 n x := by
  rw [assocLaguerre_eq, genLaguerre_eq, laguerre_eq, genLaguerre_eq]
  exact ⟨rfl, rfl⟩

/-! ## Chebyshev -/

theorem orthogonal_congr {D : Set ℝ} (hD : MeasurableSet D) {w w' : ℝ → ℝ} {P : ℕ → ℝ[X]} {h : ℕ → ℝ} (ho : Orthogonal D w P h)
    (hw : ∀ x ∈ D, w x = w' x) : Orthogonal D w' P h where
  degree := ho.degree
  integrable q := (ho.integrable q).congr_fun (fun x hx => by beta_reduce; rw [hw x hx]) hD
  orth m n hmn := by
    rw [← ho.orth m n hmn]
    exact setIntegral_congr_fun hD fun x hx => by beta_reduce; rw [hw x hx]
  norm n := by
    rw [← ho.norm n]
    exact setIntegral_congr_fun hD fun x hx => by beta_reduce; rw [hw x hx]
  pos := ho.pos

/-- `ChebyshevBasis` is the system of Chebyshev polynomials of the first kind. -/
theorem chebyshev_basis : IsBasis (Set.Ioo (-1) 1) Cheb.basisEval Cheb.basisWeight Cheb.basisNorm (fun n => Chebyshev.T ℝ n) := by
  refine ⟨_, orthogonal_congr measurableSet_Ioo chebT_orthogonal ?_, ?_, ?_, ?_⟩
  · intro x hx
    rw [Cheb.basisWeight, if_neg]
    rw [ge_iff_le, not_le, abs_lt]
    exact hx
  · intro n x
    rw [Cheb.basisEval, if_neg (by omega), Cheb.chebyshevT_spec]
  · intro n
    rw [Cheb.basisNorm, if_neg (by omega)]
    split_ifs with h1 h2 h2
    · rfl
    · omega
    · omega
    · rfl
  · intro n hn
    exact ⟨fun x => by rw [Cheb.basisEval, if_pos hn], by rw [Cheb.basisNorm, if_pos hn]⟩

/-- `ChebyshevBasisSecondKind` is the system of Chebyshev polynomials of the second kind. -/
theorem chebyshev2_basis : IsBasis (Set.Ioo (-1) 1) Cheb.basis2Eval Cheb.basis2Weight Cheb.basis2Norm (fun n => Chebyshev.U ℝ n) := by
  refine ⟨_, orthogonal_congr measurableSet_Ioo chebU_orthogonal ?_, ?_, ?_, ?_⟩
  · intro x hx
    rw [Cheb.basis2Weight, if_neg]
    rw [ge_iff_le, not_le, abs_lt]
    exact hx
  · intro n x
    rw [Cheb.basis2Eval, if_neg (by omega), Cheb.chebyshevU_spec]
  · intro n
    rw [Cheb.basis2Norm, if_neg (by omega)]
  · intro n hn
    exact ⟨fun x => by rw [Cheb.basis2Eval, if_pos hn], by rw [Cheb.basis2Norm, if_pos hn]⟩

theorem chebyshev2_recurs : Recurs Cheb.basis2Eval Cheb.basisRec := by
  refine recurs_of chebU_three ?_ ?_ ?_
  · intro n x
    rw [Cheb.basis2Eval, if_neg (by omega), Cheb.chebyshevU_spec]
  · intro n
    rw [Cheb.basisRec, if_neg (by omega)]
  · intro n hn
    rw [Cheb.basisRec, if_pos hn]

/-- The recurrence for the first kind holds from `n = 1` on ... -/
theorem chebyshev_recurs_partial (n : ℕ) (hn : 1 ≤ n) (x : ℝ) : ∃ a b c u v w, Cheb.basisRec n = .ret (a, b, c) ∧
    Cheb.basisEval (n + 1) x = .ret w ∧ Cheb.basisEval n x = .ret v ∧ Cheb.basisEval (n - 1) x = .ret u ∧ w = (a * x + b) * v + c * u := by
  have he : ∀ (k : ℕ), Cheb.basisEval k x = .ret ((Chebyshev.T ℝ k).eval x) := by
    intro k
    rw [Cheb.basisEval, if_neg (by omega), Cheb.chebyshevT_spec]
  obtain ⟨k, rfl⟩ : ∃ k, n = k + 1 := ⟨n - 1, by omega⟩
  refine ⟨2, 0, -1, (Chebyshev.T ℝ k).eval x, (Chebyshev.T ℝ (k + 1 : ℕ)).eval x, (Chebyshev.T ℝ (k + 2 : ℕ)).eval x, ?_, ?_, he _, ?_, ?_⟩
  · rw [Cheb.basisRec, if_neg (by omega)]
  · exact he (k + 2)
  · rw [← he k]
    congr 1
    push_cast
    ring
  · have := Chebyshev.T_add_two ℝ (k : ℤ)
    push_cast
    rw [this]
    simp
    ring

/-- ... but not at zero. -/
theorem chebyshev_not_recurs : ¬ Recurs Cheb.basisEval Cheb.basisRec := by
  rintro ⟨h, -⟩
  obtain ⟨a, b, c, hr, hx⟩ := h 0
  obtain ⟨u, v, w, hw, hv, hu, e⟩ := hx 1
  rw [Cheb.basisRec, if_neg (by omega)] at hr
  obtain ⟨rfl, rfl, rfl⟩ : 2 = a ∧ 0 = b ∧ -1 = c := by
    have := Outcome.ret.inj hr
    exact ⟨congrArg Prod.fst this, congrArg (fun t => t.2.1) this, congrArg (fun t => t.2.2) this⟩
  have e1 : Cheb.basisEval ((1 : ℕ) : ℤ) 1 = .ret ((Chebyshev.T ℝ (1 : ℕ)).eval 1) := by
    rw [Cheb.basisEval, if_neg (by omega), Cheb.chebyshevT_spec]
  have e0 : Cheb.basisEval ((0 : ℕ) : ℤ) 1 = .ret ((Chebyshev.T ℝ (0 : ℕ)).eval 1) := by
    rw [Cheb.basisEval, if_neg (by omega), Cheb.chebyshevT_spec]
  rw [show ((0 : ℕ) : ℤ) + 1 = ((1 : ℕ) : ℤ) by norm_num, e1] at hw
  rw [e0] at hv
  have hw' := Outcome.ret.inj hw
  have hv' := Outcome.ret.inj hv
  simp at hw' hv' hu
  rw [hu, ← hw', ← hv'] at e
  norm_num at e

theorem zeros_fill (n : ℕ) (f : ℕ → ℝ) (g : ℕ → ℝ) (hfg : ∀ k < n, g (k + 1) = f k) :
    forFromTo 1 (n + 1) (List.replicate n 0) (fun v k => Outcome.store v (k - 1) (g k)) = .ret (tab n f) := by
  rw [forFromTo, Nat.add_sub_cancel, replicate_eq_tab, forRange_fill n n le_rfl _ f _ (fun i hi r => ?_)]
  · congr 1
    exact tab_congr fun k hk => if_pos hk
  · beta_reduce
    rw [show 1 + i - 1 = i by omega, add_comm 1 i, hfg i hi]

/-- `ChebyshevBasis::GetZeros` are the roots of `T_n`, in decreasing order, as from `ChebyshevRoots`; `GetExtrema` are the points from
`ChebyshevExtrema`. -/
theorem chebyshev_zeros (n : ℕ) (hn : 0 < n) : Cheb.basisZeros n = Cheb.chebyshevRoots n ∧ Cheb.basisExtrema n = Cheb.chebyshevExtrema n := by
  have hnr : (n : ℝ) ≠ 0 := by positivity
  constructor
  · rw [Cheb.basisZeros, if_neg (by omega), Cheb.chebyshevRoots, if_neg (by omega), Int.toNat_natCast,
      zeros_fill n (fun k : ℕ => Real.cos (Real.pi * (2 * k + 1) / (2 * n))) _ (fun k _ => by push_cast; congr 1; ring), replicate_eq_tab,
      forRange_fill n n le_rfl _ (fun k : ℕ => Real.cos (Real.pi * (2 * k + 1) / (2 * n))) _ (fun i hi r => rfl)]
    congr 1
    exact tab_congr fun k hk => (if_pos hk).symm
  · rw [Cheb.basisExtrema, if_neg (by omega), Cheb.chebyshevExtrema, if_neg (by omega), Int.toNat_natCast, replicate_eq_tab,
      forRange_fill (n + 1) (n + 1) le_rfl _ (fun k : ℕ => Real.cos (Real.pi * k / n)) _ (fun i hi r => rfl),
      forRange_fill (n + 1) (n + 1) le_rfl _ (fun k : ℕ => Real.cos (Real.pi * k / n)) _ (fun i hi r => ?_)]
    beta_reduce
    rw [quot_ret _ _ hnr, Outcome.bind_ret, mul_comm (i : ℝ)]

/-- Degree zero: `GetExtrema` divides by zero. -/
theorem chebyshev_extrema_zero : Cheb.basisExtrema 0 = .ub := by
  rw [Cheb.basisExtrema, if_neg (by omega)]
  simp [forRange, quot]

/-- `ChebyshevBasisSecondKind::GetZeros` are the roots of `U_n`, in decreasing order. -/
theorem chebyshev2_zeros (n : ℕ) (hn : 0 < n) :
    ∃ v, Cheb.basis2Zeros n = .ret v ∧ v.length = n ∧ v.SortedGT ∧ ∀ x, x ∈ v ↔ (Chebyshev.U ℝ n).eval x = 0 := by
  have hnr : (0 : ℝ) < n := by exact_mod_cast hn
  refine ⟨tab n fun k => Real.cos ((k + 1) * Real.pi / (n + 1)), ?_, by simp, ?_, ?_⟩
  · rw [Cheb.basis2Zeros, if_neg (by omega), Int.toNat_natCast]
    exact zeros_fill n _ _ (fun k _ => by push_cast; ring_nf)
  · rw [List.sortedGT_iff_pairwise, tab, List.pairwise_map]
    refine List.Pairwise.imp_of_mem ?_ (List.pairwise_lt_range (n := n))
    intro i j hi hj hij
    have hj' : (j : ℝ) + 1 ≤ n := by exact_mod_cast List.mem_range.mp hj
    have hij' : (i : ℝ) < j := by exact_mod_cast hij
    refine Real.strictAntiOn_cos ⟨by positivity, ?_⟩ ⟨by positivity, ?_⟩ ?_
    · rw [div_le_iff₀ (by positivity)]; nlinarith [Real.pi_pos]
    · rw [div_le_iff₀ (by positivity)]; nlinarith [Real.pi_pos]
    · apply div_lt_div_of_pos_right _ (by positivity)
      nlinarith [Real.pi_pos]
  · intro x
    have h := Chebyshev.roots_U_real n
    have hne : Chebyshev.U ℝ (n : ℤ) ≠ 0 := chebU_three.ne_zero n
    rw [← IsRoot.def, ← mem_roots hne, h, Finset.mem_val, Finset.mem_image, tab, List.mem_map]
    constructor
    · rintro ⟨k, hk, rfl⟩
      exact ⟨k, by simpa using hk, by congr 1⟩
    · rintro ⟨k, hk, rfl⟩
      exact ⟨k, by simpa using hk, by congr 1⟩

/-- Degrees that are not positive have no zeros to return. -/
theorem zeros_refused (n : ℤ) (hn : n ≤ 0) : Cheb.basisZeros n = .exn .invalidArgument ∧ Cheb.basis2Zeros n = .exn .invalidArgument := by
  rw [Cheb.basisZeros, Cheb.basis2Zeros, if_pos hn, if_pos hn]
  exact ⟨rfl, rfl⟩

/-! ## Cases -/

-- A parameter between -1 and 1, refused parameters, zeros of small degree.
example : assocLaguerreNew (1 / 2) = .ret (1 / 2) := (genLaguerre_basis (1 / 2) (by norm_num)).1
example : assocLaguerreNew (-3) = .exn .invalidArgument := genLaguerre_refused (-3) (by norm_num)
example : assocLaguerre 3 2 5 = genLaguerreEval 2 3 5 := by exact_mod_cast (assocLaguerre_spec 3 2 5).1
example : Cheb.basisZeros 3 = Cheb.chebyshevRoots 3 := (chebyshev_zeros 3 (by norm_num)).1
example : ∃ v, Cheb.basis2Zeros 3 = .ret v ∧ v.length = 3 ∧ v.SortedGT ∧ ∀ x, x ∈ v ↔ (Chebyshev.U ℝ 3).eval x = 0 := chebyshev2_zeros 3 (by norm_num)
example : Cheb.basis2Zeros (-1) = .exn .invalidArgument := (zeros_refused (-1) (by norm_num)).2

end Verif.Ortho
