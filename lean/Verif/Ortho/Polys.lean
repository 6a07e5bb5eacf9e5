import Mathlib.Algebra.Polynomial.Derivative
import Mathlib.Algebra.Polynomial.AlgebraMap
import Mathlib.Data.Real.Basic
import Mathlib.Tactic

/-!
# Helper lemmas: polynomials given by a recurrence with three terms

Orthogonality for any linear functional that vanishes on all but the first, and the algebra of the classical ones.
-/

set_option autoImplicit false

namespace Verif.Ortho

open Polynomial

/-- `p` satisfies `p₀ = 1` and `p_{n+1} = (a_n x + b_n) p_n + c_n p_{n-1}`. -/
structure Three (p : ℕ → ℝ[X]) (a b c : ℕ → ℝ) : Prop where
  zero : p 0 = 1
  one : p 1 = C (a 0) * X + C (b 0)
  step : ∀ n, p (n + 2) = (C (a (n + 1)) * X + C (b (n + 1))) * p (n + 1) + C (c (n + 1)) * p n
  ne : ∀ n, a n ≠ 0

namespace Three

variable {p : ℕ → ℝ[X]} {a b c : ℕ → ℝ} (h : Three p a b c)
include h

theorem degree (n : ℕ) : (p n).natDegree = n ∧ (p n).leadingCoeff = ∏ k ∈ Finset.range n, a k := by
  induction n using Nat.strong_induction_on with
  | _ n ih =>
    match n with
    | 0 => simp [h.zero]
    | 1 =>
      rw [h.one, natDegree_linear (h.ne 0), leadingCoeff_linear (h.ne 0)]
      simp
    | n + 2 =>
      obtain ⟨d1, l1⟩ := ih (n + 1) (by omega)
      obtain ⟨d0, l0⟩ := ih n (by omega)
      have hl : (C (a (n + 1)) * X + C (b (n + 1))).natDegree = 1 := natDegree_linear (h.ne _)
      have hlc : (C (a (n + 1)) * X + C (b (n + 1))).leadingCoeff = a (n + 1) := leadingCoeff_linear (h.ne _)
      have hl0 : C (a (n + 1)) * X + C (b (n + 1)) ≠ 0 := by
        intro e; rw [e] at hl; simp at hl
      have hp0 : p (n + 1) ≠ 0 := by
        intro e; rw [e] at d1; simp at d1
      have hd : ((C (a (n + 1)) * X + C (b (n + 1))) * p (n + 1)).natDegree = n + 2 := by
        rw [natDegree_mul hl0 hp0, hl, d1]; ring
      have hs : (C (c (n + 1)) * p n).natDegree < ((C (a (n + 1)) * X + C (b (n + 1))) * p (n + 1)).natDegree := by
        rw [hd]
        exact lt_of_le_of_lt (natDegree_C_mul_le _ _) (by omega)
      rw [h.step, natDegree_add_eq_left_of_natDegree_lt hs, leadingCoeff_add_of_degree_lt' (degree_lt_degree hs), hd, leadingCoeff_mul, hlc, l1,
        Finset.prod_range_succ _ (n + 1)]
      exact ⟨rfl, mul_comm _ _⟩

theorem ne_zero (n : ℕ) : p n ≠ 0 := by
  intro e
  have := (h.degree n).2
  rw [e, leadingCoeff_zero] at this
  exact Finset.prod_ne_zero_iff.2 (fun k _ => h.ne k) this.symm

variable {L : ℝ[X] →ₗ[ℝ] ℝ} (hL : ∀ n, L (p (n + 1)) = 0)
include hL

theorem L_C (r : ℝ) (q : ℝ[X]) : L (C r * q) = r * L q := by
  rw [C_mul', map_smul, smul_eq_mul]

/-- A product with `x` in terms of the neighbours. -/
theorem X_mul (n : ℕ) (q : ℝ[X]) : a (n + 1) * L (q * (X * p (n + 1))) =
    L (q * p (n + 2)) - b (n + 1) * L (q * p (n + 1)) - c (n + 1) * L (q * p n) := by
  rw [h.step n]
  rw [show q * ((C (a (n + 1)) * X + C (b (n + 1))) * p (n + 1) + C (c (n + 1)) * p n) =
    C (a (n + 1)) * (q * (X * p (n + 1))) + C (b (n + 1)) * (q * p (n + 1)) + C (c (n + 1)) * (q * p n) by ring]
  rw [map_add, map_add, L_C h hL, L_C h hL, L_C h hL]
  ring

theorem orth_lt (m : ℕ) : ∀ n, m < n → L (p m * p n) = 0 := by
  induction m using Nat.strong_induction_on with
  | _ m ih =>
    match m with
    | 0 =>
      intro n hn
      obtain ⟨k, rfl⟩ : ∃ k, n = k + 1 := ⟨n - 1, by omega⟩
      rw [h.zero, one_mul, hL]
    | 1 =>
      intro n hn
      obtain ⟨k, rfl⟩ : ∃ k, n = k + 1 + 1 := ⟨n - 2, by omega⟩
      have e := X_mul h hL (k + 1) 1
      rw [one_mul, one_mul, one_mul, one_mul, hL, hL, hL] at e
      have e' : L (X * p (k + 1 + 1)) = 0 := by
        have := h.ne (k + 1 + 1)
        have : a (k + 1 + 1) * L (X * p (k + 1 + 1)) = 0 := by rw [e]; ring
        simpa [h.ne (k + 1 + 1)] using this
      rw [h.one, show (C (a 0) * X + C (b 0)) * p (k + 1 + 1) = C (a 0) * (X * p (k + 1 + 1)) + C (b 0) * p (k + 1 + 1) by ring, map_add,
        L_C h hL, L_C h hL, e', hL]
      ring
    | m + 2 =>
      intro n hn
      obtain ⟨k, rfl⟩ : ∃ k, n = k + 1 + 1 := ⟨n - 2, by omega⟩
      have e := X_mul h hL (k + 1) (p (m + 1))
      rw [ih (m + 1) (by omega) _ (by omega), ih (m + 1) (by omega) _ (by omega), ih (m + 1) (by omega) _ (by omega)] at e
      have e' : L (p (m + 1) * (X * p (k + 1 + 1))) = 0 := by
        have : a (k + 1 + 1) * L (p (m + 1) * (X * p (k + 1 + 1))) = 0 := by rw [e]; ring
        simpa [h.ne (k + 1 + 1)] using this
      rw [h.step m, show ((C (a (m + 1)) * X + C (b (m + 1))) * p (m + 1) + C (c (m + 1)) * p m) * p (k + 1 + 1) =
        C (a (m + 1)) * (p (m + 1) * (X * p (k + 1 + 1))) + C (b (m + 1)) * (p (m + 1) * p (k + 1 + 1)) +
          C (c (m + 1)) * (p m * p (k + 1 + 1)) by ring, map_add, map_add, L_C h hL, L_C h hL, L_C h hL, e',
        ih (m + 1) (by omega) _ (by omega), ih m (by omega) _ (by omega)]
      ring

theorem orth {m n : ℕ} (hmn : m ≠ n) : L (p m * p n) = 0 := by
  rcases lt_or_gt_of_ne hmn with hlt | hgt
  · exact orth_lt h hL m n hlt
  · rw [mul_comm]
    exact orth_lt h hL n m hgt

theorem norm_succ (n : ℕ) : a (n + 1) * L (p (n + 1) * p (n + 1)) = -c (n + 1) * a n * L (p n * p n) := by
  have e := X_mul h hL n (p n)
  rw [orth_lt h hL n (n + 2) (by omega), orth_lt h hL n (n + 1) (by omega)] at e
  have e2 : L (p (n + 1) * p (n + 1)) = a n * L (p n * (X * p (n + 1))) := by
    match n with
    | 0 =>
      nth_rw 1 [h.one]
      rw [show (C (a 0) * X + C (b 0)) * p (0 + 1) = C (a 0) * (X * p (0 + 1)) + C (b 0) * p (0 + 1) by ring, map_add, L_C h hL, L_C h hL,
        hL, h.zero, one_mul]
      ring
    | n + 1 =>
      nth_rw 1 [h.step n]
      rw [show ((C (a (n + 1)) * X + C (b (n + 1))) * p (n + 1) + C (c (n + 1)) * p n) * p (n + 1 + 1) =
        C (a (n + 1)) * (p (n + 1) * (X * p (n + 1 + 1))) + C (b (n + 1)) * (p (n + 1) * p (n + 1 + 1)) +
          C (c (n + 1)) * (p n * p (n + 1 + 1)) by ring, map_add, map_add, L_C h hL, L_C h hL, L_C h hL, orth_lt h hL (n + 1) _ (by omega),
        orth_lt h hL n _ (by omega)]
      ring
  rw [e2]
  linear_combination a n * e

end Three

/-- Polynomials of degree at most `N` are combinations of the first `N + 1`. -/
theorem span_of_degree {p : ℕ → ℝ[X]} (hdeg : ∀ n, (p n).natDegree = n) (hne : ∀ n, p n ≠ 0) (N : ℕ) :
    ∀ q : ℝ[X], q.natDegree ≤ N → ∃ d : ℕ → ℝ, q = ∑ n ∈ Finset.range (N + 1), C (d n) * p n := by
  induction N with
  | zero =>
    intro q hq
    have h0 : p 0 = C ((p 0).coeff 0) := eq_C_of_natDegree_le_zero (hdeg 0).le
    have hc : (p 0).coeff 0 ≠ 0 := by
      intro e
      rw [e, C_0] at h0
      exact hne 0 h0
    refine ⟨fun _ => q.coeff 0 / (p 0).coeff 0, ?_⟩
    rw [Finset.sum_range_one, h0, ← C_mul, coeff_C_zero, div_mul_cancel₀ _ hc]
    exact eq_C_of_natDegree_le_zero hq
  | succ N ih =>
    intro q hq
    have hd := hdeg (N + 1)
    have hl0 : (p (N + 1)).coeff (N + 1) ≠ 0 := by
      have : (p (N + 1)).leadingCoeff ≠ 0 := leadingCoeff_ne_zero.2 (hne _)
      rwa [leadingCoeff, hd] at this
    have hr : (q - C (q.coeff (N + 1) / (p (N + 1)).coeff (N + 1)) * p (N + 1)).natDegree ≤ N := by
      rw [natDegree_le_iff_coeff_eq_zero]
      intro k hk
      rw [coeff_sub, coeff_C_mul]
      rcases Nat.lt_or_ge (N + 1) k with hk' | hk'
      · rw [coeff_eq_zero_of_natDegree_lt (p := q) (n := k) (by omega), coeff_eq_zero_of_natDegree_lt (p := p (N + 1)) (n := k) (by omega)]
        ring
      · have : k = N + 1 := by omega
        subst this
        field_simp
        ring
    obtain ⟨d, hd'⟩ := ih _ hr
    refine ⟨fun n => if n = N + 1 then q.coeff (N + 1) / (p (N + 1)).coeff (N + 1) else d n, ?_⟩
    beta_reduce
    rw [Finset.sum_range_succ, if_pos rfl]
    have : ∑ n ∈ Finset.range (N + 1), C (if n = N + 1 then q.coeff (N + 1) / (p (N + 1)).coeff (N + 1) else d n) * p n =
        ∑ n ∈ Finset.range (N + 1), C (d n) * p n := by
      refine Finset.sum_congr rfl fun n hn => ?_
      rw [if_neg (by have := Finset.mem_range.1 hn; omega)]
    rw [this, ← hd']
    ring

/-! ## Legendre -/

/-- The Legendre polynomials by Bonnet's recurrence. -/
noncomputable def legP : ℕ → ℝ[X]
  | 0 => 1
  | 1 => X
  | n + 2 => C (1 / ((n : ℝ) + 2)) * (C (2 * (n : ℝ) + 3) * X * legP (n + 1) - C ((n : ℝ) + 1) * legP n)

theorem cast_C (n : ℕ) : (n : ℝ[X]) = C (n : ℝ) := by simp

theorem C2 : (C 2 : ℝ[X]) = 2 := map_ofNat C 2
theorem C3 : (C 3 : ℝ[X]) = 3 := map_ofNat C 3

theorem legP_rec (n : ℕ) : ((n : ℝ[X]) + 2) * legP (n + 2) = (2 * (n : ℝ[X]) + 3) * X * legP (n + 1) - ((n : ℝ[X]) + 1) * legP n := by
  have hn : (n : ℝ) + 2 ≠ 0 := by positivity
  rw [legP, ← mul_assoc, show ((n : ℝ[X]) + 2) = C ((n : ℝ) + 2) by simp [C2], ← C_mul, mul_one_div_cancel hn, C_1, one_mul]
  simp only [C_add, C_mul, C2, C3, C_1, ← cast_C]

theorem legP_three : Three legP (fun n => (2 * n + 1) / (n + 1)) (fun _ => 0) (fun n => -n / (n + 1)) where
  zero := rfl
  one := by simp [legP]
  step := by
    intro n
    have hn : (n : ℝ) + 2 ≠ 0 := by positivity
    rw [legP]
    push_cast
    rw [show (2 * ((n : ℝ) + 1) + 1) / (n + 1 + 1) = (1 / (n + 2)) * (2 * n + 3) by ring,
      show -((n : ℝ) + 1) / (n + 1 + 1) = -((1 / (n + 2)) * (n + 1)) by ring]
    simp only [C_mul, C_neg, C_0]
    ring
  ne := by intro n; positivity

theorem cast_succ_ne (n : ℕ) : (n : ℝ[X]) + 1 ≠ 0 := by exact_mod_cast n.succ_ne_zero
theorem cast_two_ne (n : ℕ) : (n : ℝ[X]) + 2 ≠ 0 := by exact_mod_cast (n + 1).succ_ne_zero

theorem legP_rec_deriv (n : ℕ) : ((n : ℝ[X]) + 2) * derivative (legP (n + 2)) =
    (2 * (n : ℝ[X]) + 3) * (legP (n + 1) + X * derivative (legP (n + 1))) - ((n : ℝ[X]) + 1) * derivative (legP n) := by
  have := congrArg derivative (legP_rec n)
  simp only [derivative_mul, derivative_sub, derivative_add, derivative_natCast, derivative_ofNat, derivative_X, derivative_one] at this
  linear_combination this

theorem legP_deriv (n : ℕ) : derivative (legP (n + 1)) = X * derivative (legP n) + ((n : ℝ[X]) + 1) * legP n ∧
    X * derivative (legP (n + 1)) = derivative (legP n) + ((n : ℝ[X]) + 1) * legP (n + 1) := by
  induction n with
  | zero => simp [legP]
  | succ n ih =>
    obtain ⟨hA, hB⟩ := ih
    have hR := legP_rec n
    have hD := legP_rec_deriv n
    have hA' : derivative (legP (n + 2)) = X * derivative (legP (n + 1)) + ((n : ℝ[X]) + 2) * legP (n + 1) := by
      apply mul_left_cancel₀ (cast_two_ne n)
      linear_combination hD + ((n : ℝ[X]) + 1) * hB
    refine ⟨?_, ?_⟩
    · push_cast
      linear_combination hA'
    · push_cast
      linear_combination X * hA' + X * hB - hA - hR

theorem legP_C (n : ℕ) : (X ^ 2 - 1) * derivative (legP (n + 1)) = ((n : ℝ[X]) + 1) * (X * legP (n + 1) - legP n) := by
  obtain ⟨hA, hB⟩ := legP_deriv n
  linear_combination X * hB - hA

/-- Legendre's equation. -/
theorem legP_ode (n : ℕ) : derivative ((1 - X ^ 2) * derivative (legP n)) = -((n : ℝ[X]) * ((n : ℝ[X]) + 1)) * legP n := by
  cases n with
  | zero => simp [legP]
  | succ n =>
    obtain ⟨hA, hB⟩ := legP_deriv n
    have h := congrArg derivative (legP_C n)
    simp only [derivative_mul, derivative_sub, derivative_add, derivative_natCast, derivative_X, derivative_one, derivative_pow] at h ⊢
    push_cast
    linear_combination -h - ((n : ℝ[X]) + 1) * hB

theorem legP_eval_one (n : ℕ) : (legP n).eval 1 = 1 := by
  induction n using Nat.strong_induction_on with
  | _ n ih =>
    match n with
    | 0 => simp [legP]
    | 1 => simp [legP]
    | n + 2 =>
      have hn : (n : ℝ) + 2 ≠ 0 := by positivity
      have := ih (n + 1) (by omega)
      have := ih n (by omega)
      rw [legP]
      simp only [eval_mul, eval_sub, eval_C, eval_X, *]
      field_simp
      ring

theorem legP_diff (l m : ℕ) : (2 * (l : ℝ[X]) + 3) * derivative^[m] (legP (l + 1)) =
    derivative^[m + 1] (legP (l + 2)) - derivative^[m + 1] (legP l) := by
  induction m with
  | zero =>
    have hA := (legP_deriv (l + 1)).1
    have hB := (legP_deriv l).2
    push_cast at hA
    simp only [Function.iterate_zero, id, Function.iterate_succ, Function.comp]
    linear_combination -hA - hB
  | succ m ih =>
    have := congrArg derivative ih
    simp only [derivative_mul, derivative_sub, derivative_add, derivative_natCast, derivative_ofNat, ← Function.iterate_succ_apply'] at this
    linear_combination this

/-- The recurrence for derivatives of order `m`. -/
theorem legP_iter (l m : ℕ) : ((l : ℝ[X]) + 2 - (m : ℝ[X])) * derivative^[m] (legP (l + 2)) =
    (2 * (l : ℝ[X]) + 3) * X * derivative^[m] (legP (l + 1)) - ((l : ℝ[X]) + 1 + (m : ℝ[X])) * derivative^[m] (legP l) := by
  induction m with
  | zero =>
    have := legP_rec l
    simp only [Function.iterate_zero, id]
    push_cast
    linear_combination this
  | succ m ih =>
    have h := congrArg derivative ih
    have hd := legP_diff l m
    simp only [derivative_mul, derivative_sub, derivative_add, derivative_natCast, derivative_ofNat, derivative_X, derivative_one,
      ← Function.iterate_succ_apply'] at h
    push_cast
    linear_combination h + hd

/-- Legendre's equation for derivatives of order `m`. -/
theorem legP_ode_iter (l m : ℕ) : (1 - X ^ 2) * derivative^[m + 2] (legP l) - 2 * ((m : ℝ[X]) + 1) * X * derivative^[m + 1] (legP l) =
    -(((l : ℝ[X]) - (m : ℝ[X])) * ((l : ℝ[X]) + (m : ℝ[X]) + 1)) * derivative^[m] (legP l) := by
  induction m with
  | zero =>
    have h := legP_ode l
    simp only [derivative_mul, derivative_sub, derivative_X, derivative_one, derivative_pow] at h
    simp only [Function.iterate_zero, id, Function.iterate_succ, Function.comp]
    push_cast at h ⊢
    simp only [C2] at h
    linear_combination h
  | succ m ih =>
    have h := congrArg derivative ih
    simp only [derivative_mul, derivative_sub, derivative_add, derivative_natCast, derivative_ofNat, derivative_X, derivative_one,
      derivative_pow, derivative_neg, ← Function.iterate_succ_apply'] at h
    push_cast at h ⊢
    simp only [C2] at h
    linear_combination h

theorem legP_top (m : ℕ) : derivative^[m] (legP m) = C (∏ k ∈ Finset.range m, (2 * (k : ℝ) + 1)) := by
  obtain ⟨hd, hl⟩ := legP_three.degree m
  have h1 : derivative^[m] (legP m) = C ((derivative^[m] (legP m)).coeff 0) := by
    apply eq_C_of_natDegree_le_zero
    exact le_trans (natDegree_iterate_derivative _ _) (by omega)
  rw [h1, coeff_iterate_derivative]
  congr 1
  rw [zero_add, Nat.descFactorial_self]
  have : (legP m).coeff m = (legP m).leadingCoeff := by rw [leadingCoeff, hd]
  rw [this, hl, ← Finset.prod_range_add_one_eq_factorial, nsmul_eq_mul, Nat.cast_prod, ← Finset.prod_mul_distrib]
  refine Finset.prod_congr rfl fun k _ => ?_
  have : (k : ℝ) + 1 ≠ 0 := by positivity
  push_cast
  field_simp

theorem legP_low (l m : ℕ) (h : l < m) : derivative^[m] (legP l) = 0 :=
  iterate_derivative_eq_zero (by rw [(legP_three.degree l).1]; exact h)

/-! ## Hermite -/

/-- The Hermite polynomials of the physicists by their recurrence. -/
noncomputable def herP : ℕ → ℝ[X]
  | 0 => 1
  | 1 => 2 * X
  | n + 2 => 2 * X * herP (n + 1) - 2 * ((n : ℝ[X]) + 1) * herP n

theorem herP_three : Three herP (fun _ => 2) (fun _ => 0) (fun n => -2 * n) where
  zero := rfl
  one := by simp [herP, C2]
  step := by
    intro n
    rw [herP]
    push_cast
    simp only [C_mul, C_neg, C_0, C2, C_add, C_1, ← cast_C]
    ring
  ne := by intro n; norm_num

theorem herP_deriv (n : ℕ) : derivative (herP (n + 1)) = 2 * ((n : ℝ[X]) + 1) * herP n := by
  induction n using Nat.strong_induction_on with
  | _ n ih =>
    match n with
    | 0 => simp [herP]
    | 1 =>
      simp [herP]
      ring
    | n + 2 =>
      have h1 := ih (n + 1) (by omega)
      have h0 := ih n (by omega)
      have e : herP (n + 2) = 2 * X * herP (n + 1) - 2 * ((n : ℝ[X]) + 1) * herP n := by rw [herP]
      rw [herP]
      simp only [derivative_mul, derivative_sub, derivative_add, derivative_natCast, derivative_ofNat, derivative_X, derivative_one]
      push_cast at h1 ⊢
      linear_combination 2 * X * h1 - 2 * ((n : ℝ[X]) + 2) * h0 - 2 * ((n : ℝ[X]) + 2) * e

theorem herP_next (n : ℕ) : herP (n + 1) = 2 * X * herP n - derivative (herP n) := by
  cases n with
  | zero => simp [herP]
  | succ n => rw [herP_deriv, herP]

theorem herP_ode (n : ℕ) : derivative (derivative (herP n)) - 2 * X * derivative (herP n) + 2 * (n : ℝ[X]) * herP n = 0 := by
  have h1 := herP_deriv n
  rw [herP_next] at h1
  simp only [derivative_mul, derivative_sub, derivative_ofNat, derivative_X] at h1
  linear_combination -h1

/-! ## Laguerre -/

/-- The generalised Laguerre polynomials by their recurrence. -/
noncomputable def lagP (α : ℝ) : ℕ → ℝ[X]
  | 0 => 1
  | 1 => C (1 + α) - X
  | n + 2 => C (1 / ((n : ℝ) + 2)) * (((2 * (n : ℝ[X]) + 3 + C α) - X) * lagP α (n + 1) - ((n : ℝ[X]) + 1 + C α) * lagP α n)

theorem lagP_rec (α : ℝ) (n : ℕ) : ((n : ℝ[X]) + 2) * lagP α (n + 2) =
    (2 * (n : ℝ[X]) + 3 + C α - X) * lagP α (n + 1) - ((n : ℝ[X]) + 1 + C α) * lagP α n := by
  have hn : (n : ℝ) + 2 ≠ 0 := by positivity
  rw [lagP, ← mul_assoc, show ((n : ℝ[X]) + 2) = C ((n : ℝ) + 2) by simp [C2], ← C_mul, mul_one_div_cancel hn, C_1, one_mul]

theorem lagP_three (α : ℝ) : Three (lagP α) (fun n => -1 / (n + 1)) (fun n => (2 * n + α + 1) / (n + 1)) (fun n => -(n + α) / (n + 1)) where
  zero := rfl
  one := by
    simp [lagP]
    ring
  step := by
    intro n
    rw [lagP]
    push_cast
    rw [show (-1 : ℝ) / ((n : ℝ) + 1 + 1) = -(1 / (n + 2)) by ring,
      show (2 * ((n : ℝ) + 1) + α + 1) / (n + 1 + 1) = (1 / (n + 2)) * (2 * n + 3 + α) by ring,
      show -((n : ℝ) + 1 + α) / (n + 1 + 1) = -((1 / (n + 2)) * (n + 1 + α)) by ring]
    simp only [C_mul, C_neg, C_add, C2, C3, C_1, ← cast_C]
    ring
  ne := by
    intro n
    have : (n : ℝ) + 1 ≠ 0 := by positivity
    simpa [div_eq_zero_iff] using this

theorem lagP_deriv (α : ℝ) (n : ℕ) : derivative (lagP α (n + 1)) = derivative (lagP α n) - lagP α n ∧
    X * derivative (lagP α (n + 1)) = ((n : ℝ[X]) + 1) * lagP α (n + 1) - ((n : ℝ[X]) + 1 + C α) * lagP α n := by
  induction n with
  | zero => simp [lagP]
  | succ n ih =>
    obtain ⟨hB, hA⟩ := ih
    have hR := lagP_rec α n
    have hD := congrArg derivative hR
    simp only [derivative_mul, derivative_sub, derivative_add, derivative_natCast, derivative_ofNat, derivative_X, derivative_one,
      derivative_C] at hD
    have hB' : derivative (lagP α (n + 2)) = derivative (lagP α (n + 1)) - lagP α (n + 1) := by
      apply mul_left_cancel₀ (cast_two_ne n)
      linear_combination hD + ((n : ℝ[X]) + 1 + C α) * hB - hA
    refine ⟨hB', ?_⟩
    push_cast
    linear_combination X * hB' + hA - hR

/-- Laguerre's equation. -/
theorem lagP_ode (α : ℝ) (n : ℕ) : X * derivative (derivative (lagP α n)) + (C (α + 1) - X) * derivative (lagP α n) + (n : ℝ[X]) * lagP α n = 0 := by
  cases n with
  | zero => simp [lagP]
  | succ n =>
    obtain ⟨hB, hA⟩ := lagP_deriv α n
    have h := congrArg derivative hA
    simp only [derivative_mul, derivative_sub, derivative_add, derivative_natCast, derivative_X, derivative_one, derivative_C] at h
    push_cast
    rw [C_add, C_1]
    linear_combination h + ((n : ℝ[X]) + 1 + C α) * hB - hA

theorem lagP_eval_zero (α : ℝ) (n : ℕ) : (lagP α n).eval 0 = ∏ k ∈ Finset.range n, (α + k + 1) / (k + 1) := by
  induction n with
  | zero => simp [lagP]
  | succ n ih =>
    have h := congrArg (eval 0) (lagP_deriv α n).2
    simp only [eval_mul, eval_sub, eval_add, eval_X, eval_natCast, eval_one, eval_C, zero_mul] at h
    have hn : (n : ℝ) + 1 ≠ 0 := by positivity
    rw [Finset.prod_range_succ, ← ih]
    field_simp
    linear_combination -h

end Verif.Ortho
