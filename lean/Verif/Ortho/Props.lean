import Verif.Ortho.Model
import Verif.Ortho.Integrals
import Verif.Cheb.Props
import Mathlib.RingTheory.Polynomial.Hermite.Gaussian

/-!
# The orthogonal bases (C106)

Specification: `Orthogonal` (`Ortho/Integrals`): degrees, integrals and norms.
-/

set_option autoImplicit false

namespace Verif.Ortho

open Verif Polynomial MeasureTheory
open Verif.Cheb (quot)

/-- `Evaluate`, `WeightFunction` and `Normalization` describe the system `P` of orthogonal polynomials on `D`; negative indices are
refused. -/
def IsBasis (D : Set ℝ) (eval : ℤ → ℝ → Outcome ℝ) (w : ℝ → ℝ) (norm : ℤ → Outcome ℝ) (P : ℕ → ℝ[X]) : Prop :=
  ∃ h : ℕ → ℝ, Orthogonal D w P h ∧ (∀ (n : ℕ) x, eval n x = .ret ((P n).eval x)) ∧ (∀ n : ℕ, norm n = .ret (h n)) ∧
    ∀ n < 0, (∀ x, eval n x = .exn .invalidArgument) ∧ norm n = .exn .invalidArgument

/-- `RecurrenceCoefficients` gives the recurrence of the functions, with zero before the first; negative indices are refused. -/
def Recurs (eval : ℤ → ℝ → Outcome ℝ) (rec : ℤ → Outcome (ℝ × ℝ × ℝ)) : Prop :=
  (∀ n : ℕ, ∃ a b c, rec n = .ret (a, b, c) ∧ ∀ x, ∃ u v w, eval (n + 1) x = .ret w ∧ eval n x = .ret v ∧
    (if n = 0 then u = 0 else eval (n - 1) x = .ret u) ∧ w = (a * x + b) * v + c * u) ∧
  ∀ n < 0, rec n = .exn .invalidArgument

theorem recurs_of {eval : ℤ → ℝ → Outcome ℝ} {rec : ℤ → Outcome (ℝ × ℝ × ℝ)} {P : ℕ → ℝ[X]} {a b c : ℕ → ℝ} (h3 : Three P a b c)
    (he : ∀ (n : ℕ) x, eval n x = .ret ((P n).eval x)) (hr : ∀ n : ℕ, rec n = .ret (a n, b n, c n))
    (hneg : ∀ n < 0, rec n = .exn .invalidArgument) : Recurs eval rec := by
  refine ⟨fun n => ⟨a n, b n, c n, hr n, fun x => ?_⟩, hneg⟩
  cases n with
  | zero =>
    refine ⟨0, (P 0).eval x, (P 1).eval x, he 1 x, he 0 x, by simp, ?_⟩
    rw [h3.zero, h3.one]
    simp
  | succ n =>
    refine ⟨(P n).eval x, (P (n + 1)).eval x, (P (n + 2)).eval x, he (n + 2) x, he (n + 1) x, ?_, ?_⟩
    · rw [if_neg (by omega), ← he n x]
      push_cast
      congr 1
      ring
    · rw [h3.step]
      simp

/-! ## Running the recurrences -/

theorem rec_run (body : Rec → ℕ → Outcome Rec) (a j : ℕ) (hj : 1 ≤ j) (f : ℕ → ℝ) (z : ℝ)
    (h : ∀ i z', body ⟨f i, f (i + 1), z'⟩ (a + i) = .ret ⟨f (i + 1), f (i + 2), f (i + 2)⟩) :
    ∃ s, forFromTo a (a + j) ⟨f 0, f 1, z⟩ body = .ret s ∧ s.curr = f (j + 1) := by
  obtain ⟨t, ht, hP⟩ := forFromTo_rule
    (fun i (s : Rec) => s.prev2 = f (i - a) ∧ s.prev1 = f (i - a + 1) ∧ (a < i → s.curr = f (i - a + 1))) a (a + j) (by omega)
    ⟨f 0, f 1, z⟩ body ⟨by simp, by simp, fun h => by omega⟩ (by
      rintro i ⟨s2, s1, s0⟩ hi hin ⟨e2, e1, -⟩
      obtain ⟨k, rfl⟩ : ∃ k, i = a + k := ⟨i - a, by omega⟩
      simp only [Nat.add_sub_cancel_left] at e2 e1
      subst e2 e1
      refine ⟨_, h k s0, ?_⟩
      simp [show a + k + 1 - a = k + 1 by omega])
  refine ⟨t, ht, ?_⟩
  rw [hP.2.2 (by omega)]
  congr 1
  omega

theorem quot_ret (a s : ℝ) (h : s ≠ 0) : quot a s = .ret (a / s) := by rw [quot, if_neg h]

theorem legendre_eq (n : ℕ) (x : ℝ) : legendre n x = .ret ((legP n).eval x) := by
  match n with
  | 0 => simp [legendre, legP]
  | 1 => simp [legendre, legP]
  | n + 2 =>
    rw [legendre, if_neg (by omega), if_neg (by omega), show n + 2 + 1 = 2 + (n + 1) by ring]
    obtain ⟨s, hs, e⟩ := rec_run (legendreStep x) 2 (n + 1) (by omega) (fun k => (legP k).eval x) 0 (by
      intro i z'
      have hi : (i : ℝ) + 2 ≠ 0 := by positivity
      rw [legendreStep, quot_ret _ _ (by push_cast; positivity), Outcome.bind_ret]
      simp only [Rec.push]
      have : ((2 * ((2 + i : ℕ) : ℝ) - 1) * x * (legP (i + 1)).eval x - (((2 + i : ℕ) : ℝ) - 1) * (legP i).eval x) / ((2 + i : ℕ) : ℝ) =
          (legP (i + 2)).eval x := by
        rw [legP]
        simp only [eval_mul, eval_sub, eval_C, eval_X]
        push_cast
        field_simp
        ring
      rw [this])
    simp only [legP, eval_one, eval_X] at hs
    rw [hs, Outcome.bind_ret, e]

theorem hermite_eq (n : ℕ) (x : ℝ) : hermite n x = .ret ((herP n).eval x) := by
  match n with
  | 0 => simp [hermite, herP]
  | 1 => simp [hermite, herP]
  | n + 2 =>
    rw [hermite, if_neg (by omega), if_neg (by omega), show n + 2 + 1 = 2 + (n + 1) by ring]
    obtain ⟨s, hs, e⟩ := rec_run (hermiteStep x) 2 (n + 1) (by omega) (fun k => (herP k).eval x) 0 (by
      intro i z'
      rw [hermiteStep]
      simp only [Rec.push]
      have : 2 * x * (herP (i + 1)).eval x - 2 * (((2 + i : ℕ) : ℝ) - 1) * (herP i).eval x = (herP (i + 2)).eval x := by
        rw [herP]
        simp only [eval_mul, eval_sub, eval_add, eval_ofNat, eval_natCast, eval_one, eval_X]
        push_cast
        ring
      rw [this])
    simp only [herP, eval_one, eval_X, eval_mul, eval_ofNat] at hs
    rw [hs, Outcome.bind_ret, e]

theorem lagP_eval (α : ℝ) (i : ℕ) (x : ℝ) : (lagP α (i + 2)).eval x =
    ((2 * i + 3 + α - x) * (lagP α (i + 1)).eval x - (i + 1 + α) * (lagP α i).eval x) / (i + 2) := by
  have hi : (i : ℝ) + 2 ≠ 0 := by positivity
  rw [lagP]
  simp only [eval_mul, eval_sub, eval_add, eval_C, eval_X, eval_natCast, eval_ofNat, eval_one]
  field_simp

theorem laguerre_eq (n : ℕ) (x : ℝ) : laguerre n x = .ret ((lagP 0 n).eval x) := by
  match n with
  | 0 => simp [laguerre, lagP]
  | 1 => simp [laguerre, lagP]
  | n + 2 =>
    rw [laguerre, if_neg (by omega), if_neg (by omega), show n + 2 + 1 = 2 + (n + 1) by ring]
    obtain ⟨s, hs, e⟩ := rec_run (laguerreStep x) 2 (n + 1) (by omega) (fun k => (lagP 0 k).eval x) 0 (by
      intro i z'
      rw [laguerreStep, quot_ret _ _ (by push_cast; positivity), Outcome.bind_ret]
      simp only [Rec.push]
      rw [lagP_eval]
      push_cast
      have : (((2 * (2 + (i : ℝ)) - 1 - x) * (lagP 0 (i + 1)).eval x - (2 + (i : ℝ) - 1) * (lagP 0 i).eval x) / (2 + i)) =
        ((2 * i + 3 + 0 - x) * (lagP 0 (i + 1)).eval x - (i + 1 + 0) * (lagP 0 i).eval x) / (i + 2) := by
        rw [add_comm (i : ℝ) 2]
        congr 1
        ring
      rw [this])
    simp only [lagP, eval_one, eval_X, eval_sub, eval_C, add_zero] at hs
    rw [hs, Outcome.bind_ret, e]

theorem genLaguerre_eq (α : ℝ) (n : ℕ) (x : ℝ) : genLaguerreEval α n x = .ret ((lagP α n).eval x) := by
  match n with
  | 0 => simp [genLaguerreEval, lagP]
  | 1 => simp [genLaguerreEval, lagP]
  | n + 2 =>
    rw [genLaguerreEval, if_neg (by omega), if_neg (by omega), if_neg (by omega), Int.toNat_natCast, show n + 2 = 1 + (n + 1) by ring]
    obtain ⟨s, hs, e⟩ := rec_run (genLaguerreStep α x) 1 (n + 1) (by omega) (fun k => (lagP α k).eval x) 0 (by
      intro i z'
      rw [genLaguerreStep, quot_ret _ _ (by push_cast; positivity), Outcome.bind_ret]
      simp only [Rec.push]
      rw [lagP_eval]
      push_cast
      have : (((2 * (1 + (i : ℝ)) + α + 1 - x) * (lagP α (i + 1)).eval x - (1 + (i : ℝ) + α) * (lagP α i).eval x) / (1 + i + 1)) =
        ((2 * i + 3 + α - x) * (lagP α (i + 1)).eval x - (i + 1 + α) * (lagP α i).eval x) / (i + 2) := by
        rw [show 1 + (i : ℝ) + 1 = i + 2 by ring]
        congr 1
        ring
      rw [this])
    simp only [lagP, eval_one, eval_X, eval_sub, eval_C] at hs
    rw [hs, Outcome.bind_ret, e]
    congr 3
    ring

theorem assocLaguerre_eq (m n : ℕ) (x : ℝ) : assocLaguerre n m x = .ret ((lagP m n).eval x) := by
  match n with
  | 0 => simp [assocLaguerre, lagP]
  | 1 => simp [assocLaguerre, lagP]
  | n + 2 =>
    rw [assocLaguerre, if_neg (by omega), if_neg (by omega), show n + 2 + 1 = 2 + (n + 1) by ring]
    obtain ⟨s, hs, e⟩ := rec_run (assocLaguerreStep m x) 2 (n + 1) (by omega) (fun k => (lagP m k).eval x) 0 (by
      intro i z'
      rw [assocLaguerreStep, quot_ret _ _ (by push_cast; positivity), Outcome.bind_ret]
      simp only [Rec.push]
      rw [lagP_eval]
      push_cast
      have : (((2 * (2 + (i : ℝ)) - 1 + m - x) * (lagP m (i + 1)).eval x - (2 + (i : ℝ) - 1 + m) * (lagP m i).eval x) / (2 + i)) =
        ((2 * i + 3 + m - x) * (lagP m (i + 1)).eval x - (i + 1 + m) * (lagP m i).eval x) / (i + 2) := by
        rw [add_comm (i : ℝ) 2]
        congr 1
        ring
      rw [this])
    simp only [lagP, eval_one, eval_X, eval_sub, eval_C] at hs
    rw [hs, Outcome.bind_ret, e]

theorem fact_run (n : ℕ) : factLoop n = .ret (n.factorial : ℝ) := by
  obtain ⟨t, ht, hP⟩ := forFromTo_rule (fun i (f : ℝ) => f = ((i - 1).factorial : ℝ)) 1 (n + 1) (by omega) 1
    (fun f k => .ret (f * k)) (by simp) (by
      rintro i f hi _ rfl
      refine ⟨_, rfl, ?_⟩
      obtain ⟨k, rfl⟩ : ∃ k, i = k + 1 := ⟨i - 1, by omega⟩
      simp only [Nat.add_sub_cancel, Nat.factorial_succ]
      push_cast
      ring)
  rw [factLoop, ht, hP]
  simp

/-! ## The bases -/

/-- `LegendreBasis` is the system of Legendre polynomials: orthogonal on `[-1, 1]` with weight one, equal to one at one. -/
theorem legendre_basis : ∃ P, IsBasis (Set.Icc (-1) 1) legendreEval legendreWeight legendreNorm P ∧ (∀ n, (P n).eval 1 = 1) ∧
    ∀ n, derivative ((1 - X ^ 2) * derivative (P n)) + ((n : ℝ[X]) * ((n : ℝ[X]) + 1)) * P n = 0 := by
  refine ⟨legP, ⟨_, legendre_orthogonal, ?_, ?_, ?_⟩, legP_eval_one, ?_⟩
  · intro n x
    rw [legendreEval, if_neg (by omega), Int.toNat_natCast, legendre_eq]
  · intro n
    rw [legendreNorm, if_neg (by omega)]
    push_cast
    rfl
  · intro n hn
    exact ⟨fun x => by rw [legendreEval, if_pos hn], by rw [legendreNorm, if_pos hn]⟩
  · intro n
    rw [legP_ode]
    ring

theorem legendre_recurs : Recurs legendreEval legendreRec := by
  refine recurs_of legP_three ?_ ?_ ?_
  · intro n x
    rw [legendreEval, if_neg (by omega), Int.toNat_natCast, legendre_eq]
  · intro n
    rw [legendreRec, if_neg (by omega)]
    push_cast
    rfl
  · intro n hn
    rw [legendreRec, if_pos hn]

theorem hermiteEval_eq (n : ℕ) (x : ℝ) : hermiteEval n x = .ret ((herP n).eval x) := by
  rw [hermiteEval, if_neg (by omega), Int.toNat_natCast, hermite_eq]

theorem hermiteNorm_eq (n : ℕ) : hermiteNorm n = .ret (2 ^ n * n.factorial * Real.sqrt Real.pi) := by
  rw [hermiteNorm, if_neg (by omega), Int.toNat_natCast, fact_run, Outcome.bind_ret]
  push_cast
  rw [Real.rpow_natCast]

/-- `HermiteBasis` is the system of Hermite polynomials: orthogonal on the line with weight `exp (-x²)`, and given by the derivatives
of the weight.  They are alternately even and odd, `H_{n+1}' = 2 (n + 1) H_n`, and they solve Hermite's equation. -/
theorem hermite_basis : ∃ P, IsBasis Set.univ hermiteEval hermiteWeight hermiteNorm P ∧
    (∀ n x, (P n).eval x * Real.exp (-x * x) = (-1) ^ n * iteratedDeriv n (fun x => Real.exp (-x * x)) x) ∧
    (∀ n x, (P n).eval (-x) = (-1) ^ n * (P n).eval x) ∧ (∀ n, derivative (P (n + 1)) = 2 * ((n : ℝ[X]) + 1) * P n) ∧
    ∀ n, derivative (derivative (P n)) - 2 * X * derivative (P n) + 2 * (n : ℝ[X]) * P n = 0 := by
  refine ⟨herP, ⟨_, hermite_orthogonal, hermiteEval_eq, hermiteNorm_eq, ?_⟩, ?_, ?_, herP_deriv, herP_ode⟩
  · intro n hn
    exact ⟨fun x => by rw [hermiteEval, if_pos hn], by rw [hermiteNorm, if_pos hn]⟩
  · intro n
    induction n with
    | zero => intro x; simp [herP]
    | succ n ih =>
      intro x
      have h : ∀ x : ℝ, HasDerivAt (fun x => (herP n).eval x * Real.exp (-x * x)) (-((herP (n + 1)).eval x * Real.exp (-x * x))) x := by
        intro x
        have h1 := (herP n).hasDerivAt x
        have h2 : HasDerivAt (fun x : ℝ => Real.exp (-x * x)) (Real.exp (-x * x) * (-1 * x + -x * 1)) x :=
          ((hasDerivAt_id x).neg.mul (hasDerivAt_id x)).exp
        refine (h1.mul h2).congr_deriv ?_
        rw [herP_next]
        simp only [eval_sub, eval_mul, eval_X, eval_ofNat]
        ring
      have e : iteratedDeriv n (fun x : ℝ => Real.exp (-x * x)) = fun x => (-1) ^ n * ((herP n).eval x * Real.exp (-x * x)) := by
        ext y
        rw [ih y, ← mul_assoc, ← mul_pow]
        norm_num
      rw [iteratedDeriv_succ, e, ((h x).const_mul _).deriv, pow_succ]
      have : ((-1 : ℝ) ^ n) * (-1) ^ n = 1 := by rw [← mul_pow]; norm_num
      linear_combination (-(herP (n + 1)).eval x * Real.exp (-x * x)) * this
  · intro n x
    induction n using Nat.strong_induction_on with
    | _ n ih =>
      match n with
      | 0 => simp [herP]
      | 1 => simp [herP]
      | n + 2 =>
        rw [herP]
        simp only [eval_mul, eval_sub, eval_add, eval_ofNat, eval_natCast, eval_one, eval_X, ih (n + 1) (by omega), ih n (by omega)]
        ring

theorem hermite_recurs : Recurs hermiteEval hermiteRec := by
  refine recurs_of herP_three hermiteEval_eq ?_ ?_
  · intro n
    rw [hermiteRec, if_neg (by omega)]
    push_cast
    rfl
  · intro n hn
    rw [hermiteRec, if_pos hn]

/-- The wave functions of the oscillator are orthonormal. -/
theorem wavefunction_orthonormal : ∃ ψ : ℕ → ℝ → ℝ, (∀ (n : ℕ) x, wavefunction n x = .ret (ψ n x)) ∧
    (∀ m n, Integrable (fun x => ψ m x * ψ n x)) ∧ (∀ m n, ∫ x, ψ m x * ψ n x = if m = n then 1 else 0) ∧
    ∀ n < 0, ∀ x, wavefunction n x = .exn .invalidArgument := by
  have hpos : ∀ n : ℕ, 0 < (2 : ℝ) ^ n * n.factorial * Real.sqrt Real.pi := fun n => by positivity
  have e : ∀ m n x, (1 / Real.sqrt ((2 : ℝ) ^ m * m.factorial * Real.sqrt Real.pi) * (herP m).eval x * Real.exp (-0.5 * x * x)) *
      (1 / Real.sqrt ((2 : ℝ) ^ n * n.factorial * Real.sqrt Real.pi) * (herP n).eval x * Real.exp (-0.5 * x * x)) =
      (1 / Real.sqrt ((2 : ℝ) ^ m * m.factorial * Real.sqrt Real.pi) * (1 / Real.sqrt ((2 : ℝ) ^ n * n.factorial * Real.sqrt Real.pi))) *
        ((herP m * herP n).eval x * Real.exp (-x * x)) := by
    intro m n x
    have : Real.exp (-x * x) = Real.exp (-0.5 * x * x) * Real.exp (-0.5 * x * x) := by
      rw [← Real.exp_add]
      congr 1
      ring
    rw [this, eval_mul]
    ring
  refine ⟨fun n x => 1 / Real.sqrt (2 ^ n * n.factorial * Real.sqrt Real.pi) * (herP n).eval x * Real.exp (-0.5 * x * x), ?_, ?_, ?_, ?_⟩
  · intro n x
    rw [wavefunction, if_neg (by omega), hermiteEval_eq, hermiteNorm_eq, Outcome.bind_ret, Outcome.bind_ret, sqrtU, if_neg (hpos n).le.not_gt,
      Outcome.bind_ret, quot_ret _ _ (Real.sqrt_pos.2 (hpos n)).ne', Outcome.bind_ret]
  · intro m n
    simp only [e]
    exact (gauss_integrable (herP m * herP n)).const_mul _
  · intro m n
    simp only [e]
    rw [integral_const_mul]
    simp only [eval_mul]
    split_ifs with h
    · subst h
      have := hermite_orthogonal.norm m
      rw [Measure.restrict_univ] at this
      simp only [pow_two] at this
      rw [this]
      have hs := Real.mul_self_sqrt (hpos m).le
      have hs0 := (Real.sqrt_pos.2 (hpos m)).ne'
      field_simp
      rw [pow_two, hs]
    · have := hermite_orthogonal.orth m n h
      rw [Measure.restrict_univ] at this
      rw [this, mul_zero]
  · intro n hn x
    rw [wavefunction, if_pos hn]

end Verif.Ortho
