import Verif.Integ.PolyTrap
import Mathlib.MeasureTheory.Integral.IntervalIntegral.TrapezoidalRule
import Mathlib.Analysis.SpecialFunctions.Trigonometric.Deriv

/-!
# `IntegrateTrap` and `IntegrateSimpson` (C47, C48)
-/

set_option autoImplicit false

namespace Verif.Integ

open Verif Polynomial

/-! ## The stages -/

/-- `n` successive calls of `next()`. -/
noncomputable def calls (f : ℝ → ℝ) (a b : ℝ) : ℕ → Outcome Trap
  | 0 => .ret ⟨0, 0⟩
  | n + 1 => (calls f a b n).bind (Trap.next f a b)

/-- **C47.**  Call `n + 1` of a fresh integrator returns the composite trapezoidal rule with `2^n` panels, up to the 32nd call. -/
theorem next_is_trapezoid (f : ℝ → ℝ) (a b : ℝ) (n : ℕ) (hn : n ≤ 31) :
    ∃ t, calls f a b (n + 1) = .ret t ∧ t.sum = trapezoid f a b (2 ^ n) := by
  have : ∀ n ≤ 31, calls f a b (n + 1) = .ret (stage f a b n) := by
    intro n
    induction n with
    | zero => intro _; exact next_zero f a b 0
    | succ n ih =>
      intro h
      rw [calls, ih (by omega)]
      exact next_stage f a b n (by omega)
  exact ⟨_, this n hn, rfl⟩

example : ∃ t, calls (fun x => x ^ 2) 0 1 20 = .ret t ∧ t.sum = trapezoid (fun x => x ^ 2) 0 1 (2 ^ 19) :=
  next_is_trapezoid _ 0 1 19 (by norm_num)

/-- **C47, limit.**  Call 33 overflows the `int` that counts the panels. -/
theorem next_overflows (f : ℝ → ℝ) (a b : ℝ) : calls f a b 33 = .ub := by
  have h : ∀ n ≤ 31, calls f a b (n + 1) = .ret (stage f a b n) := by
    intro n
    induction n with
    | zero => intro _; exact next_zero f a b 0
    | succ n ih =>
      intro h
      rw [calls, ih (by omega)]
      exact next_stage f a b n (by omega)
  rw [calls, h 31 le_rfl]
  exact next_overflow f a b 31 le_rfl

/-! ## The answers -/

/-- The answer of a refining integrator with estimates `T 0, T 1, ...` and `M` rounds, looking from round `j` on. -/
def Answer (T : ℕ → ℝ) (eps : ℝ) (j M : ℕ) (r : Result) : Prop :=
  (r.converged = true ∧ j ≤ r.iterations ∧ r.iterations < M ∧ Settles T eps r.iterations ∧ r.value = T r.iterations ∧
      r.error = |T r.iterations - T (r.iterations - 1)| ∧ ∀ i, j ≤ i → i < r.iterations → ¬ Settles T eps i) ∨
    (r.converged = false ∧ r.iterations = M ∧ r.value = T (M - 1) ∧ r.error = 0 ∧ ∀ i, j ≤ i → i < M → ¬ Settles T eps i)

theorem Answer.step {T : ℕ → ℝ} {eps : ℝ} {j M : ℕ} {r : Result} (h : Answer T eps (j + 1) M r) (hj : ¬ Settles T eps j) :
    Answer T eps j M r := by
  have key : ∀ N, (∀ i, j + 1 ≤ i → i < N → ¬ Settles T eps i) → ∀ i, j ≤ i → i < N → ¬ Settles T eps i := by
    intro N hN i h1 h2
    rcases Nat.eq_or_lt_of_le h1 with rfl | h
    · exact hj
    · exact hN i h h2
  rcases h with ⟨h1, h2, h3, h4, h5, h6, h7⟩ | ⟨h1, h2, h3, h4, h5⟩
  · exact Or.inl ⟨h1, by omega, h3, h4, h5, h6, key _ h7⟩
  · exact Or.inr ⟨h1, h2, h3, h4, key _ h5⟩

theorem trapLoop_answer (f : ℝ → ℝ) (a b eps : ℝ) (n j : ℕ) (hj : j + 1 + n ≤ 32) :
    ∃ r, trapLoop f a b eps n (j + 1) (stage f a b j) (trapezoid f a b (2 ^ j)) (some (trapezoid f a b (2 ^ j))) = .ret r ∧
      Answer (fun k => trapezoid f a b (2 ^ k)) eps (j + 1) (j + 1 + n) r := by
  induction n generalizing j with
  | zero =>
    refine ⟨_, rfl, Or.inr ⟨rfl, rfl, rfl, by simp, ?_⟩⟩
    intro i h1 h2
    omega
  | succ n ih =>
    rw [trapLoop, next_stage f a b j (by omega), Outcome.bind_ret]
    by_cases h : settled eps (j + 1) (stage f a b (j + 1)).sum (trapezoid f a b (2 ^ j))
    · rw [if_pos h]
      refine ⟨_, rfl, Or.inl ⟨rfl, le_rfl, by dsimp only; omega, ?_, rfl, rfl, ?_⟩⟩
      · exact ⟨h.1, h.2⟩
      · intro i h1 h2
        dsimp only at h2
        omega
    · rw [if_neg h]
      obtain ⟨r, hr, ha⟩ := ih (j + 1) (by omega)
      refine ⟨r, hr, ?_⟩
      rw [show j + 1 + (n + 1) = j + 1 + 1 + n by omega]
      refine Answer.step ha ?_
      intro hs
      exact h ⟨hs.1, hs.2⟩

/-- **C47, C48.**  With at most 32 rounds allowed, `IntegrateTrap` returns the first composite trapezoidal sum, with
`2^0, 2^1, ...` panels, that settles; if none does, it returns the last sum with `converged == false`. -/
theorem integrateTrap_spec (M : ℕ) (f : ℝ → ℝ) (a b eps : ℝ) (h1 : 1 ≤ M) (h2 : M ≤ 32) :
    ∃ r, integrateTrap M f a b eps = .ret r ∧ Answer (fun k => trapezoid f a b (2 ^ k)) eps 0 M r := by
  obtain ⟨n, rfl⟩ : ∃ n, M = n + 1 := ⟨M - 1, by omega⟩
  rw [integrateTrap, trapLoop, next_zero, Outcome.bind_ret, if_neg (fun h => absurd h.1 (by norm_num))]
  obtain ⟨r, hr, ha⟩ := trapLoop_answer f a b eps n 0 (by omega)
  refine ⟨r, hr, ?_⟩
  rw [show n + 1 = 0 + 1 + n by omega]
  exact Answer.step ha (fun h => absurd h.1 (by norm_num))

example : ∃ r, integrateTrap 20 Real.exp 0 1 (1 / 10 ^ 6) = .ret r ∧
    Answer (fun k => trapezoid Real.exp 0 1 (2 ^ k)) (1 / 10 ^ 6) 0 20 r :=
  integrateTrap_spec 20 _ _ _ _ (by norm_num) (by norm_num)

/-- **C47, limit.**  A step limit of zero leaves the result uninitialised. -/
theorem integrateTrap_no_steps (f : ℝ → ℝ) (a b eps : ℝ) : integrateTrap 0 f a b eps = .ub := rfl

/-- The estimates of `IntegrateSimpson`: the first is four thirds of the trapezoidal rule with one panel, then Simpson's rule
with `2^0, 2^1, ...` panels. -/
noncomputable def simpsonEstimate (f : ℝ → ℝ) (a b : ℝ) : ℕ → ℝ
  | 0 => 4 / 3 * trapezoid f a b 1
  | k + 1 => simpson f a b (2 ^ k)

theorem simpsonLoop_answer (f : ℝ → ℝ) (a b eps : ℝ) (n j : ℕ) (hj : j + 1 + n ≤ 32) :
    ∃ r, simpsonLoop f a b eps n (j + 1) (stage f a b j) (trapezoid f a b (2 ^ j)) (simpsonEstimate f a b j)
        (some (simpsonEstimate f a b j)) = .ret r ∧
      Answer (simpsonEstimate f a b) eps (j + 1) (j + 1 + n) r := by
  induction n generalizing j with
  | zero =>
    refine ⟨_, rfl, Or.inr ⟨rfl, rfl, rfl, by simp, ?_⟩⟩
    intro i h1 h2
    omega
  | succ n ih =>
    have e : (4 * (stage f a b (j + 1)).sum - trapezoid f a b (2 ^ j)) / 3 = simpsonEstimate f a b (j + 1) := by
      rw [simpsonEstimate, simpson_eq _ _ _ _ (by positivity), ← pow_succ']
      rfl
    rw [simpsonLoop, next_stage f a b j (by omega), Outcome.bind_ret, e]
    by_cases h : settled eps (j + 1) (simpsonEstimate f a b (j + 1)) (simpsonEstimate f a b j)
    · rw [if_pos h]
      refine ⟨_, rfl, Or.inl ⟨rfl, le_rfl, by dsimp only; omega, ?_, rfl, rfl, ?_⟩⟩
      · exact ⟨h.1, h.2⟩
      · intro i h1 h2
        dsimp only at h2
        omega
    · rw [if_neg h]
      obtain ⟨r, hr, ha⟩ := ih (j + 1) (by omega)
      refine ⟨r, hr, ?_⟩
      rw [show j + 1 + (n + 1) = j + 1 + 1 + n by omega]
      refine Answer.step ha ?_
      intro hs
      exact h ⟨hs.1, hs.2⟩

/-- **C47, C48.**  With at most 32 rounds allowed, `IntegrateSimpson` returns the first composite Simpson sum that settles;
if none does, it returns the last with `converged == false`. -/
theorem integrateSimpson_spec (M : ℕ) (f : ℝ → ℝ) (a b eps : ℝ) (h1 : 1 ≤ M) (h2 : M ≤ 32) :
    ∃ r, integrateSimpson M f a b eps = .ret r ∧ Answer (simpsonEstimate f a b) eps 0 M r := by
  obtain ⟨n, rfl⟩ : ∃ n, M = n + 1 := ⟨M - 1, by omega⟩
  have e : (4 * (stage f a b 0).sum - 0) / 3 = simpsonEstimate f a b 0 := by
    simp only [stage, simpsonEstimate, pow_zero]
    ring
  rw [integrateSimpson, simpsonLoop, next_zero, Outcome.bind_ret, if_neg (fun h => absurd h.1 (by norm_num)), e]
  obtain ⟨r, hr, ha⟩ := simpsonLoop_answer f a b eps n 0 (by omega)
  refine ⟨r, hr, ?_⟩
  rw [show n + 1 = 0 + 1 + n by omega]
  exact Answer.step ha (fun h => absurd h.1 (by norm_num))

example : ∃ r, integrateSimpson 20 Real.exp 0 1 (1 / 10 ^ 8) = .ret r ∧
    Answer (simpsonEstimate Real.exp 0 1) (1 / 10 ^ 8) 0 20 r :=
  integrateSimpson_spec 20 _ _ _ _ (by norm_num) (by norm_num)

/-! ## Exactness -/

/-- **C47.**  The trapezoidal rule is exact on polynomials of degree at most one. -/
theorem trapezoid_exact (p : ℝ[X]) (hp : p.natDegree ≤ 1) (a b : ℝ) (N : ℕ) (hN : 0 < N) :
    trapezoid (fun x => p.eval x) a b N = ∫ x in a..b, p.eval x := by
  have hd : (expansion p a b).natDegree ≤ 0 := (expansion_degree p a b).trans (by omega)
  rw [trapezoid_poly p a b N hN, ← expansion_zero, eq_C_of_natDegree_le_zero hd]
  simp

/-- **C47.**  Simpson's rule is exact on polynomials of degree at most three. -/
theorem simpson_exact (p : ℝ[X]) (hp : p.natDegree ≤ 3) (a b : ℝ) (N : ℕ) (hN : 0 < N) :
    simpson (fun x => p.eval x) a b N = ∫ x in a..b, p.eval x := by
  have hd : (expansion p a b).natDegree ≤ 1 := (expansion_degree p a b).trans (by omega)
  have hN' : (N : ℝ) ≠ 0 := by positivity
  rw [simpson_eq _ _ _ _ hN, trapezoid_poly p a b N hN, trapezoid_poly p a b (2 * N) (by omega), ← expansion_zero,
    eval_range _ 1 hd, eval_range _ 1 hd, eval_range _ 1 hd]
  simp only [Finset.sum_range_succ, Finset.sum_range_zero]
  push_cast
  field_simp
  ring

theorem Answer.const {T : ℕ → ℝ} {eps v : ℝ} {M : ℕ} {r : Result} (h : Answer T eps 0 M r) (hM : 7 ≤ M) (he : 0 < eps)
    (hT5 : T 5 = v) (hT6 : T 6 = v) : r = ⟨v, 0, 6, true⟩ := by
  have hset : Settles T eps 6 := by
    refine ⟨by norm_num, ?_⟩
    rw [hT6, show 6 - 1 = 5 from rfl, hT5]
    simp only [sub_self, abs_zero]
    positivity
  rcases h with ⟨h1, _, h3, h4, h5, h6, h7⟩ | ⟨_, _, _, _, h5⟩
  · have hi : r.iterations = 6 := by
      have := h4.1
      by_contra hne
      exact h7 6 (by norm_num) (by omega) hset
    rw [hi] at h5 h6
    rw [hT6] at h5
    rw [hT6, show 6 - 1 = 5 from rfl, hT5] at h6
    ext
    · exact h5
    · rw [h6]; simp
    · exact hi
    · exact h1
  · exact absurd hset (h5 6 (by norm_num) (by omega))

/-- **C47.**  `IntegrateTrap` computes the integral of an affine function exactly, and says so. -/
theorem integrateTrap_exact (M : ℕ) (p : ℝ[X]) (hp : p.natDegree ≤ 1) (a b eps : ℝ) (h1 : 7 ≤ M) (h2 : M ≤ 32) (he : 0 < eps) :
    integrateTrap M (fun x => p.eval x) a b eps = .ret ⟨∫ x in a..b, p.eval x, 0, 6, true⟩ := by
  obtain ⟨r, hr, ha⟩ := integrateTrap_spec M (fun x => p.eval x) a b eps (by omega) h2
  rw [hr, ha.const h1 he (trapezoid_exact p hp a b _ (by positivity)) (trapezoid_exact p hp a b _ (by positivity))]

/-- **C47.**  `IntegrateSimpson` computes the integral of a cubic exactly, and says so. -/
theorem integrateSimpson_exact (M : ℕ) (p : ℝ[X]) (hp : p.natDegree ≤ 3) (a b eps : ℝ) (h1 : 7 ≤ M) (h2 : M ≤ 32)
    (he : 0 < eps) :
    integrateSimpson M (fun x => p.eval x) a b eps = .ret ⟨∫ x in a..b, p.eval x, 0, 6, true⟩ := by
  obtain ⟨r, hr, ha⟩ := integrateSimpson_spec M (fun x => p.eval x) a b eps (by omega) h2
  rw [hr, ha.const h1 he (simpson_exact p hp a b _ (by positivity)) (simpson_exact p hp a b _ (by positivity))]

example : (X ^ 3 - C 2 * X + C 1 : ℝ[X]).natDegree ≤ 3 ∧ (C 3 * X + C 1 : ℝ[X]).natDegree ≤ 1 := by
  constructor <;> compute_degree

end Verif.Integ
