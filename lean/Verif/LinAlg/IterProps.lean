import Verif.LinAlg.IterLemmas
import Mathlib.Tactic

/-!
# The iterative solvers (C99)

The matrix has elements `A i j` and the right-hand side elements `b i`; `eps` is the machine epsilon.
-/

set_option autoImplicit false

namespace Verif.LinAlg.Iter

open Verif.Mat Finset

/-- Jacobi's method reports the first of its iterates that meets the tolerance. -/
theorem jacobi_run {eps : ℝ} (heps : 0 < eps) {n : ℕ} {A : ℕ → ℕ → ℝ} (hA : DiagOk eps n A) (b : ℕ → ℝ) (x0 : List ℝ) (tol : ℝ) :
    ∃ xs : ℕ → ℕ → ℝ, tab n (xs 0) = (if x0.length = n then x0 else List.replicate n 0) ∧
      (∀ k, JacobiStep n A b (xs k) (xs (k + 1))) ∧
      ∀ maxIter : ℤ, ∃ r, jacobi eps (Dense.ofFn n n A) (tab n b) x0 tol maxIter = .ret r ∧ Run n A b tol maxIter.toNat xs r :=
  solveWith_run heps hA (fun x => jacobiSweep_tab A b x (hA.ne heps)) x0

/-- The Gauss-Seidel method reports the first of its iterates that meets the tolerance. -/
theorem gaussSeidel_run {eps : ℝ} (heps : 0 < eps) {n : ℕ} {A : ℕ → ℕ → ℝ} (hA : DiagOk eps n A) (b : ℕ → ℝ) (x0 : List ℝ)
    (tol : ℝ) :
    ∃ xs : ℕ → ℕ → ℝ, tab n (xs 0) = (if x0.length = n then x0 else List.replicate n 0) ∧
      (∀ k, SorStep n A b 1 (xs k) (xs (k + 1))) ∧
      ∀ maxIter : ℤ, ∃ r, gaussSeidel eps (Dense.ofFn n n A) (tab n b) x0 tol maxIter = .ret r ∧
        Run n A b tol maxIter.toNat xs r :=
  solveWith_run heps hA (fun x => gsSweep_eq A b x (hA.ne heps)) x0

/-- Successive over-relaxation reports the first of its iterates that meets the tolerance. -/
theorem sor_run {eps : ℝ} (heps : 0 < eps) {n : ℕ} {A : ℕ → ℕ → ℝ} (hA : DiagOk eps n A) (b : ℕ → ℝ) {ω : ℝ} (hω0 : 0 < ω)
    (hω2 : ω < 2) (x0 : List ℝ) (tol : ℝ) :
    ∃ xs : ℕ → ℕ → ℝ, tab n (xs 0) = (if x0.length = n then x0 else List.replicate n 0) ∧
      (∀ k, SorStep n A b ω (xs k) (xs (k + 1))) ∧
      ∀ maxIter : ℤ, ∃ r, sor eps (Dense.ofFn n n A) (tab n b) ω x0 tol maxIter = .ret r ∧ Run n A b tol maxIter.toNat xs r := by
  have h : ¬(ω ≤ 0 ∨ ω ≥ 2) := by
    rintro (h | h) <;> linarith
  obtain ⟨xs, h1, h2, h3⟩ := solveWith_run (tol := tol) heps hA (fun x => sorSweep_tab A b x ω (hA.ne heps)) x0
  exact ⟨xs, h1, h2, fun m => by rw [sor, if_neg h]; exact h3 m⟩

/-- What is refused: a matrix that is not square, a right-hand side of the wrong length, a diagonal with a small element, and a
relaxation factor outside `(0, 2)`. -/
theorem iter_refuses {eps : ℝ} (heps : 0 < eps) (a : Dense ℝ) (b x0 : List ℝ) (tol : ℝ) (maxIter : ℤ) (ω : ℝ) :
    (a.cols ≠ a.rows ∨ b.length ≠ a.rows →
      jacobi eps a b x0 tol maxIter = .exn (.mml "MatrixDimensionError") ∧
      gaussSeidel eps a b x0 tol maxIter = .exn (.mml "MatrixDimensionError") ∧
      (0 < ω → ω < 2 → sor eps a b ω x0 tol maxIter = .exn (.mml "MatrixDimensionError"))) ∧
    (∀ (n : ℕ) (A : ℕ → ℕ → ℝ), a = Dense.ofFn n n A → b.length = n → ¬DiagOk eps n A →
      jacobi eps a b x0 tol maxIter = .exn (.mml "SingularMatrixError") ∧
      gaussSeidel eps a b x0 tol maxIter = .exn (.mml "SingularMatrixError") ∧
      (0 < ω → ω < 2 → sor eps a b ω x0 tol maxIter = .exn (.mml "SingularMatrixError"))) ∧
    (ω ≤ 0 ∨ 2 ≤ ω → sor eps a b ω x0 tol maxIter = .exn (.mml "NumericalMethodError")) := by
  have hω : 0 < ω → ω < 2 → ¬(ω ≤ 0 ∨ ω ≥ 2) := by
    rintro h1 h2 (h | h) <;> linarith
  refine ⟨fun h => ?_, ?_, fun h => ?_⟩
  · have hc : check eps a b = .exn (.mml "MatrixDimensionError") := by
      rw [check]
      by_cases h1 : a.cols ≠ a.rows
      · rw [if_pos h1]
      · rw [if_neg h1, if_pos (h.resolve_left h1)]
    have hs : ∀ sw, solveWith sw eps a b x0 tol maxIter = .exn (.mml "MatrixDimensionError") := fun sw => by
      rw [solveWith, hc, Outcome.bind_exn]
    exact ⟨hs _, hs _, fun h1 h2 => by rw [sor, if_neg (hω h1 h2)]; exact hs _⟩
  · rintro n A rfl rfl hd
    have hc : check eps (Dense.ofFn b.length b.length A) b = .exn (.mml "SingularMatrixError") := by
      have := (check_eq heps (n := b.length) A (fun i => b.getD i 0)).2 hd
      rwa [← eq_tab b 0] at this
    have hs : ∀ sw, solveWith sw eps (Dense.ofFn b.length b.length A) b x0 tol maxIter = .exn (.mml "SingularMatrixError") :=
      fun sw => by rw [solveWith, hc, Outcome.bind_exn]
    exact ⟨hs _, hs _, fun h1 h2 => by rw [sor, if_neg (hω h1 h2)]; exact hs _⟩
  · rw [sor, if_pos h]

/-- `SolveSimple` returns the solution if the solver converged, and otherwise throws. -/
theorem simple_iff (o : Outcome Result) (x : List ℝ) :
    (simple o = .ret x ↔ ∃ r, o = .ret r ∧ r.converged = true ∧ r.solution = x) ∧
    (∀ r, o = .ret r → r.converged = false → simple o = .exn (.mml "ConvergenceError")) ∧
    ∀ e, o = .exn e → simple o = .exn e := by
  refine ⟨?_, ?_, ?_⟩
  · cases o with
    | ret r =>
      rw [simple, Outcome.bind_ret]
      by_cases h : r.converged = true
      · rw [if_pos h]
        exact ⟨fun e => ⟨r, rfl, h, Outcome.ret.inj e⟩, fun ⟨s, e1, _, e2⟩ => by cases e1; rw [e2]⟩
      · rw [if_neg h]
        exact ⟨fun e => by simp at e, fun ⟨s, e1, e2, _⟩ => by cases e1; exact absurd e2 h⟩
    | exn e => exact ⟨fun h => by simp [simple, Outcome.bind_exn] at h, fun ⟨r, h, _⟩ => by simp at h⟩
    | ub => exact ⟨fun h => by simp [simple, Outcome.bind_ub] at h, fun ⟨r, h, _⟩ => by simp at h⟩
  · rintro r rfl h
    rw [simple, Outcome.bind_ret, if_neg (by simp [h])]
  · rintro e rfl
    rw [simple, Outcome.bind_exn]

/-- An answer as the user sees it: marked converged, and meeting the tolerance. -/
def Solved (n : ℕ) (A : ℕ → ℕ → ℝ) (b : ℕ → ℝ) (tol : ℝ) (o : Outcome Result) : Prop :=
  ∃ r x, o = .ret r ∧ r.converged = true ∧ r.solution = tab n x ∧ r.residual = relResidual n A b x ∧ relResidual n A b x < tol

theorem solved_of {n : ℕ} {A : ℕ → ℕ → ℝ} {b : ℕ → ℝ} {tol : ℝ} (htol : 0 < tol) {f : ℤ → Outcome Result} {xs : ℕ → ℕ → ℝ}
    (hr : ∀ maxIter : ℤ, ∃ r, f maxIter = .ret r ∧ Run n A b tol maxIter.toNat xs r)
    (h : ∀ i < n, Filter.Tendsto (fun k => ∑ j ∈ range n, A i j * xs (k + 1) j - b i) Filter.atTop (nhds 0)) :
    ∃ K : ℤ, ∀ maxIter ≥ K, Solved n A b tol (f maxIter) := by
  obtain ⟨K, hK⟩ := Run.conv (A := A) (b := b) htol (relResidual_tendsto (xs := fun k => xs (k + 1)) h)
  refine ⟨K, fun m hm => ?_⟩
  obtain ⟨r, h1, h2⟩ := hr m
  have hc := hK m.toNat (by omega) r h2
  obtain ⟨k, -, -, -, h5, h6, h7, -⟩ := h2.yes hc
  exact ⟨r, xs k, h1, hc, h5, h6, h7⟩

theorem tend_succ {n : ℕ} {A : ℕ → ℕ → ℝ} {b : ℕ → ℝ} {xs : ℕ → ℕ → ℝ}
    (h : ∀ i < n, Filter.Tendsto (fun k => ∑ j ∈ range n, A i j * xs k j - b i) Filter.atTop (nhds 0)) :
    ∀ i < n, Filter.Tendsto (fun k => ∑ j ∈ range n, A i j * xs (k + 1) j - b i) Filter.atTop (nhds 0) :=
  fun i hi => (h i hi).comp (Filter.tendsto_add_atTop_nat 1)

/-- Jacobi's method solves every system whose matrix is strictly diagonally dominant, from every first vector, if the limit on the
iterations is large enough. -/
theorem jacobi_converges {eps : ℝ} (heps : 0 < eps) {n : ℕ} {A : ℕ → ℕ → ℝ} (hA : DiagOk eps n A) (hD : DiagDominant n A)
    (b : ℕ → ℝ) (x0 : List ℝ) {tol : ℝ} (htol : 0 < tol) :
    ∃ K : ℤ, ∀ maxIter ≥ K, Solved n A b tol (jacobi eps (Dense.ofFn n n A) (tab n b) x0 tol maxIter) := by
  obtain ⟨xs, -, h2, h3⟩ := jacobi_run heps hA b x0 tol
  obtain ⟨q, q0, q1, hq⟩ := hD.rate
  obtain ⟨s, hs⟩ := exists_solution hD.kernel b
  exact solved_of htol h3 (tend_succ (residual_of_conv hs (conv_of_shrink q0 q1 fun k M hM =>
    jacobi_shrink (hA.ne heps) hs hq (h2 k) hM)))

/-- Successive over-relaxation solves every system whose matrix is strictly diagonally dominant, for a factor up to 1, or symmetric
and positive definite, for every factor between 0 and 2. -/
theorem sor_converges {eps : ℝ} (heps : 0 < eps) {n : ℕ} {A : ℕ → ℕ → ℝ} (hA : DiagOk eps n A) {ω : ℝ} (hω0 : 0 < ω) (hω2 : ω < 2)
    (hD : (DiagDominant n A ∧ ω ≤ 1) ∨ PosDef n A) (b : ℕ → ℝ) (x0 : List ℝ) {tol : ℝ} (htol : 0 < tol) :
    ∃ K : ℤ, ∀ maxIter ≥ K, Solved n A b tol (sor eps (Dense.ofFn n n A) (tab n b) ω x0 tol maxIter) := by
  obtain ⟨xs, -, h2, h3⟩ := sor_run heps hA b hω0 hω2 x0 tol
  rcases hD with ⟨hD, hω⟩ | hD
  · obtain ⟨q, q0, q1, hq⟩ := hD.rate
    obtain ⟨s, hs⟩ := exists_solution hD.kernel b
    exact solved_of htol h3 (tend_succ (residual_of_conv hs (conv_of_shrink (q := 1 - ω + ω * q) (by nlinarith) (by nlinarith)
      fun k M hM => sor_shrink (hA.ne heps) hs hω0 hω q1.le hq (h2 k) hM)))
  · exact solved_of htol h3 (sor_tendsto hD hω0 hω2 h2)

/-- The Gauss-Seidel method solves every system whose matrix is strictly diagonally dominant, or symmetric and positive definite. -/
theorem gaussSeidel_converges {eps : ℝ} (heps : 0 < eps) {n : ℕ} {A : ℕ → ℕ → ℝ} (hA : DiagOk eps n A)
    (hD : DiagDominant n A ∨ PosDef n A) (b : ℕ → ℝ) (x0 : List ℝ) {tol : ℝ} (htol : 0 < tol) :
    ∃ K : ℤ, ∀ maxIter ≥ K, Solved n A b tol (gaussSeidel eps (Dense.ofFn n n A) (tab n b) x0 tol maxIter) := by
  obtain ⟨xs, -, h2, h3⟩ := gaussSeidel_run heps hA b x0 tol
  rcases hD with hD | hD
  · obtain ⟨q, q0, q1, hq⟩ := hD.rate
    obtain ⟨s, hs⟩ := exists_solution hD.kernel b
    exact solved_of htol h3 (tend_succ (residual_of_conv hs (conv_of_shrink (q := 1 - 1 + 1 * q) (by linarith) (by linarith)
      fun k M hM => sor_shrink (hA.ne heps) hs one_pos le_rfl q1.le hq (h2 k) hM)))
  · exact solved_of htol h3 (sor_tendsto hD one_pos (by norm_num) h2)

/-- `SolveOptimal` is successive over-relaxation with a factor in `[1, 2)`, if there are at least two unknowns. -/
theorem sorOptimal_eq {eps : ℝ} {a : Dense ℝ} (hn : 2 ≤ a.rows) (b x0 : List ℝ) (tol : ℝ) (maxIter : ℤ) :
    1 ≤ 2 / (1 + Real.sin (Real.pi / a.rows)) ∧ 2 / (1 + Real.sin (Real.pi / a.rows)) < 2 ∧
    sorOptimal eps a b x0 tol maxIter = sor eps a b (2 / (1 + Real.sin (Real.pi / a.rows))) x0 tol maxIter := by
  have hn' : (2 : ℝ) ≤ a.rows := by exact_mod_cast hn
  have hs : 0 < Real.sin (Real.pi / a.rows) := Real.sin_pos_of_pos_of_lt_pi (div_pos Real.pi_pos (by linarith))
    (by rw [div_lt_iff₀ (by linarith)]; nlinarith [Real.pi_pos])
  have hs1 := Real.sin_le_one (Real.pi / a.rows)
  refine ⟨?_, ?_, ?_⟩
  · rw [le_div_iff₀ (by linarith)]; linarith
  · rw [div_lt_iff₀ (by linarith)]; linarith
  · rw [sorOptimal, divU, if_neg (by linarith), Outcome.bind_ret, divU, if_neg (by linarith), Outcome.bind_ret]

/-- `SolveOptimal` solves every system of at least two equations whose matrix is symmetric and positive definite. -/
theorem sorOptimal_converges {eps : ℝ} (heps : 0 < eps) {n : ℕ} (hn : 2 ≤ n) {A : ℕ → ℕ → ℝ} (hA : DiagOk eps n A)
    (hD : PosDef n A) (b : ℕ → ℝ) (x0 : List ℝ) {tol : ℝ} (htol : 0 < tol) :
    ∃ K : ℤ, ∀ maxIter ≥ K, Solved n A b tol (sorOptimal eps (Dense.ofFn n n A) (tab n b) x0 tol maxIter) := by
  have h := fun m => sorOptimal_eq (eps := eps) (a := Dense.ofFn n n A) hn (tab n b) x0 tol m
  obtain ⟨h1, h2, -⟩ := h 0
  obtain ⟨K, hK⟩ := sor_converges heps hA (lt_of_lt_of_le one_pos h1) h2 (Or.inr hD) b x0 htol
  exact ⟨K, fun m hm => by rw [(h m).2.2]; exact hK m hm⟩

/-! ## Estimating the factor -/

/-- The residual that a sample of `EstimateOptimalOmega` sees for the factor `ω`. -/
def SampleRes (eps zt : ℝ) (a : Dense ℝ) (b : List ℝ) (testIter : ℤ) (ω ρ : ℝ) : Prop :=
  ∃ r, sor eps a b ω [] zt testIter = .ret r ∧ r.residual = ρ

/-- `EstimateOptimalOmega` returns, of the factors `1 + 0.95 i / num`, one with the smallest residual after the test iterations (if some
residual is below the largest number). -/
theorem estimateOmega_min {eps zt big : ℝ} (heps : 0 < eps) {n : ℕ} {A : ℕ → ℕ → ℝ} (hA : DiagOk eps n A) (b : ℕ → ℝ) {num : ℕ}
    (hnum : 0 < num) (testIter : ℤ) (hbig : ∀ i ≤ num, ∀ ρ, SampleRes eps zt (Dense.ofFn n n A) (tab n b) testIter
      (1 + 95 / 100 * (i : ℝ) / num) ρ → ρ < big) :
    ∃ i ≤ num, ∃ ρ, estimateOmega eps zt big (Dense.ofFn n n A) (tab n b) num testIter = .ret (1 + 95 / 100 * (i : ℝ) / num) ∧
      SampleRes eps zt (Dense.ofFn n n A) (tab n b) testIter (1 + 95 / 100 * (i : ℝ) / num) ρ ∧
      ∀ j ≤ num, ∀ ρ', SampleRes eps zt (Dense.ofFn n n A) (tab n b) testIter (1 + 95 / 100 * (j : ℝ) / num) ρ' → ρ ≤ ρ' := by
  have hN : (0 : ℝ) < num := by exact_mod_cast hnum
  have hval : ∀ i ≤ num, ∃ r, sor eps (Dense.ofFn n n A) (tab n b) (1 + 95 / 100 * (i : ℝ) / num) [] zt testIter = .ret r := by
    intro i hi
    have hi' : (i : ℝ) ≤ num := by exact_mod_cast hi
    have h0 : 0 ≤ 95 / 100 * (i : ℝ) / num := by positivity
    have h1 : 95 / 100 * (i : ℝ) / num ≤ 95 / 100 := by rw [div_le_iff₀ hN]; linarith
    obtain ⟨xs, -, -, h⟩ := sor_run heps hA b (ω := 1 + 95 / 100 * (i : ℝ) / num) (by linarith) (by linarith) [] zt
    obtain ⟨r, hr, -⟩ := h testIter
    exact ⟨r, hr⟩
  obtain ⟨s, hs, h1⟩ := forRange_rule
    (fun k (s : ℝ × ℝ) => (k = 0 ∧ s = (1, big)) ∨ ∃ i < k, i ≤ num ∧ s.1 = 1 + 95 / 100 * (i : ℝ) / num ∧
      SampleRes eps zt (Dense.ofFn n n A) (tab n b) testIter (1 + 95 / 100 * (i : ℝ) / num) s.2 ∧
      ∀ j < k, ∀ ρ', SampleRes eps zt (Dense.ofFn n n A) (tab n b) testIter (1 + 95 / 100 * (j : ℝ) / num) ρ' → s.2 ≤ ρ')
    (num + 1) (1, big) (sample eps zt (Dense.ofFn n n A) (tab n b) num testIter) (Or.inl ⟨rfl, rfl⟩)
    (by
      intro k s hk hs
      obtain ⟨r, hr⟩ := hval k (by omega)
      have hun : ∀ ρ', SampleRes eps zt (Dense.ofFn n n A) (tab n b) testIter (1 + 95 / 100 * (k : ℝ) / num) ρ' → ρ' = r.residual := by
        rintro ρ' ⟨r', hr', rfl⟩
        rw [hr] at hr'
        rw [Outcome.ret.inj hr']
      rw [sample, divU, if_neg hN.ne', Outcome.bind_ret, hr, Outcome.bind_ret]
      rcases hs with ⟨rfl, rfl⟩ | ⟨i, hik, hin, e1, e2, e3⟩
      · have := hbig 0 (by omega) _ ⟨r, hr, rfl⟩
        rw [if_pos this]
        refine ⟨_, rfl, Or.inr ⟨0, by omega, by omega, rfl, ⟨r, hr, rfl⟩, fun j hj ρ' hρ' => ?_⟩⟩
        obtain rfl : j = 0 := by omega
        exact (hun ρ' hρ').ge
      · by_cases hlt : r.residual < s.2
        · rw [if_pos hlt]
          refine ⟨_, rfl, Or.inr ⟨k, by omega, by omega, rfl, ⟨r, hr, rfl⟩, fun j hj ρ' hρ' => ?_⟩⟩
          by_cases hjk : j = k
          · subst hjk
            exact (hun ρ' hρ').ge
          · exact hlt.le.trans (e3 j (by omega) ρ' hρ')
        · rw [if_neg hlt]
          refine ⟨_, rfl, Or.inr ⟨i, by omega, hin, e1, e2, fun j hj ρ' hρ' => ?_⟩⟩
          by_cases hjk : j = k
          · subst hjk
            rw [hun ρ' hρ']
            exact not_lt.1 hlt
          · exact e3 j (by omega) ρ' hρ')
  rcases h1 with ⟨h, -⟩ | ⟨i, -, h2, h3, h4, h5⟩
  · omega
  · exact ⟨i, h2, s.2, by rw [estimateOmega, hs, Outcome.bind_ret, h3], h4, fun j hj => h5 j (by omega)⟩

/-- With no samples `EstimateOptimalOmega` divides zero by zero. -/
theorem estimateOmega_zero (eps zt big : ℝ) (a : Dense ℝ) (b : List ℝ) (testIter : ℤ) :
    estimateOmega eps zt big a b 0 testIter = .ub := by
  rw [estimateOmega, forRange, forRange, Outcome.bind_ret, sample, divU, if_pos (by simp), Outcome.bind_ub, Outcome.bind_ub]

/-! ## A disagreement -/

/-- A symmetric positive definite matrix. -/
noncomputable def spd3 (i j : ℕ) : ℝ := if i = j then 1 else 4 / 5

theorem spd3_posDef : PosDef 3 spd3 := by
  refine ⟨fun i _ j _ => ?_, fun z hz => ?_⟩
  · rw [spd3, spd3]
    by_cases h : i = j
    · rw [if_pos h, if_pos h.symm]
    · rw [if_neg h, if_neg (Ne.symm h)]
  · have e : ∑ i ∈ range 3, ∑ j ∈ range 3, z i * spd3 i j * z j =
        (z 0 ^ 2 + z 1 ^ 2 + z 2 ^ 2) / 5 + 4 / 5 * (z 0 + z 1 + z 2) ^ 2 := by
      simp [sum_range_succ, spd3]
      ring
    rw [e]
    obtain ⟨i, hi, hne⟩ := hz
    have hp := pow_pos (abs_pos.2 hne) 2
    rw [sq_abs] at hp
    have h3 : z i ^ 2 ≤ z 0 ^ 2 + z 1 ^ 2 + z 2 ^ 2 := by
      have := sq_nonneg (z 0)
      have := sq_nonneg (z 1)
      have := sq_nonneg (z 2)
      interval_cases i <;> linarith
    have := sq_nonneg (z 0 + z 1 + z 2)
    linarith

theorem spd3_diagOk {eps : ℝ} (heps1 : eps ≤ 1) : DiagOk eps 3 spd3 := by
  intro i _
  simp [spd3, heps1]

/-- The documentation says that Jacobi's method converges for symmetric positive definite matrices.  It does not: here the relative
residual after `k` iterations is `1.6 ^ k`, so that no limit on the iterations makes it converge. -/
theorem jacobi_spd_diverges {eps tol : ℝ} (heps : 0 < eps) (heps1 : eps ≤ 1) (htol1 : tol ≤ 1) (maxIter : ℤ) :
    PosDef 3 spd3 ∧ ∃ r, jacobi eps (Dense.ofFn 3 3 spd3) [1, 1, 1] [] tol maxIter = .ret r ∧ r.converged = false ∧
      (1 ≤ maxIter → r.residual = (8 / 5 : ℝ) ^ maxIter.toNat) := by
  refine ⟨spd3_posDef, ?_⟩
  obtain ⟨xs, h0, h1, h2⟩ := jacobi_run heps (spd3_diagOk heps1) (fun _ => 1) [] tol
  obtain ⟨r, hr, hrun⟩ := h2 maxIter
  have hres : ∀ k, relResidual 3 spd3 (fun _ => 1) (xs k) = (8 / 5 : ℝ) ^ k := by
    have hx : ∀ k, ∃ c : ℝ, xs k 0 = c ∧ xs k 1 = c ∧ xs k 2 = c ∧ |13 / 5 * c - 1| = (8 / 5 : ℝ) ^ k := by
      intro k
      induction k with
      | zero =>
        refine ⟨0, ?_⟩
        simp [tab, List.range_succ] at h0
        obtain ⟨a1, a2, a3⟩ := h0
        exact ⟨a1, a2, a3, by norm_num⟩
      | succ k ih =>
        obtain ⟨c, a0, a1, a2, a3⟩ := ih
        have g0 := h1 k 0 (by omega)
        have g1 := h1 k 1 (by omega)
        have g2 := h1 k 2 (by omega)
        rw [sum_erase_eq_sub (by simp)] at g0 g1 g2
        simp [sum_range_succ, spd3, a0, a1, a2] at g0 g1 g2
        refine ⟨1 - 8 / 5 * c, by linarith, by linarith, by linarith, ?_⟩
        rw [pow_succ, ← a3, show 13 / 5 * (1 - 8 / 5 * c) - 1 = -(13 / 5 * c - 1) * (8 / 5) by ring, abs_mul, abs_neg]
        norm_num
    intro k
    obtain ⟨c, a0, a1, a2, a3⟩ := hx k
    have e1 : len 3 (fun _ => 1) = Real.sqrt 3 := by
      rw [len]
      norm_num [sum_range_succ]
    have e2 : len 3 (fun i => ∑ j ∈ range 3, spd3 i j * xs k j - 1) = Real.sqrt 3 * |13 / 5 * c - 1| := by
      rw [len, ← Real.sqrt_sq_eq_abs, ← Real.sqrt_mul (by norm_num)]
      congr 1
      simp [sum_range_succ, spd3, a0, a1, a2]
      ring
    have h3 : Real.sqrt 3 ≠ 0 := (Real.sqrt_pos.2 (by norm_num)).ne'
    rw [relResidual, e1, e2, if_neg h3, mul_div_cancel_left₀ _ h3, a3]
  have hge : ∀ k, tol ≤ relResidual 3 spd3 (fun _ => 1) (xs k) := fun k => by
    rw [hres]
    exact htol1.trans (one_le_pow₀ (by norm_num))
  have hb : (tab 3 fun _ => (1 : ℝ)) = [1, 1, 1] := by simp [tab, List.range_succ]
  rw [hb] at hr
  have hnc : r.converged = false := by
    by_contra hne
    obtain ⟨k, -, -, -, -, -, hlt, -⟩ := hrun.yes (by simpa using hne)
    exact absurd (hge k) (not_le.2 hlt)
  refine ⟨r, hr, hnc, fun hm => ?_⟩
  rw [(hrun.no hnc).2.2.1 (by omega), hres]

/-- `SOR` and Gauss-Seidel solve that system, and the hypotheses of their theorems are met. -/
example : ∃ K : ℤ, ∀ maxIter ≥ K, Solved 3 spd3 (fun _ => 1) (1 / 100)
    (gaussSeidel (1 / 1000) (Dense.ofFn 3 3 spd3) (tab 3 fun _ => 1) [] (1 / 100) maxIter) :=
  gaussSeidel_converges (by norm_num) (spd3_diagOk (by norm_num)) (Or.inr spd3_posDef) _ _ (by norm_num)

example : ∃ K : ℤ, ∀ maxIter ≥ K, Solved 3 spd3 (fun _ => 1) (1 / 100)
    (sor (1 / 1000) (Dense.ofFn 3 3 spd3) (tab 3 fun _ => 1) (3 / 2) [] (1 / 100) maxIter) :=
  sor_converges (by norm_num) (spd3_diagOk (by norm_num)) (by norm_num) (by norm_num) (Or.inr spd3_posDef) _ _ (by norm_num)

/-- A diagonally dominant matrix. -/
noncomputable def dd2 (i j : ℕ) : ℝ := if i = j then 4 else 1 + i

example : DiagDominant 2 dd2 ∧ DiagOk (1 / 1000) 2 dd2 := by
  refine ⟨fun i hi => ?_, fun i _ => ?_⟩
  · rw [sum_erase_eq_sub (mem_range.2 hi)]
    interval_cases i <;> norm_num [sum_range_succ, dd2]
  · simp [dd2]
    norm_num

/-- A matrix that is refused. -/
example : ¬DiagOk (1 / 1000) 2 (fun i j => (i : ℝ) + j) := by
  intro h
  have := (h 0 (by omega)).1
  norm_num at this

end Verif.LinAlg.Iter
