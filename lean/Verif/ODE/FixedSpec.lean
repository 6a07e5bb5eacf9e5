import Verif.ODE.Solution
import Verif.ODE.StepLemmas
import Verif.ODE.VerletLemmas

/-! # Specification vocabulary for the fixed-step solver -/

set_option autoImplicit false

namespace Verif.ODE

/-- `y` is a solution of `y' = f (t, y)` on the interval `[T1, T2]`. -/
def IsSolution {n : ℕ} (f : ℝ → (Fin n → ℝ) → Fin n → ℝ) (T1 T2 : ℝ) (y : ℝ → Fin n → ℝ) : Prop :=
  ∀ t ∈ Set.Icc T1 T2, HasDerivWithinAt y (f t (y t)) (Set.Icc T1 T2) t

/-- The solution object for `N` steps of an `n`-dimensional system is within the size limits of the
matrix class (100000 per dimension, 10^8 elements). -/
def Fits (n N : ℕ) : Prop := 0 < n ∧ n ≤ 100000 ∧ N + 1 ≤ 100000 ∧ n * (N + 1) ≤ 100000000

/-- What a caller reads from a solution object `sol` for `N` steps from `t1` to `t2`: `N + 1` values, the
`k`-th at time `t1 + k (t2 - t1) / N`, with state `X k`. -/
def Reads {n : ℕ} (sol : Sol) (N : ℕ) (t1 t2 : ℝ) (X : ℕ → Fin n → ℝ) : Prop :=
  sol.size = N + 1 ∧ ∀ k : ℕ, k ≤ N → sol.getTValue k = .ret (t1 + k * ((t2 - t1) / N)) ∧
    ∀ i : Fin n, sol.getXValue k i.val = .ret (X k i)

/-- Every value the solver stores for the system `f` and exact solution `y`, in either direction of time,
differs from the exact one by at most `C |t2 - t1| (|h|^p + ε)`, where the step `h` is at most `h₀`. -/
def Accurate {n : ℕ} (sys : System) (clc : Calc) (T1 T2 : ℝ) (y : ℝ → Fin n → ℝ)
    (bound : ℝ → ℝ) (h₀ C : ℝ) : Prop :=
  ∀ t1 ∈ Set.Icc T1 T2, ∀ t2 ∈ Set.Icc T1 T2, ∀ N : ℕ, 0 < N → Fits n N → |(t2 - t1) / N| ≤ h₀ →
    ∃ sol X, integrateFixed sys clc (List.ofFn (y t1)) t1 t2 N = .ret sol ∧ Reads sol N t1 t2 X ∧
      ∀ k ≤ N, ∀ i, |X k i - y (t1 + k * ((t2 - t1) / N)) i|
        ≤ C * |t2 - t1| * bound |(t2 - t1) / N|

/-- The solver with the step calculator `clc` has global order `p`: for every system with `p` times
continuously differentiable right-hand side and every solution, the errors of all stored values are
bounded by a constant times `|h|^p` for all sufficiently small steps. -/
def GlobalOrder (clc : Calc) (p : ℕ) : Prop :=
  ∀ (n : ℕ) (sys : System) (f : ℝ → (Fin n → ℝ) → Fin n → ℝ), Computes sys f → ContDiff ℝ p (pair f) →
    ∀ (T1 T2 : ℝ) (y : ℝ → Fin n → ℝ), IsSolution f T1 T2 y →
      ∃ C h₀, 0 < h₀ ∧ Accurate sys clc T1 T2 y (fun h => h ^ p) h₀ C

/-- The local error of one step from the exact solution is `O(|h|^(p+1))`, and the error of the
solution the step's error estimate compares it with is `O(|h|^(q+1))`. -/
def LocalOrders (clc : Calc) (p q : ℕ) : Prop :=
  ∀ (n : ℕ) (sys : System) (f : ℝ → (Fin n → ℝ) → Fin n → ℝ), Computes sys f → ContDiff ℝ p (pair f) →
    ∀ (T1 T2 : ℝ) (y : ℝ → Fin n → ℝ), IsSolution f T1 T2 y →
      ∃ C h₀, 0 < h₀ ∧ ∀ t ∈ Set.Icc T1 T2, ∀ h, |h| ≤ h₀ → t + h ∈ Set.Icc T1 T2 →
        ∀ xOut xErr : List ℝ, xOut.length = n → xErr.length = n →
        ∃ o e : Fin n → ℝ,
          clc sys t (List.ofFn (y t)) (List.ofFn (f t (y t))) h xOut xErr = .ret (List.ofFn o, List.ofFn e) ∧
          ∀ i, |o i - y (t + h) i| ≤ C * |h| ^ (p + 1) ∧ |(o i - e i) - y (t + h) i| ≤ C * |h| ^ (q + 1)

end Verif.ODE
