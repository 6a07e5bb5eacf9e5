import Mathlib.Analysis.SpecialFunctions.Trigonometric.Basic
import Mathlib.Analysis.SpecialFunctions.Log.Basic
import Mathlib.LinearAlgebra.Matrix.Notation
import Mathlib.Algebra.BigOperators.Fin
import Verif.Common

/-!
# Discrete maps and their Lyapunov exponents

A model of `systems/DiscreteMaps.h`. A state of an `n`-dimensional map is a function on `Fin n`: vectors of another size, which `operator[]` would
read out of bounds, are not modelled. The loops that add up a scalar product are sums.
-/

set_option autoImplicit false

namespace Verif.Systems

namespace Logistic
/-- `map` (DiscreteMaps.h:77). -/
def map (r : ℝ) (x : Fin 1 → ℝ) : Fin 1 → ℝ := ![r * x 0 * (1 - x 0)]
/-- `jacobian` (DiscreteMaps.h:79-82). -/
def jacobian (r : ℝ) (x : Fin 1 → ℝ) : Fin 1 → Fin 1 → ℝ := ![![r * (1 - 2 * x 0)]]
end Logistic

namespace Henon
/-- `map` (DiscreteMaps.h:123-126). -/
def map (a b : ℝ) (x : Fin 2 → ℝ) : Fin 2 → ℝ := ![1 - a * x 0 * x 0 + x 1, b * x 0]
/-- `jacobian` (DiscreteMaps.h:128-134). -/
def jacobian (a b : ℝ) (x : Fin 2 → ℝ) : Fin 2 → Fin 2 → ℝ := ![![-2 * a * x 0, 1], ![b, 0]]
/-- `jacobianDeterminant` (DiscreteMaps.h:153). -/
def jacobianDet (b : ℝ) : ℝ := -b
end Henon

namespace Standard
/-- Wrapping to one turn (DiscreteMaps.h:188-191). -/
noncomputable def wrap (p : ℝ) : ℝ := p - 2 * Real.pi * ⌊p / (2 * Real.pi)⌋
/-- `map` (DiscreteMaps.h:184-195). -/
noncomputable def map (K : ℝ) (x : Fin 2 → ℝ) : Fin 2 → ℝ := ![wrap (x 0 + K * Real.sin (x 1)), wrap (x 1 + (x 0 + K * Real.sin (x 1)))]
/-- `jacobian` (DiscreteMaps.h:197-204). -/
noncomputable def jacobian (K : ℝ) (x : Fin 2 → ℝ) : Fin 2 → Fin 2 → ℝ := ![![1, K * Real.cos (x 1)], ![1, 1 + K * Real.cos (x 1)]]
end Standard

namespace Tent
/-- `map` (DiscreteMaps.h:231). -/
noncomputable def map (μ : ℝ) (x : Fin 1 → ℝ) : Fin 1 → ℝ := ![μ * min (x 0) (1 - x 0)]
open Classical in
/-- `jacobian` (DiscreteMaps.h:233-237). -/
noncomputable def jacobian (μ : ℝ) (x : Fin 1 → ℝ) : Fin 1 → Fin 1 → ℝ := ![![if x 0 < 1 / 2 then μ else -μ]]
open Classical in
/-- `analyticalLyapunov` (DiscreteMaps.h:245). -/
noncomputable def lyapunov (μ : ℝ) : ℝ := if μ = 2 then Real.log 2 else Real.log μ
end Tent

/-- `orbit` (DiscreteMaps.h:96-104 and 156-164): the states after 1, 2, ..., `n` applications. -/
def orbit {α : Type} (f : α → α) (x : α) : ℕ → List α
  | 0 => []
  | n + 1 => f x :: orbit f (f x) n

/-! ## Lyapunov exponents (DiscreteMaps.h:270-355) -/

namespace Lyap
variable {N : ℕ}

/-- The columns of the frame `Q` (DiscreteMaps.h:283); only the first `N` are used. -/
abbrev Cols (N : ℕ) := ℕ → Fin N → ℝ

/-- The scalar product (DiscreteMaps.h:318-320). -/
def dot (v w : Fin N → ℝ) : ℝ := ∑ i, v i * w i

/-- `DivisionSafetyThreshold` (MMLPrecision.h:154). -/
noncomputable def thr : ℝ := 1 / 10 ^ 30

/-- The identity (DiscreteMaps.h:283). -/
def ident (N : ℕ) : Cols N := fun j i => if i.val = j then 1 else 0

/-- The frame multiplied by the Jacobian (DiscreteMaps.h:298-307). -/
def mul (J : Fin N → Fin N → ℝ) (Q : Cols N) : Cols N := fun j i => ∑ k, J i k * Q j k

/-- The vector made orthogonal to the first `k` columns (DiscreteMaps.h:316-323). -/
def orth (Q : Cols N) (v : Fin N → ℝ) : ℕ → Fin N → ℝ
  | 0 => v
  | k + 1 => fun i => orth Q v k i - dot (orth Q v k) (Q k) * Q k i

/-- The norm of the orthogonal part of column `j` (DiscreteMaps.h:326-329). -/
noncomputable def norm (Q : Cols N) (j : ℕ) : ℝ := Real.sqrt (dot (orth Q (Q j) j) (orth Q (Q j) j))

open Classical in
/-- One column (DiscreteMaps.h:311-336); the sums of the logarithms are the second component. -/
noncomputable def column (s : Cols N × (ℕ → ℝ)) (j : ℕ) : Cols N × (ℕ → ℝ) :=
  if thr < norm s.1 j then
    (Function.update s.1 j (fun i => orth s.1 (s.1 j) j i / norm s.1 j), Function.update s.2 j (s.2 j + Real.log (norm s.1 j)))
  else s

/-- The first `m` columns (DiscreteMaps.h:310-337). -/
noncomputable def columns (s : Cols N × (ℕ → ℝ)) : ℕ → Cols N × (ℕ → ℝ)
  | 0 => s
  | m + 1 => column (columns s m) m

/-- One iteration: the frame is moved and made orthonormal, then the map is applied (DiscreteMaps.h:293-341). -/
noncomputable def step (f : (Fin N → ℝ) → Fin N → ℝ) (J : (Fin N → ℝ) → Fin N → Fin N → ℝ) (s : (Fin N → ℝ) × Cols N × (ℕ → ℝ)) :
    (Fin N → ℝ) × Cols N × (ℕ → ℝ) := (f s.1, columns (mul (J s.1) s.2.1, s.2.2) N)

/-- The state after skipping `skip` iterations and `n` iterations with the frame (DiscreteMaps.h:280-341). -/
noncomputable def run (f : (Fin N → ℝ) → Fin N → ℝ) (J : (Fin N → ℝ) → Fin N → Fin N → ℝ) (x : Fin N → ℝ) (skip n : ℕ) : (Fin N → ℝ) × Cols N × (ℕ → ℝ) :=
  (step f J)^[n] (f^[skip] x, ident N, fun _ => 0)

/-- `Compute` (DiscreteMaps.h:278-353): the exponents; without iterations the sums are divided by zero. The largest exponent reported is the first
one, and chaos is reported if it exceeds 0.01. -/
noncomputable def compute (f : (Fin N → ℝ) → Fin N → ℝ) (J : (Fin N → ℝ) → Fin N → Fin N → ℝ) (x : Fin N → ℝ) (n skip : ℕ) : Outcome (Fin N → ℝ) :=
  if n = 0 then .ub else .ret (fun i => (run f J x skip n).2.2 i / n)

end Lyap
end Verif.Systems
