import Mathlib.Analysis.SpecialFunctions.Trigonometric.Basic
import Mathlib.LinearAlgebra.Matrix.Notation
import Verif.Common

/-!
# The classic continuous dynamical systems

A model of `systems/ContinuousSystems.h`, of the parameter store of `systems/DynamicalSystemBase.h` and of the numerical Jacobian of
`interfaces/IDynamicalSystem.h`. A state of an `n`-dimensional system is a function on `Fin n`: vectors of another size, which `operator[]` would
read out of bounds, are not modelled. Decimal literals are exact.
-/

set_option autoImplicit false

namespace Verif.Systems

/-! ## Lorenz (ContinuousSystems.h:35-78) -/

namespace Lorenz
/-- `derivs` (ContinuousSystems.h:45-53). -/
def derivs (σ ρ β : ℝ) (y : Fin 3 → ℝ) : Fin 3 → ℝ := ![σ * (y 1 - y 0), y 0 * (ρ - y 2) - y 1, y 0 * y 1 - β * y 2]
/-- `jacobian` (ContinuousSystems.h:55-70). -/
def jacobian (σ ρ β : ℝ) (y : Fin 3 → ℝ) : Fin 3 → Fin 3 → ℝ := ![![-σ, σ, 0], ![ρ - y 2, -1, -y 0], ![y 1, y 0, -β]]
/-- `getDivergence` (ContinuousSystems.h:77). -/
def divergence (σ β : ℝ) : ℝ := -(σ + 1 + β)
end Lorenz

/-! ## Rössler -/

namespace Rossler
/-- `derivs` (ContinuousSystems.h:99-107). -/
def derivs (a b c : ℝ) (y : Fin 3 → ℝ) : Fin 3 → ℝ := ![-y 1 - y 2, y 0 + a * y 1, b + y 2 * (y 0 - c)]
/-- `jacobian` (ContinuousSystems.h:109-123). -/
def jacobian (a c : ℝ) (y : Fin 3 → ℝ) : Fin 3 → Fin 3 → ℝ := ![![0, -1, -1], ![1, a, 0], ![y 2, 0, y 0 - c]]
end Rossler

/-! ## Van der Pol -/

namespace VanDerPol
/-- `derivs` (ContinuousSystems.h:146-150). -/
def derivs (μ : ℝ) (y : Fin 2 → ℝ) : Fin 2 → ℝ := ![y 1, μ * (1 - y 0 * y 0) * y 1 - y 0]
/-- `jacobian` (ContinuousSystems.h:152-159). -/
def jacobian (μ : ℝ) (y : Fin 2 → ℝ) : Fin 2 → Fin 2 → ℝ := ![![0, 1], ![-2 * μ * y 0 * y 1 - 1, μ * (1 - y 0 * y 0)]]
end VanDerPol

/-! ## Duffing -/

namespace Duffing
/-- `derivs` (ContinuousSystems.h:180-190). -/
noncomputable def derivs (δ α β γ ω : ℝ) (y : Fin 3 → ℝ) : Fin 3 → ℝ :=
  ![y 1, -δ * y 1 - α * y 0 - β * y 0 * y 0 * y 0 + γ * Real.cos (y 2), ω]
/-- `jacobian` (ContinuousSystems.h:192-208). -/
noncomputable def jacobian (δ α β γ : ℝ) (y : Fin 3 → ℝ) : Fin 3 → Fin 3 → ℝ :=
  ![![0, 1, 0], ![-α - 3 * β * y 0 * y 0, -δ, -γ * Real.sin (y 2)], ![0, 0, 0]]
end Duffing

/-! ## Chua -/

namespace Chua
/-- The nonlinearity (ContinuousSystems.h:241-242). -/
noncomputable def f (a b x : ℝ) : ℝ := b * x + 1 / 2 * (a - b) * (|x + 1| - |x - 1|)
/-- `derivs` (ContinuousSystems.h:234-247). -/
noncomputable def derivs (α β a b : ℝ) (y : Fin 3 → ℝ) : Fin 3 → ℝ := ![α * (y 1 - y 0 - f a b (y 0)), y 0 - y 1 + y 2, -β * y 1]
open Classical in
/-- The slope of the nonlinearity (ContinuousSystems.h:256-263). -/
noncomputable def slope (a b x : ℝ) : ℝ := if x < -1 then b else if 1 < x then b else a
/-- `jacobian` (ContinuousSystems.h:249-275). -/
noncomputable def jacobian (α β a b : ℝ) (y : Fin 3 → ℝ) : Fin 3 → Fin 3 → ℝ := ![![α * (-1 - slope a b (y 0)), α, 0], ![1, -1, 1], ![0, -β, 0]]
end Chua

/-! ## Hénon-Heiles -/

namespace HenonHeiles
/-- `derivs` (ContinuousSystems.h:296-302). -/
def derivs (y : Fin 4 → ℝ) : Fin 4 → ℝ := ![y 2, y 3, -y 0 - 2 * y 0 * y 1, -y 1 - y 0 * y 0 + y 1 * y 1]
/-- `jacobian` (ContinuousSystems.h:304-317). -/
def jacobian (y : Fin 4 → ℝ) : Fin 4 → Fin 4 → ℝ :=
  ![![0, 0, 1, 0], ![0, 0, 0, 1], ![-1 - 2 * y 1, -2 * y 0, 0, 0], ![-2 * y 0, -1 + 2 * y 1, 0, 0]]
/-- `getEnergy` (ContinuousSystems.h:332-335). -/
noncomputable def energy (y : Fin 4 → ℝ) : ℝ := 1 / 2 * (y 2 * y 2 + y 3 * y 3 + y 0 * y 0 + y 1 * y 1) + y 0 * y 0 * y 1 - y 1 * y 1 * y 1 / 3
end HenonHeiles

/-! ## The double pendulum -/

namespace Pendulum
/-- The parameters (ContinuousSystems.h:349). -/
structure P where
  m1 : ℝ
  m2 : ℝ
  L1 : ℝ
  L2 : ℝ
  g : ℝ

/-- The denominator without the length (ContinuousSystems.h:368-370). -/
noncomputable def den (p : P) (y : Fin 4 → ℝ) : ℝ := p.m1 + p.m2 - p.m2 * Real.cos (y 0 - y 1) * Real.cos (y 0 - y 1)
/-- `n1` (ContinuousSystems.h:373). -/
noncomputable def n1 (p : P) (y : Fin 4 → ℝ) : ℝ :=
  -p.m2 * p.L1 * y 2 * y 2 * Real.sin (y 0 - y 1) * Real.cos (y 0 - y 1) + p.m2 * p.g * Real.sin (y 1) * Real.cos (y 0 - y 1)
    - p.m2 * p.L2 * y 3 * y 3 * Real.sin (y 0 - y 1) - (p.m1 + p.m2) * p.g * Real.sin (y 0)
/-- `n2` (ContinuousSystems.h:375). -/
noncomputable def n2 (p : P) (y : Fin 4 → ℝ) : ℝ :=
  p.m2 * p.L2 * y 3 * y 3 * Real.sin (y 0 - y 1) * Real.cos (y 0 - y 1)
    + (p.m1 + p.m2) * (p.g * Real.sin (y 0) * Real.cos (y 0 - y 1) + p.L1 * y 2 * y 2 * Real.sin (y 0 - y 1) - p.g * Real.sin (y 1))
/-- `derivs` (ContinuousSystems.h:355-381). Division by zero, for masses or lengths of zero, is not told apart here: the theorems ask for positive ones. -/
noncomputable def derivs (p : P) (y : Fin 4 → ℝ) : Fin 4 → ℝ := ![y 2, y 3, n1 p y / (p.L1 * den p y), n2 p y / (p.L2 * den p y)]
/-- `getEnergy` (ContinuousSystems.h:412-428). -/
noncomputable def energy (p : P) (y : Fin 4 → ℝ) : ℝ :=
  1 / 2 * (p.m1 + p.m2) * p.L1 * p.L1 * y 2 * y 2 + 1 / 2 * p.m2 * p.L2 * p.L2 * y 3 * y 3 + p.m2 * p.L1 * p.L2 * y 2 * y 3 * Real.cos (y 0 - y 1)
    + (-(p.m1 + p.m2) * p.g * p.L1 * Real.cos (y 0) - p.m2 * p.g * p.L2 * Real.cos (y 1))
/-- `jacobian`, by forward differences (ContinuousSystems.h:383-399). -/
noncomputable def jacobian (p : P) (y : Fin 4 → ℝ) (i j : Fin 4) : ℝ :=
  (derivs p (Function.update y j (y j + 1 / 10 ^ 6)) i - derivs p y i) / (1 / 10 ^ 6)
end Pendulum

/-! ## The numerical Jacobian and the parameters -/

/-- The step of the default `jacobian` (IDynamicalSystem.h:92-95); `eps` is the square root of the machine epsilon. -/
noncomputable def step (eps x : ℝ) : ℝ := eps * max |x| 1

/-- The default `jacobian`, by central differences (IDynamicalSystem.h:86-105). -/
noncomputable def numJacobian {n : ℕ} (eps : ℝ) (F : (Fin n → ℝ) → Fin n → ℝ) (x : Fin n → ℝ) (i j : Fin n) : ℝ :=
  (F (Function.update x j (x j + step eps (x j))) i - F (Function.update x j (x j - step eps (x j))) i) / (2 * step eps (x j))

/-- `getParam` of a system with the parameters `ps` (DynamicalSystemBase.h:61); an index outside is undefined behaviour. -/
def getParam (ps : List ℝ) (i : ℤ) : Outcome ℝ := if 0 ≤ i then (match ps[i.toNat]? with | some x => .ret x | none => .ub) else .ub

/-- `setParam` (DynamicalSystemBase.h:62). -/
def setParam (ps : List ℝ) (i : ℤ) (v : ℝ) : Outcome (List ℝ) := if 0 ≤ i ∧ i.toNat < ps.length then .ret (ps.set i.toNat v) else .ub

/-- `setParams` from a vector (DynamicalSystemBase.h:71-74); a shorter vector is read out of bounds. -/
def setParams (ps v : List ℝ) : Outcome (List ℝ) := if v.length < ps.length then .ub else .ret (v.take ps.length)

/-- `getParams` (DynamicalSystemBase.h:64-69). -/
def getParams (ps : List ℝ) : List ℝ := ps

end Verif.Systems
