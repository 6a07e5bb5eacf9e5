import Verif.Common
import Mathlib.Algebra.Field.Defs
import Mathlib.Analysis.Real.Sqrt

/-!
# Model of the three-dimensional Cartesian vectors

`Vector3Cartesian` (`mml/base/Vector/VectorTypes.h`).  The loops over the three components are written out.
-/

set_option autoImplicit false

namespace Verif.Geom

/-- `Vector3Cartesian` (VectorTypes.h:302-330; the array of VectorN.h:35): its three components. -/
@[ext] structure V3 (K : Type) where
  x : K
  y : K
  z : K
  deriving DecidableEq

namespace V3

variable {K : Type}

/-- `operator+` (VectorTypes.h:406-412). -/
def add [Add K] (a b : V3 K) : V3 K := ⟨a.x + b.x, a.y + b.y, a.z + b.z⟩

/-- `operator-` with two operands (VectorTypes.h:415-421). -/
def sub [Sub K] (a b : V3 K) : V3 K := ⟨a.x - b.x, a.y - b.y, a.z - b.z⟩

/-- `operator-` with one operand (VectorTypes.h:396-402). -/
def neg [Neg K] (a : V3 K) : V3 K := ⟨-a.x, -a.y, -a.z⟩

/-- `operator*(Real)` (VectorTypes.h:425-431). -/
def scale [Mul K] (a : V3 K) (b : K) : V3 K := ⟨a.x * b, a.y * b, a.z * b⟩

/-- `operator/(Real)` (VectorTypes.h:434-440).  A zero divisor, which gives infinities and NaNs in the code, is
undefined behaviour by the letter of the C++ standard and in the model. -/
def div [Field K] [DecidableEq K] (a : V3 K) (b : K) : Outcome (V3 K) :=
  if b = 0 then .ub else .ret ⟨a.x / b, a.y / b, a.z / b⟩

/-- The scalar product `operator*`, `ScalarProduct` (VectorTypes.h:390-393, 540-551). -/
def dot [Add K] [Mul K] (a b : V3 K) : K := a.x * b.x + a.y * b.y + a.z * b.z

/-- `VectorProduct` (VectorTypes.h:556-565). -/
def cross [Sub K] [Mul K] (a b : V3 K) : V3 K :=
  ⟨a.y * b.z - a.z * b.y, a.z * b.x - a.x * b.z, a.x * b.y - a.y * b.x⟩

/-- `NormL2` (VectorN.h:298-311). -/
noncomputable def norm (a : V3 ℝ) : ℝ := Real.sqrt (0 + a.x * a.x + a.y * a.y + a.z * a.z)

end V3

end Verif.Geom
