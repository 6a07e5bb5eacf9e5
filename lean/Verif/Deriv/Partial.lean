import Verif.Deriv.Model
import Mathlib.Data.Fin.VecNotation
import Mathlib.Algebra.BigOperators.Fin

/-!
# Model of the partial derivatives, gradients, Jacobians and derivatives of curves and surfaces

Sources: `core/Derivation/DerivationScalarFunction.h`, `DerivationVectorFunction.h`, `DerivationTensorField.h`,
`DerivationParametricCurve.h`, `DerivationParametricSurface.h` and `Jacobians.h`.

A point is a function on `Fin N`; an index outside the range, which is undefined in the code, cannot be written.  The
functions differentiated have a finite value everywhere.  Unlike the rules for functions of one variable these do not check
the step: a zero step divides by zero and is undefined here.
-/

set_option autoImplicit false

namespace Verif.Deriv

open Verif

/-! ## Partial derivatives of scalar functions -/

/-- `x = point; x[i] = t; f(x)` (DerivationScalarFunction.h:40-46 and the same lines of the other functions). -/
def along {N : ℕ} (f : (Fin N → ℝ) → ℝ) (p : Fin N → ℝ) (i : Fin N) : Fn := fun t => some (f (Function.update p i t))

/-- What the partial derivatives share: the step must not be zero, and the error is written when asked for.  `value` and
`error` are the formulas of the rule on the line through the point. -/
noncomputable def unchecked (value error : Option ℝ) (h : ℝ) (wantError : Bool) : Outcome (Option ℝ × Option ℝ) :=
  if h = 0 then .ub else .ret (value, if wantError then error else some 0)

/-- `NDer1Partial` (DerivationScalarFunction.h:36-56, 58-62): the formula of `NDer1` in the variable `i`. -/
noncomputable def nDer1Partial {N : ℕ} (eps : ℝ) (f : (Fin N → ℝ) → ℝ) (i : Fin N) (p : Fin N → ℝ) (h : Option ℝ) (wantError : Bool) :
    Outcome (Option ℝ × Option ℝ) :=
  unchecked (nDer1Value (along f p i) (p i) (h.getD (scaleStep (nDer1H eps) (p i))))
    (nDer1Error eps (along f p i) (p i) (h.getD (scaleStep (nDer1H eps) (p i)))) (h.getD (scaleStep (nDer1H eps) (p i))) wantError

/-- `NDer2Partial` (DerivationScalarFunction.h:99-124, 126-129): the formula of `NDer2` in the variable `i`. -/
noncomputable def nDer2Partial {N : ℕ} (eps : ℝ) (f : (Fin N → ℝ) → ℝ) (i : Fin N) (p : Fin N → ℝ) (h : Option ℝ) (wantError : Bool) :
    Outcome (Option ℝ × Option ℝ) :=
  unchecked (nDer2Value (along f p i) (p i) (h.getD (scaleStep (nDer2H eps) (p i))))
    (nDer2Error eps (along f p i) (p i) (h.getD (scaleStep (nDer2H eps) (p i)))) (h.getD (scaleStep (nDer2H eps) (p i))) wantError

/-- `NDer4Partial` (DerivationScalarFunction.h:165-199, 201-204): the formula of `NDer4` in the variable `i`. -/
noncomputable def nDer4Partial {N : ℕ} (eps : ℝ) (f : (Fin N → ℝ) → ℝ) (i : Fin N) (p : Fin N → ℝ) (h : Option ℝ) (wantError : Bool) :
    Outcome (Option ℝ × Option ℝ) :=
  unchecked (nDer4Value (along f p i) (p i) (h.getD (scaleStep (nDer4H eps) (p i))))
    (nDer4Error eps (along f p i) (p i) (h.getD (scaleStep (nDer4H eps) (p i)))) (h.getD (scaleStep (nDer4H eps) (p i))) wantError

/-- `NDer6Partial` (DerivationScalarFunction.h:240-281, 283-286): the formula of `NDer6` in the variable `i`. -/
noncomputable def nDer6Partial {N : ℕ} (eps : ℝ) (f : (Fin N → ℝ) → ℝ) (i : Fin N) (p : Fin N → ℝ) (h : Option ℝ) (wantError : Bool) :
    Outcome (Option ℝ × Option ℝ) :=
  unchecked (nDer6Value (along f p i) (p i) (h.getD (scaleStep (nDer6H eps) (p i))))
    (nDer6Error eps (along f p i) (p i) (h.getD (scaleStep (nDer6H eps) (p i)))) (h.getD (scaleStep (nDer6H eps) (p i))) wantError

/-- `NDer8Partial` (DerivationScalarFunction.h:322-374, 376-379): the formula of `NDer8` in the variable `i`. -/
noncomputable def nDer8Partial {N : ℕ} (eps : ℝ) (f : (Fin N → ℝ) → ℝ) (i : Fin N) (p : Fin N → ℝ) (h : Option ℝ) (wantError : Bool) :
    Outcome (Option ℝ × Option ℝ) :=
  unchecked (nDer8Value (along f p i) (p i) (h.getD (scaleStep (nDer8H eps) (p i))))
    (nDer8Error eps (along f p i) (p i) (h.getD (scaleStep (nDer8H eps) (p i)))) (h.getD (scaleStep (nDer8H eps) (p i))) wantError

/-- One call of `rule` per entry of the list. -/
def mapAll {ι α : Type} (rule : ι → Outcome α) : List ι → Outcome (List α)
  | [] => .ret []
  | i :: l => (rule i).bind fun a => (mapAll rule l).bind fun r => .ret (a :: r)

/-- The loops of the functions returning all derivatives at once, for instance DerivationScalarFunction.h:77-86: one call
per index. -/
def collect {N : ℕ} {α : Type} (rule : Fin N → Outcome α) : Outcome (List α) := mapAll rule (List.finRange N)

/-- `NDer1PartialByAll` (DerivationScalarFunction.h:66-80, 82-93). -/
noncomputable def nDer1Gradient {N : ℕ} (eps : ℝ) (f : (Fin N → ℝ) → ℝ) (p : Fin N → ℝ) (h : Option ℝ) (wantError : Bool) :
    Outcome (List (Option ℝ × Option ℝ)) :=
  collect fun i => nDer1Partial eps f i p h wantError

/-- `NDer2PartialByAll` (DerivationScalarFunction.h:132-145, 147-157). -/
noncomputable def nDer2Gradient {N : ℕ} (eps : ℝ) (f : (Fin N → ℝ) → ℝ) (p : Fin N → ℝ) (h : Option ℝ) (wantError : Bool) :
    Outcome (List (Option ℝ × Option ℝ)) :=
  collect fun i => nDer2Partial eps f i p h wantError

/-- `NDer4PartialByAll` (DerivationScalarFunction.h:207-220, 222-232). -/
noncomputable def nDer4Gradient {N : ℕ} (eps : ℝ) (f : (Fin N → ℝ) → ℝ) (p : Fin N → ℝ) (h : Option ℝ) (wantError : Bool) :
    Outcome (List (Option ℝ × Option ℝ)) :=
  collect fun i => nDer4Partial eps f i p h wantError

/-- `NDer6PartialByAll` (DerivationScalarFunction.h:289-302, 304-314). -/
noncomputable def nDer6Gradient {N : ℕ} (eps : ℝ) (f : (Fin N → ℝ) → ℝ) (p : Fin N → ℝ) (h : Option ℝ) (wantError : Bool) :
    Outcome (List (Option ℝ × Option ℝ)) :=
  collect fun i => nDer6Partial eps f i p h wantError

/-- `NDer8PartialByAll` (DerivationScalarFunction.h:382-395, 397-407). -/
noncomputable def nDer8Gradient {N : ℕ} (eps : ℝ) (f : (Fin N → ℝ) → ℝ) (p : Fin N → ℝ) (h : Option ℝ) (wantError : Bool) :
    Outcome (List (Option ℝ × Option ℝ)) :=
  collect fun i => nDer8Partial eps f i p h wantError

/-- `f` with the variables `i` and `j` set, in this order (DerivationScalarFunction.h:467-477). -/
def setTwo {N : ℕ} (f : (Fin N → ℝ) → ℝ) (p : Fin N → ℝ) (i j : Fin N) (s t : ℝ) : ℝ :=
  f (Function.update (Function.update p i s) j t)

/-- The cross difference with step `d` (DerivationScalarFunction.h:467-486, and 571-583 for the fourth-order rule). -/
def cross {N : ℕ} (f : (Fin N → ℝ) → ℝ) (p : Fin N → ℝ) (i j : Fin N) (d : ℝ) : ℝ :=
  setTwo f p i j (p i + d) (p j + d) - setTwo f p i j (p i + d) (p j - d) - setTwo f p i j (p i - d) (p j + d) +
    setTwo f p i j (p i - d) (p j - d)

/-- The sum of the moduli of the four values of `cross`, used by the error estimates. -/
def crossAbs {N : ℕ} (f : (Fin N → ℝ) → ℝ) (p : Fin N → ℝ) (i j : Fin N) (d : ℝ) : ℝ :=
  |setTwo f p i j (p i + d) (p j + d)| + |setTwo f p i j (p i + d) (p j - d)| + |setTwo f p i j (p i - d) (p j + d)| +
    |setTwo f p i j (p i - d) (p j - d)|

/-- The default step of the second partial derivatives (DerivationScalarFunction.h:496-501). -/
noncomputable def pairStep {N : ℕ} (base : ℝ) (p : Fin N → ℝ) (i j : Fin N) : ℝ := base * max 1 (max |p i| |p j|)

/-- `NSecDer2Partial` (DerivationScalarFunction.h:423-494, 496-501). -/
noncomputable def nSecDer2Partial {N : ℕ} (eps : ℝ) (f : (Fin N → ℝ) → ℝ) (i j : Fin N) (p : Fin N → ℝ) (h : Option ℝ)
    (wantError : Bool) : Outcome (Option ℝ × Option ℝ) :=
  if i = j then
    unchecked (nSecDer2Value (along f p i) (p i) (h.getD (pairStep (nDer2H eps) p i j)))
      (nSecDer2Error eps (along f p i) (p i) (h.getD (pairStep (nDer2H eps) p i j))) (h.getD (pairStep (nDer2H eps) p i j)) wantError
  else
    unchecked (some (cross f p i j (h.getD (pairStep (nDer2H eps) p i j)) / (4 * (h.getD (pairStep (nDer2H eps) p i j)) ^ 2)))
      (some (eps * crossAbs f p i j (h.getD (pairStep (nDer2H eps) p i j)) / (4 * (h.getD (pairStep (nDer2H eps) p i j)) ^ 2)))
      (h.getD (pairStep (nDer2H eps) p i j)) wantError

/-- `NSecDer4Partial` (DerivationScalarFunction.h:509-603, 605-610). -/
noncomputable def nSecDer4Partial {N : ℕ} (eps : ℝ) (f : (Fin N → ℝ) → ℝ) (i j : Fin N) (p : Fin N → ℝ) (h : Option ℝ)
    (wantError : Bool) : Outcome (Option ℝ × Option ℝ) :=
  if i = j then
    unchecked (nSecDer4Value (along f p i) (p i) (h.getD (pairStep (nDer4H eps) p i j)))
      (nSecDer4Error eps (along f p i) (p i) (h.getD (pairStep (nDer4H eps) p i j))) (h.getD (pairStep (nDer4H eps) p i j)) wantError
  else
    unchecked
      (some ((16 * cross f p i j (h.getD (pairStep (nDer4H eps) p i j)) - cross f p i j (2 * h.getD (pairStep (nDer4H eps) p i j))) /
        (48 * (h.getD (pairStep (nDer4H eps) p i j)) ^ 2)))
      (some (eps * crossAbs f p i j (h.getD (pairStep (nDer4H eps) p i j)) / (4 * (h.getD (pairStep (nDer4H eps) p i j)) ^ 2)))
      (h.getD (pairStep (nDer4H eps) p i j)) wantError

/-! ## Vector functions and tensor fields -/

/-- `NDer1Partial` of component `k` of a vector function (DerivationVectorFunction.h:30-50, 53-57). -/
noncomputable def nDer1PartialVec {N M : ℕ} (eps : ℝ) (f : (Fin N → ℝ) → Fin M → ℝ) (k : Fin M) (i : Fin N) (p : Fin N → ℝ)
    (h : Option ℝ) (wantError : Bool) : Outcome (Option ℝ × Option ℝ) :=
  nDer1Partial eps (fun q => f q k) i p h wantError

/-- `NDer1PartialByAll` of component `k` (DerivationVectorFunction.h:60-74, 77-89). -/
noncomputable def nDer1GradientVec {N M : ℕ} (eps : ℝ) (f : (Fin N → ℝ) → Fin M → ℝ) (k : Fin M) (p : Fin N → ℝ)
    (h : Option ℝ) (wantError : Bool) : Outcome (List (Option ℝ × Option ℝ)) :=
  collect fun i => nDer1PartialVec eps f k i p h wantError

/-- `NDer1PartialAllByAll` (DerivationVectorFunction.h:92-107, 110-123): a list of rows. -/
noncomputable def nDer1AllByAll {N : ℕ} (eps : ℝ) (f : (Fin N → ℝ) → Fin N → ℝ) (p : Fin N → ℝ)
    (h : Option ℝ) (wantError : Bool) : Outcome (List (List (Option ℝ × Option ℝ))) :=
  collect fun i => collect fun j => nDer1PartialVec eps f i j p h wantError

/-- `NDer2Partial` of component `k` of a vector function (DerivationVectorFunction.h:129-156, 158-161). -/
noncomputable def nDer2PartialVec {N M : ℕ} (eps : ℝ) (f : (Fin N → ℝ) → Fin M → ℝ) (k : Fin M) (i : Fin N) (p : Fin N → ℝ)
    (h : Option ℝ) (wantError : Bool) : Outcome (Option ℝ × Option ℝ) :=
  nDer2Partial eps (fun q => f q k) i p h wantError

/-- `NDer2PartialByAll` of component `k` (DerivationVectorFunction.h:164-177, 180-191). -/
noncomputable def nDer2GradientVec {N M : ℕ} (eps : ℝ) (f : (Fin N → ℝ) → Fin M → ℝ) (k : Fin M) (p : Fin N → ℝ)
    (h : Option ℝ) (wantError : Bool) : Outcome (List (Option ℝ × Option ℝ)) :=
  collect fun i => nDer2PartialVec eps f k i p h wantError

/-- `NDer2PartialAllByAll` (DerivationVectorFunction.h:194-208, 211-223): a list of rows. -/
noncomputable def nDer2AllByAll {N : ℕ} (eps : ℝ) (f : (Fin N → ℝ) → Fin N → ℝ) (p : Fin N → ℝ)
    (h : Option ℝ) (wantError : Bool) : Outcome (List (List (Option ℝ × Option ℝ))) :=
  collect fun i => collect fun j => nDer2PartialVec eps f i j p h wantError

/-- `NDer4Partial` of component `k` of a vector function (DerivationVectorFunction.h:229-262, 264-268). -/
noncomputable def nDer4PartialVec {N M : ℕ} (eps : ℝ) (f : (Fin N → ℝ) → Fin M → ℝ) (k : Fin M) (i : Fin N) (p : Fin N → ℝ)
    (h : Option ℝ) (wantError : Bool) : Outcome (Option ℝ × Option ℝ) :=
  nDer4Partial eps (fun q => f q k) i p h wantError

/-- `NDer4PartialByAll` of component `k` (DerivationVectorFunction.h:270-284, 286-298). -/
noncomputable def nDer4GradientVec {N M : ℕ} (eps : ℝ) (f : (Fin N → ℝ) → Fin M → ℝ) (k : Fin M) (p : Fin N → ℝ)
    (h : Option ℝ) (wantError : Bool) : Outcome (List (Option ℝ × Option ℝ)) :=
  collect fun i => nDer4PartialVec eps f k i p h wantError

/-- `NDer4PartialAllByAll` (DerivationVectorFunction.h:301-316, 318-331): a list of rows. -/
noncomputable def nDer4AllByAll {N : ℕ} (eps : ℝ) (f : (Fin N → ℝ) → Fin N → ℝ) (p : Fin N → ℝ)
    (h : Option ℝ) (wantError : Bool) : Outcome (List (List (Option ℝ × Option ℝ))) :=
  collect fun i => collect fun j => nDer4PartialVec eps f i j p h wantError

/-- `NDer6Partial` of component `k` of a vector function (DerivationVectorFunction.h:337-378, 380-383). -/
noncomputable def nDer6PartialVec {N M : ℕ} (eps : ℝ) (f : (Fin N → ℝ) → Fin M → ℝ) (k : Fin M) (i : Fin N) (p : Fin N → ℝ)
    (h : Option ℝ) (wantError : Bool) : Outcome (Option ℝ × Option ℝ) :=
  nDer6Partial eps (fun q => f q k) i p h wantError

/-- `NDer6PartialByAll` of component `k` (DerivationVectorFunction.h:386-399, 401-412). -/
noncomputable def nDer6GradientVec {N M : ℕ} (eps : ℝ) (f : (Fin N → ℝ) → Fin M → ℝ) (k : Fin M) (p : Fin N → ℝ)
    (h : Option ℝ) (wantError : Bool) : Outcome (List (Option ℝ × Option ℝ)) :=
  collect fun i => nDer6PartialVec eps f k i p h wantError

/-- `NDer6PartialAllByAll` (DerivationVectorFunction.h:415-429, 431-443): a list of rows. -/
noncomputable def nDer6AllByAll {N : ℕ} (eps : ℝ) (f : (Fin N → ℝ) → Fin N → ℝ) (p : Fin N → ℝ)
    (h : Option ℝ) (wantError : Bool) : Outcome (List (List (Option ℝ × Option ℝ))) :=
  collect fun i => collect fun j => nDer6PartialVec eps f i j p h wantError

/-- `NDer8Partial` of component `k` of a vector function (DerivationVectorFunction.h:449-501, 503-506). -/
noncomputable def nDer8PartialVec {N M : ℕ} (eps : ℝ) (f : (Fin N → ℝ) → Fin M → ℝ) (k : Fin M) (i : Fin N) (p : Fin N → ℝ)
    (h : Option ℝ) (wantError : Bool) : Outcome (Option ℝ × Option ℝ) :=
  nDer8Partial eps (fun q => f q k) i p h wantError

/-- `NDer8PartialByAll` of component `k` (DerivationVectorFunction.h:509-522, 525-536). -/
noncomputable def nDer8GradientVec {N M : ℕ} (eps : ℝ) (f : (Fin N → ℝ) → Fin M → ℝ) (k : Fin M) (p : Fin N → ℝ)
    (h : Option ℝ) (wantError : Bool) : Outcome (List (Option ℝ × Option ℝ)) :=
  collect fun i => nDer8PartialVec eps f k i p h wantError

/-- `NDer8PartialAllByAll` (DerivationVectorFunction.h:539-553, 556-568): a list of rows. -/
noncomputable def nDer8AllByAll {N : ℕ} (eps : ℝ) (f : (Fin N → ℝ) → Fin N → ℝ) (p : Fin N → ℝ)
    (h : Option ℝ) (wantError : Bool) : Outcome (List (List (Option ℝ × Option ℝ))) :=
  collect fun i => collect fun j => nDer8PartialVec eps f i j p h wantError

/-- `NDer1Partial` of a component of a tensor field of rank two, three or four (DerivationTensorField.h:33-114); `component` are the
indices of the component. -/
noncomputable def nDer1PartialTensor {N : ℕ} {ι : Type} (eps : ℝ) (f : ι → (Fin N → ℝ) → ℝ) (component : ι) (i : Fin N) (p : Fin N → ℝ)
    (h : Option ℝ) (wantError : Bool) : Outcome (Option ℝ × Option ℝ) :=
  nDer1Partial eps (fun q => f component q) i p h wantError

/-- `NDer2Partial` of a component of a tensor field of rank two, three or four (DerivationTensorField.h:120-219); `component` are the
indices of the component. -/
noncomputable def nDer2PartialTensor {N : ℕ} {ι : Type} (eps : ℝ) (f : ι → (Fin N → ℝ) → ℝ) (component : ι) (i : Fin N) (p : Fin N → ℝ)
    (h : Option ℝ) (wantError : Bool) : Outcome (Option ℝ × Option ℝ) :=
  nDer2Partial eps (fun q => f component q) i p h wantError

/-- `NDer4Partial` of a component of a tensor field of rank two, three or four (DerivationTensorField.h:225-346); `component` are the
indices of the component. -/
noncomputable def nDer4PartialTensor {N : ℕ} {ι : Type} (eps : ℝ) (f : ι → (Fin N → ℝ) → ℝ) (component : ι) (i : Fin N) (p : Fin N → ℝ)
    (h : Option ℝ) (wantError : Bool) : Outcome (Option ℝ × Option ℝ) :=
  nDer4Partial eps (fun q => f component q) i p h wantError

/-! ## Jacobians -/

/-- `calcJacobian` (Jacobians.h:47-58, and 67-78 for functions between spaces of different dimension, which calls
`NDer4Partial` in the same way): entry `(i, j)` is the derivative of component `i` by variable `j`. -/
noncomputable def calcJacobian {N M : ℕ} (eps : ℝ) (f : (Fin N → ℝ) → Fin M → ℝ) (p : Fin N → ℝ) :
    Outcome (List (List (Option ℝ × Option ℝ))) :=
  collect fun i => collect fun j => nDer4PartialVec eps f i j p none false

/-- `NDer4PartialDyn` (Jacobians.h:94-121): a zero step stands for `eps ^ 0.2`.  Simplified: the dimensions are known. -/
noncomputable def nDer4PartialDyn {N M : ℕ} (eps : ℝ) (f : (Fin N → ℝ) → Fin M → ℝ) (k : Fin M) (j : Fin N) (p : Fin N → ℝ) (h : ℝ) : Outcome ℝ :=
  (fun h : ℝ => if 12 * h = 0 then (.ub : Outcome ℝ) else .ret ((-f (Function.update p j (p j + 2 * h)) k + 8 * f (Function.update p j (p j + h)) k -
    8 * f (Function.update p j (p j - h)) k + f (Function.update p j (p j - 2 * h)) k) / (12 * h)))
  (if h = 0 then eps ^ (1 / 5 : ℝ) else h)

/-- `NDer2PartialDyn` (Jacobians.h:132-152). -/
noncomputable def nDer2PartialDyn {N M : ℕ} (eps : ℝ) (f : (Fin N → ℝ) → Fin M → ℝ) (k : Fin M) (j : Fin N) (p : Fin N → ℝ) (h : ℝ) : Outcome ℝ :=
  (fun h : ℝ => if 2 * h = 0 then (.ub : Outcome ℝ) else .ret ((f (Function.update p j (p j + h)) k - f (Function.update p j (p j - h)) k) / (2 * h)))
  (if h = 0 then eps ^ (1 / 3 : ℝ) else h)

/-- `calcJacobianDyn` and `calcJacobianDynInPlace` (Jacobians.h:164-179, 187-204, 215-229). -/
noncomputable def calcJacobianDyn {N M : ℕ} (eps : ℝ) (f : (Fin N → ℝ) → Fin M → ℝ) (p : Fin N → ℝ) (h : ℝ) : Outcome (List (List ℝ)) :=
  collect fun i => collect fun j => nDer4PartialDyn eps f i j p h

/-- `calcJacobianDyn2` (Jacobians.h:241-256). -/
noncomputable def calcJacobianDyn2 {N M : ℕ} (eps : ℝ) (f : (Fin N → ℝ) → Fin M → ℝ) (p : Fin N → ℝ) (h : ℝ) : Outcome (List (List ℝ)) :=
  collect fun i => collect fun j => nDer2PartialDyn eps f i j p h

/-- The step for variable `j` (Jacobians.h:288, 292). -/
noncomputable def odeStep {N : ℕ} (eps h : ℝ) (x : Fin N → ℝ) (j : Fin N) : ℝ := (if 0 < h then h else Real.sqrt eps) * max |x j| 1

/-- One round of the loop of `calcJacobianODE` (Jacobians.h:290-307): the state is the moved point and the matrix. -/
noncomputable def odeColumn {N : ℕ} (F : (Fin N → ℝ) → Fin N → ℝ) (eps h : ℝ) (x : Fin N → ℝ)
    (s : (Fin N → ℝ) × (Fin N → Fin N → ℝ)) (j : Fin N) : Outcome ((Fin N → ℝ) × (Fin N → Fin N → ℝ)) :=
  if 2 * odeStep eps h x j = 0 then .ub
  else .ret (Function.update (Function.update (Function.update s.1 j (x j + odeStep eps h x j)) j (x j - odeStep eps h x j)) j (x j),
    fun a b => if b = j then (F (Function.update s.1 j (x j + odeStep eps h x j)) a -
      F (Function.update (Function.update s.1 j (x j + odeStep eps h x j)) j (x j - odeStep eps h x j)) a) / (2 * odeStep eps h x j) else s.2 a b)

/-- `calcJacobianODE` and `calcJacobianMap` (Jacobians.h:275-308, 316-325, 338-365).  Simplified: the right-hand side writes all its
components, and `t` is fixed in `F`. -/
noncomputable def calcJacobianODE {N : ℕ} (F : (Fin N → ℝ) → Fin N → ℝ) (eps h : ℝ) (x : Fin N → ℝ) : Outcome (Fin N → Fin N → ℝ) :=
  ((List.finRange N).foldlM (odeColumn F eps h x) (x, fun _ _ => 0)).bind fun s => .ret s.2

/-! ## Curves and surfaces -/

/-- `VectorN::NormL2` (base/Vector/VectorN.h:298-310). -/
noncomputable def normL2 {N : ℕ} (v : Fin N → ℝ) : ℝ := Real.sqrt (∑ k, v k ^ 2)

/-- A component of the result of a rule applied to a curve. -/
noncomputable def component {N : ℕ} (value : Fn → ℝ → ℝ → Option ℝ) (c : ℝ → Fin N → ℝ) (t h : ℝ) : Fin N → ℝ :=
  fun k => (value (fun s => some (c s k)) t h).getD 0

/-- `NDer1` of a parametric curve (DerivationParametricCurve.h:30-46, 49-52): the formula of the rule in every component.
Simplified: without the error estimate. -/
noncomputable def nDer1Curve {N : ℕ} (eps : ℝ) (c : ℝ → Fin N → ℝ) (t : ℝ) (h : Option ℝ) : Outcome (Fin N → ℝ) :=
  if h.getD (scaleStep (nDer1H eps) t) = 0 then .ub else .ret (component nDer1Value c t (h.getD (scaleStep (nDer1H eps) t)))

/-- The error estimate of `NDer1` of a curve (DerivationParametricCurve.h:30-46). -/
noncomputable def nDer1CurveError {N : ℕ} (eps : ℝ) (c : ℝ → Fin N → ℝ) (t h : ℝ) : ℝ :=
  normL2 (c (t + h) - 2 • c t + c (t - h)) / h / 2 + (normL2 (c (t + h)) + normL2 (c t)) * eps / h

/-- `NDer2` of a parametric curve (DerivationParametricCurve.h:58-72, 75-78): the formula of the rule in every component.
Simplified: without the error estimate. -/
noncomputable def nDer2Curve {N : ℕ} (eps : ℝ) (c : ℝ → Fin N → ℝ) (t : ℝ) (h : Option ℝ) : Outcome (Fin N → ℝ) :=
  if h.getD (scaleStep (nDer2H eps) t) = 0 then .ub else .ret (component nDer2Value c t (h.getD (scaleStep (nDer2H eps) t)))

/-- The error estimate of `NDer2` of a curve (DerivationParametricCurve.h:58-72). -/
noncomputable def nDer2CurveError {N : ℕ} (eps : ℝ) (c : ℝ → Fin N → ℝ) (t h : ℝ) : ℝ :=
  eps * normL2 ((1 / (2 * h)) • (c (t + h) + c (t - h))) +
    |normL2 ((1 / 2 : ℝ) • (c (t + 2 * h) - c (t - 2 * h)) - (c (t + h) - c (t - h)))| / (6 * h)

/-- `NDer4` of a parametric curve (DerivationParametricCurve.h:84-103, 106-109): the formula of the rule in every component.
Simplified: without the error estimate. -/
noncomputable def nDer4Curve {N : ℕ} (eps : ℝ) (c : ℝ → Fin N → ℝ) (t : ℝ) (h : Option ℝ) : Outcome (Fin N → ℝ) :=
  if h.getD (scaleStep (nDer4H eps) t) = 0 then .ub else .ret (component nDer4Value c t (h.getD (scaleStep (nDer4H eps) t)))

/-- The error estimate of `NDer4` of a curve (DerivationParametricCurve.h:84-103). -/
noncomputable def nDer4CurveError {N : ℕ} (eps : ℝ) (c : ℝ → Fin N → ℝ) (t h : ℝ) : ℝ :=
  |normL2 (c (t + 3 * h) - c (t - 3 * h)) / 2 + 2 * normL2 (c (t - 2 * h) - c (t + 2 * h)) + 5 * normL2 (c (t + h) - c (t - h)) / 2| / (30 * h) +
    eps * (normL2 (c (t + 2 * h)) + normL2 (c (t - 2 * h)) + 8 * (normL2 (c (t - h)) + normL2 (c (t + h)))) / (12 * h)

/-- `NDer6` of a parametric curve (DerivationParametricCurve.h:115-130, 133-136): the formula of the rule in every component.
Simplified: without the error estimate. -/
noncomputable def nDer6Curve {N : ℕ} (eps : ℝ) (c : ℝ → Fin N → ℝ) (t : ℝ) (h : Option ℝ) : Outcome (Fin N → ℝ) :=
  if h.getD (scaleStep (nDer6H eps) t) = 0 then .ub else .ret (component nDer6Value c t (h.getD (scaleStep (nDer6H eps) t)))

/-- `NDer8` of a parametric curve (DerivationParametricCurve.h:141-160, 163-166): the formula of the rule in every component.
Simplified: without the error estimate. -/
noncomputable def nDer8Curve {N : ℕ} (eps : ℝ) (c : ℝ → Fin N → ℝ) (t : ℝ) (h : Option ℝ) : Outcome (Fin N → ℝ) :=
  if h.getD (scaleStep (nDer8H eps) t) = 0 then .ub else .ret (component nDer8Value c t (h.getD (scaleStep (nDer8H eps) t)))

/-- `NSecDer2` of a parametric curve (DerivationParametricCurve.h:178-199, 201-204): the formula of the rule in every component.
Simplified: without the error estimate. -/
noncomputable def nSecDer2Curve {N : ℕ} (eps : ℝ) (c : ℝ → Fin N → ℝ) (t : ℝ) (h : Option ℝ) : Outcome (Fin N → ℝ) :=
  if h.getD (scaleStep (nDer2H eps) t) = 0 then .ub else .ret (component nSecDer2Value c t (h.getD (scaleStep (nDer2H eps) t)))

/-- `NSecDer4` of a parametric curve (DerivationParametricCurve.h:209-233, 235-238): the formula of the rule in every component.
Simplified: without the error estimate. -/
noncomputable def nSecDer4Curve {N : ℕ} (eps : ℝ) (c : ℝ → Fin N → ℝ) (t : ℝ) (h : Option ℝ) : Outcome (Fin N → ℝ) :=
  if h.getD (scaleStep (nDer4H eps) t) = 0 then .ub else .ret (component nSecDer4Value c t (h.getD (scaleStep (nDer4H eps) t)))

/-- `NThirdDer2` of a parametric curve (DerivationParametricCurve.h:250-272, 274-278): the formula of the rule in every component.
Simplified: without the error estimate. -/
noncomputable def nThirdDer2Curve {N : ℕ} (eps : ℝ) (c : ℝ → Fin N → ℝ) (t : ℝ) (h : Option ℝ) : Outcome (Fin N → ℝ) :=
  if h.getD (scaleStep (nDer4H eps) t) = 0 then .ub else .ret (component nThirdDer2Value c t (h.getD (scaleStep (nDer4H eps) t)))

/-- `NThirdDer4` of a parametric curve (DerivationParametricCurve.h:283-308, 310-313): the formula of the rule in every component.
Simplified: without the error estimate. -/
noncomputable def nThirdDer4Curve {N : ℕ} (eps : ℝ) (c : ℝ → Fin N → ℝ) (t : ℝ) (h : Option ℝ) : Outcome (Fin N → ℝ) :=
  if h.getD (scaleStep (nDer4H eps) t) = 0 then .ub else .ret (component nThirdDer4Value c t (h.getD (scaleStep (nDer4H eps) t)))

/-- `NDer1_u` of a surface (DerivationParametricSurface.h:32-48, 50-53), without the error estimate. -/
noncomputable def nDer1U {N : ℕ} (eps : ℝ) (s : ℝ → ℝ → Fin N → ℝ) (u w : ℝ) (h : Option ℝ) : Outcome (Fin N → ℝ) :=
  if h.getD (scaleStep (nDer1H eps) u) = 0 then .ub else .ret (component nDer1Value (fun a => s a w) u (h.getD (scaleStep (nDer1H eps) u)))

/-- `NDer1_w` of a surface (DerivationParametricSurface.h:55-71, 73-76), without the error estimate. -/
noncomputable def nDer1W {N : ℕ} (eps : ℝ) (s : ℝ → ℝ → Fin N → ℝ) (u w : ℝ) (h : Option ℝ) : Outcome (Fin N → ℝ) :=
  if h.getD (scaleStep (nDer1H eps) w) = 0 then .ub else .ret (component nDer1Value (fun a => s u a) w (h.getD (scaleStep (nDer1H eps) w)))

/-- `NDer2_u` of a surface (DerivationParametricSurface.h:82-96, 98-101), without the error estimate. -/
noncomputable def nDer2U {N : ℕ} (eps : ℝ) (s : ℝ → ℝ → Fin N → ℝ) (u w : ℝ) (h : Option ℝ) : Outcome (Fin N → ℝ) :=
  if h.getD (scaleStep (nDer2H eps) u) = 0 then .ub else .ret (component nDer2Value (fun a => s a w) u (h.getD (scaleStep (nDer2H eps) u)))

/-- `NDer2_w` of a surface (DerivationParametricSurface.h:103-115, 117-120), without the error estimate. -/
noncomputable def nDer2W {N : ℕ} (eps : ℝ) (s : ℝ → ℝ → Fin N → ℝ) (u w : ℝ) (h : Option ℝ) : Outcome (Fin N → ℝ) :=
  if h.getD (scaleStep (nDer2H eps) w) = 0 then .ub else .ret (component nDer2Value (fun a => s u a) w (h.getD (scaleStep (nDer2H eps) w)))

/-- `NDer2_uu` of a surface (DerivationParametricSurface.h:126-138, 140-143), without the error estimate. -/
noncomputable def nSecDer2U {N : ℕ} (eps : ℝ) (s : ℝ → ℝ → Fin N → ℝ) (u w : ℝ) (h : Option ℝ) : Outcome (Fin N → ℝ) :=
  if h.getD (scaleStep (nDer2H eps) u) = 0 then .ub else .ret (component nSecDer2Value (fun a => s a w) u (h.getD (scaleStep (nDer2H eps) u)))

/-- `NDer2_ww` of a surface (DerivationParametricSurface.h:178-190, 192-195), without the error estimate. -/
noncomputable def nSecDer2W {N : ℕ} (eps : ℝ) (s : ℝ → ℝ → Fin N → ℝ) (u w : ℝ) (h : Option ℝ) : Outcome (Fin N → ℝ) :=
  if h.getD (scaleStep (nDer2H eps) w) = 0 then .ub else .ret (component nSecDer2Value (fun a => s u a) w (h.getD (scaleStep (nDer2H eps) w)))

/-- `NDer2_uw` of a surface with its two steps (DerivationParametricSurface.h:146-163), without the error estimate. -/
noncomputable def nDer2UW {N : ℕ} (s : ℝ → ℝ → Fin N → ℝ) (u w hu hw : ℝ) : Outcome (Fin N → ℝ) :=
  if 4 * hu * hw = 0 then .ub
  else .ret fun k => (s (u + hu) (w + hw) k - s (u + hu) (w - hw) k - s (u - hu) (w + hw) k + s (u - hu) (w - hw) k) / (4 * hu * hw)

/-- `NDer2_uw` with the default step (DerivationParametricSurface.h:170-175). -/
noncomputable def nDer2UWDefault {N : ℕ} (eps : ℝ) (s : ℝ → ℝ → Fin N → ℝ) (u w : ℝ) : Outcome (Fin N → ℝ) :=
  nDer2UW s u w (scaleStep (nDer2H eps) (max |u| |w|)) (scaleStep (nDer2H eps) (max |u| |w|))

/-- The error estimate of `NDer2_uu` and, with the roles changed, of `NDer2_ww` (DerivationParametricSurface.h). -/
noncomputable def nSecDer2UError {N : ℕ} (eps : ℝ) (s : ℝ → ℝ → Fin N → ℝ) (u w h : ℝ) : ℝ :=
  normL2 (s (u + h) w - 2 • s u w + s (u - h) w) / (h * h) / 2 +
    (normL2 (s (u + h) w) + normL2 (s (u - h) w) + normL2 (s u w)) * eps / (h * h)

end Verif.Deriv
