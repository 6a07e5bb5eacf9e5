import Verif.Common
import Mathlib.Analysis.SpecialFunctions.Pow.Real
import Mathlib.Analysis.SpecialFunctions.Trigonometric.Inverse
import Mathlib.Analysis.SpecialFunctions.Trigonometric.Arctan
import Mathlib.Analysis.SpecialFunctions.Complex.Arg

/-!
# Model of forward-mode automatic differentiation

`mml/core/Derivation/ForwardAD.h`.  Values are exact real numbers; an operation whose result would be an infinity or a NaN
(a quotient by zero, the logarithm of a number that is not positive, ...) is undefined (`.ub`).
-/

set_option autoImplicit false

namespace Verif.AD

open Verif

/-- `Dual` (ForwardAD.h:42-60). -/
@[ext] structure Dual where
  value : ℝ
  deriv : ℝ

open Classical in
/-- `std::pow` where it is finite, on exact numbers. -/
noncomputable def stdPow (x y : ℝ) : Outcome ℝ :=
  if 0 < x then .ret (x ^ y)
  else if x = 0 then (if 0 < y then .ret 0 else if y = 0 then .ret 1 else .ub)
  else if ∃ n : ℤ, (n : ℝ) = y then .ret (x ^ y)
  else .ub

/-- A quotient, finite unless the divisor is zero. -/
noncomputable def quot (a b : ℝ) : Outcome ℝ := if b = 0 then .ub else .ret (a / b)

/-- `std::log`. -/
noncomputable def stdLog (x : ℝ) : Outcome ℝ := if x ≤ 0 then .ub else .ret (Real.log x)

/-- `std::sqrt`. -/
noncomputable def stdSqrt (x : ℝ) : Outcome ℝ := if x < 0 then .ub else .ret (Real.sqrt x)

namespace Dual

/-! ## Operators -/

/-- A constant (ForwardAD.h:51, 57-58). -/
def const (c : ℝ) : Dual := ⟨c, 0⟩

/-- `operator+` (ForwardAD.h:95-98). -/
def add (a b : Dual) : Dual := ⟨a.value + b.value, a.deriv + b.deriv⟩

/-- `operator-` (ForwardAD.h:100-103). -/
def sub (a b : Dual) : Dual := ⟨a.value - b.value, a.deriv - b.deriv⟩

/-- `operator*` (ForwardAD.h:105-109). -/
def mul (a b : Dual) : Dual := ⟨a.value * b.value, a.deriv * b.value + a.value * b.deriv⟩

/-- `operator/` (ForwardAD.h:111-116). -/
noncomputable def div (a b : Dual) : Outcome Dual := do
  let inv ← quot 1 b.value
  .ret ⟨a.value * inv, (a.deriv * b.value - a.value * b.deriv) * inv * inv⟩

/-- Unary `operator-` (ForwardAD.h:118-121). -/
def neg (a : Dual) : Dual := ⟨-a.value, -a.deriv⟩

/-- `operator+=` (ForwardAD.h:64-68). -/
def addAssign (a b : Dual) : Dual := ⟨a.value + b.value, a.deriv + b.deriv⟩

/-- `operator-=` (ForwardAD.h:70-74). -/
def subAssign (a b : Dual) : Dual := ⟨a.value - b.value, a.deriv - b.deriv⟩

/-- `operator*=` (ForwardAD.h:76-81). -/
def mulAssign (a b : Dual) : Dual := ⟨a.value * b.value, a.deriv * b.value + a.value * b.deriv⟩

/-- `operator/=` (ForwardAD.h:83-88). -/
noncomputable def divAssign (a b : Dual) : Outcome Dual := do
  let d ← quot (a.deriv * b.value - a.value * b.deriv) (b.value * b.value)
  let v ← quot a.value b.value
  .ret ⟨v, d⟩

/-! ## Functions -/

/-- `sqrt` (ForwardAD.h:179-183). -/
noncomputable def sqrt (x : Dual) : Outcome Dual := do
  let sq ← stdSqrt x.value
  let d ← quot x.deriv (2 * sq)
  .ret ⟨sq, d⟩

/-- `pow` with a constant exponent (ForwardAD.h:205-209). -/
noncomputable def powConst (base : Dual) (exp : ℝ) : Outcome Dual := do
  let p ← stdPow base.value exp
  let q ← stdPow base.value (exp - 1)
  .ret ⟨p, exp * q * base.deriv⟩

/-- `pow` with a constant base (ForwardAD.h:211-216). -/
noncomputable def constPow (base : ℝ) (exp : Dual) : Outcome Dual := do
  let p ← stdPow base exp.value
  let l ← stdLog base
  .ret ⟨p, p * l * exp.deriv⟩

/-- The general case of `pow` (ForwardAD.h:197-202). -/
noncomputable def powGeneral (base exp : Dual) : Outcome Dual := do
  let p ← stdPow base.value exp.value
  let l ← stdLog base.value
  let r ← quot (exp.value * base.deriv) base.value
  .ret ⟨p, p * (exp.deriv * l + r)⟩

/-- `pow` of two duals (ForwardAD.h:186-203). -/
noncomputable def pow (base exp : Dual) : Outcome Dual :=
  if exp.deriv = 0 then powConst base exp.value
  else if base.deriv = 0 then constPow base.value exp
  else powGeneral base exp

/-- `exp` (ForwardAD.h:219-223). -/
noncomputable def exp (x : Dual) : Dual := ⟨Real.exp x.value, Real.exp x.value * x.deriv⟩

/-- `log` (ForwardAD.h:226-229). -/
noncomputable def log (x : Dual) : Outcome Dual := do
  let l ← stdLog x.value
  let d ← quot x.deriv x.value
  .ret ⟨l, d⟩

/-- `log10` (ForwardAD.h:232-236); `std::log10` is the logarithm over `log 10`. -/
noncomputable def log10 (x : Dual) : Outcome Dual := do
  let l ← stdLog x.value
  let d ← quot x.deriv (x.value * Real.log 10)
  .ret ⟨l / Real.log 10, d⟩

/-- `sin` (ForwardAD.h:239-242). -/
noncomputable def sin (x : Dual) : Dual := ⟨Real.sin x.value, Real.cos x.value * x.deriv⟩

/-- `cos` (ForwardAD.h:245-248). -/
noncomputable def cos (x : Dual) : Dual := ⟨Real.cos x.value, -Real.sin x.value * x.deriv⟩

/-- `tan` (ForwardAD.h:251-255). -/
noncomputable def tan (x : Dual) : Outcome Dual := do
  let d ← quot x.deriv (Real.cos x.value * Real.cos x.value)
  .ret ⟨Real.tan x.value, d⟩

/-- `asin` (ForwardAD.h:258-262); `tiny` is the smallest positive normal number. -/
noncomputable def asin (tiny : ℝ) (x : Dual) : Outcome Dual :=
  if x.value < -1 ∨ 1 < x.value then .ub
  else do
    let d ← quot x.deriv (Real.sqrt (max (1 - x.value * x.value) tiny))
    .ret ⟨Real.arcsin x.value, d⟩

/-- `acos` (ForwardAD.h:265-269). -/
noncomputable def acos (tiny : ℝ) (x : Dual) : Outcome Dual :=
  if x.value < -1 ∨ 1 < x.value then .ub
  else do
    let d ← quot (-x.deriv) (Real.sqrt (max (1 - x.value * x.value) tiny))
    .ret ⟨Real.arccos x.value, d⟩

/-- `atan` (ForwardAD.h:272-275). -/
noncomputable def atan (x : Dual) : Dual := ⟨Real.arctan x.value, x.deriv / (1 + x.value * x.value)⟩

/-- `sinh` (ForwardAD.h:278-281). -/
noncomputable def sinh (x : Dual) : Dual := ⟨Real.sinh x.value, Real.cosh x.value * x.deriv⟩

/-- `cosh` (ForwardAD.h:284-287). -/
noncomputable def cosh (x : Dual) : Dual := ⟨Real.cosh x.value, Real.sinh x.value * x.deriv⟩

/-- `tanh` (ForwardAD.h:290-294). -/
noncomputable def tanh (x : Dual) : Dual := ⟨Real.tanh x.value, (1 - Real.tanh x.value * Real.tanh x.value) * x.deriv⟩

/-- `abs` (ForwardAD.h:297-304). -/
noncomputable def abs (x : Dual) : Dual := if x.value ≥ 0 then x else ⟨-x.value, -x.deriv⟩

/-- `floor` (ForwardAD.h:307-310). -/
noncomputable def floor (x : Dual) : Dual := ⟨⌊x.value⌋, 0⟩

/-- `ceil` (ForwardAD.h:313-316). -/
noncomputable def ceil (x : Dual) : Dual := ⟨⌈x.value⌉, 0⟩

/-- `atan2` (ForwardAD.h:319-326); `std::atan2 y x` is the argument of `x + i y`. -/
noncomputable def atan2 (y x : Dual) : Outcome Dual := do
  let d ← quot (x.value * y.deriv - y.value * x.deriv) (x.value * x.value + y.value * y.value)
  .ret ⟨Complex.arg ⟨x.value, y.value⟩, d⟩

/-- `fma` (ForwardAD.h:329-332). -/
def fma (a b c : Dual) : Dual := (a.mul b).add c

end Dual

/-! ## Functions written with duals -/

/-- The comparisons (ForwardAD.h:156-172), all on the values. -/
inductive Cmp
  | eq | ne | lt | le | gt | ge

/-- What a comparison answers on values (ForwardAD.h:156-172). -/
noncomputable def Cmp.holds : Cmp → ℝ → ℝ → Bool
  | .eq, a, b => a = b
  | .ne, a, b => a ≠ b
  | .lt, a, b => a < b
  | .le, a, b => a ≤ b
  | .gt, a, b => a > b
  | .ge, a, b => a ≥ b

/-- The functions a user can write with the operations on duals in `n` variables: expressions with branches on comparisons.
Operations with a scalar convert it to a constant first (ForwardAD.h:129-150). -/
inductive Expr (n : ℕ)
  | var (i : Fin n)
  | const (c : ℝ)
  | add (a b : Expr n)
  | sub (a b : Expr n)
  | mul (a b : Expr n)
  | div (a b : Expr n)
  | neg (a : Expr n)
  | sqrt (a : Expr n)
  | pow (a b : Expr n)
  | powConst (a : Expr n) (c : ℝ)
  | constPow (c : ℝ) (a : Expr n)
  | exp (a : Expr n)
  | log (a : Expr n)
  | log10 (a : Expr n)
  | sin (a : Expr n)
  | cos (a : Expr n)
  | tan (a : Expr n)
  | asin (a : Expr n)
  | acos (a : Expr n)
  | atan (a : Expr n)
  | sinh (a : Expr n)
  | cosh (a : Expr n)
  | tanh (a : Expr n)
  | abs (a : Expr n)
  | floor (a : Expr n)
  | ceil (a : Expr n)
  | atan2 (y x : Expr n)
  | fma (a b c : Expr n)
  | branch (cmp : Cmp) (a b yes no : Expr n)

/-- Evaluating a function on duals. -/
noncomputable def Expr.dual {n : ℕ} (tiny : ℝ) (x : Fin n → Dual) : Expr n → Outcome Dual
  | .var i => .ret (x i)
  | .const c => .ret (Dual.const c)
  | .add a b => do let u ← a.dual tiny x; let v ← b.dual tiny x; .ret (u.add v)
  | .sub a b => do let u ← a.dual tiny x; let v ← b.dual tiny x; .ret (u.sub v)
  | .mul a b => do let u ← a.dual tiny x; let v ← b.dual tiny x; .ret (u.mul v)
  | .div a b => do let u ← a.dual tiny x; let v ← b.dual tiny x; u.div v
  | .neg a => do let u ← a.dual tiny x; .ret u.neg
  | .sqrt a => do let u ← a.dual tiny x; u.sqrt
  | .pow a b => do let u ← a.dual tiny x; let v ← b.dual tiny x; u.pow v
  | .powConst a c => do let u ← a.dual tiny x; u.powConst c
  | .constPow c a => do let u ← a.dual tiny x; Dual.constPow c u
  | .exp a => do let u ← a.dual tiny x; .ret u.exp
  | .log a => do let u ← a.dual tiny x; u.log
  | .log10 a => do let u ← a.dual tiny x; u.log10
  | .sin a => do let u ← a.dual tiny x; .ret u.sin
  | .cos a => do let u ← a.dual tiny x; .ret u.cos
  | .tan a => do let u ← a.dual tiny x; u.tan
  | .asin a => do let u ← a.dual tiny x; u.asin tiny
  | .acos a => do let u ← a.dual tiny x; u.acos tiny
  | .atan a => do let u ← a.dual tiny x; .ret u.atan
  | .sinh a => do let u ← a.dual tiny x; .ret u.sinh
  | .cosh a => do let u ← a.dual tiny x; .ret u.cosh
  | .tanh a => do let u ← a.dual tiny x; .ret u.tanh
  | .abs a => do let u ← a.dual tiny x; .ret u.abs
  | .floor a => do let u ← a.dual tiny x; .ret u.floor
  | .ceil a => do let u ← a.dual tiny x; .ret u.ceil
  | .atan2 a b => do let u ← a.dual tiny x; let v ← b.dual tiny x; u.atan2 v
  | .fma a b c => do let u ← a.dual tiny x; let v ← b.dual tiny x; let w ← c.dual tiny x; .ret (u.fma v w)
  | .branch cmp a b yes no => do
    let u ← a.dual tiny x
    let v ← b.dual tiny x
    if cmp.holds u.value v.value then yes.dual tiny x else no.dual tiny x

/-- `derivative` (ForwardAD.h:354-359). -/
noncomputable def derivative (f : Dual → Outcome Dual) (x : ℝ) : Outcome (ℝ × ℝ) := do
  let r ← f ⟨x, 1⟩
  .ret (r.value, r.deriv)

/-- The loop of `gradient` (ForwardAD.h:368-380) over the remaining indices: all duals are given derivative zero, variable `i`
is seeded with one. -/
noncomputable def gradientLoop {n : ℕ} (f : (Fin n → Dual) → Outcome Dual) (x : Fin n → ℝ) : List (Fin n) → Outcome (List ℝ)
  | [] => .ret []
  | i :: l => do
    let r ← f (Function.update (fun j => ⟨x j, 0⟩) i ⟨x i, 1⟩)
    let rest ← gradientLoop f x l
    .ret (r.deriv :: rest)

/-- `gradient` (ForwardAD.h:363-383). -/
noncomputable def gradient {n : ℕ} (f : (Fin n → Dual) → Outcome Dual) (x : Fin n → ℝ) : Outcome (List ℝ) :=
  gradientLoop f x (List.finRange n)

end Verif.AD
