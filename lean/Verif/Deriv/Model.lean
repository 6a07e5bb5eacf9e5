import Verif.Common
import Verif.Exit
import Mathlib.Analysis.SpecialFunctions.Pow.Real

/-!
# Model of the numerical derivatives of real functions

`mml/core/Derivation/DerivationBase.h` and `DerivationRealFunction.h`.

A function is `ℝ → Option ℝ`, with `none` for an infinity or a NaN; a formula with such a value has the value `none`,
since every sum, difference, absolute value or quotient by a finite number of a non-finite number is non-finite.
Intermediate results are exact.  The algorithm's name, the message texts and the elapsed time are left out, and the
function itself does not throw.
-/

set_option autoImplicit false

namespace Verif.Deriv

/-- A function whose values can fail to be finite. -/
abbrev Fn := ℝ → Option ℝ

/-- `ScaleStep` (DerivationBase.h:41-43). -/
noncomputable def scaleStep (h x : ℝ) : ℝ := h * max 1 |x|

/-- `NDer1_h` (DerivationBase.h:25) for the machine epsilon `eps`. -/
noncomputable def nDer1H (eps : ℝ) : ℝ := 2 * Real.sqrt eps

/-- `NDer2_h` (DerivationBase.h:28). -/
noncomputable def nDer2H (eps : ℝ) : ℝ := (3 * eps) ^ (1 / 3 : ℝ)

/-- `NDer4_h` (DerivationBase.h:31). -/
noncomputable def nDer4H (eps : ℝ) : ℝ := (11.25 * eps) ^ (1 / 5 : ℝ)

/-- `NDer6_h` (DerivationBase.h:34). -/
noncomputable def nDer6H (eps : ℝ) : ℝ := (eps / 168) ^ (1 / 7 : ℝ)

/-- `NDer8_h` (DerivationBase.h:37). -/
noncomputable def nDer8H (eps : ℝ) : ℝ := (551.25 * eps) ^ (1 / 9 : ℝ)

/-- The part of `AlgorithmStatus` used here. -/
inductive Status
  | success
  | invalidInput
  | numericalInstability
  | algorithmSpecificFailure
deriving DecidableEq

/-- `DerivativeConfig` (AlgorithmTypes.h:193-204, 254-257) with its default values; `propagate` is
`EvaluationExceptionPolicy::Propagate`. -/
structure Config where
  step : ℝ := 0
  estimateError : Bool := true
  checkFinite : Bool := true
  propagate : Bool := true

/-- `DerivativeResult<Real>` (AlgorithmTypes.h:210-248, 264-267). -/
structure Result where
  status : Status := .success
  evaluations : ℕ := 0
  value : Option ℝ := some 0
  error : Option ℝ := some 0
  step : ℝ := 0

/-- `ResolveDerivativeStep` (DerivationRealFunction.h:28-31). -/
noncomputable def resolveStep (config : Config) (dflt x : ℝ) : ℝ :=
  if config.step ≠ 0 then config.step else scaleStep dflt x

/-- The `execute` lambda of `ExecuteDerivativeDetailed` (DerivationRealFunction.h:41-66); `value` and `error` are what
`compute` returns and stores.  `ValidateStepSize` is NumericValidation.h:149-154. -/
noncomputable def execute (h : ℝ) (config : Config) (evals evalsErr : ℕ) (value error : Option ℝ) : Outcome Result :=
  if h ≤ 0 then .exn (.mml "NumericInputError")
  else if config.checkFinite = true ∧ value = none then .exn (.mml "NumericalMethodError")
  else if config.checkFinite = true ∧ config.estimateError = true ∧ error = none then
    .exn (.mml "NumericalMethodError")
  else .ret {
    evaluations := if config.estimateError then evalsErr else evals
    value := value
    error := if config.estimateError then error else some 0
    step := h }

/-- `ExecuteDerivativeDetailed` (DerivationRealFunction.h:33-89). -/
noncomputable def detailed (h : ℝ) (config : Config) (evals evalsErr : ℕ) (value error : Option ℝ) : Outcome Result :=
  if config.propagate then execute h config evals evalsErr value error
  else match execute h config evals evalsErr value error with
    | .exn (.mml "NumericInputError") => .ret { status := .invalidInput, step := h }
    | .exn (.mml "NumericalMethodError") => .ret { status := .numericalInstability, step := h }
    | .exn _ => .ret { status := .algorithmSpecificFailure, step := h }
    | o => o

/-- The overloads returning the derivative and, through a pointer, its error (DerivationRealFunction.h:118-126 and the
same lines after the other rules): `wantError` says whether the pointer is given. -/
noncomputable def simple (rule : Config → Outcome Result) (wantError : Bool) : Outcome (Option ℝ × Option ℝ) := do
  let r ← rule { estimateError := wantError }
  .ret (r.value, r.error)

/-! ## The rules -/

/-- The value computed by `NDer1Detailed` (DerivationRealFunction.h:96-111). -/
noncomputable def nDer1Value (f : Fn) (x h : ℝ) : Option ℝ := do
  let yh ← f (x + h)
  let y0 ← f x
  some ((yh - y0) / h)

/-- The error estimate of `NDer1Detailed` (DerivationRealFunction.h:96-111). -/
noncomputable def nDer1Error (eps : ℝ) (f : Fn) (x h : ℝ) : Option ℝ := do
  let yh ← f (x + h)
  let y0 ← f x
  let ym ← f (x - h)
  some (|yh - 2 * y0 + ym| / h / 2 + (|yh| + |y0|) * eps / h)

/-- `NDer1Detailed` with an explicit step (DerivationRealFunction.h:96-111). -/
noncomputable def nDer1Detailed (eps : ℝ) (f : Fn) (x h : ℝ) (config : Config) : Outcome Result :=
  detailed h config 2 3 (nDer1Value f x h) (nDer1Error eps f x h)

/-- The value computed by `NDer2Detailed` (DerivationRealFunction.h:148-166). -/
noncomputable def nDer2Value (f : Fn) (x h : ℝ) : Option ℝ := do
  let yh ← f (x + h)
  let ymh ← f (x - h)
  some ((yh - ymh) / (2 * h))

/-- The error estimate of `NDer2Detailed` (DerivationRealFunction.h:148-166). -/
noncomputable def nDer2Error (eps : ℝ) (f : Fn) (x h : ℝ) : Option ℝ := do
  let yh ← f (x + h)
  let ymh ← f (x - h)
  let y2h ← f (x + 2 * h)
  let ym2h ← f (x - 2 * h)
  some (eps * (|yh| + |ymh|) / (2 * h) + |(y2h - ym2h) / 2 - (yh - ymh)| / (6 * h))

/-- `NDer2Detailed` with an explicit step (DerivationRealFunction.h:148-166). -/
noncomputable def nDer2Detailed (eps : ℝ) (f : Fn) (x h : ℝ) (config : Config) : Outcome Result :=
  detailed h config 2 4 (nDer2Value f x h) (nDer2Error eps f x h)

/-- The value computed by `NDer4Detailed` (DerivationRealFunction.h:199-223). -/
noncomputable def nDer4Value (f : Fn) (x h : ℝ) : Option ℝ := do
  let yh ← f (x + h)
  let ymh ← f (x - h)
  let y2h ← f (x + 2 * h)
  let ym2h ← f (x - 2 * h)
  some (((ym2h - y2h) + 8 * (yh - ymh)) / (12 * h))

/-- The error estimate of `NDer4Detailed` (DerivationRealFunction.h:199-223). -/
noncomputable def nDer4Error (eps : ℝ) (f : Fn) (x h : ℝ) : Option ℝ := do
  let yh ← f (x + h)
  let ymh ← f (x - h)
  let y2h ← f (x + 2 * h)
  let ym2h ← f (x - 2 * h)
  let y3h ← f (x + 3 * h)
  let ym3h ← f (x - 3 * h)
  some (|(y3h - ym3h) / 2 + 2 * (ym2h - y2h) + 5 * (yh - ymh) / 2| / (30 * h) +
    eps * (|y2h| + |ym2h| + 8 * (|ymh| + |yh|)) / (12 * h))

/-- `NDer4Detailed` with an explicit step (DerivationRealFunction.h:199-223). -/
noncomputable def nDer4Detailed (eps : ℝ) (f : Fn) (x h : ℝ) (config : Config) : Outcome Result :=
  detailed h config 4 6 (nDer4Value f x h) (nDer4Error eps f x h)

/-- The value computed by `NDer6Detailed` (DerivationRealFunction.h:256-274). -/
noncomputable def nDer6Value (f : Fn) (x h : ℝ) : Option ℝ := do
  let yh ← f (x + h)
  let ymh ← f (x - h)
  let ym2h ← f (x - 2 * h)
  let y2h ← f (x + 2 * h)
  let y3h ← f (x + 3 * h)
  let ym3h ← f (x - 3 * h)
  some (((y3h - ym3h) + 9 * (ym2h - y2h) + 45 * (yh - ymh)) / (60 * h))

/-- The error estimate of `NDer6Detailed` (DerivationRealFunction.h:256-274). -/
noncomputable def nDer6Error (eps : ℝ) (f : Fn) (x h : ℝ) : Option ℝ := do
  let yh ← f (x + h)
  let ymh ← f (x - h)
  let ym2h ← f (x - 2 * h)
  let y2h ← f (x + 2 * h)
  let y3h ← f (x + 3 * h)
  let ym3h ← f (x - 3 * h)
  let y4h ← f (x + 4 * h)
  let ym4h ← f (x - 4 * h)
  some (|(y4h - ym4h - 6 * (y3h - ym3h) - 14 * (yh - ymh) - 14 * (ym2h - y2h)) / 2| / (140 * h) +
    5 * (|yh| + |ymh|) * eps / h)

/-- `NDer6Detailed` with an explicit step (DerivationRealFunction.h:256-274). -/
noncomputable def nDer6Detailed (eps : ℝ) (f : Fn) (x h : ℝ) (config : Config) : Outcome Result :=
  detailed h config 6 8 (nDer6Value f x h) (nDer6Error eps f x h)

/-- The value computed by `NDer8Detailed` (DerivationRealFunction.h:307-329). -/
noncomputable def nDer8Value (f : Fn) (x h : ℝ) : Option ℝ := do
  let yh ← f (x + h)
  let ymh ← f (x - h)
  let ym2h ← f (x - 2 * h)
  let y2h ← f (x + 2 * h)
  let y3h ← f (x + 3 * h)
  let ym3h ← f (x - 3 * h)
  let ym4h ← f (x - 4 * h)
  let y4h ← f (x + 4 * h)
  some (((3 * (ym4h - y4h) / 8 + 4 * (y3h - ym3h)) + (21 * (ym2h - y2h) + 84 * (yh - ymh))) / (105 * h))

/-- The error estimate of `NDer8Detailed` (DerivationRealFunction.h:307-329). -/
noncomputable def nDer8Error (eps : ℝ) (f : Fn) (x h : ℝ) : Option ℝ := do
  let yh ← f (x + h)
  let ymh ← f (x - h)
  let ym2h ← f (x - 2 * h)
  let y2h ← f (x + 2 * h)
  let y3h ← f (x + 3 * h)
  let ym3h ← f (x - 3 * h)
  let ym4h ← f (x - 4 * h)
  let y4h ← f (x + 4 * h)
  let y5h ← f (x + 5 * h)
  let ym5h ← f (x - 5 * h)
  some (|(y5h - ym5h) / 2 + 4 * (ym4h - y4h) + 27 * (y3h - ym3h) / 2 + 24 * (ym2h - y2h) + 21 * (yh - ymh)| / (630 * h) +
    7 * (|yh| + |ymh|) * eps / h)

/-- `NDer8Detailed` with an explicit step (DerivationRealFunction.h:307-329). -/
noncomputable def nDer8Detailed (eps : ℝ) (f : Fn) (x h : ℝ) (config : Config) : Outcome Result :=
  detailed h config 8 10 (nDer8Value f x h) (nDer8Error eps f x h)

/-- The value computed by `NSecDer2Detailed` (DerivationRealFunction.h:368-390). -/
noncomputable def nSecDer2Value (f : Fn) (x h : ℝ) : Option ℝ := do
  let y0 ← f x
  let yh ← f (x + h)
  let ymh ← f (x - h)
  some ((ymh - 2 * y0 + yh) / (h * h))

/-- The error estimate of `NSecDer2Detailed` (DerivationRealFunction.h:368-390). -/
noncomputable def nSecDer2Error (eps : ℝ) (f : Fn) (x h : ℝ) : Option ℝ := do
  let y0 ← f x
  let yh ← f (x + h)
  let ymh ← f (x - h)
  let y2h ← f (x + 2 * h)
  let ym2h ← f (x - 2 * h)
  some (|ym2h - 4 * ymh + 6 * y0 - 4 * yh + y2h| / (h * h) * (h * h) / 12 +
    eps * (|ymh| + 2 * |y0| + |yh|) / (h * h))

/-- `NSecDer2Detailed` with an explicit step (DerivationRealFunction.h:368-390). -/
noncomputable def nSecDer2Detailed (eps : ℝ) (f : Fn) (x h : ℝ) (config : Config) : Outcome Result :=
  detailed h config 3 5 (nSecDer2Value f x h) (nSecDer2Error eps f x h)

/-- The value computed by `NSecDer4Detailed` (DerivationRealFunction.h:413-438). -/
noncomputable def nSecDer4Value (f : Fn) (x h : ℝ) : Option ℝ := do
  let y0 ← f x
  let yh ← f (x + h)
  let ymh ← f (x - h)
  let y2h ← f (x + 2 * h)
  let ym2h ← f (x - 2 * h)
  some ((-ym2h + 16 * ymh - 30 * y0 + 16 * yh - y2h) / (12 * (h * h)))

/-- The error estimate of `NSecDer4Detailed` (DerivationRealFunction.h:413-438). -/
noncomputable def nSecDer4Error (eps : ℝ) (f : Fn) (x h : ℝ) : Option ℝ := do
  let y0 ← f x
  let yh ← f (x + h)
  let ymh ← f (x - h)
  let y2h ← f (x + 2 * h)
  let ym2h ← f (x - 2 * h)
  let y3h ← f (x + 3 * h)
  let ym3h ← f (x - 3 * h)
  some (|ym3h - 6 * ym2h + 15 * ymh - 20 * y0 + 15 * yh - 6 * y2h + y3h| / (h * h) * (h * h) * (h * h) / 90 +
    eps * (|ym2h| + 16 * |ymh| + 30 * |y0| + 16 * |yh| + |y2h|) / (12 * (h * h)))

/-- `NSecDer4Detailed` with an explicit step (DerivationRealFunction.h:413-438). -/
noncomputable def nSecDer4Detailed (eps : ℝ) (f : Fn) (x h : ℝ) (config : Config) : Outcome Result :=
  detailed h config 5 7 (nSecDer4Value f x h) (nSecDer4Error eps f x h)

/-- The value computed by `NThirdDer2Detailed` (DerivationRealFunction.h:468-491). -/
noncomputable def nThirdDer2Value (f : Fn) (x h : ℝ) : Option ℝ := do
  let yh ← f (x + h)
  let ymh ← f (x - h)
  let y2h ← f (x + 2 * h)
  let ym2h ← f (x - 2 * h)
  some ((-ym2h + 2 * ymh - 2 * yh + y2h) / (2 * (h * h * h)))

/-- The error estimate of `NThirdDer2Detailed` (DerivationRealFunction.h:468-491). -/
noncomputable def nThirdDer2Error (eps : ℝ) (f : Fn) (x h : ℝ) : Option ℝ := do
  let yh ← f (x + h)
  let ymh ← f (x - h)
  let y2h ← f (x + 2 * h)
  let ym2h ← f (x - 2 * h)
  let y3h ← f (x + 3 * h)
  let ym3h ← f (x - 3 * h)
  some (|ym3h - 3 * ym2h + 5 * ymh - 5 * yh + 3 * y2h - y3h| / (h * h * h) * h * h / 4 +
    eps * (|ym2h| + 2 * |ymh| + 2 * |yh| + |y2h|) / (2 * (h * h * h)))

/-- `NThirdDer2Detailed` with an explicit step (DerivationRealFunction.h:468-491). -/
noncomputable def nThirdDer2Detailed (eps : ℝ) (f : Fn) (x h : ℝ) (config : Config) : Outcome Result :=
  detailed h config 4 6 (nThirdDer2Value f x h) (nThirdDer2Error eps f x h)

/-- The value computed by `NThirdDer4Detailed` (DerivationRealFunction.h:514-540). -/
noncomputable def nThirdDer4Value (f : Fn) (x h : ℝ) : Option ℝ := do
  let yh ← f (x + h)
  let ymh ← f (x - h)
  let y2h ← f (x + 2 * h)
  let ym2h ← f (x - 2 * h)
  let y3h ← f (x + 3 * h)
  let ym3h ← f (x - 3 * h)
  some ((ym3h - 8 * ym2h + 13 * ymh - 13 * yh + 8 * y2h - y3h) / (8 * (h * h * h)))

/-- The error estimate of `NThirdDer4Detailed` (DerivationRealFunction.h:514-540). -/
noncomputable def nThirdDer4Error (eps : ℝ) (f : Fn) (x h : ℝ) : Option ℝ := do
  let yh ← f (x + h)
  let ymh ← f (x - h)
  let y2h ← f (x + 2 * h)
  let ym2h ← f (x - 2 * h)
  let y3h ← f (x + 3 * h)
  let ym3h ← f (x - 3 * h)
  let y4h ← f (x + 4 * h)
  let ym4h ← f (x - 4 * h)
  some (|ym4h - 4 * ym3h + 9 * ym2h - 13 * ymh + 13 * yh - 9 * y2h + 4 * y3h - y4h| / (h * h * h) * h * h * h * h / 120 +
    eps * (|ym3h| + 8 * |ym2h| + 13 * |ymh| + 13 * |yh| + 8 * |y2h| + |y3h|) / (8 * (h * h * h)))

/-- `NThirdDer4Detailed` with an explicit step (DerivationRealFunction.h:514-540). -/
noncomputable def nThirdDer4Detailed (eps : ℝ) (f : Fn) (x h : ℝ) (config : Config) : Outcome Result :=
  detailed h config 6 8 (nThirdDer4Value f x h) (nThirdDer4Error eps f x h)

/-! ## The default steps -/

/-- `NDer1` (DerivationRealFunction.h:118-134). -/
noncomputable def nDer1 (eps : ℝ) (f : Fn) (x : ℝ) (h : Option ℝ) (wantError : Bool) : Outcome (Option ℝ × Option ℝ) :=
  simple (nDer1Detailed eps f x (h.getD (scaleStep (nDer1H eps) x))) wantError

/-- `NDer2` (DerivationRealFunction.h:173-189). -/
noncomputable def nDer2 (eps : ℝ) (f : Fn) (x : ℝ) (h : Option ℝ) (wantError : Bool) : Outcome (Option ℝ × Option ℝ) :=
  simple (nDer2Detailed eps f x (h.getD (scaleStep (nDer2H eps) x))) wantError

/-- `NDer4` (DerivationRealFunction.h:230-246). -/
noncomputable def nDer4 (eps : ℝ) (f : Fn) (x : ℝ) (h : Option ℝ) (wantError : Bool) : Outcome (Option ℝ × Option ℝ) :=
  simple (nDer4Detailed eps f x (h.getD (scaleStep (nDer4H eps) x))) wantError

/-- `NDer6` (DerivationRealFunction.h:281-297). -/
noncomputable def nDer6 (eps : ℝ) (f : Fn) (x : ℝ) (h : Option ℝ) (wantError : Bool) : Outcome (Option ℝ × Option ℝ) :=
  simple (nDer6Detailed eps f x (h.getD (scaleStep (nDer6H eps) x))) wantError

/-- `NDer8` (DerivationRealFunction.h:336-352). -/
noncomputable def nDer8 (eps : ℝ) (f : Fn) (x : ℝ) (h : Option ℝ) (wantError : Bool) : Outcome (Option ℝ × Option ℝ) :=
  simple (nDer8Detailed eps f x (h.getD (scaleStep (nDer8H eps) x))) wantError

/-- `NSecDer2` (DerivationRealFunction.h:397-409). -/
noncomputable def nSecDer2 (eps : ℝ) (f : Fn) (x : ℝ) (h : Option ℝ) (wantError : Bool) : Outcome (Option ℝ × Option ℝ) :=
  simple (nSecDer2Detailed eps f x (h.getD (scaleStep (nDer2H eps) x))) wantError

/-- `NSecDer4` (DerivationRealFunction.h:445-457). -/
noncomputable def nSecDer4 (eps : ℝ) (f : Fn) (x : ℝ) (h : Option ℝ) (wantError : Bool) : Outcome (Option ℝ × Option ℝ) :=
  simple (nSecDer4Detailed eps f x (h.getD (scaleStep (nDer4H eps) x))) wantError

/-- `NThirdDer2` (DerivationRealFunction.h:498-510). -/
noncomputable def nThirdDer2 (eps : ℝ) (f : Fn) (x : ℝ) (h : Option ℝ) (wantError : Bool) : Outcome (Option ℝ × Option ℝ) :=
  simple (nThirdDer2Detailed eps f x (h.getD (scaleStep (nDer4H eps) x))) wantError

/-- `NThirdDer4` (DerivationRealFunction.h:547-559). -/
noncomputable def nThirdDer4 (eps : ℝ) (f : Fn) (x : ℝ) (h : Option ℝ) (wantError : Bool) : Outcome (Option ℝ × Option ℝ) :=
  simple (nThirdDer4Detailed eps f x (h.getD (scaleStep (nDer4H eps) x))) wantError

/-! ## One-sided derivatives -/

/-- `NDer1Left` (DerivationRealFunction.h:136-141): both overloads. -/
noncomputable def nDer1Left (eps : ℝ) (f : Fn) (x : ℝ) (h : Option ℝ) (wantError : Bool) :
    Outcome (Option ℝ × Option ℝ) :=
  nDer1 eps f (x - h.getD (scaleStep (nDer1H eps) x)) (some (h.getD (scaleStep (nDer1H eps) x))) wantError

/-- `NDer1Right` (DerivationRealFunction.h:138-143). -/
noncomputable def nDer1Right (eps : ℝ) (f : Fn) (x : ℝ) (h : Option ℝ) (wantError : Bool) :
    Outcome (Option ℝ × Option ℝ) :=
  nDer1 eps f x (some (h.getD (scaleStep (nDer1H eps) x))) wantError

/-- `NDer2Left` (DerivationRealFunction.h:191, 193): the default step shifts by two steps, the explicit one by three. -/
noncomputable def nDer2Left (eps : ℝ) (f : Fn) (x : ℝ) (h : Option ℝ) (wantError : Bool) :
    Outcome (Option ℝ × Option ℝ) :=
  match h with
  | none => nDer2 eps f (x - 2 * scaleStep (nDer2H eps) x) (some (scaleStep (nDer2H eps) x)) wantError
  | some h => nDer2 eps f (x - 3 * h) (some h) wantError

/-- `NDer2Right` (DerivationRealFunction.h:192, 194). -/
noncomputable def nDer2Right (eps : ℝ) (f : Fn) (x : ℝ) (h : Option ℝ) (wantError : Bool) :
    Outcome (Option ℝ × Option ℝ) :=
  match h with
  | none => nDer2 eps f (x + 2 * scaleStep (nDer2H eps) x) (some (scaleStep (nDer2H eps) x)) wantError
  | some h => nDer2 eps f (x + 3 * h) (some h) wantError

/-- `NDer4Left` (DerivationRealFunction.h:248, 250). -/
noncomputable def nDer4Left (eps : ℝ) (f : Fn) (x : ℝ) (h : Option ℝ) (wantError : Bool) :
    Outcome (Option ℝ × Option ℝ) :=
  nDer4 eps f (x - 4 * h.getD (scaleStep (nDer4H eps) x)) (some (h.getD (scaleStep (nDer4H eps) x))) wantError

/-- `NDer4Right` (DerivationRealFunction.h:249, 251). -/
noncomputable def nDer4Right (eps : ℝ) (f : Fn) (x : ℝ) (h : Option ℝ) (wantError : Bool) :
    Outcome (Option ℝ × Option ℝ) :=
  nDer4 eps f (x + 4 * h.getD (scaleStep (nDer4H eps) x)) (some (h.getD (scaleStep (nDer4H eps) x))) wantError

/-- `NDer6Left` (DerivationRealFunction.h:299, 301). -/
noncomputable def nDer6Left (eps : ℝ) (f : Fn) (x : ℝ) (h : Option ℝ) (wantError : Bool) :
    Outcome (Option ℝ × Option ℝ) :=
  nDer6 eps f (x - 5 * h.getD (scaleStep (nDer6H eps) x)) (some (h.getD (scaleStep (nDer6H eps) x))) wantError

/-- `NDer6Right` (DerivationRealFunction.h:300, 302). -/
noncomputable def nDer6Right (eps : ℝ) (f : Fn) (x : ℝ) (h : Option ℝ) (wantError : Bool) :
    Outcome (Option ℝ × Option ℝ) :=
  nDer6 eps f (x + 5 * h.getD (scaleStep (nDer6H eps) x)) (some (h.getD (scaleStep (nDer6H eps) x))) wantError

/-- `NDer8Left` (DerivationRealFunction.h:354, 356). -/
noncomputable def nDer8Left (eps : ℝ) (f : Fn) (x : ℝ) (h : Option ℝ) (wantError : Bool) :
    Outcome (Option ℝ × Option ℝ) :=
  nDer8 eps f (x - 6 * h.getD (scaleStep (nDer8H eps) x)) (some (h.getD (scaleStep (nDer8H eps) x))) wantError

/-- `NDer8Right` (DerivationRealFunction.h:355, 357). -/
noncomputable def nDer8Right (eps : ℝ) (f : Fn) (x : ℝ) (h : Option ℝ) (wantError : Bool) :
    Outcome (Option ℝ × Option ℝ) :=
  nDer8 eps f (x + 6 * h.getD (scaleStep (nDer8H eps) x)) (some (h.getD (scaleStep (nDer8H eps) x))) wantError

end Verif.Deriv
