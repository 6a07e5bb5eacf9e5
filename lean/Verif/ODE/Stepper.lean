import Verif.ODE.Model
import Verif.Interp.Model
import Mathlib.Analysis.SpecialFunctions.Pow.Real

/-!
# The adaptive Runge–Kutta steppers (mml/algorithms/ODESolvers/ODESteppers.h)
-/

set_option autoImplicit false

namespace Verif.ODE

open Outcome

/-- `Constants::Eps` (MMLBase.h:129), for `Real = double`. -/
noncomputable def epsR : ℝ := 1 / 2 ^ 52

/-- `Precision::DivisionSafetyThreshold` (MMLPrecision.h), for `Real = double`. -/
noncomputable def tinyR : ℝ := 1 / 10 ^ 30

/-- `StepResult` (ODESteppers.h:26-39), without the counter of function evaluations and the
diagnostics. -/
structure StepResult where
  accepted : Bool
  hDone : ℝ
  hNext : ℝ
  errMax : ℝ

/-- The data members of the three Runge–Kutta steppers that outlive a call (ODESteppers.h:101-117, 149;
331-342; 535-545).  `first` and `last` are the derivatives at both ends of the step (`_k1` and `_k7`, `_k1`
and `_dxNew`, `_k[0]` and `_k[12]`) and `xEnd` is the state at its end, which the Dormand–Prince 5 stepper
recomputes from its stages (ODESteppers.h:219-221, 275-300).  The old contents of the other stages are overwritten
before they are read. -/
structure Stepper where
  n : ℕ
  first : List ℝ
  last : List ℝ
  xOld : List ℝ
  xEnd : List ℝ
  tOld : ℝ
  hDone : ℝ
  stepReady : Bool
  haveFSAL : Bool
  errOld : ℝ

/-- The constructors (ODESteppers.h:152-168, 379-395, 573-586). -/
def Stepper.new (sys : System) : Stepper :=
  ⟨sys.dim, zeros sys.dim, zeros sys.dim, zeros sys.dim, zeros sys.dim, 0, 0, false, false, 1⟩

/-- `resetFSAL()` (ODESteppers.h:310-314, 513-515, 755-759; the Cash–Karp stepper has no FSAL state and
keeps no old error, so clearing them as well makes no difference). -/
def Stepper.resetFSAL (s : Stepper) : Stepper :=
  { s with stepReady := false, haveFSAL := false, errOld := 1 }

/-- What one pass of a stepper's loop has computed when it comes to the error test: the derivatives at the
start and (for the Dormand–Prince steppers) the last stage, the new state and the largest scaled error
before the division by the tolerance. -/
structure Trial where
  first : List ℝ
  last : List ℝ
  xNew : List ℝ
  err : ℝ

/-- The body of the error loop (ODESteppers.h:228-232, 435-439, 674-681). -/
noncomputable def errBody (x k1 : List ℝ) (h : ℝ) (row : List ℚ) (ks : List (List ℝ)) (m : ℝ) (i : ℕ) :
    Outcome ℝ := do
  let e ← estimate h row ks i
  let xi ← index x i
  let ki ← index k1 i
  ret (max m (|e| / (|xi| + |h * ki| + tinyR)))

/-- The stages, new state and error of the Dormand–Prince 5 stepper for one step size
(ODESteppers.h:188-232).  The scratch vectors handed to `derivs` are taken to be zero. -/
noncomputable def dp5Trial (sys : System) (n : ℕ) (t : ℝ) (x k1 : List ℝ) (h : ℝ) : Outcome Trial := do
  let xt ← fill n (zeros n) (advance x h [DP5.a21] [k1])
  let k2 ← sys.derivs (t + DP5.c2 * h) xt (zeros n)
  let xt ← fill n xt (advance x h [DP5.a31, DP5.a32] [k1, k2])
  let k3 ← sys.derivs (t + DP5.c3 * h) xt (zeros n)
  let xt ← fill n xt (advance x h [DP5.a41, DP5.a42, DP5.a43] [k1, k2, k3])
  let k4 ← sys.derivs (t + DP5.c4 * h) xt (zeros n)
  let xt ← fill n xt (advance x h [DP5.a51, DP5.a52, DP5.a53, DP5.a54] [k1, k2, k3, k4])
  let k5 ← sys.derivs (t + DP5.c5 * h) xt (zeros n)
  let xt ← fill n xt
    (advance x h [DP5.a61, DP5.a62, DP5.a63, DP5.a64, DP5.a65] [k1, k2, k3, k4, k5])
  let k6 ← sys.derivs (t + DP5.c6 * h) xt (zeros n)
  let xNew ← fill n (zeros n)
    (advance x h [DP5.b1, DP5.b3, DP5.b4, DP5.b5, DP5.b6] [k1, k3, k4, k5, k6])
  let k7 ← sys.derivs (t + h) xNew (zeros n)
  let err ← forRange n 0 (errBody x k1 h [DP5.e1, DP5.e3, DP5.e4, DP5.e5, DP5.e6, DP5.e7]
    [k1, k3, k4, k5, k6, k7])
  ret ⟨k1, k7, xNew, err⟩

/-- The stages, new state and error of the Cash–Karp stepper for one step size (ODESteppers.h:405-439).
The field `last` is not set by the code at this point. -/
noncomputable def ckTrial (sys : System) (n : ℕ) (t : ℝ) (x k1 : List ℝ) (h : ℝ) : Outcome Trial := do
  let xt ← fill n (zeros n) (advance x h [CK.a21] [k1])
  let k2 ← sys.derivs (t + CK.c2 * h) xt (zeros n)
  let xt ← fill n xt (advance x h [CK.a31, CK.a32] [k1, k2])
  let k3 ← sys.derivs (t + CK.c3 * h) xt (zeros n)
  let xt ← fill n xt (advance x h [CK.a41, CK.a42, CK.a43] [k1, k2, k3])
  let k4 ← sys.derivs (t + CK.c4 * h) xt (zeros n)
  let xt ← fill n xt (advance x h [CK.a51, CK.a52, CK.a53, CK.a54] [k1, k2, k3, k4])
  let k5 ← sys.derivs (t + CK.c5 * h) xt (zeros n)
  let xt ← fill n xt (advance x h [CK.a61, CK.a62, CK.a63, CK.a64, CK.a65] [k1, k2, k3, k4, k5])
  let k6 ← sys.derivs (t + CK.c6 * h) xt (zeros n)
  let xNew ← fill n (zeros n) (advance x h [CK.b1, CK.b3, CK.b4, CK.b6] [k1, k3, k4, k6])
  let err ← forRange n 0 (errBody x k1 h [CK.e1, CK.e3, CK.e4, CK.e5, CK.e6] [k1, k3, k4, k5, k6])
  ret ⟨k1, k1, xNew, err⟩

/-- The stages, new state and error of the Dormand–Prince 8 stepper for one step size
(ODESteppers.h:603-681).  The code leaves out the terms whose table coefficient is zero. -/
noncomputable def dp8Trial (sys : System) (n : ℕ) (t : ℝ) (x k0 : List ℝ) (h : ℝ) : Outcome Trial := do
  let xt ← fill n (zeros n) (advance x h DP8.a2 [k0])
  let k1 ← sys.derivs (t + (DP8.c.getD 1 0 : ℚ) * h) xt (zeros n)
  let xt ← fill n xt (advance x h DP8.a3 [k0, k1])
  let k2 ← sys.derivs (t + (DP8.c.getD 2 0 : ℚ) * h) xt (zeros n)
  let xt ← fill n xt (advance x h DP8.a4 [k0, k1, k2])
  let k3 ← sys.derivs (t + (DP8.c.getD 3 0 : ℚ) * h) xt (zeros n)
  let xt ← fill n xt (advance x h DP8.a5 [k0, k1, k2, k3])
  let k4 ← sys.derivs (t + (DP8.c.getD 4 0 : ℚ) * h) xt (zeros n)
  let xt ← fill n xt (advance x h DP8.a6 [k0, k1, k2, k3, k4])
  let k5 ← sys.derivs (t + (DP8.c.getD 5 0 : ℚ) * h) xt (zeros n)
  let xt ← fill n xt (advance x h DP8.a7 [k0, k1, k2, k3, k4, k5])
  let k6 ← sys.derivs (t + (DP8.c.getD 6 0 : ℚ) * h) xt (zeros n)
  let xt ← fill n xt (advance x h DP8.a8 [k0, k1, k2, k3, k4, k5, k6])
  let k7 ← sys.derivs (t + (DP8.c.getD 7 0 : ℚ) * h) xt (zeros n)
  let xt ← fill n xt (advance x h DP8.a9 [k0, k1, k2, k3, k4, k5, k6, k7])
  let k8 ← sys.derivs (t + (DP8.c.getD 8 0 : ℚ) * h) xt (zeros n)
  let xt ← fill n xt (advance x h DP8.a10 [k0, k1, k2, k3, k4, k5, k6, k7, k8])
  let k9 ← sys.derivs (t + (DP8.c.getD 9 0 : ℚ) * h) xt (zeros n)
  let xt ← fill n xt (advance x h DP8.a11 [k0, k1, k2, k3, k4, k5, k6, k7, k8, k9])
  let k10 ← sys.derivs (t + (DP8.c.getD 10 0 : ℚ) * h) xt (zeros n)
  let xt ← fill n xt (advance x h DP8.a12 [k0, k1, k2, k3, k4, k5, k6, k7, k8, k9, k10])
  let k11 ← sys.derivs (t + (DP8.c.getD 11 0 : ℚ) * h) xt (zeros n)
  let xt ← fill n xt (advance x h DP8.a13 [k0, k1, k2, k3, k4, k5, k6, k7, k8, k9, k10, k11])
  let k12 ← sys.derivs (t + (DP8.c.getD 12 0 : ℚ) * h) xt (zeros n)
  let xNew ← fill n xt (advance x h DP8.b8 [k0, k1, k2, k3, k4, k5, k6, k7, k8, k9, k10, k11, k12])
  let err ← forRange n 0 (errBody x k0 h (diffs DP8.b8 DP8.b7)
    [k0, k1, k2, k3, k4, k5, k6, k7, k8, k9, k10, k11, k12])
  ret ⟨k0, k12, xNew, err⟩

/-- `std::max(lo, std::min(hi, c * std::pow(e, -a) * g))` (ODESteppers.h:253-255, 701-703).
For `e = 0` the power is infinite, for `e < 0` it is not a number; both give `hi`. -/
noncomputable def growth (lo hi c a e g : ℝ) : ℝ :=
  if e ≤ 0 then max lo hi else max lo (min hi (c * e ^ (-a) * g))

/-- `std::max(MIN_FACTOR, SAFETY * std::pow(errMax, -ALPHA))` (ODESteppers.h:262-264, 710-712), for
`errMax > 1`. -/
noncomputable def shrink (lo c a e : ℝ) : ℝ := max lo (c * e ^ (-a))

/-- The shape of the three `doStep` loops: an attempt with step size `h` (told whether it is the first one)
either accepts or proposes a smaller step size, which is an error when it is below `Eps`.  The loop of the
code has no limit; `fuel` bounds the number of attempts, and running out of it is `ub`. -/
noncomputable def retryLoop {R : Type} (attempt : Bool → ℝ → Outcome (R ⊕ ℝ)) :
    ℕ → Bool → ℝ → Outcome R
  | 0, _, _ => ub
  | k + 1, isFirst, h => do
    match ← attempt isFirst h with
    | .inl r => ret r
    | .inr h' => if |h'| < epsR then exn (.mml "ODESolverError") else retryLoop attempt k false h'

/-- Attempts enough for step sizes that shrink by a tenth each time to fall from `h` below `Eps`. -/
noncomputable def attempts (h : ℝ) : ℕ := ⌈9 * |h| / epsR⌉₊ + 2

/-- The result of `doStep`: the stepper, `x`, `dxdt` and the returned `StepResult`. -/
structure Stepped where
  st : Stepper
  x : List ℝ
  dxdt : List ℝ
  res : StepResult

/-- One pass of `DormandPrince5_Stepper::doStep` (ODESteppers.h:179-270). -/
noncomputable def dp5Attempt (sys : System) (s : Stepper) (t : ℝ) (x dxdt : List ℝ) (eps : ℝ)
    (isFirst : Bool) (h : ℝ) : Outcome (Stepped ⊕ ℝ) := do
  let tr ← dp5Trial sys s.n t x (if isFirst && s.haveFSAL then s.last else dxdt) h
  let e ← Interp.fdiv tr.err eps
  if e ≤ 1 then
    ret (.inl ⟨{ s with first := tr.first, last := tr.last, xOld := x, xEnd := tr.xNew, tOld := t, hDone := h, stepReady := true, haveFSAL := true, errOld := max e (1 / 10 ^ 4) },
      tr.xNew, tr.last,
      ⟨true, h, h * growth (2 / 10) 10 (9 / 10) (17 / 100) e (s.errOld ^ (4 / 100 : ℝ)), e⟩⟩)
  else ret (.inr (h * shrink (2 / 10) (9 / 10) (17 / 100) e))

/-- `DormandPrince5_Stepper::doStep` (ODESteppers.h:170-273).  An exception leaves the stepper in a state
that is not described. -/
noncomputable def dp5DoStep (sys : System) (s : Stepper) (t : ℝ) (x dxdt : List ℝ) (htry eps : ℝ) :
    Outcome Stepped :=
  retryLoop (dp5Attempt sys s t x dxdt eps) (attempts htry) true htry

/-- `result.hNext` of the Cash–Karp stepper (ODESteppers.h:460-463). -/
noncomputable def ckNext (h e : ℝ) : ℝ :=
  if e > 189 / 10 ^ 6 then 9 / 10 * h * e ^ (-(2 / 10) : ℝ) else 5 * h

/-- The reduced step of the Cash–Karp stepper (ODESteppers.h:469-470). -/
noncomputable def ckReduce (h e : ℝ) : ℝ :=
  if h ≥ 0 then max (9 / 10 * h * e ^ (-(1 / 4) : ℝ)) (1 / 10 * h)
  else min (9 / 10 * h * e ^ (-(1 / 4) : ℝ)) (1 / 10 * h)

/-- One pass of `CashKarp_Stepper::doStep` (ODESteppers.h:403-474). -/
noncomputable def ckAttempt (sys : System) (s : Stepper) (t : ℝ) (x dxdt : List ℝ) (eps : ℝ)
    (_isFirst : Bool) (h : ℝ) : Outcome (Stepped ⊕ ℝ) := do
  let tr ← ckTrial sys s.n t x dxdt h
  let e ← Interp.fdiv tr.err eps
  if e ≤ 1 then do
    let d ← sys.derivs (t + h) tr.xNew dxdt
    ret (.inl ⟨{ s with first := tr.first, last := d, xOld := x, xEnd := tr.xNew, tOld := t, hDone := h, stepReady := true },
      tr.xNew, d, ⟨true, h, ckNext h e, e⟩⟩)
  else ret (.inr (ckReduce h e))

/-- `CashKarp_Stepper::doStep` (ODESteppers.h:397-477). -/
noncomputable def ckDoStep (sys : System) (s : Stepper) (t : ℝ) (x dxdt : List ℝ) (htry eps : ℝ) :
    Outcome Stepped :=
  retryLoop (ckAttempt sys s t x dxdt eps) (attempts htry) true htry

/-- One pass of `DormandPrince8_Stepper::doStep` (ODESteppers.h:595-717).  `_errOld` is written but never
read by this stepper. -/
noncomputable def dp8Attempt (sys : System) (s : Stepper) (t : ℝ) (x dxdt : List ℝ) (eps : ℝ)
    (isFirst : Bool) (h : ℝ) : Outcome (Stepped ⊕ ℝ) := do
  let tr ← dp8Trial sys s.n t x (if isFirst && s.haveFSAL then s.last else dxdt) h
  let e ← Interp.fdiv tr.err eps
  if e ≤ 1 then
    ret (.inl ⟨{ s with first := tr.first, last := tr.last, xOld := x, xEnd := tr.xNew, tOld := t, hDone := h, stepReady := true, haveFSAL := true, errOld := max e (1 / 10 ^ 4) },
      tr.xNew, tr.last, ⟨true, h, h * growth (2 / 10) 6 (9 / 10) (1 / 8) e 1, e⟩⟩)
  else ret (.inr (h * shrink (2 / 10) (9 / 10) (1 / 8) e))

/-- `DormandPrince8_Stepper::doStep` (ODESteppers.h:588-720). -/
noncomputable def dp8DoStep (sys : System) (s : Stepper) (t : ℝ) (x dxdt : List ℝ) (htry eps : ℝ) :
    Outcome Stepped :=
  retryLoop (dp8Attempt sys s t x dxdt eps) (attempts htry) true htry

/-- `interpolate(t)` (ODESteppers.h:275-300, 479-501, 722-745).  For a step of length zero the quotient is
not a number and so is the result, modelled as `ub`. -/
noncomputable def Stepper.interpolate (s : Stepper) (t : ℝ) : Outcome (List ℝ) :=
  if !s.stepReady then exn (.mml "ODESolverError")
  else do
    let θ ← Interp.fdiv (t - s.tOld) s.hDone
    fill s.n (zeros s.n) (fun i => do
      let xo ← index s.xOld i
      let k1 ← index s.first i
      let xe ← index s.xEnd i
      let k7 ← index s.last i
      ret ((2 * θ ^ 3 - 3 * θ ^ 2 + 1) * xo + (θ ^ 3 - 2 * θ ^ 2 + θ) * (s.hDone * k1)
        + (-2 * θ ^ 3 + 3 * θ ^ 2) * xe + (θ ^ 3 - θ ^ 2) * (s.hDone * k7)))

end Verif.ODE
