import Verif.ODE.Stepper
import Verif.ODE.Solution

/-!
# The adaptive integrator (mml/algorithms/ODESolvers/ODESolverAdaptive.h)

The stepper is a parameter `doStep`, one of `dp5DoStep`, `ckDoStep`, `dp8DoStep`, `bsDoStep seq`.
-/

set_option autoImplicit false

namespace Verif.ODE

open Outcome

/-- The type of a stepper's `doStep`. -/
abbrev DoStep := System → Stepper → ℝ → List ℝ → List ℝ → ℝ → ℝ → Outcome Stepped

/-- The body of the loop for `d0` and `d1` of `estimateInitialStep` (ODESolverAdaptive.h:183-187). -/
noncomputable def estBody (x0 f0 : List ℝ) (d : ℝ × ℝ) (i : ℕ) : Outcome (ℝ × ℝ) := do
  let a ← index x0 i
  let b ← index f0 i
  let q ← Interp.fdiv |a| (|a| + 1 / 10 ^ 10)
  let r ← Interp.fdiv |b| (|a| + 1 / 10 ^ 10)
  ret (max d.1 q, max d.2 r)

/-- The body of the loop for `d2` (ODESolverAdaptive.h:200-203). -/
noncomputable def estBody2 (x0 f0 f1 : List ℝ) (h0 d2 : ℝ) (i : ℕ) : Outcome ℝ := do
  let a ← index x0 i
  let b ← index f0 i
  let c ← index f1 i
  let q ← Interp.fdiv |c - b| (|a| + 1 / 10 ^ 10)
  let q ← Interp.fdiv q h0
  ret (max d2 q)

/-- The initial guess (ODESolverAdaptive.h:190). -/
noncomputable def estGuess (d0 d1 : ℝ) : Outcome ℝ :=
  if d0 < 1 / 10 ^ 5 ∨ d1 < 1 / 10 ^ 5 then ret (1 / 10 ^ 6) else Interp.fdiv (1 / 100 * d0) d1

/-- The step for a fifth-order method (ODESolverAdaptive.h:207-211). -/
noncomputable def estFinal (h0 d : ℝ) : Outcome ℝ :=
  if d ≤ 1 / 10 ^ 15 then ret (max (1 / 10 ^ 6) (h0 * (1 / 10 ^ 3)))
  else do
    let q ← Interp.fdiv (1 / 100) d
    ret (q ^ (1 / 5 : ℝ))

/-- `estimateInitialStep(t0, x0, tEnd, eps)` (ODESolverAdaptive.h:175-214).  `eps` is not used. -/
noncomputable def estimateInitialStep (sys : System) (t0 : ℝ) (x0 : List ℝ) (tEnd : ℝ) : Outcome ℝ := do
  let f0 ← sys.derivs t0 x0 (zeros sys.dim)
  let d ← forRange sys.dim (0, 0) (estBody x0 f0)
  let g ← estGuess d.1 d.2
  let x1 ← fill sys.dim (zeros sys.dim) (fun i => do
    let a ← index x0 i
    let b ← index f0 i
    ret (a + min g |tEnd - t0| * b))
  let f1 ← sys.derivs (t0 + min g |tEnd - t0|) x1 (zeros sys.dim)
  let d2 ← forRange sys.dim 0 (estBody2 x0 f0 f1 (min g |tEnd - t0|))
  let h1 ← estFinal (min g |tEnd - t0|) (max d.2 d2)
  ret (min (min (100 * min g |tEnd - t0|) h1) |tEnd - t0|)

/-- The inner loop of `integrate` (ODESolverAdaptive.h:264-270) on `(sol, outputIdx, tNextOutput)`. -/
noncomputable def outLoop (st : Stepper) (dt tNew : ℝ) (N : ℤ) : ℕ → Sol × ℕ × ℝ → Outcome (Sol × ℕ × ℝ)
  | 0, _ => ub
  | k + 1, s =>
    if s.2.2 ≤ tNew + epsR ∧ (s.2.1 : ℤ) < N then
      if s.2.2 ≤ tNew then do
        let v ← st.interpolate s.2.2
        let sol ← s.1.fillValues s.2.1 s.2.2 v
        outLoop st dt tNew N k (sol, s.2.1 + 1, s.2.2 + dt)
      else outLoop st dt tNew N k (s.1, s.2.1, s.2.2 + dt)
    else ret s

/-- The local variables of `integrate`, and the two counters of the statistics. -/
structure Adapt where
  st : Stepper
  x : List ℝ
  dxdt : List ℝ
  t : ℝ
  h : ℝ
  sol : Sol
  idx : ℕ
  tNext : ℝ
  accepted : ℕ
  rejected : ℕ

/-- What happens after a step (ODESolverAdaptive.h:258-279). -/
noncomputable def adaptAfter (dt : ℝ) (N : ℤ) (s : Adapt) (r : Stepped) : Outcome Adapt :=
  if r.res.accepted then do
    let o ← outLoop r.st dt (s.t + r.res.hDone) N (⌈|s.t + r.res.hDone + epsR - s.tNext| / |dt|⌉₊ + 2)
      (s.sol, s.idx, s.tNext)
    ret ⟨r.st, r.x, r.dxdt, s.t + r.res.hDone, r.res.hNext, o.1, o.2.1, o.2.2, s.accepted + 1, s.rejected⟩
  else ret { s with st := r.st, x := r.x, dxdt := r.dxdt, h := r.res.hNext, rejected := s.rejected + 1 }

/-- One pass of the main loop of `integrate` (ODESolverAdaptive.h:252-284). -/
noncomputable def adaptBody (doStep : DoStep) (sys : System) (tEnd dt eps minStep : ℝ) (N : ℤ) (s : Adapt) :
    Outcome Adapt := do
  let r ← doStep sys s.st s.t s.x s.dxdt (if s.t + s.h > tEnd then tEnd - s.t else s.h) eps
  let s ← adaptAfter dt N s r
  if s.h < minStep then exn (.mml "ODESolverError") else ret s

/-- The main loop (ODESolverAdaptive.h:251-285).  The loop of the code has no limit; `ub` when the fuel
runs out. -/
noncomputable def adaptLoop (doStep : DoStep) (sys : System) (tEnd dt eps minStep : ℝ) (N : ℤ) :
    ℕ → Adapt → Outcome Adapt
  | 0, _ => ub
  | k + 1, s =>
    if s.t < tEnd - epsR then do
      let s ← adaptBody doStep sys tEnd dt eps minStep N s
      adaptLoop doStep sys tEnd dt eps minStep N k s
    else ret s

/-- Passes enough for the main loop: each accepted step advances by `min(minStep, Eps)` at least, and
between two of them the step is halved until it is below `minStep`. -/
noncomputable def adaptFuel (L minStep : ℝ) : ℕ :=
  ⌈L / min minStep epsR * (L / minStep + 1) + L / minStep⌉₊ + 3

/-- The last entry (ODESolverAdaptive.h:287-290). -/
noncomputable def adaptFinish (tEnd : ℝ) (N : ℤ) (s : Adapt) : Outcome Adapt :=
  if (s.idx : ℤ) < N then do
    let sol ← s.sol.fillValues s.idx tEnd s.x
    ret { s with sol := sol, idx := s.idx + 1 }
  else ret s

/-- The initial step (ODESolverAdaptive.h:241, 320). -/
noncomputable def firstStep (sys : System) (x0 : List ℝ) (t0 tEnd h0 : ℝ) : Outcome ℝ :=
  if h0 > 0 then ret h0 else estimateInitialStep sys t0 x0 tEnd

/-- `integrate(x0, t0, tEnd, outputInterval, eps, h0, minStepSize)` (ODESolverAdaptive.h:225-293).  The
result is the final state of the local variables: `sol` is returned, `accepted` and `rejected` are what
`getStatistics()` reports.  `st` is the stepper, whatever was done with it before.  The cast of the
number of output points to `int` is taken to be in range. -/
noncomputable def integrateAdaptive (doStep : DoStep) (sys : System) (st : Stepper) (x0 : List ℝ)
    (t0 tEnd dt eps h0 minStep : ℝ) : Outcome Adapt := do
  let q ← Interp.fdiv (tEnd - t0) dt
  let sol ← Sol.new t0 tEnd sys.dim (⌈q⌉ + 1 - 1)
  let dxdt ← sys.derivs t0 x0 (zeros sys.dim)
  let h ← firstStep sys x0 t0 tEnd h0
  let sol ← sol.fillValues 0 t0 x0
  let s ← adaptLoop doStep sys tEnd dt eps minStep (⌈q⌉ + 1) (adaptFuel (tEnd - t0) minStep)
    ⟨st.resetFSAL, x0, dxdt, t0, min h (tEnd - t0), sol, 1, t0 + dt, 0, 0⟩
  adaptFinish tEnd (⌈q⌉ + 1) s

/-- `integrate(x0, t0, tEnd, config)` (ODESolverAdaptive.h:372-392): the default output interval is a
hundredth of the span.  `max_step_size` is not used; exceeding `max_steps` is only reported. -/
noncomputable def integrateConfig (doStep : DoStep) (sys : System) (st : Stepper) (x0 : List ℝ)
    (t0 tEnd tolerance initialStep minStep outputInterval : ℝ) : Outcome Adapt :=
  integrateAdaptive doStep sys st x0 t0 tEnd
    (if outputInterval > 0 then outputInterval else (tEnd - t0) / 100) tolerance initialStep minStep

/-- The inner loop of `integrateAt` (ODESolverAdaptive.h:341-349) on `(sol, outputIdx)`. -/
noncomputable def outAtLoop (st : Stepper) (times : List ℝ) (tNew : ℝ) (x : List ℝ) :
    ℕ → Sol × ℕ → Outcome (Sol × ℕ)
  | 0, _ => ub
  | k + 1, s =>
    if s.2 < times.length then do
      let tOut ← index times s.2
      if tOut ≤ tNew + epsR then
        if |tOut - tNew| < epsR then do
          let sol ← s.1.fillValues s.2 tNew x
          outAtLoop st times tNew x k (sol, s.2 + 1)
        else do
          let v ← st.interpolate tOut
          let sol ← s.1.fillValues s.2 tOut v
          outAtLoop st times tNew x k (sol, s.2 + 1)
      else ret s
    else ret s

/-- What happens after a step of `integrateAt` (ODESolverAdaptive.h:335-355). -/
noncomputable def atAfter (times : List ℝ) (s : Adapt) (r : Stepped) : Outcome Adapt :=
  if r.res.accepted then do
    let o ← outAtLoop r.st times (s.t + r.res.hDone) r.x (times.length + 1) (s.sol, s.idx)
    ret ⟨r.st, r.x, r.dxdt, s.t + r.res.hDone, r.res.hNext, o.1, o.2, s.tNext, s.accepted + 1, s.rejected⟩
  else ret { s with st := r.st, x := r.x, dxdt := r.dxdt, h := r.res.hNext, rejected := s.rejected + 1 }

/-- One pass of the loop of `integrateAt` (ODESolverAdaptive.h:328-359). -/
noncomputable def atBody (doStep : DoStep) (sys : System) (times : List ℝ) (tEnd eps minStep : ℝ) (s : Adapt) :
    Outcome Adapt := do
  let tTarget ← index times s.idx
  let r ← doStep sys s.st s.t s.x s.dxdt (if s.t + s.h > tTarget then tTarget - s.t else s.h) eps
  let s ← atAfter times s r
  if s.h < minStep ∧ s.t < tEnd - epsR then exn (.mml "ODESolverError") else ret s

/-- The loop of `integrateAt` (ODESolverAdaptive.h:327-360). -/
noncomputable def atLoop (doStep : DoStep) (sys : System) (times : List ℝ) (tEnd eps minStep : ℝ) :
    ℕ → Adapt → Outcome Adapt
  | 0, _ => ub
  | k + 1, s =>
    if s.idx < times.length then do
      let s ← atBody doStep sys times tEnd eps minStep s
      atLoop doStep sys times tEnd eps minStep k s
    else ret s

/-- Passes enough for the loop of `integrateAt`. -/
noncomputable def atFuel (L minStep : ℝ) : ℕ :=
  ⌈(L / min minStep epsR + 1) * (L / minStep + 1) + L / minStep⌉₊ + 3

/-- `integrateAt(x0, times, eps, h0, minStepSize)` (ODESolverAdaptive.h:300-363).  `tNext` is not used. -/
noncomputable def integrateAt (doStep : DoStep) (sys : System) (st : Stepper) (x0 : List ℝ)
    (times : List ℝ) (eps h0 minStep : ℝ) : Outcome Adapt :=
  if times.length < 2 then exn (.mml "ODESolverError")
  else do
    let t0 ← index times 0
    let tEnd ← index times (times.length - 1)
    let sol ← Sol.new t0 tEnd sys.dim (times.length - 1 : ℕ)
    let dxdt ← sys.derivs t0 x0 (zeros sys.dim)
    let h ← firstStep sys x0 t0 tEnd h0
    let sol ← sol.fillValues 0 t0 x0
    atLoop doStep sys times tEnd eps minStep (atFuel (tEnd - t0) minStep)
      ⟨st.resetFSAL, x0, dxdt, t0, h, sol, 1, t0, 0, 0⟩

end Verif.ODE
