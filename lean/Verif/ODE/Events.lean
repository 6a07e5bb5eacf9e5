import Verif.While
import Verif.ODE.Stepper

/-!
# Model of the integrator with event detection

`mml/algorithms/ODESolvers/ODESolverEventDetection.h`, exact.  The stepper is a parameter: any function from its own state, the
time, the state vector and the step size to a result, with the dense output of the step; its exceptions are left out, and a rejected step leaves the state vector alone.  The
state vector is any type; `dxdt` and the data for the first stage belong to the stepper's state.  The solution container is the
list of the entries written, so `outputIdx` is its length (the container itself is modelled in `Verif.ODE.Solution`).
-/

set_option autoImplicit false

namespace Verif.ODE.Ev

open Outcome

/-- `EventDirection` (IODESystemWithEvents.h:31-35). -/
inductive Dir
  | inc
  | dec
  | both
  deriving DecidableEq

/-- `EventAction` (IODESystemWithEvents.h:44-48). -/
inductive Act
  | cont
  | stop
  | restart
  deriving DecidableEq

/-- The event part of `IODESystemWithEvents` (IODESystemWithEvents.h:111-180): number of events, event functions, directions,
actions, and the handler; `eventFunctions` is the default one. -/
structure Sys (X : Type) where
  m : ℕ
  g : ℕ → ℝ → X → ℝ
  dir : ℕ → Dir
  act : ℕ → Act
  handle : ℕ → ℝ → X → X

/-- The result of a step: `StepResult`, the new state, the dense output and the stepper afterwards. -/
structure Step (S X : Type) where
  accepted : Bool
  hDone : ℝ
  hNext : ℝ
  x : X
  interp : ℝ → X
  st : S

/-- The stepper: `doStep`, `resetFSAL` with `derivs`, and `estimateInitialStep`. -/
structure Stepper (S X : Type) where
  doStep : S → ℝ → X → ℝ → Step S X
  reset : S → ℝ → X → S
  estimate : ℝ → X → ℝ

/-- `EventInfo` (IODESystemWithEvents.h:56-67). -/
structure Event (X : Type) where
  index : ℕ
  time : ℝ
  state : X
  dir : Dir
  value : ℝ

/-- `EventResult` (ODESolverEventDetection.h:30-41). -/
structure Result (X : Type) where
  outs : List (ℝ × X)
  events : List (Event X)
  terminated : Bool
  finalTime : ℝ
  finalState : X

/-- The direction of a sign change (ODESolverEventDetection.h:149-153). -/
noncomputable def actual (a b : ℝ) : Dir := if a < 0 ∧ b > 0 then .inc else .dec

/-- The test for a crossing (ODESolverEventDetection.h:147-160). -/
def Crossing (want : Dir) (a b : ℝ) : Prop := a * b < 0 ∧ (want = .both ∨ want = actual a b)

/-- The interval of the search and the values at its ends (ODESolverEventDetection.h:164-167). -/
structure Loc where
  lo : ℝ
  hi : ℝ
  glo : ℝ
  ghi : ℝ

/-- The clamp to the inner part of the interval (ODESolverEventDetection.h:176). -/
noncomputable def clampMid (l : Loc) (t : ℝ) : ℝ := max (l.lo + 1 / 10 * (l.hi - l.lo)) (min (l.hi - 1 / 10 * (l.hi - l.lo)) t)

/-- The loop of the search (ODESolverEventDetection.h:169-193), returning `tLo`; `gi` is the event function on the dense
output.  The first argument counts the iterations left. -/
noncomputable def locLoop (tol : ℝ) (gi : ℝ → ℝ) : ℕ → Loc → Outcome ℝ
  | 0, l => .ret l.lo
  | k + 1, l =>
    if l.hi - l.lo < tol then .ret l.lo
    else do
      let q ← Interp.fdiv (l.glo * (l.hi - l.lo)) (l.ghi - l.glo)
      if |gi (clampMid l (l.lo - q))| < tol then .ret (clampMid l (l.lo - q))
      else if l.glo * gi (clampMid l (l.lo - q)) < 0 then
        locLoop tol gi k ⟨l.lo, clampMid l (l.lo - q), l.glo, gi (clampMid l (l.lo - q))⟩
      else locLoop tol gi k ⟨clampMid l (l.lo - q), l.hi, gi (clampMid l (l.lo - q)), l.ghi⟩

open Classical in
/-- The first `k` rounds of the loop over the event functions (ODESolverEventDetection.h:138-202): the event time and index. -/
noncomputable def detect {X : Type} (sys : Sys X) (tol t tNew : ℝ) (gPrev gNew : ℕ → ℝ) (interp : ℝ → X) : ℕ → Outcome (ℝ × Option ℕ)
  | 0 => .ret (tNew, none)
  | k + 1 => do
    let s ← detect sys tol t tNew gPrev gNew interp k
    if Crossing (sys.dir k) (gPrev k) (gNew k) then do
      let te ← locLoop tol (fun u => sys.g k u (interp u)) 100 ⟨t, tNew, gPrev k, gNew k⟩
      if te < s.1 then .ret (te, some k) else .ret s
    else .ret s

/-- A round of the output loops (ODESolverEventDetection.h:221-227, 257-263) on the entries and `tNextOutput`. -/
noncomputable def outStep {X : Type} (interp : ℝ → X) (dt T : ℝ) (N : ℤ) (o : List (ℝ × X) × ℝ) : Option (List (ℝ × X) × ℝ) :=
  if o.2 ≤ T + epsR ∧ (o.1.length : ℤ) < N then
    some (if o.2 ≤ T then o.1 ++ [(o.2, interp o.2)] else o.1, o.2 + dt)
  else none

/-- The local variables of `integrateWithEvents` (ODESolverEventDetection.h:95-117). -/
structure Vars (S X : Type) where
  st : S
  x : X
  t : ℝ
  h : ℝ
  gPrev : ℕ → ℝ
  outs : List (ℝ × X)
  tNext : ℝ
  events : List (Event X)

/-- The event recorded (ODESolverEventDetection.h:206-217). -/
noncomputable def record {X : Type} (sys : Sys X) (gPrev gNew : ℕ → ℝ) (interp : ℝ → X) (i : ℕ) (te : ℝ) : Event X :=
  ⟨i, te, interp te, if gPrev i < gNew i then .inc else .dec, sys.g i te (interp te)⟩

/-- The normal end of an accepted step (ODESolverEventDetection.h:257-268, 273-275). -/
noncomputable def advance {S X : Type} (dt : ℝ) (N : ℤ) (s : Vars S X) (r : Step S X) (gNew : ℕ → ℝ) (outs : List (ℝ × X)) (tNext : ℝ)
    (events : List (Event X)) : Outcome (Vars S X ⊕ Result X) := do
  let o ← whileLoop (outStep r.interp dt (s.t + r.hDone) N) (outs, tNext)
  if r.hNext < epsR then .exn (.mml "ODESolverError")
  else .ret (.inl ⟨r.st, r.x, s.t + r.hDone, r.hNext, gNew, o.1, o.2, events⟩)

/-- An event with `EventAction::Restart` (ODESolverEventDetection.h:239-251): the new state is `handleEvent`'s, the event
functions are evaluated again, and the test of the step size is skipped. -/
noncomputable def restart {S X : Type} (sys : Sys X) (P : Stepper S X) (tEnd : ℝ) (r : Step S X) (e : Event X) (outs : List (ℝ × X))
    (tNext : ℝ) (events : List (Event X)) : Vars S X :=
  let x := sys.handle e.index e.time e.state
  ⟨P.reset r.st e.time x, x, e.time, min (P.estimate e.time x) (tEnd - e.time), fun i => sys.g i e.time x, outs, tNext, events⟩

/-- After an accepted step (ODESolverEventDetection.h:131-268): `inl` goes on, `inr` returns. -/
noncomputable def accepted {S X : Type} (sys : Sys X) (P : Stepper S X) (tEnd dt tol : ℝ) (N : ℤ) (s : Vars S X) (r : Step S X) :
    Outcome (Vars S X ⊕ Result X) := do
  let gNew : ℕ → ℝ := fun i => sys.g i (s.t + r.hDone) r.x
  let d ← detect sys tol s.t (s.t + r.hDone) s.gPrev gNew r.interp sys.m
  match d.2 with
  | none => advance dt N s r gNew s.outs s.tNext s.events
  | some i => do
    let e := record sys s.gPrev gNew r.interp i d.1
    let o ← whileLoop (outStep r.interp dt d.1 N) (s.outs, s.tNext)
    match sys.act i with
    | .stop => .ret (.inr ⟨o.1, s.events ++ [e], true, e.time, e.state⟩)
    | .restart => .ret (.inl (restart sys P tEnd r e o.1 o.2 (s.events ++ [e])))
    | .cont => advance dt N s r gNew o.1 o.2 (s.events ++ [e])

/-- The step size tried (ODESolverEventDetection.h:123-125). -/
noncomputable def tryStep {S X : Type} (tEnd : ℝ) (s : Vars S X) : ℝ := if s.t + s.h > tEnd then tEnd - s.t else s.h

/-- A pass of the main loop (ODESolverEventDetection.h:123-275). -/
noncomputable def body {S X : Type} (sys : Sys X) (P : Stepper S X) (tEnd dt tol : ℝ) (N : ℤ) (s : Vars S X) : Outcome (Vars S X ⊕ Result X) :=
  let r := P.doStep s.st s.t s.x (tryStep tEnd s)
  if r.accepted then accepted sys P tEnd dt tol N s r
  else if r.hNext < epsR then .exn (.mml "ODESolverError")
  else .ret (.inl { s with st := r.st, h := r.hNext })

/-- The end (ODESolverEventDetection.h:279-285). -/
noncomputable def finish {S X : Type} (tEnd : ℝ) (N : ℤ) (s : Vars S X) : Result X :=
  ⟨if (s.outs.length : ℤ) < N then s.outs ++ [(tEnd, s.x)] else s.outs, s.events, false, s.t, s.x⟩

/-- The main loop (ODESolverEventDetection.h:122-285) for `k` passes; `ub` when they do not suffice.  The loop of the code has no
limit. -/
noncomputable def loop {S X : Type} (sys : Sys X) (P : Stepper S X) (tEnd dt tol : ℝ) (N : ℤ) : ℕ → Vars S X → Outcome (Result X)
  | 0, _ => .ub
  | k + 1, s =>
    if s.t < tEnd - epsR then do
      let b ← body sys P tEnd dt tol N s
      match b with
      | .inl s' => loop sys P tEnd dt tol N k s'
      | .inr r => .ret r
    else .ret (finish tEnd N s)

/-- The variables before the loop (ODESolverEventDetection.h:95-117). -/
noncomputable def init {S X : Type} (sys : Sys X) (P : Stepper S X) (st : S) (x0 : X) (t0 tEnd dt h0 : ℝ) : Vars S X :=
  ⟨P.reset st t0 x0, x0, t0, min (if h0 > 0 then h0 else P.estimate t0 x0) (tEnd - t0), fun i => sys.g i t0 x0, [(t0, x0)], t0 + dt, []⟩

/-- `integrateWithEvents` (ODESolverEventDetection.h:89-286), for `k` passes of the main loop.  The cast of the number of output
points to `int` is taken to be in range. -/
noncomputable def integrate {S X : Type} (sys : Sys X) (P : Stepper S X) (st : S) (x0 : X) (t0 tEnd dt tol h0 : ℝ) (k : ℕ) :
    Outcome (Result X) := do
  let q ← Interp.fdiv (tEnd - t0) dt
  loop sys P tEnd dt tol (⌈q⌉ + 1) k (init sys P st x0 t0 tEnd dt h0)

end Verif.ODE.Ev
