import Verif.ODE.Stepper

/-!
# The Bulirsch–Stoer steppers (mml/algorithms/ODESolvers/ODESteppers.h:778-1214)
-/

set_option autoImplicit false

namespace Verif.ODE

open Outcome

/-- `a + b` of two vectors (Vector.h), which throws when the lengths differ. -/
def vadd (a b : List ℝ) : Outcome (List ℝ) :=
  if a.length ≠ b.length then exn (.mml "VectorDimensionError") else ret (List.zipWith (· + ·) a b)

/-- `a * s` of a vector and a number (Vector.h). -/
def vscale (a : List ℝ) (s : ℝ) : List ℝ := a.map (· * s)

/-- The variables of the loop of `mmid`. -/
structure Mid where
  ym : List ℝ
  yn : List ℝ
  x : ℝ
  dyn : List ℝ

/-- The general step of `mmid` (ODESteppers.h:814-820, 1040-1046). -/
noncomputable def midBody (sys : System) (h : ℝ) (s : Mid) (_ : ℕ) : Outcome Mid := do
  let swap ← vadd s.ym (vscale s.dyn (2 * h))
  let dyn ← sys.derivs (s.x + h) swap s.dyn
  ret ⟨s.yn, swap, s.x + h, dyn⟩

/-- `mmid(y, dydx, xs, htot, nstep, yout)` (ODESteppers.h:802-824, 1028-1050): the modified midpoint
method. -/
noncomputable def mmid (sys : System) (n : ℕ) (y dydx : List ℝ) (xs htot : ℝ) (nstep : ℕ) :
    Outcome (List ℝ) := do
  let h ← Interp.fdiv htot nstep
  let yn ← vadd y (vscale dydx h)
  let dyn ← sys.derivs (xs + h) yn (zeros n)
  let s ← forFromTo 1 nstep (⟨y, yn, xs + h, dyn⟩ : Mid) (midBody sys h)
  let a ← vadd s.ym s.yn
  let b ← vadd a (vscale s.dyn h)
  ret (vscale b (1 / 2))

/-- The extrapolation table: the arrays `_d` and `_xCoords` and the two vectors `yz` and `dy` that `doStep`
keeps between the calls (ODESteppers.h:797-798, 897). -/
structure Extrap where
  d : List (List ℝ)
  xc : List ℝ
  yz : List ℝ
  dy : List ℝ

/-- The inner loop body of `pzextr` (ODESteppers.h:851-857, 1079-1085) on `(_d[k], dy, c)`. -/
noncomputable def extrapInner (f1 f2 : ℝ) (s : List ℝ × List ℝ × List ℝ) (j : ℕ) :
    Outcome (List ℝ × List ℝ × List ℝ) := do
  let q ← index s.1 j
  let dyj ← index s.2.1 j
  let dk ← store s.1 j dyj
  let cj ← index s.2.2 j
  let dy ← store s.2.1 j (f1 * (cj - q))
  let c ← store s.2.2 j (f2 * (cj - q))
  ret (dk, dy, c)

/-- The outer loop body of `pzextr` (ODESteppers.h:846-858, 1074-1086) on `(_d, dy, c)`. -/
noncomputable def extrapOuter (n iest : ℕ) (xc : List ℝ) (xest : ℝ)
    (s : List (List ℝ) × List ℝ × List ℝ) (k : ℕ) : Outcome (List (List ℝ) × List ℝ × List ℝ) := do
  let xk ← index xc (iest - k - 1)
  let delta ← Interp.fdiv 1 (xk - xest)
  let dk ← index s.1 k
  let r ← forRange n (dk, s.2.1, s.2.2) (extrapInner (xest * delta) (xk * delta))
  let d ← store s.1 k r.1
  ret (d, r.2.1, r.2.2)

/-- `pzextr` and `rzextr` (ODESteppers.h:828-865, 1056-1092). -/
noncomputable def pzextr (n iest : ℕ) (xest : ℝ) (yest : List ℝ) (e : Extrap) : Outcome Extrap := do
  let xc ← store e.xc iest xest
  if iest = 0 then do
    let yz ← fill n e.yz (fun j => index yest j)
    let dy ← fill n e.dy (fun j => index yest j)
    let d0 ← index e.d 0
    let d0 ← fill n d0 (fun j => index yest j)
    let d ← store e.d 0 d0
    ret ⟨d, xc, yz, dy⟩
  else do
    let s ← forRange iest (e.d, e.dy, yest) (extrapOuter n iest xc xest)
    let yz ← fill n e.yz (fun j => do
      let a ← index e.yz j
      let b ← index s.2.1 j
      ret (a + b))
    let di ← index s.1 iest
    let di ← fill n di (fun j => index s.2.1 j)
    let d ← store s.1 iest di
    ret ⟨d, xc, yz, s.2.1⟩

/-- The body of the error loop (ODESteppers.h:914-918, 1141-1145). -/
noncomputable def bsErrBody (eps : ℝ) (ysav yest yerr : List ℝ) (m : ℝ) (i : ℕ) : Outcome ℝ := do
  let a ← index ysav i
  let b ← index yest i
  let e ← index yerr i
  let q ← Interp.fdiv |e| (eps * (|a| + |b| + tinyR))
  ret (max m q)

/-- The step sequence of `BulirschStoer_Stepper` (ODESteppers.h:785). -/
def evenSeq : List ℕ := [2, 4, 6, 8, 10, 12, 14, 16, 18]

/-- The step sequence of `BulirschStoerRational_Stepper` (ODESteppers.h:1011). -/
def bulirschSeq : List ℕ := [2, 4, 6, 8, 12, 16, 24, 32, 48]

/-- One pass of the loop of `doStep` (ODESteppers.h:900-943, 1127-1170): the extrapolated state and error
of level `k`, and the scaled error when it is small enough to accept. -/
noncomputable def bsLevel (sys : System) (seq : List ℕ) (n : ℕ) (t : ℝ) (x dxdt : List ℝ) (h eps : ℝ)
    (e : Extrap) (k : ℕ) : Outcome (Extrap × Option ℝ) := do
  let nk ← index seq k
  let yseq ← mmid sys n x dxdt t h nk
  let hk ← Interp.fdiv h nk
  let e ← pzextr n k (hk * hk) yseq e
  if 0 < k then do
    let m ← forRange n 0 (bsErrBody eps x e.yz e.dy)
    ret (e, if m < 1 then some m else none)
  else ret (e, none)

/-- The accepting branch (ODESteppers.h:922-941, 1149-1168).  The member `stepReady` of the other steppers
does not exist here. -/
noncomputable def bsAccept (sys : System) (s : Stepper) (t : ℝ) (x dxdt : List ℝ) (h : ℝ) (e : Extrap)
    (k : ℕ) (m : ℝ) : Outcome Stepped := do
  let d ← sys.derivs (t + h) e.yz dxdt
  ret ⟨{ s with first := dxdt, last := d, xOld := x, xEnd := e.yz, tOld := t, hDone := h, stepReady := true },
    e.yz, d, ⟨true, h, h * growth (1 / 10) 4 (9 / 10) (1 / (2 * k + 1)) m 1, m⟩⟩

/-- The loop of `doStep` over the levels `k, k + 1, …, 8` (`fuel` of them), and the rejecting branch
(ODESteppers.h:945-951, 1172-1178). -/
noncomputable def bsLoop (sys : System) (seq : List ℕ) (s : Stepper) (t : ℝ) (x dxdt : List ℝ)
    (h eps : ℝ) : ℕ → ℕ → Extrap → Outcome Stepped
  | 0, _, _ => ret ⟨{ s with first := dxdt, xOld := x, tOld := t }, x, dxdt, ⟨false, h, h * (1 / 2), 999⟩⟩
  | fuel + 1, k, e => do
    let r ← bsLevel sys seq s.n t x dxdt h eps e k
    match r.2 with
    | some m => bsAccept sys s t x dxdt h r.1 k m
    | none => bsLoop sys seq s t x dxdt h eps fuel (k + 1) r.1

/-- `doStep` (ODESteppers.h:886-952, 1113-1179).  The old contents of `_d` and `_xCoords` are taken to be
zero; they are overwritten before they are read. -/
noncomputable def bsDoStep (seq : List ℕ) (sys : System) (s : Stepper) (t : ℝ) (x dxdt : List ℝ)
    (htry eps : ℝ) : Outcome Stepped :=
  bsLoop sys seq s t x dxdt htry eps 9 0
    ⟨List.replicate 9 (zeros s.n), List.replicate 9 0, zeros s.n, zeros s.n⟩

end Verif.ODE
