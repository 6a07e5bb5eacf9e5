import Verif.Common
import Mathlib.Data.Real.Sqrt
import Mathlib.Algebra.BigOperators.Group.Finset.Basic
import Mathlib.Algebra.Order.Group.Abs
import Mathlib.Data.Fintype.BigOperators

/-!
# Model of the BFGS quasi-Newton method

`mml/algorithms/OptimizationMultidim.h`, exact: coordinates and values are real, so the tests for values that are not
finite always pass and are left out.  A `VectorN<Real, N>` is a function on `Fin N` and the matrix `hessin` a function of
two indexes; loops that handle components one by one are written as one function, accumulation loops as sums.  The
objective `f` and the gradient `G` are arbitrary pure functions: nothing ties `G` to `f`.
-/

set_option autoImplicit false

namespace Verif.Optim.QN

variable {N : ℕ}

/-- `VectorN<Real, N>`. -/
abbrev Pt (N : ℕ) := Fin N → ℝ

/-- A sum of products accumulated in a loop (OptimizationMultidim.h:1288-1293, 1464-1466 and others). -/
def dot (a b : Pt N) : ℝ := ∑ j, a j * b j

/-- `H * dg` (OptimizationMultidim.h:1280-1284). -/
def mulV (H : Fin N → Fin N → ℝ) (v : Pt N) : Pt N := fun i => ∑ j, H i j * v j

/-- The point `x + alpha d` (OptimizationMultidim.h:1485-1487, 1544-1546 and 1586-1587). -/
def along (x d : Pt N) (alpha : ℝ) : Pt N := fun j => x j + alpha * d j

/-- `c1` (OptimizationMultidim.h:1446). -/
noncomputable def c1 : ℝ := 1 / 10 ^ 4
/-- `c2` (OptimizationMultidim.h:1447). -/
noncomputable def c2 : ℝ := 9 / 10
/-- `alpha_max` (OptimizationMultidim.h:1448). -/
def alphaMax : ℝ := 50
/-- `EPS` (OptimizationMultidim.h:1208). -/
noncomputable def eps : ℝ := 1 / 10 ^ 18

/-- The bracket of the zoom phase; `phi_hi` is written and never read, and is left out. -/
structure Zoom where
  lo : ℝ
  hi : ℝ
  plo : ℝ

open Classical in
/-- The bracket after a trial point at which the decrease suffices (OptimizationMultidim.h:1563-1569). -/
noncomputable def zoomIn (dphi : ℝ → ℝ) (phi : ℝ → ℝ) (z : Zoom) (aj : ℝ) : Zoom :=
  ⟨aj, if dphi aj * (z.hi - z.lo) ≥ 0 then z.lo else z.hi, phi aj⟩

open Classical in
/-- `WolfeZoom` with `k` rounds left (OptimizationMultidim.h:1534-1578); `phi` and `dphi` are the function and the
directional derivative along the line. -/
noncomputable def zoom (phi dphi : ℝ → ℝ) (phi0 dphi0 : ℝ) : ℕ → Zoom → ℝ
  | 0, z => z.lo
  | k + 1, z =>
    if phi (1 / 2 * (z.lo + z.hi)) > phi0 + c1 * (1 / 2 * (z.lo + z.hi)) * dphi0 ∨ phi (1 / 2 * (z.lo + z.hi)) ≥ z.plo then
      (if |1 / 2 * (z.lo + z.hi) - z.lo| < 1 / 10 ^ 14 then z.lo
       else zoom phi dphi phi0 dphi0 k ⟨z.lo, 1 / 2 * (z.lo + z.hi), z.plo⟩)
    else if |dphi (1 / 2 * (z.lo + z.hi))| ≤ -c2 * dphi0 then 1 / 2 * (z.lo + z.hi)
    else
      (if |(zoomIn dphi phi z (1 / 2 * (z.lo + z.hi))).hi - (zoomIn dphi phi z (1 / 2 * (z.lo + z.hi))).lo| < 1 / 10 ^ 14 then
        (zoomIn dphi phi z (1 / 2 * (z.lo + z.hi))).lo
       else zoom phi dphi phi0 dphi0 k (zoomIn dphi phi z (1 / 2 * (z.lo + z.hi))))

open Classical in
/-- The step length chosen by `LineSearchWolfe` with `k` rounds left (OptimizationMultidim.h:1483-1524). -/
noncomputable def wolfeLoop (phi dphi : ℝ → ℝ) (phi0 dphi0 : ℝ) : ℕ → ℕ → ℝ → ℝ → ℝ → ℝ
  | 0, _, _, _, cur => cur
  | k + 1, i, prev, pprev, cur =>
    if phi cur > phi0 + c1 * cur * dphi0 ∨ (i > 0 ∧ phi cur ≥ pprev) then zoom phi dphi phi0 dphi0 20 ⟨prev, cur, pprev⟩
    else if |dphi cur| ≤ -c2 * dphi0 then cur
    else if dphi cur ≥ 0 then zoom phi dphi phi0 dphi0 20 ⟨cur, prev, phi cur⟩
    else wolfeLoop phi dphi phi0 dphi0 k (i + 1) cur (phi cur) (min (2 * cur) alphaMax)

open Classical in
/-- The direction scaled to the largest step (OptimizationMultidim.h:1452-1461). -/
noncomputable def scaled (d : Pt N) (stpmax : ℝ) : Pt N :=
  if Real.sqrt (dot d d) > stpmax then fun j => d j * (stpmax / Real.sqrt (dot d d)) else d

open Classical in
/-- The direction searched: steepest descent if the given one does not descend (OptimizationMultidim.h:1463-1475). -/
noncomputable def descent (g d : Pt N) : Pt N := if dot g d ≥ 0 then fun j => -g j else d

/-- The step length of `LineSearchWolfe` (OptimizationMultidim.h:1477-1524). -/
noncomputable def stepLength (f : Pt N → ℝ) (G : Pt N → Pt N) (x g d : Pt N) : ℝ :=
  wolfeLoop (fun a => f (along x d a)) (fun a => dot (G (along x d a)) d) (f x) (dot g d) 25 0 0 (f x) 1

/-- `LineSearchWolfe` (OptimizationMultidim.h:1443-1526): the new point; the value returned is the function's there. -/
noncomputable def lineSearch (f : Pt N → ℝ) (G : Pt N → Pt N) (x g d : Pt N) (stpmax : ℝ) : Pt N :=
  along x (descent g (scaled d stpmax)) (stepLength f G x g (descent g (scaled d stpmax)))

/-- `MultidimMinimizationResult` (OptimizationMultidim.h:113-137) without the diagnostics. -/
structure Result (N : ℕ) where
  xmin : Pt N
  fmin : ℝ
  iterations : ℕ
  converged : Bool

/-- The variables of `BFGS::Minimize` that live from one iteration to the next (OptimizationMultidim.h:1211-1220). -/
structure St (N : ℕ) where
  p : Pt N
  g : Pt N
  xi : Pt N
  H : Fin N → Fin N → ℝ
  fret : ℝ

/-- The convergence test on values (OptimizationMultidim.h:1244). -/
def valueTest (ftol fret fp : ℝ) : Prop := 2 * |fret - fp| ≤ ftol * (|fret| + |fp| + eps)

/-- The scaled component of the gradient (OptimizationMultidim.h:1264). -/
noncomputable def gradComp (fret : ℝ) (p g : Pt N) (j : Fin N) : ℝ := |g j| * max |p j| 1 / max |fret| 1

open Classical in
/-- The largest scaled component (OptimizationMultidim.h:1261-1267). -/
noncomputable def gradTest (fret : ℝ) (p g : Pt N) : ℝ :=
  (List.finRange N).foldl (fun t j => if gradComp fret p g j > t then gradComp fret p g j else t) 0

/-- The increment of the inverse Hessian (OptimizationMultidim.h:1299-1306). -/
noncomputable def increment (xi hdg : Pt N) (fac fad fae : ℝ) (i j : Fin N) : ℝ :=
  fac * xi i * xi j - fad * hdg i * hdg j + fae * (fac * xi i - fad * hdg i) * (fac * xi j - fad * hdg j)

/-- The loop over the upper triangle, which copies each entry to the lower one (OptimizationMultidim.h:1304-1309). -/
noncomputable def updateH (H : Fin N → Fin N → ℝ) (inc : Fin N → Fin N → ℝ) : Fin N → Fin N → ℝ :=
  fun i j => if i ≤ j then H i j + inc i j else H j i + inc j i

open Classical in
/-- The BFGS update (OptimizationMultidim.h:1279-1310) for the step `xi` and the change `dg` of the gradient.  The division
by `fae` is unchecked. -/
noncomputable def newH (H : Fin N → Fin N → ℝ) (xi dg : Pt N) : Outcome (Fin N → Fin N → ℝ) :=
  if dot dg xi > Real.sqrt (eps * dot dg dg * dot xi xi) then
    (if dot dg (mulV H dg) = 0 then .ub
     else .ret (updateH H (increment xi (mulV H dg) (1 / dot dg xi) (1 / dot dg (mulV H dg)) (dot dg (mulV H dg)))))
  else .ret H

/-- The rest of an iteration that does not return: the update and the new direction (OptimizationMultidim.h:1251-1317). -/
noncomputable def nextSt (s : St N) (p' g' : Pt N) (fret' : ℝ) : Outcome (St N) := do
  let H' ← newH s.H (fun j => p' j - s.p j) (fun j => g' j - s.g j)
  .ret ⟨p', g', fun i => -(mulV H' g' i), H', fret'⟩

open Classical in
/-- The main loop (OptimizationMultidim.h:1235-1324) with `k` iterations left. -/
noncomputable def run (f : Pt N → ℝ) (G : Pt N → Pt N) (ftol gtol stpmax : ℝ) : ℕ → ℕ → St N → Outcome (Result N)
  | 0, iter, s => .ret ⟨s.p, s.fret, iter, false⟩
  | k + 1, iter, s =>
    if valueTest ftol (f (lineSearch f G s.p s.g s.xi stpmax)) s.fret then
      .ret ⟨lineSearch f G s.p s.g s.xi stpmax, f (lineSearch f G s.p s.g s.xi stpmax), iter + 1, true⟩
    else if gradTest (f (lineSearch f G s.p s.g s.xi stpmax)) (lineSearch f G s.p s.g s.xi stpmax)
        (G (lineSearch f G s.p s.g s.xi stpmax)) < gtol then
      .ret ⟨lineSearch f G s.p s.g s.xi stpmax, f (lineSearch f G s.p s.g s.xi stpmax), iter + 1, true⟩
    else do
      let s' ← nextSt s (lineSearch f G s.p s.g s.xi stpmax) (G (lineSearch f G s.p s.g s.xi stpmax))
        (f (lineSearch f G s.p s.g s.xi stpmax))
      run f G ftol gtol stpmax k (iter + 1) s'

/-- The state before the loop (OptimizationMultidim.h:1211-1227). -/
def start (f : Pt N → ℝ) (G : Pt N → Pt N) (x0 : Pt N) : St N :=
  ⟨x0, G x0, fun j => -G x0 j, fun i j => if i = j then 1 else 0, f x0⟩

/-- `stpmax` (OptimizationMultidim.h:1209, 1229-1233). -/
noncomputable def maxStep (x0 : Pt N) : ℝ := 100 * max (Real.sqrt (dot x0 x0)) N

open Classical in
/-- `BFGS::Minimize` (OptimizationMultidim.h:1198-1325). -/
noncomputable def bfgs (f : Pt N → ℝ) (G : Pt N → Pt N) (ftol gtol : ℝ) (maxIter : ℤ) (x0 : Pt N) : Outcome (Result N) :=
  if ftol ≤ 0 then .exn (.mml "MultidimOptimizationInputError")
  else if gtol ≤ 0 then .exn (.mml "MultidimOptimizationInputError")
  else if maxIter ≤ 0 then .exn (.mml "MultidimOptimizationInputError")
  else run f G ftol gtol (maxStep x0) maxIter.toNat 0 (start f G x0)

end Verif.Optim.QN
