import Verif.Integ.Model

/-!
# Model of the one-dimensional interpolation classes (InterpolatedRealFunction.h)

Numbers are exact reals.  Reads of a table outside its range, and divisions by zero, are undefined.
-/

set_option autoImplicit false

namespace Verif.Interp

open Verif

/-- A floating point division. -/
noncomputable def fdiv (a b : ℝ) : Outcome ℝ := if b = 0 then .ub else .ret (a / b)

/-- The members of `RealFunctionInterpolated` (InterpolatedRealFunction.h:54-55); `_numPoints` is the length of `x`. -/
structure Table where
  x : List ℝ
  y : List ℝ
  used : ℕ

namespace Table

/-- The constructor (InterpolatedRealFunction.h:64-77).  The comparison of all pairs is `Nodup`. -/
noncomputable def new (x y : List ℝ) (used : ℤ) : Outcome Table :=
  if x.length < 2 ∨ used < 2 ∨ (x.length : ℤ) < used then .exn (.mml "RealFuncInterpInitError")
  else if ¬ x.Nodup then .exn (.mml "RealFuncInterpInitError")
  else .ret ⟨x, y, used.toNat⟩

/-- `X(i)` (InterpolatedRealFunction.h:108). -/
def X (t : Table) (i : ℕ) : Outcome ℝ := Outcome.index t.x i

/-- `Y(i)` (InterpolatedRealFunction.h:112).  The length of `y` is not checked by the constructor. -/
def Y (t : Table) (i : ℕ) : Outcome ℝ := Outcome.index t.y i

/-- `MinX()` (InterpolatedRealFunction.h:95): the first abscissa. -/
def minX (t : Table) : Outcome ℝ := t.X 0

/-- `MaxX()` (InterpolatedRealFunction.h:99): the last abscissa. -/
def maxX (t : Table) : Outcome ℝ := t.X (t.x.length - 1)

end Table

/-- One round of the search (InterpolatedRealFunction.h:148-154) with state `(indLower, indUpper)`.  The reads are in range. -/
noncomputable def locateStep (xs : List ℝ) (x : ℝ) (s : ℕ × ℕ) : Option (ℕ × ℕ) :=
  if s.2 - s.1 > 1 then
    if (x ≥ xs.getD ((s.2 + s.1) / 2) 0) ↔ (xs.getD (xs.length - 1) 0 ≥ xs.getD 0 0) then some ((s.2 + s.1) / 2, s.2)
    else some (s.1, (s.2 + s.1) / 2)
  else none

/-- The search (InterpolatedRealFunction.h:142-154): the final `indLower`. -/
noncomputable def search (xs : List ℝ) (x : ℝ) : ℕ :=
  match whileFuel (locateStep xs x) (xs.length + 1) (0, xs.length - 1) with
  | some s => s.1
  | none => 0

/-- `locate` (InterpolatedRealFunction.h:141-156).  Subtraction of naturals stops at zero, like `max(0, ...)`. -/
noncomputable def Table.locate (t : Table) (x : ℝ) : ℕ := min (t.x.length - t.used) (search t.x x - (t.used - 2) / 2)

/-! ## Linear -/

/-- `LinearInterpRealFunc` (InterpolatedRealFunction.h:184-195). -/
structure Linear where
  table : Table
  extrapolate : Bool

/-- The constructor (InterpolatedRealFunction.h:193-195). -/
noncomputable def Linear.new (x y : List ℝ) (extrapolate : Bool) : Outcome Linear := do
  let t ← Table.new x y 2
  .ret ⟨t, extrapolate⟩

/-- The straight line through two points of the table (InterpolatedRealFunction.h:206-209). -/
noncomputable def Linear.line (f : Linear) (j : ℕ) (x : ℝ) : Outcome ℝ := do
  let x0 ← f.table.X j
  let x1 ← f.table.X (j + 1)
  let y0 ← f.table.Y j
  if x0 = x1 then .ret y0
  else do
    let q ← fdiv (x - x0) (x1 - x0)
    let y1 ← f.table.Y (j + 1)
    .ret (y0 + q * (y1 - y0))

/-- `LinearInterpRealFunc::calcInterpValue` (InterpolatedRealFunction.h:202-210). -/
noncomputable def Linear.calc (f : Linear) (j : ℕ) (x : ℝ) : Outcome ℝ := do
  let lo ← f.table.minX
  let hi ← f.table.maxX
  if f.extrapolate = false ∧ (x < lo ∨ x > hi) then .ret 0 else f.line j x

/-- `operator()` (InterpolatedRealFunction.h:130-133). -/
noncomputable def Linear.eval (f : Linear) (x : ℝ) : Outcome ℝ := f.calc (f.table.locate x) x

/-! ## Polynomial -/

/-- The initialising loop (InterpolatedRealFunction.h:269-276). -/
noncomputable def polyStart (t : Table) (s : ℕ) (x : ℝ) (st : Integ.Start) (i : ℕ) : Outcome Integ.Start := do
  let xi ← t.X (s + i)
  let yi ← t.Y (s + i)
  let c ← Outcome.store (Integ.nearest st i |x - xi|).c i yi
  let d ← Outcome.store (Integ.nearest st i |x - xi|).d i yi
  .ret ⟨(Integ.nearest st i |x - xi|).ns, (Integ.nearest st i |x - xi|).dif, c, d⟩

/-- One entry of the tableau (InterpolatedRealFunction.h:281-293). -/
noncomputable def polyEntry (t : Table) (s : ℕ) (x : ℝ) (m : ℕ) (cd : List ℝ × List ℝ) (i : ℕ) :
    Outcome (List ℝ × List ℝ) := do
  let xi ← t.X (s + i)
  let xim ← t.X (s + i + m)
  let c1 ← Outcome.index cd.1 (i + 1)
  let d0 ← Outcome.index cd.2 i
  if (xi - x) - (xim - x) = 0 then .exn (.mml "RealFuncInterpRuntimeError")
  else do
    let d ← Outcome.store cd.2 i ((xim - x) * ((c1 - d0) / ((xi - x) - (xim - x))))
    let c ← Outcome.store cd.1 i ((xi - x) * ((c1 - d0) / ((xi - x) - (xim - x))))
    .ret (c, d)

/-- One column of the tableau and the correction taken from it (InterpolatedRealFunction.h:279-297); the choice of the correction
is the same as in Integration1D.h. -/
noncomputable def polyColumn (t : Table) (s : ℕ) (x : ℝ) (tb : Integ.Tableau) (m : ℕ) : Outcome Integ.Tableau := do
  let cd ← forRange (t.used - m) (tb.c, tb.d) (polyEntry t s x m)
  Integ.correct t.used m tb cd.1 cd.2

/-- `PolynomInterpRealFunc::calcInterpValue` (InterpolatedRealFunction.h:261-300): the value and the error estimate stored.  The
correction, here zero at first, is assigned before it is used since at least two points are used. -/
noncomputable def polyCalc (t : Table) (s : ℕ) (x : ℝ) : Outcome (ℝ × ℝ) := do
  let x0 ← t.X s
  let st ← forRange t.used ⟨0, |x - x0|, List.replicate t.used 0, List.replicate t.used 0⟩ (polyStart t s x)
  let y ← t.Y (s + st.ns)
  let r ← forFromTo 1 t.used ⟨(st.ns : ℤ) - 1, y, 0, st.c, st.d⟩ (polyColumn t s x)
  .ret (r.ss, r.dss)

/-- `PolynomInterpRealFunc`: `operator()` followed by `getLastErrorEst` (InterpolatedRealFunction.h:130-133, 247-253). -/
noncomputable def polyEval (t : Table) (x : ℝ) : Outcome (ℝ × ℝ) := polyCalc t (t.locate x) x

/-! ## Cubic spline -/

/-- `SplineInterpRealFunc` (InterpolatedRealFunction.h:334-336). -/
structure Spline where
  table : Table
  sec : List ℝ

/-- The first row (InterpolatedRealFunction.h:367-372): `_secDerY[0]` and `u[0]`. -/
noncomputable def splineFirst (t : Table) (yp1 : ℝ) : Outcome (ℝ × ℝ) :=
  if yp1 > 99 / 100 * 10 ^ 99 then .ret (0, 0)
  else do
    let x0 ← t.X 0
    let x1 ← t.X 1
    let y0 ← t.Y 0
    let y1 ← t.Y 1
    let q ← fdiv 3 (x1 - x0)
    let d ← fdiv (y1 - y0) (x1 - x0)
    .ret (-(1 / 2), q * (d - yp1))

/-- The forward sweep (InterpolatedRealFunction.h:373-381) with state `(_secDerY, u)`. -/
noncomputable def splineForward (t : Table) (st : List ℝ × List ℝ) (i : ℕ) : Outcome (List ℝ × List ℝ) := do
  let xm ← t.X (i - 1)
  let x0 ← t.X i
  let x1 ← t.X (i + 1)
  let ym ← t.Y (i - 1)
  let y0 ← t.Y i
  let y1 ← t.Y (i + 1)
  let sig ← fdiv (x0 - xm) (x1 - xm)
  let s ← Outcome.index st.1 (i - 1)
  let v ← fdiv (sig - 1) (sig * s + 2)
  let sec ← Outcome.store st.1 i v
  let d1 ← fdiv (y1 - y0) (x1 - x0)
  let d0 ← fdiv (y0 - ym) (x0 - xm)
  let um ← Outcome.index st.2 (i - 1)
  let w ← fdiv (6 * (d1 - d0)) (x1 - xm)
  let v' ← fdiv (w - sig * um) (sig * s + 2)
  let u ← Outcome.store st.2 i v'
  .ret (sec, u)

/-- The last row (InterpolatedRealFunction.h:382-388): `qn` and `un`. -/
noncomputable def splineLast (t : Table) (ypn : ℝ) : Outcome (ℝ × ℝ) :=
  if ypn > 99 / 100 * 10 ^ 99 then .ret (0, 0)
  else do
    let x0 ← t.X (t.x.length - 2)
    let x1 ← t.X (t.x.length - 1)
    let y0 ← t.Y (t.x.length - 2)
    let y1 ← t.Y (t.x.length - 1)
    let q ← fdiv 3 (x1 - x0)
    let d ← fdiv (y1 - y0) (x1 - x0)
    .ret (1 / 2, q * (ypn - d))

/-- The back substitution (InterpolatedRealFunction.h:392-393). -/
noncomputable def splineBack (u : List ℝ) (sec : List ℝ) (k : ℕ) : Outcome (List ℝ) := do
  let a ← Outcome.index sec k
  let b ← Outcome.index sec (k + 1)
  let uk ← Outcome.index u k
  Outcome.store sec k (a * b + uk)

/-- `initSecDerivs` (InterpolatedRealFunction.h:360-394). -/
noncomputable def initSecDerivs (t : Table) (yp1 ypn : ℝ) : Outcome (List ℝ) := do
  let f ← splineFirst t yp1
  let sec ← Outcome.store (List.replicate t.x.length 0) 0 f.1
  let u ← Outcome.store (List.replicate (t.x.length - 1) 0) 0 f.2
  let st ← forFromTo 1 (t.x.length - 1) (sec, u) (splineForward t)
  let l ← splineLast t ypn
  let un ← Outcome.index st.2 (t.x.length - 2)
  let sn ← Outcome.index st.1 (t.x.length - 2)
  let v ← fdiv (l.2 - l.1 * un) (l.1 * sn + 1)
  let sec ← Outcome.store st.1 (t.x.length - 1) v
  forDown 0 (t.x.length - 1) sec (splineBack st.2)

/-- The constructor (InterpolatedRealFunction.h:345-349). -/
noncomputable def Spline.new (x y : List ℝ) (yp1 ypn : ℝ) : Outcome Spline := do
  let t ← Table.new x y 2
  let sec ← initSecDerivs t yp1 ypn
  .ret ⟨t, sec⟩

/-- The data of one interval, read at the start of the evaluations (InterpolatedRealFunction.h:405-413, 431-439, 457-465). -/
structure Piece where
  h : ℝ
  a : ℝ
  b : ℝ
  y0 : ℝ
  y1 : ℝ
  s0 : ℝ
  s1 : ℝ

/-- Reading the data of interval `i` (InterpolatedRealFunction.h:405-413, 431-439, 457-465). -/
noncomputable def Spline.piece (f : Spline) (i : ℕ) (x : ℝ) : Outcome Piece := do
  let x0 ← f.table.X i
  let x1 ← f.table.X (i + 1)
  if x1 - x0 = 0 then .exn (.mml "RealFuncInterpRuntimeError")
  else do
    let y0 ← f.table.Y i
    let y1 ← f.table.Y (i + 1)
    let s0 ← Outcome.index f.sec i
    let s1 ← Outcome.index f.sec (i + 1)
    .ret ⟨x1 - x0, (x1 - x) / (x1 - x0), (x - x0) / (x1 - x0), y0, y1, s0, s1⟩

/-- `calcInterpValue` (InterpolatedRealFunction.h:404-418). -/
noncomputable def Spline.calc (f : Spline) (i : ℕ) (x : ℝ) : Outcome ℝ := do
  let p ← f.piece i x
  .ret (p.a * p.y0 + p.b * p.y1 + ((p.a * p.a * p.a - p.a) * p.s0 + (p.b * p.b * p.b - p.b) * p.s1) * (p.h * p.h) / 6)

/-- `operator()` (InterpolatedRealFunction.h:130-133). -/
noncomputable def Spline.eval (f : Spline) (x : ℝ) : Outcome ℝ := f.calc (f.table.locate x) x

/-- `Derivative` (InterpolatedRealFunction.h:429-447). -/
noncomputable def Spline.derivative (f : Spline) (x : ℝ) : Outcome ℝ := do
  let p ← f.piece (f.table.locate x) x
  .ret ((p.y1 - p.y0) / p.h - (3 * p.a * p.a - 1) / 6 * p.h * p.s0 + (3 * p.b * p.b - 1) / 6 * p.h * p.s1)

/-- `SecondDerivative` (InterpolatedRealFunction.h:455-469). -/
noncomputable def Spline.secondDerivative (f : Spline) (x : ℝ) : Outcome ℝ := do
  let p ← f.piece (f.table.locate x) x
  .ret (p.a * p.s0 + p.b * p.s1)

/-- `GetSecondDerivative` (InterpolatedRealFunction.h:552-556). -/
def Spline.getSecond (f : Spline) (i : ℤ) : Outcome ℝ :=
  if i < 0 ∨ (f.table.x.length : ℤ) ≤ i then .exn (.mml "IndexError") else Outcome.index f.sec i.toNat

/-- The terms of the integral over a part of an interval (InterpolatedRealFunction.h:501-524). -/
noncomputable def segment (x0 x1 y0 y1 s0 s1 u v : ℝ) : ℝ :=
  (x1 - x0) * y0 * (1 / 2) * ((x1 - u) / (x1 - x0) * ((x1 - u) / (x1 - x0)) - (x1 - v) / (x1 - x0) * ((x1 - v) / (x1 - x0)))
  + (x1 - x0) * y1 * (1 / 2) * ((v - x0) / (x1 - x0) * ((v - x0) / (x1 - x0)) - (u - x0) / (x1 - x0) * ((u - x0) / (x1 - x0)))
  + (x1 - x0) * (x1 - x0) * (x1 - x0) / 6 * s0 *
    ((((x1 - u) / (x1 - x0)) ^ 4 / 4 - ((x1 - u) / (x1 - x0)) ^ 2 / 2) -
      (((x1 - v) / (x1 - x0)) ^ 4 / 4 - ((x1 - v) / (x1 - x0)) ^ 2 / 2))
  + (x1 - x0) * (x1 - x0) * (x1 - x0) / 6 * s1 *
    ((((v - x0) / (x1 - x0)) ^ 4 / 4 - ((v - x0) / (x1 - x0)) ^ 2 / 2) -
      (((u - x0) / (x1 - x0)) ^ 4 / 4 - ((u - x0) / (x1 - x0)) ^ 2 / 2))

/-- `integrateSegment` (InterpolatedRealFunction.h:495-525). -/
noncomputable def Spline.segment (f : Spline) (i : ℕ) (u v : ℝ) : Outcome ℝ := do
  let x0 ← f.table.X i
  let x1 ← f.table.X (i + 1)
  if x1 - x0 = 0 then .ret 0
  else do
    let y0 ← f.table.Y i
    let y1 ← f.table.Y (i + 1)
    let s0 ← Outcome.index f.sec i
    let s1 ← Outcome.index f.sec (i + 1)
    .ret (Interp.segment x0 x1 y0 y1 s0 s1 u v)

/-- One of the inner segments (InterpolatedRealFunction.h:533-535). -/
noncomputable def Spline.whole (f : Spline) (acc : ℝ) (i : ℕ) : Outcome ℝ := do
  let x0 ← f.table.X i
  let x1 ← f.table.X (i + 1)
  let v ← f.segment i x0 x1
  .ret (acc + v)

/-- The sum over several segments (InterpolatedRealFunction.h:532-536). -/
noncomputable def Spline.several (f : Spline) (lo hi : ℕ) (a b : ℝ) : Outcome ℝ := do
  let e ← f.table.X (lo + 1)
  let v ← f.segment lo a e
  let acc ← forFromTo (lo + 1) hi (0 + v) f.whole
  let s ← f.table.X hi
  let w ← f.segment hi s b
  .ret (acc + w)

/-- `Integrate` with ordered bounds (InterpolatedRealFunction.h:487-539). -/
noncomputable def Spline.integrateUp (f : Spline) (a b : ℝ) : Outcome ℝ := do
  let lo ← f.table.minX
  let hi ← f.table.maxX
  if a < lo ∨ b > hi then .exn (.mml "DomainError")
  else if f.table.locate a = f.table.locate b then f.segment (f.table.locate a) a b
  else f.several (f.table.locate a) (f.table.locate b) a b

/-- `Integrate` (InterpolatedRealFunction.h:484-540): the recursive call has ordered bounds. -/
noncomputable def Spline.integrate (f : Spline) (a b : ℝ) : Outcome ℝ :=
  if a > b then do
    let v ← f.integrateUp b a
    .ret (-v)
  else f.integrateUp a b

/-! ## Rational -/

/-- `TINY` (InterpolatedRealFunction.h:588). -/
noncomputable def tiny : ℝ := 1 / 10 ^ 99

/-- The initialising loop (InterpolatedRealFunction.h:617-628): `inr` for the early return on a data point. -/
noncomputable def ratStart (t : Table) (s : ℕ) (x : ℝ) (st : Integ.Start ⊕ ℝ) (i : ℕ) : Outcome (Integ.Start ⊕ ℝ) :=
  match st with
  | .inr r => .ret (.inr r)
  | .inl st => do
    let xi ← t.X (s + i)
    let yi ← t.Y (s + i)
    if |x - xi| = 0 then .ret (.inr yi)
    else do
      let c ← Outcome.store (Integ.nearest st i |x - xi|).c i yi
      let d ← Outcome.store (Integ.nearest st i |x - xi|).d i (yi + tiny)
      .ret (.inl ⟨(Integ.nearest st i |x - xi|).ns, (Integ.nearest st i |x - xi|).dif, c, d⟩)

/-- One entry of the tableau (InterpolatedRealFunction.h:632-642). -/
noncomputable def ratEntry (t : Table) (s : ℕ) (x : ℝ) (m : ℕ) (cd : List ℝ × List ℝ) (i : ℕ) :
    Outcome (List ℝ × List ℝ) := do
  let c1 ← Outcome.index cd.1 (i + 1)
  let d0 ← Outcome.index cd.2 i
  let xi ← t.X (s + i)
  let xim ← t.X (s + i + m)
  let q ← fdiv ((xi - x) * d0) (xim - x)
  if q - c1 = 0 then .exn (.mml "RealFuncInterpRuntimeError")
  else do
    let d ← Outcome.store cd.2 i (c1 * ((c1 - d0) / (q - c1)))
    let c ← Outcome.store cd.1 i (q * ((c1 - d0) / (q - c1)))
    .ret (c, d)

/-- One column (InterpolatedRealFunction.h:631-645). -/
noncomputable def ratColumn (t : Table) (s : ℕ) (x : ℝ) (tb : Integ.Tableau) (m : ℕ) : Outcome Integ.Tableau := do
  let cd ← forRange (t.used - m) (tb.c, tb.d) (ratEntry t s x m)
  Integ.correct t.used m tb cd.1 cd.2

/-- `RationalInterpRealFunc::calcInterpValue` (InterpolatedRealFunction.h:610-647): the value and the error estimate stored. -/
noncomputable def ratCalc (t : Table) (s : ℕ) (x : ℝ) : Outcome (ℝ × ℝ) := do
  let x0 ← t.X s
  let st ← forRange t.used (.inl ⟨0, |x - x0|, List.replicate t.used 0, List.replicate t.used 0⟩) (ratStart t s x)
  match st with
  | .inr r => .ret (r, 0)
  | .inl st => do
    let y ← t.Y (s + st.ns)
    let r ← forFromTo 1 t.used ⟨(st.ns : ℤ) - 1, y, 0, st.c, st.d⟩ (ratColumn t s x)
    .ret (r.ss, r.dss)

/-- `RationalInterpRealFunc`: `operator()` followed by `getLastErrorEst` (InterpolatedRealFunction.h:130-133, 596-602). -/
noncomputable def ratEval (t : Table) (x : ℝ) : Outcome (ℝ × ℝ) := ratCalc t (t.locate x) x

/-! ## Barycentric rational -/

/-- `BarycentricRationalInterp` (InterpolatedRealFunction.h:680-684). -/
structure Bary where
  x : List ℝ
  y : List ℝ
  d : ℕ
  w : List ℝ

/-- The product over a window (InterpolatedRealFunction.h:697-702). -/
noncomputable def windowStep (x : List ℝ) (k : ℕ) (term : ℝ) (j : ℕ) : Outcome ℝ :=
  if j = k then .ret term
  else do
    let xk ← Outcome.index x k
    let xj ← Outcome.index x j
    .ret (term * (xk - xj))

/-- One window of a weight (InterpolatedRealFunction.h:695-706) with state `(temp, sum)`. -/
noncomputable def weightStep (x : List ℝ) (d k : ℕ) (st : ℝ × ℝ) (i : ℕ) : Outcome (ℝ × ℝ) := do
  let term ← forFromTo i (min (i + d) (x.length - 1) + 1) 1 (windowStep x k)
  let q ← fdiv st.1 term
  .ret (-st.1, st.2 + q)

/-- One weight (InterpolatedRealFunction.h:690-707).  Subtraction of naturals stops at zero, like `max(k - _d, 0)`; `d < n`. -/
noncomputable def weight (x : List ℝ) (d k : ℕ) : Outcome ℝ := do
  let r ← forFromTo (k - d) ((if k ≥ x.length - d then x.length - d - 1 else k) + 1)
    (if (k - d) % 2 = 1 then -1 else 1, 0) (weightStep x d k)
  .ret r.2

/-- `computeWeights` (InterpolatedRealFunction.h:688-709). -/
noncomputable def weightsStep (x : List ℝ) (d : ℕ) (w : List ℝ) (k : ℕ) : Outcome (List ℝ) := do
  let v ← weight x d k
  Outcome.store w k v

/-- The constructor (InterpolatedRealFunction.h:718-729). -/
noncomputable def Bary.new (x y : List ℝ) (d : ℤ) : Outcome Bary :=
  if (x.length : ℤ) ≤ d then .exn (.mml "RealFuncInterpInitError")
  else if d < 0 then .exn (.mml "RealFuncInterpInitError")
  else do
    let w ← forRange x.length (List.replicate x.length 0) (weightsStep x d.toNat)
    .ret ⟨x, y, d.toNat, w⟩

/-- One term of the sums (InterpolatedRealFunction.h:758-766) with state `(num, den)`; `inr` for the early return. -/
noncomputable def Bary.step (f : Bary) (x : ℝ) (st : (ℝ × ℝ) ⊕ ℝ) (i : ℕ) : Outcome ((ℝ × ℝ) ⊕ ℝ) :=
  match st with
  | .inr r => .ret (.inr r)
  | .inl s => do
    let xi ← Outcome.index f.x i
    if x - xi = 0 then do
      let yi ← Outcome.index f.y i
      .ret (.inr yi)
    else do
      let wi ← Outcome.index f.w i
      let yi ← Outcome.index f.y i
      .ret (.inl (s.1 + wi / (x - xi) * yi, s.2 + wi / (x - xi)))

/-- `operator()` (InterpolatedRealFunction.h:756-768). -/
noncomputable def Bary.eval (f : Bary) (x : ℝ) : Outcome ℝ := do
  let r ← forRange f.x.length (.inl (0, 0)) (f.step x)
  match r with
  | .inr v => .ret v
  | .inl s => fdiv s.1 s.2

/-- `getWeight` (InterpolatedRealFunction.h:775-779). -/
def Bary.getWeight (f : Bary) (i : ℤ) : Outcome ℝ :=
  if i < 0 ∨ (f.x.length : ℤ) ≤ i then .exn (.mml "IndexError") else Outcome.index f.w i.toNat

end Verif.Interp
