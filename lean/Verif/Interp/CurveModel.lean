import Verif.Interp.GridModel
import Mathlib.Algebra.Order.Round
import Mathlib.Analysis.SpecialFunctions.Sqrt

/-!
# Model of interpolated curves (InterpolationParametricCurve.h)

Numbers are exact reals.  `N` is the template argument.
-/

set_option autoImplicit false

namespace Verif.Interp

open Verif

/-- One coordinate of a squared distance (InterpolationParametricCurve.h:82-83, 290-291). -/
def sqDiffStep (pts : Mat.Dense ℝ) (i k : ℕ) (acc : ℝ) (j : ℕ) : Outcome ℝ := do
  let a ← pts.get i j
  let b ← pts.get k j
  .ret (acc + (a - b) ^ 2)

/-- The distance of two rows (InterpolationParametricCurve.h:81-84, and `rad`, 288-293). -/
noncomputable def rowDist (N : ℕ) (pts : Mat.Dense ℝ) (i k : ℕ) : Outcome ℝ := do
  let s ← forRange N 0 (sqDiffStep pts i k)
  .ret (Real.sqrt s)

/-- The members of `LinInterpParametricCurve` (InterpolationParametricCurve.h:62-65). -/
structure LinCurve where
  points : Mat.Dense ℝ
  arc : List ℝ
  closed : Bool

/-- The loop that adds up the lengths (InterpolationParametricCurve.h:80-86) with state `(totalLen, _arcLen)`. -/
noncomputable def arcStep (N : ℕ) (pts : Mat.Dense ℝ) (st : ℝ × List ℝ) (i : ℕ) : Outcome (ℝ × List ℝ) := do
  let d ← rowDist N pts i (i - 1)
  let arc ← Outcome.store st.2 i (st.1 + d)
  .ret (st.1 + d, arc)

/-- The loop that divides by the total (InterpolationParametricCurve.h:88-89). -/
noncomputable def arcNormStep (total : ℝ) (arc : List ℝ) (i : ℕ) : Outcome (List ℝ) := do
  let a ← Outcome.index arc i
  Outcome.store arc i (a / (if total > 0 then total else 1))

/-- The constructor (InterpolationParametricCurve.h:72-90). -/
noncomputable def LinCurve.new (N : ℕ) (pts : Mat.Dense ℝ) (close : Bool) : Outcome LinCurve := do
  let arc0 ← Outcome.store (List.replicate pts.rows 0) 0 0
  let st ← forFromTo 1 pts.rows (0, arc0) (arcStep N pts)
  let arc ← forRange pts.rows st.2 (arcNormStep st.1)
  .ret ⟨pts, arc, close⟩

/-- Clamping or wrapping of the parameter (InterpolationParametricCurve.h:108-115). -/
noncomputable def LinCurve.param (f : LinCurve) (t : ℝ) : ℝ :=
  if f.closed then t - ⌊t⌋ else (if (if t ≤ 0 then 0 else t) ≥ 1 then 1 else if t ≤ 0 then 0 else t)

/-- The loop that looks for the segment (InterpolationParametricCurve.h:118-120).  The element read is in range when the first condition
holds. -/
noncomputable def segmentStep (arc : List ℝ) (np : ℕ) (t : ℝ) (i : ℕ) : Option ℕ :=
  if i < np - 2 ∧ t > arc.getD (i + 1) 0 then some (i + 1) else none

/-- One coordinate of the point (InterpolationParametricCurve.h:127-128). -/
noncomputable def lerpStep (pts : Mat.Dense ℝ) (i : ℕ) (alpha : ℝ) (r : List ℝ) (j : ℕ) : Outcome (List ℝ) := do
  let a ← pts.get i j
  let b ← pts.get (i + 1) j
  Outcome.store r j ((1 - alpha) * a + alpha * b)

/-- The interpolation on the segment (InterpolationParametricCurve.h:123-129). -/
noncomputable def LinCurve.onSegment (N : ℕ) (f : LinCurve) (i : ℕ) (t : ℝ) : Outcome (List ℝ) := do
  let t0 ← Outcome.index f.arc i
  let t1 ← Outcome.index f.arc (i + 1)
  forRange N (List.replicate N 0) (lerpStep f.points i (if t1 - t0 > 0 then (t - t0) / (t1 - t0) else 0))

/-- `operator()` (InterpolationParametricCurve.h:106-130).  The number of points bounds the search. -/
noncomputable def LinCurve.eval (N : ℕ) (f : LinCurve) (t : ℝ) : Outcome (List ℝ) :=
  match whileFuel (segmentStep f.arc f.points.rows (f.param t)) (f.points.rows + 1) 0 with
  | none => .ub
  | some i => f.onSegment N i (f.param t)

/-- The members of `SplineInterpParametricCurve` that are read later (InterpolationParametricCurve.h:154-163). -/
structure SplineCurve where
  minT : ℝ
  maxT : ℝ
  closed : Bool
  coords : List Spline

/-- `ofs` (InterpolationParametricCurve.h:192). -/
def curveOfs (np : ℕ) (close : Bool) : ℕ := if close then np / 2 else 0

/-- `_bemba` (InterpolationParametricCurve.h:177). -/
def curveLen (np : ℕ) (close : Bool) : ℕ := if close then 2 * np else np

/-- `ii` (InterpolationParametricCurve.h:195). -/
def curveRow (np : ℕ) (close : Bool) (i : ℕ) : ℕ := (i + np - curveOfs np close) % np

/-- The lengths (InterpolationParametricCurve.h:194-209, without the copy of the coordinates at 198-199). -/
noncomputable def lengthStep (N : ℕ) (pts : Mat.Dense ℝ) (close : Bool) (s : List ℝ) (i : ℕ) : Outcome (List ℝ) :=
  if i > 0 then do
    let p ← Outcome.index s (i - 1)
    let d ← rowDist N pts (curveRow pts.rows close i) ((curveRow pts.rows close i + pts.rows - 1) % pts.rows)
    let s' ← Outcome.store s i (p + d)
    if p + d = p then .exn (.mml "RealFuncInterpRuntimeError") else .ret s'
  else .ret s

/-- The normalisation (InterpolationParametricCurve.h:213-214). -/
noncomputable def lengthNormStep (soff ss : ℝ) (s : List ℝ) (i : ℕ) : Outcome (List ℝ) := do
  let a ← Outcome.index s i
  let v ← fdiv (a - soff) ss
  Outcome.store s i v

/-- `fprime` (InterpolationParametricCurve.h:277-281) on the four points it reads. -/
noncomputable def endSlope (x0 x1 x2 x3 y0 y1 y2 y3 : ℝ) : Outcome ℝ := do
  let s1 := x0 - x1
  let s2 := x0 - x2
  let s3 := x0 - x3
  let a ← fdiv (s1 * s2) ((s1 - s3) * (s2 - s3) * s3)
  let b ← fdiv (s1 * s3) ((s1 - s2) * s2 * (s2 - s3))
  let c ← fdiv (s2 * s3) (s1 * (s1 - s2) * (s1 - s3))
  let d1 ← fdiv 1 s1
  let d2 ← fdiv 1 s2
  let d3 ← fdiv 1 s3
  .ret (-a * y3 + b * y2 - c * y1 + (d1 + d2 + d3) * y0)

/-- The slope at an end (InterpolationParametricCurve.h:217, 218): the four elements at the positions `k`, as `fprime` reads them. -/
noncomputable def slopeAt (s vec : List ℝ) (k : ℕ → ℕ) : Outcome ℝ :=
  if s.length < 4 then .ret naturalEnd
  else do
    let x0 ← Outcome.index s (k 0)
    let x1 ← Outcome.index s (k 1)
    let x2 ← Outcome.index s (k 2)
    let x3 ← Outcome.index s (k 3)
    let y0 ← Outcome.index vec (k 0)
    let y1 ← Outcome.index vec (k 1)
    let y2 ← Outcome.index vec (k 2)
    let y3 ← Outcome.index vec (k 3)
    endSlope x0 x1 x2 x3 y0 y1 y2 y3

/-- The copy of one coordinate (InterpolationParametricCurve.h:198-199, 220).  The matrix `_curvePoints` is not built: its row `j` is
read here, when the code extracts it. -/
def coordStep (pts : Mat.Dense ℝ) (close : Bool) (j : ℕ) (v : List ℝ) (i : ℕ) : Outcome (List ℝ) := do
  let a ← pts.get (curveRow pts.rows close i) j
  Outcome.store v i a

/-- The spline of one coordinate (InterpolationParametricCurve.h:216-223).  The slots are filled in order, hence appending. -/
noncomputable def coordSpline (pts : Mat.Dense ℝ) (close : Bool) (s : List ℝ) (fs : List Spline) (j : ℕ) : Outcome (List Spline) := do
  let vec ← forRange s.length (List.replicate s.length 0) (coordStep pts close j)
  let db ← slopeAt s vec (fun k => k)
  let de ← slopeAt s vec (fun k => s.length - 1 - k)
  let f ← Spline.new s vec db de
  .ret (fs ++ [f])

/-- The constructor (InterpolationParametricCurve.h:174-224).  A division `0 / 0` is undefined behaviour here; the code gets NaN. -/
noncomputable def SplineCurve.new (N : ℕ) (minT maxT : ℝ) (pts : Mat.Dense ℝ) (close : Bool) : Outcome SplineCurve :=
  if N ≠ pts.cols then .exn (.mml "MatrixDimensionError")
  else do
    let s0 ← Outcome.store (List.replicate (curveLen pts.rows close) 0) 0 0
    let s1 ← forRange (curveLen pts.rows close) s0 (lengthStep N pts close)
    let soff ← Outcome.index s1 (curveOfs pts.rows close)
    let top ← Outcome.index s1 (if close then curveOfs pts.rows close + pts.rows else pts.rows - 1)
    let s ← forRange (curveLen pts.rows close) s1 (lengthNormStep soff (top - soff))
    let fs ← forRange pts.cols [] (coordSpline pts close s)
    .ret ⟨minT, maxT, close, fs⟩

/-- One coordinate of the point (InterpolationParametricCurve.h:264-265). -/
noncomputable def SplineCurve.coordEval (f : SplineCurve) (u : ℝ) (r : List ℝ) (j : ℕ) : Outcome (List ℝ) := do
  let c ← Outcome.index f.coords j
  let v ← c.eval u
  Outcome.store r j v

/-- `operator()` (InterpolationParametricCurve.h:253-268); `_dim` is the number of coordinates, equal to `N`. -/
noncomputable def SplineCurve.eval (f : SplineCurve) (t : ℝ) : Outcome (List ℝ) :=
  if f.closed = true ∧ (t < f.minT ∨ t > f.maxT) then .exn (.mml "DomainError")
  else do
    let u ← fdiv ((if f.closed then t - ⌊t⌋ else t) - f.minT) (f.maxT - f.minT)
    forRange f.coords.length (List.replicate f.coords.length 0) (f.coordEval u)

end Verif.Interp
