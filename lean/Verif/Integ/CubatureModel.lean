import Mathlib.Algebra.BigOperators.Group.Finset.Basic
import Verif.Integ.GaussModel

/-!
# Model of the adaptive integration over rectangles and boxes

`mml/core/Integration/Integration2DAdaptive.h` and `Integration3DAdaptive.h`.  The two recursions are the same
program for cells that are cut into four and into eight, so `run` is written once for a cell type.  Real numbers
are exact, the integrand is a total function, the node loops that only accumulate are sums, and the counters do
not overflow.  The variants returning diagnostics are not modelled.
-/

set_option autoImplicit false

namespace Verif.Integ.Cub

open Verif.Integ

/-- `AdaptiveResult2D` and `AdaptiveResult3D` (Integration2DAdaptive.h:61-79, Integration3DAdaptive.h:61-79). -/
structure Result where
  value : ℝ
  err : ℝ
  evals : ℕ
  cells : ℕ
  depth : ℕ
  conv : Bool

/-- `operator+=` (Integration2DAdaptive.h:82-90, Integration3DAdaptive.h:82-90). -/
noncomputable def Result.add (a b : Result) : Result :=
  ⟨a.value + b.value, a.err + b.err, a.evals + b.evals, a.cells + b.cells, max a.depth b.depth, a.conv && b.conv⟩

/-- What the recursion needs to know about a cell type: the estimate and its error, the number of evaluations an
estimate takes, the parts a cell is cut into in the order they are visited, and the tolerance of a cell whose
estimate is the second argument. -/
structure Job (C : Type) where
  rule : C → ℝ × ℝ
  cost : ℕ
  split : C → List C
  tol : C → ℝ → ℝ

variable {C : Type}

/-- The test `error_estimate <= cell_tol` (Integration2DAdaptive.h:265, Integration3DAdaptive.h:275). -/
def Job.Accept (J : Job C) (c : C) : Prop := (J.rule c).2 ≤ J.tol c (J.rule c).1

open Classical in
/-- The result of a cell that is not cut (Integration2DAdaptive.h:266-268, Integration3DAdaptive.h:276-278). -/
noncomputable def leaf (J : Job C) (depth : ℕ) (c : C) : Result :=
  ⟨(J.rule c).1, (J.rule c).2, J.cost, 0, depth, decide (J.Accept c)⟩

/-- The result to which the parts are added: the default constructor leaves `converged` false
(Integration2DAdaptive.h:71-72, 275-276, Integration3DAdaptive.h:71-72, 286-287). -/
noncomputable def start : Result := ⟨0, 0, 0, 1, 0, false⟩

/-- One `result += Recursive(...)` with the budget passed by reference (Integration2DAdaptive.h:279-282,
Integration3DAdaptive.h:291-299). -/
noncomputable def visit (f : C → ℤ → Result × ℤ) (s : Result × ℤ) (c : C) : Result × ℤ :=
  (s.1.add (f c s.2).1, (f c s.2).2)

open Classical in
/-- `IntegrateAdaptive2D_Recursive` and `IntegrateAdaptive3D_Recursive` (Integration2DAdaptive.h:242-285,
Integration3DAdaptive.h:254-302).  The first argument is `max_depth - depth`, zero when that is negative; the
last is `evals_remaining`, returned beside the result. -/
noncomputable def run (J : Job C) : ℕ → ℕ → C → ℤ → Result × ℤ
  | 0, depth, c, b => (leaf J depth c, b - J.cost)
  | n + 1, depth, c, b =>
    if J.Accept c ∨ b - J.cost ≤ 0 then (leaf J depth c, b - J.cost)
    else (J.split c).foldl (visit (run J n (depth + 1))) (start, b - J.cost)

/-- `xGK15[i]`; the loops stay within the table. -/
noncomputable def node (i : ℕ) : ℝ := xGK15.getD i 0

/-- `wGK15[i]`; the loops stay within the table. -/
noncomputable def wK (i : ℕ) : ℝ := wGK15.getD i 0

/-- `is_gauss_index(i) ? wG7[gauss_weight_index(i)] : 0` (Integration2DAdaptive.h:150-157, 168-169,
Integration3DAdaptive.h:146-153, 160-161). -/
noncomputable def wG (i : ℕ) : ℝ :=
  if i = 0 then wG7.getD 0 0 else if i = 2 then wG7.getD 1 0 else if i = 4 then wG7.getD 2 0
  else if i = 6 then wG7.getD 3 0 else 0

/-- A rectangle. -/
structure Box2 where
  x1 : ℝ
  x2 : ℝ
  y1 : ℝ
  y2 : ℝ

/-- The sum of the values at the nodes `(±i, ±j)` (Integration2DAdaptive.h:181-206). -/
noncomputable def sum2 (f : ℝ → ℝ → ℝ) (cx hx cy hy : ℝ) (i j : ℕ) : ℝ :=
  let xp := cx + hx * node i
  let xn := cx - hx * node i
  let yp := cy + hy * node j
  let yn := cy - hy * node j
  if 0 < i ∧ 0 < j then f xp yp + f xp yn + f xn yp + f xn yn
  else if 0 < i then f xp yp + f xn yp
  else if 0 < j then f xp yp + f xp yn
  else f xp yp

/-- The evaluations counted for the nodes `(±i, ±j)` (Integration2DAdaptive.h:182-206). -/
def count2 (i j : ℕ) : ℕ := if 0 < i ∧ 0 < j then 1 + 3 else if 0 < i then 1 + 1 else if 0 < j then 1 + 1 else 1

/-- The value of `IntegrateCell2D_TensorGK15` for one choice of weights (Integration2DAdaptive.h:135-223).  For
the Gauss sum the weight of an index that is not a Gauss index is zero. -/
noncomputable def tensor2 (w : ℕ → ℝ) (f : ℝ → ℝ → ℝ) (c : Box2) : ℝ :=
  let cx := 0.5 * (c.x1 + c.x2)
  let hx := 0.5 * (c.x2 - c.x1)
  let cy := 0.5 * (c.y1 + c.y2)
  let hy := 0.5 * (c.y2 - c.y1)
  (∑ i ∈ Finset.range 8, ∑ j ∈ Finset.range 8, w i * w j * sum2 f cx hx cy hy i j) * (hx * hy)

/-- `IntegrateCell2D_TensorGK15` (Integration2DAdaptive.h:133-228). -/
noncomputable def cell2 (f : ℝ → ℝ → ℝ) (c : Box2) : ℝ × ℝ := (tensor2 wK f c, |tensor2 wK f c - tensor2 wG f c|)

/-- The four parts (Integration2DAdaptive.h:272-282). -/
noncomputable def split2 (c : Box2) : List Box2 :=
  let mx := 0.5 * (c.x1 + c.x2)
  let my := 0.5 * (c.y1 + c.y2)
  [⟨c.x1, mx, c.y1, my⟩, ⟨mx, c.x2, c.y1, my⟩, ⟨c.x1, mx, my, c.y2⟩, ⟨mx, c.x2, my, c.y2⟩]

/-- The area of a cell (Integration2DAdaptive.h:256). -/
noncomputable def area (c : Box2) : ℝ := (c.x2 - c.x1) * (c.y2 - c.y1)

/-- The recursion on rectangles; `tiny` is `numeric_limits<Real>::min()` (Integration2DAdaptive.h:256-262). -/
noncomputable def job2 (f : ℝ → ℝ → ℝ) (total tolAbs tolRel tiny : ℝ) : Job Box2 where
  rule := cell2 f
  cost := ∑ i ∈ Finset.range 8, ∑ j ∈ Finset.range 8, count2 i j
  split := split2
  tol c v := max (max (tolAbs * (area c / total)) (tolRel * |v|)) tiny

open Classical in
/-- `IntegrateAdaptive2D` (Integration2DAdaptive.h:324-348 with one tolerance, 359-381 with a configuration). -/
noncomputable def integrate2 (f : ℝ → ℝ → ℝ) (c : Box2) (tolAbs tolRel tiny : ℝ) (maxDepth maxEvals : ℤ) : Result :=
  if c.x2 ≤ c.x1 ∨ c.y2 ≤ c.y1 then ⟨0, 0, 0, 0, 0, true⟩
  else (run (job2 f (area c) tolAbs tolRel tiny) maxDepth.toNat 0 c maxEvals).1

/-- A box. -/
structure Box3 where
  x1 : ℝ
  x2 : ℝ
  y1 : ℝ
  y2 : ℝ
  z1 : ℝ
  z2 : ℝ

/-- The sum of the values at the nodes `(±i, ±j, ±k)` (Integration3DAdaptive.h:178-219). -/
noncomputable def sum3 (f : ℝ → ℝ → ℝ → ℝ) (cx hx cy hy cz hz : ℝ) (i j k : ℕ) : ℝ :=
  let xp := cx + hx * node i
  let xn := cx - hx * node i
  let yp := cy + hy * node j
  let yn := cy - hy * node j
  let zp := cz + hz * node k
  let zn := cz - hz * node k
  if 0 < i ∧ 0 < j ∧ 0 < k then
    f xp yp zp + f xp yp zn + f xp yn zp + f xp yn zn + f xn yp zp + f xn yp zn + f xn yn zp + f xn yn zn
  else if 0 < i ∧ 0 < j then f xp yp zp + f xp yn zp + f xn yp zp + f xn yn zp
  else if 0 < i ∧ 0 < k then f xp yp zp + f xp yp zn + f xn yp zp + f xn yp zn
  else if 0 < j ∧ 0 < k then f xp yp zp + f xp yp zn + f xp yn zp + f xp yn zn
  else if 0 < i then f xp yp zp + f xn yp zp
  else if 0 < j then f xp yp zp + f xp yn zp
  else if 0 < k then f xp yp zp + f xp yp zn
  else f xp yp zp

/-- The evaluations counted for the nodes `(±i, ±j, ±k)` (Integration3DAdaptive.h:179-219). -/
def count3 (i j k : ℕ) : ℕ :=
  if 0 < i ∧ 0 < j ∧ 0 < k then 1 + 7 else if 0 < i ∧ 0 < j then 1 + 3 else if 0 < i ∧ 0 < k then 1 + 3
  else if 0 < j ∧ 0 < k then 1 + 3 else if 0 < i then 1 + 1 else if 0 < j then 1 + 1 else if 0 < k then 1 + 1 else 1

/-- The value of `IntegrateCell3D_TensorGK15` for one choice of weights (Integration3DAdaptive.h:134-235). -/
noncomputable def tensor3 (w : ℕ → ℝ) (f : ℝ → ℝ → ℝ → ℝ) (c : Box3) : ℝ :=
  let cx := 0.5 * (c.x1 + c.x2)
  let hx := 0.5 * (c.x2 - c.x1)
  let cy := 0.5 * (c.y1 + c.y2)
  let hy := 0.5 * (c.y2 - c.y1)
  let cz := 0.5 * (c.z1 + c.z2)
  let hz := 0.5 * (c.z2 - c.z1)
  (∑ i ∈ Finset.range 8, ∑ j ∈ Finset.range 8, ∑ k ∈ Finset.range 8,
    w i * w j * w k * sum3 f cx hx cy hy cz hz i j k) * (hx * hy * hz)

/-- `IntegrateCell3D_TensorGK15` (Integration3DAdaptive.h:132-240). -/
noncomputable def cell3 (f : ℝ → ℝ → ℝ → ℝ) (c : Box3) : ℝ × ℝ := (tensor3 wK f c, |tensor3 wK f c - tensor3 wG f c|)

/-- The eight parts (Integration3DAdaptive.h:282-299). -/
noncomputable def split3 (c : Box3) : List Box3 :=
  let mx := 0.5 * (c.x1 + c.x2)
  let my := 0.5 * (c.y1 + c.y2)
  let mz := 0.5 * (c.z1 + c.z2)
  [⟨c.x1, mx, c.y1, my, c.z1, mz⟩, ⟨mx, c.x2, c.y1, my, c.z1, mz⟩,
   ⟨c.x1, mx, my, c.y2, c.z1, mz⟩, ⟨mx, c.x2, my, c.y2, c.z1, mz⟩,
   ⟨c.x1, mx, c.y1, my, mz, c.z2⟩, ⟨mx, c.x2, c.y1, my, mz, c.z2⟩,
   ⟨c.x1, mx, my, c.y2, mz, c.z2⟩, ⟨mx, c.x2, my, c.y2, mz, c.z2⟩]

/-- The volume of a cell (Integration3DAdaptive.h:268). -/
noncomputable def volume (c : Box3) : ℝ := (c.x2 - c.x1) * (c.y2 - c.y1) * (c.z2 - c.z1)

/-- The recursion on boxes (Integration3DAdaptive.h:268-272). -/
noncomputable def job3 (f : ℝ → ℝ → ℝ → ℝ) (total tolAbs tolRel : ℝ) : Job Box3 where
  rule := cell3 f
  cost := ∑ i ∈ Finset.range 8, ∑ j ∈ Finset.range 8, ∑ k ∈ Finset.range 8, count3 i j k
  split := split3
  tol c v := max (tolAbs * (volume c / total)) (tolRel * |v|)

open Classical in
/-- `IntegrateAdaptive3D` (Integration3DAdaptive.h:344-369 with one tolerance, 391-415 with a configuration). -/
noncomputable def integrate3 (f : ℝ → ℝ → ℝ → ℝ) (c : Box3) (tolAbs tolRel : ℝ) (maxDepth maxEvals : ℤ) : Result :=
  if c.x2 ≤ c.x1 ∨ c.y2 ≤ c.y1 ∨ c.z2 ≤ c.z1 then ⟨0, 0, 0, 0, 0, true⟩
  else (run (job3 f (volume c) tolAbs tolRel) maxDepth.toNat 0 c maxEvals).1

end Verif.Integ.Cub
