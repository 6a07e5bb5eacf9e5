import Verif.Common
import Mathlib.Data.List.Sort
import Mathlib.Data.Real.Basic

/-!
# Model of the planar convex hull (ConvexHull.h)

A point is a pair of exact reals.  The number of points is assumed to fit into an `int`.
-/

set_option autoImplicit false

namespace Verif.CompGeo

open Verif

/-- `Constants::GEOMETRY_EPSILON` (MMLBase.h:126). -/
noncomputable def geomEps : ℝ := 1 / 10 ^ 10

/-- `ConvexHull2D::Cross` (ConvexHull.h:34-36). -/
def cross (o a b : ℝ × ℝ) : ℝ := (a.1 - o.1) * (b.2 - o.2) - (a.2 - o.2) * (b.1 - o.1)

/-- The order of the sort (ConvexHull.h:62-64), as "not greater". -/
def lexLe (a b : ℝ × ℝ) : Prop := a.1 < b.1 ∨ a.1 = b.1 ∧ a.2 ≤ b.2

/-- The test for duplicates (ConvexHull.h:67-69). -/
def near (a b : ℝ × ℝ) : Prop := |a.1 - b.1| < geomEps ∧ |a.2 - b.2| < geomEps

open Classical in
/-- `std::unique` with that test (ConvexHull.h:67-70): each point is compared with the last one kept. -/
noncomputable def unique : List (ℝ × ℝ) → List (ℝ × ℝ)
  | [] => []
  | [a] => [a]
  | a :: b :: l => if near a b then unique (a :: l) else a :: unique (b :: l)
  termination_by l => l.length

open Classical in
/-- The inner loops (ConvexHull.h:82-83, 90-91).  The array `hull[0..k)` is a list with its last element first; `m` is the size
below which nothing is removed. -/
noncomputable def pop (m : ℕ) (p : ℝ × ℝ) : List (ℝ × ℝ) → List (ℝ × ℝ)
  | b :: a :: s => if m ≤ (b :: a :: s).length ∧ cross a b p ≤ geomEps then pop m p (a :: s) else b :: a :: s
  | s => s

/-- `hull[k++] = p` for an array of size `n` (ConvexHull.h:84, 92); writing past its end is undefined. -/
def push (n : ℕ) (p : ℝ × ℝ) (s : List (ℝ × ℝ)) : Outcome (List (ℝ × ℝ)) :=
  if s.length < n then .ret (p :: s) else .ub

/-- One of the two outer loops (ConvexHull.h:81-85, 89-93) over the points `ps`. -/
noncomputable def chain (n m : ℕ) : List (ℝ × ℝ) → List (ℝ × ℝ) → Outcome (List (ℝ × ℝ))
  | [], s => .ret s
  | p :: ps, s => do
    let s ← push n p (pop m p s)
    chain n m ps s

/-- The two hulls over the sorted points (ConvexHull.h:77-98).  The upper loop runs from the point before the last down to the
first; at the end the last point is removed. -/
noncomputable def monotoneChain (ps : List (ℝ × ℝ)) : Outcome (List (ℝ × ℝ)) := do
  let low ← chain (2 * ps.length) 2 ps []
  let s ← chain (2 * ps.length) (low.length + 1) ps.reverse.tail low
  .ret s.tail.reverse

open Classical in
/-- `ConvexHull2D::Compute` (ConvexHull.h:49-99).  The order `std::sort` leaves equal points in does not matter. -/
noncomputable def hull (pts : List (ℝ × ℝ)) : Outcome (List (ℝ × ℝ)) :=
  if pts.length < 3 then .ret pts
  else if (unique (pts.insertionSort lexLe)).length < 3 then .ret (unique (pts.insertionSort lexLe))
  else monotoneChain (unique (pts.insertionSort lexLe))

end Verif.CompGeo
