import Verif.CompGeo.HullModel
import Mathlib.Analysis.Real.Sqrt
import Mathlib.Order.WithBot

/-!
# Model of the closest pair of points (Circles.h)

A part `points[left..right]` of the array is the list of its elements; the array is not changed by the recursion, and every index used is
between `left` and `right`.  `std::numeric_limits<Real>::max()` is `⊤`: all distances are below it.
-/

set_option autoImplicit false

namespace Verif.CompGeo

/-- `Point2Cartesian::Dist` (GeometryPoints.h:54). -/
noncomputable def dist2 (a b : ℝ × ℝ) : ℝ := Real.sqrt ((b.1 - a.1) * (b.1 - a.1) + (b.2 - a.2) * (b.2 - a.2))

/-- `ClosestPairResult` (CompGeometryBase.h:61-69). -/
structure Closest where
  p1 : ℝ × ℝ
  p2 : ℝ × ℝ
  distance : WithTop ℝ

/-- The default `ClosestPairResult` (CompGeometryBase.h:65-66). -/
def Closest.none : Closest := ⟨(0, 0), (0, 0), ⊤⟩

open Classical in
/-- The comparison of the pair `(a, b)` with the best one so far (Circles.h:121-123, 139-141). -/
noncomputable def better (a b : ℝ × ℝ) (best : Closest) : Closest :=
  if (dist2 a b : WithTop ℝ) < best.distance then ⟨a, b, dist2 a b⟩ else best

/-- The inner loop of `ClosestPairBruteForce` (Circles.h:120-124) for the point `a` and the points after it. -/
noncomputable def bruteInner (a : ℝ × ℝ) : List (ℝ × ℝ) → Closest → Closest
  | [], best => best
  | b :: l, best => bruteInner a l (better a b best)

/-- The outer loop of `ClosestPairBruteForce` (Circles.h:119-125). -/
noncomputable def bruteOuter : List (ℝ × ℝ) → Closest → Closest
  | [], best => best
  | a :: l, best => bruteOuter l (bruteInner a l best)

/-- `ClosestPairBruteForce` (Circles.h:116-127). -/
noncomputable def bruteForce (l : List (ℝ × ℝ)) : Closest := bruteOuter l Closest.none

open Classical in
/-- The inner loop of `ClosestPairStrip` (Circles.h:138-142): it ends at the first point that is too far above `a`. -/
noncomputable def stripInner (a : ℝ × ℝ) : List (ℝ × ℝ) → Closest → Closest
  | [], best => best
  | b :: l, best => if ((b.2 - a.2 : ℝ) : WithTop ℝ) < best.distance then stripInner a l (better a b best) else best

/-- The outer loop of `ClosestPairStrip` (Circles.h:137-143). -/
noncomputable def stripOuter : List (ℝ × ℝ) → Closest → Closest
  | [], best => best
  | a :: l, best => stripOuter l (stripInner a l best)

/-- The order by ordinates (Circles.h:134), as "not greater". -/
def yLe (a b : ℝ × ℝ) : Prop := a.2 ≤ b.2

/-- The order by abscissas (Circles.h:221), as "not greater". -/
def xLe (a b : ℝ × ℝ) : Prop := a.1 ≤ b.1

open Classical in
/-- `ClosestPairStrip` (Circles.h:129-145). -/
noncomputable def stripBest (strip : List (ℝ × ℝ)) (delta : WithTop ℝ) : Closest :=
  stripOuter (strip.insertionSort yLe) ⟨(0, 0), (0, 0), delta⟩

open Classical in
/-- The strip around the middle point (Circles.h:159-163). -/
noncomputable def stripOf (l : List (ℝ × ℝ)) (mid : ℝ × ℝ) (d : WithTop ℝ) : List (ℝ × ℝ) :=
  l.filter (fun p => decide (((|p.1 - mid.1| : ℝ) : WithTop ℝ) < d))

open Classical in
/-- The smaller of the two halves' results (Circles.h:157). -/
noncomputable def smaller (a b : Closest) : Closest := if a.distance < b.distance then a else b

open Classical in
/-- The part of `ClosestPairHelper` after the recursion (Circles.h:159-169). -/
noncomputable def merge (l : List (ℝ × ℝ)) (mid : ℝ × ℝ) (best : Closest) : Closest :=
  if (stripBest (stripOf l mid best.distance) best.distance).distance < best.distance
  then stripBest (stripOf l mid best.distance) best.distance else best

/-- `ClosestPairHelper` (Circles.h:147-170) for the points between `left` and `right`: `right - left` is one less than their number,
`mid` is the position `(right - left) / 2` counted from `left`. -/
noncomputable def closestHelper (l : List (ℝ × ℝ)) : Outcome Closest :=
  if l.length - 1 ≤ 3 then .ret (bruteForce l)
  else do
    let mid ← Outcome.index l ((l.length - 1) / 2)
    let left ← closestHelper (l.take ((l.length - 1) / 2 + 1))
    let right ← closestHelper (l.drop ((l.length - 1) / 2 + 1))
    .ret (merge l mid (smaller left right))
  termination_by l.length
  decreasing_by
    · simp only [List.length_take]; omega
    · simp only [List.length_drop]; omega

open Classical in
/-- `ClosestPair` (Circles.h:212-224). -/
noncomputable def closestPair (pts : List (ℝ × ℝ)) : Outcome Closest :=
  if pts.length < 2 then .ret Closest.none
  else if pts.length = 2 then do
    let a ← Outcome.index pts 0
    let b ← Outcome.index pts 1
    .ret ⟨a, b, dist2 a b⟩
  else closestHelper (pts.insertionSort xLe)

end Verif.CompGeo
