import Mathlib.Analysis.Convex.Extreme
import Mathlib.Analysis.Convex.Hull
import Mathlib.Data.Real.Basic

/-!
# What a convex hull is
-/

set_option autoImplicit false

namespace Verif.CompGeo

/-- Twice the signed area of the triangle `a b c`: positive when `c` lies to the left of the line from `a` to `b`. -/
def area2 (a b c : ℝ × ℝ) : ℝ := a.1 * (b.2 - c.2) + b.1 * (c.2 - a.2) + c.1 * (a.2 - b.2)

/-- `a` is followed by `b` around the closed polygon with vertices `h`. -/
def Edge (h : List (ℝ × ℝ)) (a b : ℝ × ℝ) : Prop := [a, b] <:+: h ++ h.take 1

/-- `h` lists the corners of the convex hull of `pts`: exactly its extreme points, each once, in counter-clockwise order, that is,
with all points to the left of (or on) every edge. -/
structure IsHull (pts h : List (ℝ × ℝ)) : Prop where
  nodup : h.Nodup
  corners : {p | p ∈ h} = (convexHull ℝ {p | p ∈ pts}).extremePoints ℝ
  left : ∀ a b, Edge h a b → ∀ q ∈ pts, 0 ≤ area2 a b q

end Verif.CompGeo
