import Verif.CompGeo.CircleBox
import Verif.CompGeo.Closest
import Verif.Loops

/-!
# Model of the smallest enclosing circle (Welzl's algorithm)

`/repo/mml/algorithms/CompGeometry/Circles.h`, lines 37-110 and 180-203.  `Real` is the field of real numbers.  The random generator is
any sequence of draws: `pick k n` is the `k`-th draw of `uniform_int_distribution(0, n - 1)`, and `std::shuffle` puts the points in any order.
-/

set_option autoImplicit false

namespace Verif.CompGeo.MEC
open CB

/-- `CircleFrom2Points` (Circles.h:37-41). -/
noncomputable def from2 (p q : Pt) : Circle := ⟨((p.1 + q.1) / 2, (p.2 + q.2) / 2), dist2 p q / 2⟩

/-- The denominator `d` in `CircleFrom3Points` (Circles.h:45-50). -/
def den3 (p q r : Pt) : ℝ := 2 * ((q.1 - p.1) * (r.2 - p.2) - (q.2 - p.2) * (r.1 - p.1))

/-- `(cx, cy)` in `CircleFrom3Points` (Circles.h:54-58). -/
noncomputable def off3 (p q r : Pt) : Pt :=
  (((r.2 - p.2) * ((q.1 - p.1) * (q.1 - p.1) + (q.2 - p.2) * (q.2 - p.2)) - (q.2 - p.2) * ((r.1 - p.1) * (r.1 - p.1) + (r.2 - p.2) * (r.2 - p.2))) / den3 p q r,
   ((q.1 - p.1) * ((r.1 - p.1) * (r.1 - p.1) + (r.2 - p.2) * (r.2 - p.2)) - (r.1 - p.1) * ((q.1 - p.1) * (q.1 - p.1) + (q.2 - p.2) * (q.2 - p.2))) / den3 p q r)

open Classical in
/-- `CircleFrom3Points` (Circles.h:43-63): `none` if it returns `false`. -/
noncomputable def from3 (p q r : Pt) : Option Circle :=
  if |den3 p q r| < geomEps then none
  else some ⟨(p.1 + (off3 p q r).1, p.2 + (off3 p q r).2), Real.sqrt ((off3 p q r).1 * (off3 p q r).1 + (off3 p q r).2 * (off3 p q r).2)⟩

open Classical in
/-- `IsInsideCircle` (Circles.h:65-67). -/
noncomputable def isInside (p : Pt) (c : Circle) : Bool := decide (dist2 p c.center ≤ c.radius + geomEps)

open Classical in
/-- The circle about the two of three points that are farthest apart (Circles.h:82-91). -/
noncomputable def farthest2 (p q r : Pt) : Circle :=
  if dist2 p r ≤ dist2 p q ∧ dist2 q r ≤ dist2 p q then from2 p q else if dist2 q r ≤ dist2 p r then from2 p r else from2 q r

/-- The circle for the points on the boundary (Circles.h:72-93). -/
noncomputable def base : List Pt → Circle
  | [] => ⟨(0, 0), 0⟩
  | [p] => ⟨p, 0⟩
  | [p, q] => from2 p q
  | p :: q :: r :: _ => (from3 p q r).getD (farthest2 p q r)

/-- `std::swap(points[i], points[j])` (Circles.h:99). -/
noncomputable def swap (ps : List Pt) (i j : ℕ) : Outcome (List Pt) := do
  let x ← Outcome.index ps i
  let y ← Outcome.index ps j
  let ps ← Outcome.store ps i y
  Outcome.store ps j x

/-- `WelzlHelper` (Circles.h:69-110).  The arguments are `n`, the boundary, the points and the number of draws made so far; the result has the circle,
the points in their new order and the number of draws. -/
noncomputable def welzl (pick : ℕ → ℕ → ℕ) : ℕ → List Pt → List Pt → ℕ → Outcome (Circle × List Pt × ℕ)
  | 0, b, ps, k => .ret (base b, ps, k)
  | n + 1, b, ps, k =>
    if b.length = 3 then .ret (base b, ps, k)
    else do
      let ps ← swap ps (pick k (n + 1)) n
      let p ← Outcome.index ps n
      let s ← welzl pick n b ps (k + 1)
      if isInside p s.1 then .ret s
      else welzl pick n (b ++ [p]) s.2.1 s.2.2

/-- `MinimumEnclosingCircle` (Circles.h:180-199; of a polygon it is that of its vertices, 201-203), for the order `ps'` of the points after `std::shuffle`. -/
noncomputable def minCircle (pick : ℕ → ℕ → ℕ) (ps ps' : List Pt) : Outcome Circle :=
  match ps with
  | [] => Circle.new (0, 0) 0
  | [p] => Circle.new p 0
  | _ => do
    let s ← welzl pick ps.length [] ps' 0
    Circle.new s.1.center s.1.radius

end Verif.CompGeo.MEC
