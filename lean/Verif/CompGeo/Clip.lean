import Verif.CompGeo.Polygon
import Verif.CompGeo.Lines

/-!
# Model of polygon clipping (PolygonOps.h)

Polygons are lists of vertices, as in `CompGeo/Polygon`; the empty list is `Polygon2D()`.
-/

set_option autoImplicit false

namespace Verif.CompGeo.Clip

open Verif.CompGeo.Poly

/-- `Cross` (PolygonOps.h:266-268). -/
noncomputable def crs (o a b : Pt) : ℝ := (a.1 - o.1) * (b.2 - o.2) - (a.2 - o.2) * (b.1 - o.1)

/-- `denom` of `IntersectSegmentWithLine` (PolygonOps.h:275-280). -/
noncomputable def denom (p1 p2 l1 l2 : Pt) : ℝ := (p2.1 - p1.1) * (l2.2 - l1.2) - (p2.2 - p1.2) * (l2.1 - l1.1)

/-- The numerator of `t` in `IntersectSegmentWithLine` (PolygonOps.h:287). -/
noncomputable def numer (p1 l1 l2 : Pt) : ℝ := (l1.1 - p1.1) * (l2.2 - l1.2) - (l1.2 - p1.2) * (l2.1 - l1.1)

open Classical in
/-- The end of `IntersectSegmentWithLine`, once `t` is there (PolygonOps.h:290-298). -/
noncomputable def atParam (p1 p2 : Pt) (t : ℝ) : Option Pt :=
  if t < -geomEps ∨ 1 + geomEps < t then none
  else some (p1.1 + max 0 (min 1 t) * (p2.1 - p1.1), p1.2 + max 0 (min 1 t) * (p2.2 - p1.2))

open Classical in
/-- `IntersectSegmentWithLine` (PolygonOps.h:272-299): the point, `none` if there is none. -/
noncomputable def meetLine (p1 p2 l1 l2 : Pt) : Outcome (Option Pt) :=
  if |denom p1 p2 l1 l2| < geomEps then .ret none else do
    let t ← Interp.fdiv (numer p1 l1 l2) (denom p1 p2 l1 l2)
    .ret (atParam p1 p2 t)

open Classical in
/-- The lambda `isInside` of `ClipAgainstEdge` (PolygonOps.h:311). -/
noncomputable def isInside (a b p : Pt) : Bool := decide (-geomEps ≤ crs a b p)

/-- One round of the loop of `ClipAgainstEdge` for the vertices `cur` and `next` (PolygonOps.h:317-332). -/
noncomputable def clipPair (a b : Pt) (out : List Pt) (cur next : Pt) : Outcome (List Pt) :=
  if isInside a b cur = true then
    if isInside a b next = true then .ret (out ++ [cur])
    else do
      let r ← meetLine cur next a b
      .ret (out ++ [cur] ++ r.toList)
  else if isInside a b next = true then do
    let r ← meetLine cur next a b
    .ret (out ++ r.toList)
  else .ret out

/-- One round of the loop of `ClipAgainstEdge` (PolygonOps.h:313-332). -/
noncomputable def clipStep (a b : Pt) (poly out : List Pt) (i : ℕ) : Outcome (List Pt) := do
  let cur ← Outcome.index poly i
  let next ← Outcome.index poly ((i + 1) % poly.length)
  clipPair a b out cur next

/-- `ClipAgainstEdge` (PolygonOps.h:302-336). -/
noncomputable def clipEdge (poly : List Pt) (a b : Pt) : Outcome (List Pt) :=
  if poly.length = 0 then .ret [] else forRange poly.length [] (clipStep a b poly)

/-- One round of the loop of `ClipPolygon` (PolygonOps.h:52-60).  Once the output is empty the loop is left, here the remaining rounds do
nothing. -/
noncomputable def clipRound (clip out : List Pt) (i : ℕ) : Outcome (List Pt) :=
  if out = [] then .ret [] else do
    let a ← Outcome.index clip i
    let b ← Outcome.index clip ((i + 1) % clip.length)
    clipEdge out a b

/-- `ClipPolygon` (PolygonOps.h:45-63). -/
noncomputable def clipPolygon (subject clip : List Pt) : Outcome (List Pt) :=
  if subject.length < 3 ∨ clip.length < 3 then .ret [] else do
    let out ← forRange clip.length subject (clipRound clip)
    .ret (if 3 ≤ out.length then out else [])

/-- `ClipToRect` (PolygonOps.h:72-81). -/
noncomputable def clipToRect (subject : List Pt) (minX minY maxX maxY : ℝ) : Outcome (List Pt) :=
  clipPolygon subject [(minX, minY), (maxX, minY), (maxX, maxY), (minX, maxY)]

/-- One round of the loops that collect the vertices of `v` which `w` contains (PolygonOps.h:141-144, 147-150; `want = true`) or does not contain
(PolygonOps.h:233-236; `want = false`). -/
noncomputable def collectStep (v w : List Pt) (want : Bool) (out : List Pt) (i : ℕ) : Outcome (List Pt) := do
  let p ← Outcome.index v i
  let b ← contains w p
  .ret (if b = want then out ++ [p] else out)

/-- The point of a crossing, if it is one (PolygonOps.h:158-159, 244-245). -/
def pointOf : Lines.Meet → List Pt
  | .point p => [p]
  | _ => []

/-- One round of the inner loop over the pairs of sides (PolygonOps.h:155-159, 241-245). -/
noncomputable def crossStep (v w : List Pt) (i : ℕ) (out : List Pt) (j : ℕ) : Outcome (List Pt) := do
  let p ← Outcome.index v i
  let q ← Outcome.index v ((i + 1) % v.length)
  let p' ← Outcome.index w j
  let q' ← Outcome.index w ((j + 1) % w.length)
  let r ← Lines.Seg.intersection ⟨p, q⟩ ⟨p', q'⟩
  .ret (out ++ pointOf r)

/-- The loops over the pairs of sides (PolygonOps.h:153-161, 239-247). -/
noncomputable def crossings (v w out : List Pt) : Outcome (List Pt) :=
  forRange v.length out fun out i => forRange w.length out (crossStep v w i)

/-- The hull of the points as the result, if it has three corners (PolygonOps.h:166-168, 195-197, 204-206, 252-254). -/
noncomputable def hullOf (pts : List Pt) : Outcome (List (List Pt)) := do
  let h ← hull pts
  .ret (if 3 ≤ h.length then [h] else [])

/-- `PolygonIntersectionApprox` for a clip region that is not convex (PolygonOps.h:136-171).  The second test for convexity (128-134) needs a convex
`polyB` and is never reached with one. -/
noncomputable def intersectionGeneral (a b : List Pt) : Outcome (List (List Pt)) := do
  let out ← forRange a.length [] (collectStep a b true)
  let out ← forRange b.length out (collectStep b a true)
  let out ← crossings a b out
  if 3 ≤ out.length then hullOf out else .ret []

/-- `PolygonIntersectionApprox` (PolygonOps.h:117-172). -/
noncomputable def intersectionApprox (a b : List Pt) : Outcome (List (List Pt)) := do
  let c ← isConvex b
  if c = true then do
    let r ← clipPolygon a b
    .ret (if 3 ≤ r.length then [r] else [])
  else intersectionGeneral a b

/-- `PolygonUnionApprox` (PolygonOps.h:183-209): both branches compute the hull of all vertices. -/
noncomputable def unionApprox (a b : List Pt) : Outcome (List (List Pt)) := do
  let _ ← isConvex a
  let _ ← isConvex b
  hullOf (a ++ b)

/-- The end of `PolygonDifferenceApprox`, if there is an overlap (PolygonOps.h:231-257). -/
noncomputable def differenceGeneral (a b : List Pt) : Outcome (List (List Pt)) := do
  let out ← forRange a.length [] (collectStep a b false)
  let out ← crossings a b out
  if 3 ≤ out.length then hullOf out else .ret []

/-- `PolygonDifferenceApprox` (PolygonOps.h:220-258). -/
noncomputable def differenceApprox (a b : List Pt) : Outcome (List (List Pt)) := do
  let r ← intersectionApprox a b
  if r = [] then .ret [a] else differenceGeneral a b

end Verif.CompGeo.Clip
