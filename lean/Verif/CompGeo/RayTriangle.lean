import Verif.Geom.Vec
import Verif.CompGeo.HullModel
import Verif.Interp.Model

/-!
# Model of `Intersections::IntersectRayTriangle` (Intersections.h)

Points and vectors of space are both `V3 ℝ`.  The overloads of lines 158-188 take the same data packed in other classes and are this function.
-/

set_option autoImplicit false

namespace Verif.CompGeo.Ray

open Verif.Geom

/-- `RayTriangleHit` (CompGeometryBase.h:36-54). -/
structure Hit where
  hit : Bool
  t : ℝ
  u : ℝ
  v : ℝ
  point : V3 ℝ

/-- `RayTriangleHit result` as it is initialised (CompGeometryBase.h:37-41). -/
def miss : Hit := ⟨false, 0, 0, 0, ⟨0, 0, 0⟩⟩

/-- `BarycentricW` (CompGeometryBase.h:47). -/
noncomputable def Hit.w (h : Hit) : ℝ := 1 - h.u - h.v

/-- `det` (Intersections.h:126-129). -/
noncomputable def det (dir v0 v1 v2 : V3 ℝ) : ℝ := V3.dot (V3.sub v1 v0) (V3.cross dir (V3.sub v2 v0))

open Classical in
/-- The last part of `IntersectRayTriangle`, with `t` (Intersections.h:147-155). -/
noncomputable def afterV (org dir : V3 ℝ) (u v t : ℝ) : Hit :=
  if t < 0 then miss else ⟨true, t, u, v, V3.add org (V3.scale dir t)⟩

open Classical in
/-- The part after the test of `u` (Intersections.h:143-147); `e1` and `e2` are `edge1` and `edge2`. -/
noncomputable def afterU (org dir e1 e2 tvec : V3 ℝ) (invDet u : ℝ) : Hit :=
  if V3.dot dir (V3.cross tvec e1) * invDet < 0 ∨ 1 < u + V3.dot dir (V3.cross tvec e1) * invDet then miss
  else afterV org dir u (V3.dot dir (V3.cross tvec e1) * invDet) (V3.dot e2 (V3.cross tvec e1) * invDet)

open Classical in
/-- The part after the test of the determinant (Intersections.h:137-141); `tvec` is `rayOrigin - v0`. -/
noncomputable def afterDet (org dir e1 e2 tvec : V3 ℝ) (invDet : ℝ) : Hit :=
  if V3.dot tvec (V3.cross dir e2) * invDet < 0 ∨ 1 < V3.dot tvec (V3.cross dir e2) * invDet then miss
  else afterU org dir e1 e2 tvec invDet (V3.dot tvec (V3.cross dir e2) * invDet)

open Classical in
/-- `IntersectRayTriangle` (Intersections.h:116-156). -/
noncomputable def rayTriangle (org dir v0 v1 v2 : V3 ℝ) (cull : Bool) : Outcome Hit :=
  if (if cull = true then det dir v0 v1 v2 < geomEps else |det dir v0 v1 v2| < geomEps) then .ret miss else do
    let invDet ← Interp.fdiv 1 (det dir v0 v1 v2)
    .ret (afterDet org dir (V3.sub v1 v0) (V3.sub v2 v0) (V3.sub org v0) invDet)

end Verif.CompGeo.Ray
