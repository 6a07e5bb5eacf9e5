import Verif.CompGeo.Triangulation
import Verif.CompGeo.Polygon

/-!
# Model of the Voronoi diagram

`/repo/mml/algorithms/CompGeometry/VoronoiDiagram.h`.  `Real` is the field of real numbers; indexes are natural numbers, integers where -1 occurs.  A
`Polygon2D` is the list of its vertices.
-/

set_option autoImplicit false

namespace Verif.CompGeo.Vor

abbrev Pt := ℝ × ℝ

/-- `VoronoiEdge` (VoronoiDiagram.h:26-34).  The direction of an edge that is not infinite stays as constructed. -/
structure Edge where
  v1 : ℤ
  v2 : ℤ
  site1 : ℕ
  site2 : ℕ
  dir : Pt

/-- `VoronoiDiagram` (VoronoiDiagram.h:44-49). -/
structure Diagram where
  sites : List Pt
  vertices : List Pt
  edges : List Edge
  cells : List (List ℕ)
  infinite : List Bool

/-! ## Queries -/

/-- The square of the distance of a site (VoronoiDiagram.h:61-62, 65-66). -/
def dist2 (s p : Pt) : ℝ := (s.1 - p.1) * (s.1 - p.1) + (s.2 - p.2) * (s.2 - p.2)

open Classical in
/-- The loop of `FindNearestSite` over the remaining sites, the first of which has index `i` (VoronoiDiagram.h:64-71). -/
noncomputable def nearestFrom (p : Pt) : List Pt → ℕ → ℕ → ℝ → ℕ
  | [], _, best, _ => best
  | s :: r, i, best, d => if dist2 s p < d then nearestFrom p r (i + 1) i (dist2 s p) else nearestFrom p r (i + 1) best d

/-- `FindNearestSite` (VoronoiDiagram.h:57-73). -/
noncomputable def nearestSite (sites : List Pt) (p : Pt) : ℤ :=
  match sites with
  | [] => -1
  | s :: r => (nearestFrom p r 1 0 (dist2 s p) : ℕ)

/-- The points of a cell (VoronoiDiagram.h:84-90): indexes out of range are left out. -/
def cellPoints (vertices : List Pt) (c : List ℕ) : List Pt := c.filterMap (fun i => vertices[i]?)

/-- `GetCell` after the test of the index (VoronoiDiagram.h:79-93). -/
def cellAt (d : Diagram) (s : ℕ) : Outcome (List Pt) := do
  let b ← Outcome.index d.infinite s
  if b then .ret [] else do
    let c ← Outcome.index d.cells s
    if c.length < 3 then .ret []
    else if (cellPoints d.vertices c).length < 3 then .ret [] else .ret (cellPoints d.vertices c)

/-- `GetCell` (VoronoiDiagram.h:77-94). -/
def getCell (d : Diagram) (s : ℤ) : Outcome (List Pt) := if s < 0 ∨ d.sites.length ≤ s then .ret [] else cellAt d s.toNat

/-- `IsCellInfinite` (VoronoiDiagram.h:104-107). -/
def isCellInfinite (d : Diagram) (s : ℤ) : Outcome Bool := if s < 0 ∨ d.sites.length ≤ s then .ret true else Outcome.index d.infinite s.toNat

/-- The signed distance of a point from the line through `m` with normal `n` (VoronoiDiagram.h:164-165, 217-218). -/
def lineDist (m n p : Pt) : ℝ := (p.1 - m.1) * n.1 + (p.2 - m.2) * n.2

open Classical in
/-- One round of a clipping loop for the vertices `p1` and `p2` (VoronoiDiagram.h:164-177, 217-229).  `d1 - d2` is not 0 where it divides. -/
noncomputable def clipPair (m n : Pt) (out : List Pt) (p1 p2 : Pt) : List Pt :=
  (if -(1 / 10 ^ 10) ≤ lineDist m n p1 then out ++ [p1] else out) ++
  (if (1 / 10 ^ 10 < lineDist m n p1 ∧ lineDist m n p2 < -(1 / 10 ^ 10)) ∨ (lineDist m n p1 < -(1 / 10 ^ 10) ∧ 1 / 10 ^ 10 < lineDist m n p2) then
    [(p1.1 + lineDist m n p1 / (lineDist m n p1 - lineDist m n p2) * (p2.1 - p1.1),
      p1.2 + lineDist m n p1 / (lineDist m n p1 - lineDist m n p2) * (p2.2 - p1.2))] else [])

/-- One round of a clipping loop (VoronoiDiagram.h:161-177, 214-229). -/
noncomputable def clipStep (m n : Pt) (poly out : List Pt) (i : ℕ) : Outcome (List Pt) := do
  let p1 ← Outcome.index poly i
  let p2 ← Outcome.index poly ((i + 1) % poly.length)
  .ret (clipPair m n out p1 p2)

/-- `ClipAgainstLine` (VoronoiDiagram.h:207-232), and the same loop in `GetClippedCell` (158-178). -/
noncomputable def clipLine (poly : List Pt) (m n : Pt) : Outcome (List Pt) := forRange poly.length [] (clipStep m n poly)

/-- `ClipToRect` (VoronoiDiagram.h:192-205). -/
noncomputable def clipRect (poly : List Pt) (minX minY maxX maxY : ℝ) : Outcome (List Pt) := do
  let p ← clipLine poly (minX, 0) (1, 0)
  let p ← clipLine p (maxX, 0) (-1, 0)
  let p ← clipLine p (0, minY) (0, 1)
  let p ← clipLine p (0, maxY) (0, -1)
  .ret (if 3 ≤ p.length then p else [])

/-- The length of the normal (VoronoiDiagram.h:150-152). -/
noncomputable def normLen (s o : Pt) : ℝ := Real.sqrt ((s.1 - o.1) * (s.1 - o.1) + (s.2 - o.2) * (s.2 - o.2))

/-- The midpoint (VoronoiDiagram.h:146-147). -/
noncomputable def midpoint (s o : Pt) : Pt := ((s.1 + o.1) / 2, (s.2 + o.2) / 2)

/-- The unit normal towards the site (VoronoiDiagram.h:150-155). -/
noncomputable def unitNormal (s o : Pt) : Pt := ((s.1 - o.1) / normLen s o, (s.2 - o.2) / normLen s o)

open Classical in
/-- The loop over the other sites, the first of which has index `j` (VoronoiDiagram.h:141-184): `none` where the cell is clipped away. -/
noncomputable def clipSites (site : Pt) (idx : ℕ) : List Pt → ℕ → List Pt → Outcome (Option (List Pt))
  | [], _, cell => .ret (some cell)
  | o :: r, j, cell =>
    if j = idx then clipSites site idx r (j + 1) cell
    else if normLen site o < 1 / 10 ^ 10 then clipSites site idx r (j + 1) cell
    else do
      let c ← clipLine cell (midpoint site o) (unitNormal site o)
      if c.length < 3 then .ret none else clipSites site idx r (j + 1) c

/-- The large box (VoronoiDiagram.h:124-137). -/
noncomputable def bigBox (minX minY maxX maxY : ℝ) : List Pt :=
  [(minX - 2 * max (maxX - minX) (maxY - minY), minY - 2 * max (maxX - minX) (maxY - minY)),
   (maxX + 2 * max (maxX - minX) (maxY - minY), minY - 2 * max (maxX - minX) (maxY - minY)),
   (maxX + 2 * max (maxX - minX) (maxY - minY), maxY + 2 * max (maxX - minX) (maxY - minY)),
   (minX - 2 * max (maxX - minX) (maxY - minY), maxY + 2 * max (maxX - minX) (maxY - minY))]

/-- `GetClippedCell` of an infinite cell (VoronoiDiagram.h:124-187). -/
noncomputable def clippedInfinite (d : Diagram) (s : ℕ) (minX minY maxX maxY : ℝ) : Outcome (List Pt) := do
  let site ← Outcome.index d.sites s
  let r ← clipSites site s d.sites 0 (bigBox minX minY maxX maxY)
  match r with
  | none => .ret []
  | some c => clipRect c minX minY maxX maxY

/-- `GetClippedCell` of a cell that is not infinite (VoronoiDiagram.h:116-120). -/
noncomputable def clippedFinite (d : Diagram) (s : ℤ) (minX minY maxX maxY : ℝ) : Outcome (List Pt) := do
  let c ← getCell d s
  if 0 < c.length then clipRect c minX minY maxX maxY else .ret []

/-- `GetClippedCell` (VoronoiDiagram.h:111-188). -/
noncomputable def getClippedCell (d : Diagram) (s : ℤ) (minX minY maxX maxY : ℝ) : Outcome (List Pt) :=
  if s < 0 ∨ d.sites.length ≤ s then .ret [] else do
    let b ← Outcome.index d.infinite s.toNat
    if b then clippedInfinite d s.toNat minX minY maxX maxY else clippedFinite d s minX minY maxX maxY

/-! ## Construction -/

/-- The denominator in `ComputeCircumcenter` (VoronoiDiagram.h:456). -/
def ccDenom (a b c : Pt) : ℝ := 2 * (a.1 * (b.2 - c.2) + b.1 * (c.2 - a.2) + c.1 * (a.2 - b.2))

open Classical in
/-- `ComputeCircumcenter` (VoronoiDiagram.h:449-468). -/
noncomputable def circumcenter (a b c : Pt) : Pt :=
  if |ccDenom a b c| < 1 / 10 ^ 14 then ((a.1 + b.1 + c.1) / 3, (a.2 + b.2 + c.2) / 3)
  else (((a.1 * a.1 + a.2 * a.2) * (b.2 - c.2) + (b.1 * b.1 + b.2 * b.2) * (c.2 - a.2) + (c.1 * c.1 + c.2 * c.2) * (a.2 - b.2)) / ccDenom a b c,
        ((a.1 * a.1 + a.2 * a.2) * (c.1 - b.1) + (b.1 * b.1 + b.2 * b.2) * (a.1 - c.1) + (c.1 * c.1 + c.2 * c.2) * (b.1 - a.1)) / ccDenom a b c)

/-- The vertices: the circumcentres of the triangles (VoronoiDiagram.h:295-304). -/
noncomputable def centersOf (ps : List Pt) : List Del.Tri → Outcome (List Pt)
  | [] => .ret []
  | t :: r => do
    let x ← Del.corners ps t
    let xs ← centersOf ps r
    .ret (circumcenter x.1 x.2.1 x.2.2 :: xs)

/-- A pass of the loops over the triangles and their sides (VoronoiDiagram.h:322-325, 357): triangle, side, its ends and the third corner. -/
structure Job where
  t : ℕ
  e : Fin 3
  v1 : ℕ
  v2 : ℕ
  v3 : ℕ

/-- The passes for one triangle (VoronoiDiagram.h:323-325, 357). -/
def jobsOf (x : Del.Tri × ℕ) : List Job :=
  [⟨x.2, 0, x.1.1, x.1.2.1, x.1.2.2⟩, ⟨x.2, 1, x.1.2.1, x.1.2.2, x.1.1⟩, ⟨x.2, 2, x.1.2.2, x.1.1, x.1.2.1⟩]

/-- All passes in order (VoronoiDiagram.h:322-323). -/
def jobs (T : List Del.Tri) : List Job := T.zipIdx.flatMap jobsOf

/-- The state of the loop over the edges: `processedEdges`, the edges and `cellIsInfinite` (VoronoiDiagram.h:308, 321, 377). -/
structure EState where
  done : List (ℕ × ℕ)
  edges : List Edge
  inf : List Bool

/-- The length of a side (VoronoiDiagram.h:362). -/
noncomputable def sideLen (p1 p2 : Pt) : ℝ := Real.sqrt (-(p2.2 - p1.2) * -(p2.2 - p1.2) + (p2.1 - p1.1) * (p2.1 - p1.1))

open Classical in
/-- The perpendicular of a side, normalised (VoronoiDiagram.h:351-365). -/
noncomputable def perp (p1 p2 : Pt) : Pt :=
  if 1 / 10 ^ 10 < sideLen p1 p2 then (-(p2.2 - p1.2) / sideLen p1 p2, (p2.1 - p1.1) / sideLen p1 p2) else (-(p2.2 - p1.2), p2.1 - p1.1)

open Classical in
/-- The direction of an infinite edge (VoronoiDiagram.h:367-374). -/
noncomputable def outward (p1 p2 p3 : Pt) : Pt :=
  if 0 < (p3.1 - (p1.1 + p2.1) / 2) * (perp p1 p2).1 + (p3.2 - (p1.2 + p2.2) / 2) * (perp p1 p2).2 then (-(perp p1 p2).1, -(perp p1 p2).2) else perp p1 p2

/-- The edge of a boundary side (VoronoiDiagram.h:344-377). -/
noncomputable def openEdge (ps : List Pt) (j : Job) (st : EState) : Outcome EState := do
  let inf ← Outcome.store st.inf j.v1 true
  let inf ← Outcome.store inf j.v2 true
  let p1 ← Outcome.index ps j.v1
  let p2 ← Outcome.index ps j.v2
  let p3 ← Outcome.index ps j.v3
  .ret ⟨Del.key (j.v1, j.v2) :: st.done, st.edges ++ [⟨j.t, -1, j.v1, j.v2, outward p1 p2 p3⟩], inf⟩

/-- A pass that is not skipped (VoronoiDiagram.h:332-377). -/
noncomputable def newEdge (ps : List Pt) (nb : List (Fin 3 → ℤ)) (j : Job) (st : EState) : Outcome EState := do
  let f ← Outcome.index nb j.t
  if 0 ≤ f j.e then .ret ⟨Del.key (j.v1, j.v2) :: st.done, st.edges ++ [⟨j.t, f j.e, j.v1, j.v2, (0, 0)⟩], st.inf⟩
  else openEdge ps j st

/-- One pass (VoronoiDiagram.h:324-377). -/
noncomputable def edgeStep (n : ℕ) (ps : List Pt) (nb : List (Fin 3 → ℤ)) (j : Job) (st : EState) : Outcome EState :=
  if n ≤ j.v1 ∨ n ≤ j.v2 then .ret st
  else if Del.key (j.v1, j.v2) ∈ st.done then .ret st
  else newEdge ps nb j st

/-- The loop over the edges (VoronoiDiagram.h:321-379). -/
noncomputable def edgeLoop (n : ℕ) (ps : List Pt) (nb : List (Fin 3 → ℤ)) : List Job → EState → Outcome EState
  | [], st => .ret st
  | j :: r, st => do
    let st ← edgeStep n ps nb j st
    edgeLoop n ps nb r st

/-- `siteToTriangles[s]` (VoronoiDiagram.h:311-318): the index of a triangle once for every corner that is `s`. -/
def siteTris (T : List Del.Tri) (s : ℕ) : List ℕ :=
  T.zipIdx.flatMap (fun x => ([x.1.1, x.1.2.1, x.1.2.2].filter (fun v => v = s)).map (fun _ => x.2))

/-- Is the candidate a neighbour of the triangle (VoronoiDiagram.h:407-414, 430-435)? -/
def touches (f : Fin 3 → ℤ) (c : ℕ) : Bool := decide (f 0 = c) || decide (f 1 = c) || decide (f 2 = c)

/-- The search for the next triangle (VoronoiDiagram.h:402-416): the index of the first unused one that is a neighbour. -/
def findNext (f : Fin 3 → ℤ) : List ℕ → List Bool → ℕ → Option ℕ
  | c :: r, u :: us, i => if u then findNext f r us (i + 1) else if touches f c then some i else findNext f r us (i + 1)
  | _, _, _ => none

/-- The chain (VoronoiDiagram.h:398-423), `k` rounds: the order and whether a gap was met. -/
def chain (nb : List (Fin 3 → ℤ)) (tris : List ℕ) : ℕ → List ℕ → ℕ → List Bool → Outcome (List ℕ × Bool)
  | 0, ordered, _, _ => .ret (ordered, false)
  | k + 1, ordered, last, used => do
    let f ← Outcome.index nb last
    match findNext f tris used 0 with
    | none => .ret (ordered, true)
    | some i => do
      let c ← Outcome.index tris i
      chain nb tris k (ordered ++ [c]) c (used.set i true)

/-- Does the chain close (VoronoiDiagram.h:426-439)?  `true` where the code sets the flag. -/
def notClosed (nb : List (Fin 3 → ℤ)) (tris ordered : List ℕ) (first : ℕ) : Outcome Bool :=
  if ordered.length = tris.length ∧ 2 ≤ ordered.length then do
    let f ← Outcome.index nb (ordered.getLastD first)
    .ret (!touches f first)
  else .ret false

/-- The cell of a site: the order of its triangles and whether the flag is set (VoronoiDiagram.h:383-441). -/
def cellOf (nb : List (Fin 3 → ℤ)) (tris : List ℕ) : Outcome (List ℕ × Bool) :=
  match tris with
  | [] => .ret ([], true)
  | t :: r => do
    let o ← chain nb (t :: r) r.length [t] t (true :: r.map (fun _ => false))
    let c ← notClosed nb (t :: r) o.1 t
    .ret (o.1, o.2 || c)

/-- The loop over the sites (VoronoiDiagram.h:382-442). -/
def cellLoop (nb : List (Fin 3 → ℤ)) (T : List Del.Tri) (n : ℕ) (inf : List Bool) : Outcome (List (List ℕ) × List Bool) :=
  forRange n ([], inf) (fun s i => do
    let c ← cellOf nb (siteTris T i)
    let inf ← if c.2 then Outcome.store s.2 i true else .ret s.2
    .ret (s.1 ++ [c.1], inf))

/-- The case of no triangles and of fewer than two points (VoronoiDiagram.h:258-263, 287-292). -/
def noCells (ps : List Pt) : Diagram := ⟨ps, [], [], List.replicate ps.length [], List.replicate ps.length true⟩

/-- `ComputeVoronoi` once the triangulation is there (VoronoiDiagram.h:295-444). -/
noncomputable def dual (ps : List Pt) (m : Del.Mesh) : Outcome Diagram := do
  let vs ← centersOf m.points m.triangles
  let st ← edgeLoop ps.length m.points m.neighbors (jobs m.triangles) ⟨[], [], List.replicate ps.length false⟩
  let c ← cellLoop m.neighbors m.triangles ps.length st.inf
  .ret ⟨ps, vs, st.edges, c.1, c.2⟩

/-- `ComputeVoronoi` (VoronoiDiagram.h:253-445). -/
noncomputable def compute : List Pt → Outcome Diagram
  | [] => .ret (noCells [])
  | [p] => .ret (noCells [p])
  | [p, q] => .ret ⟨[p, q], [], [⟨-1, -1, 0, 1, (-(q.2 - p.2), q.1 - p.1)⟩], [[], []], [true, true]⟩
  | ps => do
    let m ← Del.compute ps
    if m.triangles.length = 0 then .ret (noCells ps) else dual ps m

end Verif.CompGeo.Vor
