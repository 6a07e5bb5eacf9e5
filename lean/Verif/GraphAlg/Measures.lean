import Verif.GraphAlg.TraverseModel
import Mathlib.Data.Rat.Defs
import Mathlib.Algebra.Order.Ring.Rat
import Mathlib.Order.WithBot

/-!
# Model of the structural measures in `mml/algorithms/GraphSpectral.h`

`Real` is exact; the measures are rational, so they are computed in `ℚ`.  BFS distances are natural numbers
or infinite.
-/

set_option autoImplicit false

namespace Verif.Graph.Measure

variable {V E : Type}

/-- Entry `u` of `BFS(graph, v).distance` (`mml/algorithms/GraphSpectral.h:198,205`; `BFS` itself is modelled
from `mml/algorithms/GraphAlgorithms.h:34-75`).  The loops below only read it at valid `v`, `u`. -/
def dist (g : Graph V E) (v u : ℕ) : Option ℕ := ((bfs g v).bind fun r => r.distance[u]?).join

/-- `mml/algorithms/GraphSpectral.h:203-210`, `566-573`: one round of a loop that adds a value and counts when
a condition holds. -/
def addIf (p : ℕ → Bool) (f : ℕ → ℚ) (s : ℚ × ℕ) (u : ℕ) : ℚ × ℕ :=
  if p u then (s.1 + f u, s.2 + 1) else s

/-- `mml/algorithms/GraphSpectral.h:163-179`, `DegreeCentrality`; `degree(v)` at a valid vertex is the length of
its neighbour list. -/
def degreeCentrality (g : Graph V E) : List ℚ :=
  if g.numVertices ≤ 1 then List.replicate g.numVertices 0
  else (List.range g.numVertices).map fun v => ((g.nbrs v).length : ℚ) / ((g.numVertices - 1 : ℕ) : ℚ)

/-- `mml/algorithms/GraphSpectral.h:196-219`: the entry of `ClosenessCentrality` for one vertex. -/
def closenessAt (g : Graph V E) (v : ℕ) : ℚ :=
  let s := (List.range g.numVertices).foldl
    (addIf (fun u => u != v && (dist g v u).isSome) (fun u => (((dist g v u).getD 0 : ℕ) : ℚ))) (0, 0)
  if 0 < s.2 ∧ 0 < s.1 then (s.2 : ℚ) / s.1 else 0

/-- `mml/algorithms/GraphSpectral.h:187-223`, `ClosenessCentrality`. -/
def closenessCentrality (g : Graph V E) : List ℚ :=
  if g.numVertices ≤ 1 then List.replicate g.numVertices 0
  else (List.range g.numVertices).map (closenessAt g)

/-- `mml/algorithms/GraphSpectral.h:472-484`, `GraphDensity`; `maxEdges /= 2` is integer division. -/
def graphDensity (g : Graph V E) : ℚ :=
  if g.numVertices ≤ 1 then 0
  else
    let maxEdges : ℕ := g.numVertices * (g.numVertices - 1)
    let maxEdges := if g.type = .undirected then maxEdges / 2 else maxEdges
    (g.numEdges : ℚ) / (maxEdges : ℚ)

/-- `mml/algorithms/GraphSpectral.h:507-515`: the number of pairs `i < j` of neighbours for which `hasEdge`
of the `i`-th and the `j`-th says yes. -/
def triangles (g : Graph V E) : List (Edge E) → ℕ
  | [] => 0
  | e :: es => es.countP (fun e' => decide (g.hasEdge e.to e'.to = .ret true)) + triangles g es

/-- `mml/algorithms/GraphSpectral.h:517-519`: the local clustering coefficient. -/
def localCC (g : Graph V E) (v : ℕ) : ℚ :=
  (triangles g (g.nbrs v) : ℚ) / ((((g.nbrs v).length * ((g.nbrs v).length - 1) : ℕ) : ℚ) / 2)

/-- `mml/algorithms/GraphSpectral.h:488-524`, `AverageClusteringCoefficient`. -/
def averageClustering (g : Graph V E) : ℚ :=
  if g.numVertices = 0 then 0
  else
    let s := (List.range g.numVertices).foldl
      (addIf (fun v => decide (2 ≤ (g.nbrs v).length)) (localCC g)) (0, 0)
    if 0 < s.2 then s.1 / (s.2 : ℚ) else 0

/-- The distance as a number with infinity (`std::numeric_limits<Real>::infinity()`,
`mml/algorithms/GraphSpectral.h:543`). -/
def distT (g : Graph V E) (v u : ℕ) : WithTop ℕ :=
  match dist g v u with
  | none => ⊤
  | some k => (k : WithTop ℕ)

/-- `mml/algorithms/GraphSpectral.h:543-544`. -/
def diamStep (g : Graph V E) (v : ℕ) (diameter : WithTop ℕ) (u : ℕ) : WithTop ℕ :=
  if distT g v u > diameter then distT g v u else diameter

/-- `mml/algorithms/GraphSpectral.h:528-549`, `GraphDiameter`. -/
def graphDiameter (g : Graph V E) : WithTop ℕ :=
  if g.numVertices ≤ 1 then 0
  else (List.range g.numVertices).foldl
    (fun diameter v => (List.range g.numVertices).foldl (diamStep g v) diameter) 0

/-- `mml/algorithms/GraphSpectral.h:553-578`, `AveragePathLength`; the inner loop starts at `v + 1`. -/
def averagePathLength (g : Graph V E) : ℚ :=
  if g.numVertices ≤ 1 then 0
  else
    let s := (List.range g.numVertices).foldl
      (fun s v => (List.range' (v + 1) (g.numVertices - (v + 1))).foldl
        (addIf (fun u => (dist g v u).isSome) (fun u => (((dist g v u).getD 0 : ℕ) : ℚ))) s) (0, 0)
    if 0 < s.2 then s.1 / (s.2 : ℚ) else 0

end Verif.Graph.Measure
