import Verif.Graph.Model
import Mathlib.Algebra.Ring.Defs
import Mathlib.Algebra.Group.Pi.Basic
import Mathlib.Logic.Function.Basic

/-!
# Model of the matrix views of a graph (`mml/base/Graph.h:374-443`)

A matrix is a function of the row and column index.  The C++ writes to `A(i, edge.to)` are in range
because every stored edge target is below the number of vertices (`graph_wellformed`, property C01).
-/

set_option autoImplicit false

namespace Verif.Graph

variable {V K : Type} [Ring K]

/-- The loop `for (const auto& edge : _adjList[i]) row[edge.to] = f(edge.weight)` on a row that
starts as zero; `mml/base/Graph.h:385-391` with `f = id` and `434-436` with `f = neg`. -/
def fillRow (f : K → K) (edges : List (Edge K)) : Nat → K :=
  edges.foldl (fun row e => Function.update row e.to (f e.weight)) (fun _ => 0)

/-- `mml/base/Graph.h:410-412` and `433-438`, weighted degree. -/
def weightSum (edges : List (Edge K)) : K :=
  edges.foldl (fun deg e => deg + e.weight) 0

/-- `mml/base/Graph.h:374-394`, `toAdjacencyMatrix`: entry `(i, j)`, for `i` below `numVertices`. -/
def Graph.adjacencyMatrix (g : Graph V K) (i j : Nat) : Outcome K := do
  let edges ← Outcome.index g.adjList i
  return fillRow id edges j

/-- `mml/base/Graph.h:397-417`, `toDegreeMatrix`: entry `(i, j)`. -/
def Graph.degreeMatrix (g : Graph V K) (i j : Nat) : Outcome K := do
  let edges ← Outcome.index g.adjList i
  return Function.update (fun _ : Nat => (0 : K)) i (weightSum edges) j

/-- `mml/base/Graph.h:421-443`, `toLaplacianMatrix`: entry `(i, j)`.  The diagonal entry is written
after the loop over the edges (line 439). -/
def Graph.laplacianMatrix (g : Graph V K) (i j : Nat) : Outcome K := do
  let edges ← Outcome.index g.adjList i
  return Function.update (fillRow (fun w => -w) edges) i (weightSum edges) j

end Verif.Graph
