import Verif.Common
import Verif.GraphAlg.Paths
import Mathlib.Logic.Function.Basic

/-!
# Model of BFS, DFS, connected components and path reconstruction
(`mml/algorithms/GraphAlgorithms.h:34-201`, `346-474`)

Conventions.  `std::vector`s indexed by vertex are functions on vertices while the algorithm runs, and
lists of length `n` in the returned object.  `GRAPH_NOT_FOUND` (`SIZE_MAX`, no vertex index) is `none`;
the distance `infinity` is `none`; hop counts are natural numbers.  A queue is a list with its front
first, a stack is a list with its top first.  A `while` loop is `whileFuel` with fuel that the theorems
prove sufficient; a result `none` would mean that the loop did not end within the fuel.
-/

set_option autoImplicit false

namespace Verif.Graph

variable {V E : Type}

/-- `TraversalResult`, `mml/base/Graph.h:52-60`; `D` is the type of distances including infinity. -/
structure Traversal (D : Type) where
  visitOrder : List Nat := []
  parent : List (Option Nat) := []
  distance : List D := []
  nodesVisited : Nat := 0
  deriving DecidableEq

/-- Local variables of `BFS` and `DFS`, `mml/algorithms/GraphAlgorithms.h:37-52` and `122-136`.
`work` is the queue or the stack. -/
structure TrState where
  visited : Nat → Bool
  parent : Nat → Option Nat
  dist : Nat → Option Nat
  work : List Nat
  order : List Nat
  nodesVisited : Nat

/-- The result object built from the local variables; the vectors have length `n`
(`mml/algorithms/GraphAlgorithms.h:43-44`). -/
def TrState.result (n : Nat) (s : TrState) : Traversal (Option Nat) where
  visitOrder := s.order
  parent := (List.range n).map s.parent
  distance := (List.range n).map s.dist
  nodesVisited := s.nodesVisited

/-- Body of the neighbour loop of `BFS`, `mml/algorithms/GraphAlgorithms.h:61-71`. -/
def bfsVisit (u : Nat) (s : TrState) (e : Edge E) : TrState :=
  if s.visited e.to then s
  else
    { s with
      visited := Function.update s.visited e.to true
      parent := Function.update s.parent e.to (some u)
      dist := Function.update s.dist e.to ((s.dist u).map (· + 1))
      work := s.work ++ [e.to] }

/-- One iteration of the main loop of `BFS`, `mml/algorithms/GraphAlgorithms.h:53-72`. -/
def bfsStep (g : Graph V E) (s : TrState) : Option TrState :=
  match s.work with
  | [] => none
  | u :: q =>
    some ((g.nbrs u).foldl (bfsVisit u)
      { s with work := q, order := s.order ++ [u], nodesVisited := s.nodesVisited + 1 })

/-- `mml/algorithms/GraphAlgorithms.h:43-51`, state before the main loop of `BFS`. -/
def bfsInit (start : Nat) : TrState where
  visited := Function.update (fun _ => false) start true
  parent := fun _ => none
  dist := Function.update (fun _ => none) start (some 0)
  work := [start]
  order := []
  nodesVisited := 0

/-- `mml/algorithms/GraphAlgorithms.h:34-75`, `BFS`. -/
def bfs (g : Graph V E) (start : Nat) : Option (Traversal (Option Nat)) :=
  if start ≥ g.numVertices then some {}
  else (whileFuel (bfsStep g) (g.numVertices + 1) (bfsInit start)).map (TrState.result g.numVertices)

/-- Body of the neighbour loop of `DFS`, `mml/algorithms/GraphAlgorithms.h:150-162`. -/
def dfsPush (u : Nat) (s : TrState) (e : Edge E) : TrState :=
  if s.visited e.to then s
  else
    let s := if s.parent e.to = none then
        { s with
          parent := Function.update s.parent e.to (some u)
          dist := Function.update s.dist e.to ((s.dist u).map (· + 1)) }
      else s
    { s with work := e.to :: s.work }

/-- One iteration of the main loop of `DFS`, `mml/algorithms/GraphAlgorithms.h:137-163`; the
neighbours are pushed in reverse order (line 150). -/
def dfsStep (g : Graph V E) (s : TrState) : Option TrState :=
  match s.work with
  | [] => none
  | u :: st =>
    if s.visited u then some { s with work := st }
    else
      some ((g.nbrs u).reverse.foldl (dfsPush u)
        { s with
          work := st
          visited := Function.update s.visited u true
          order := s.order ++ [u]
          nodesVisited := s.nodesVisited + 1 })

/-- `mml/algorithms/GraphAlgorithms.h:128-135`, state before the main loop of `DFS`. -/
def dfsInit (start : Nat) : TrState where
  visited := fun _ => false
  parent := fun _ => none
  dist := Function.update (fun _ => none) start (some 0)
  work := [start]
  order := []
  nodesVisited := 0

/-- Number of stored adjacency entries: bounds the pushes of `DFS` and of `Dijkstra`.  It only sizes
the fuel and models no line of the code. -/
def Graph.entries (g : Graph V E) : Nat :=
  ∑ u ∈ Finset.range g.numVertices, (g.nbrs u).length

/-- `mml/algorithms/GraphAlgorithms.h:119-167`, `DFS`. -/
def dfs (g : Graph V E) (start : Nat) : Option (Traversal (Option Nat)) :=
  if start ≥ g.numVertices then some {}
  else (whileFuel (dfsStep g) (g.entries + 2) (dfsInit start)).map (TrState.result g.numVertices)

/-- Body of `ReconstructPath`'s loop, `mml/algorithms/GraphAlgorithms.h:424-431`: `curr` is
`none` when it equals `GRAPH_NOT_FOUND`; after the `break` on line 429 `stop` is set.
`parent[curr]` out of range is undefined behaviour. -/
structure RpState where
  curr : Option Nat
  stop : Bool
  path : List Nat
  bad : Bool

/-- One iteration of the loop, `mml/algorithms/GraphAlgorithms.h:424-431`. -/
def rpStep (parent : List (Option Nat)) (start : Nat) (s : RpState) : Option RpState :=
  if s.stop || s.bad then none
  else
    match s.curr with
    | none => none
    | some c =>
      let path := s.path ++ [c]
      if c = start then some { s with path := path, stop := true }
      else
        match parent[c]? with
        | some p => some { s with path := path, curr := p }
        | none => some { s with path := path, bad := true }

/-- `mml/algorithms/GraphAlgorithms.h:411-435`, `ReconstructPath`.  `none` would mean that the loop
does not end within the fuel, `some .ub` an out-of-range read of `parent`. -/
def reconstructPath (parent : List (Option Nat)) (start target : Nat) : Option (Outcome (List Nat)) :=
  match parent[target]? with
  | none => some (.ret [])
  | some p =>
    if p = none ∧ target ≠ start then some (.ret [])
    else
      (whileFuel (rpStep parent start) (parent.length + 2) ⟨some target, false, [], false⟩).map
        (fun s => if s.bad then .ub else .ret s.path.reverse)

/-- `PathResult`, `mml/base/Graph.h:40-49` (without the diagnostics text). -/
structure PathResult (D : Type) where
  found : Bool
  path : List Nat
  totalWeight : D
  nodesExplored : Nat
  deriving DecidableEq

/-- `mml/algorithms/GraphAlgorithms.h:438-474`, `ShortestPathUnweighted`.  The read of
`bfsResult.distance[target]` (line 463) is in range because `BFS` from a valid start returns vectors of
length `n`; a missing entry is undefined behaviour. -/
def shortestPathUnweighted (g : Graph V E) (start target : Nat) : Option (Outcome (PathResult Nat)) :=
  if start ≥ g.numVertices ∨ target ≥ g.numVertices then some (.ret ⟨false, [], 0, 0⟩)
  else if start = target then some (.ret ⟨true, [start], 0, 1⟩)
  else
    match bfs g start with
    | none => none
    | some r =>
      match r.distance[target]? with
      | none => some .ub
      | some none => some (.ret ⟨false, [], 0, r.nodesVisited⟩)
      | some (some d) =>
        (reconstructPath r.parent start target).map fun p => do
          let path ← p
          return ⟨true, path, d, r.nodesVisited⟩

/-- `mml/algorithms/GraphAlgorithms.h:396-404`, `IsConnected`. -/
def isConnected (g : Graph V E) : Option Bool :=
  if g.numVertices = 0 then some true
  else (bfs g 0).map (fun r => r.nodesVisited == g.numVertices)

/-- Local variables of `ConnectedComponents`, `mml/algorithms/GraphAlgorithms.h:349-365`. -/
structure CcState where
  componentId : Nat → Option Nat
  queue : List Nat
  component : List Nat

/-- Body of the neighbour loop, `mml/algorithms/GraphAlgorithms.h:377-384`. -/
def ccVisit (num : Nat) (s : CcState) (e : Edge E) : CcState :=
  if s.componentId e.to = none then
    { s with componentId := Function.update s.componentId e.to (some num), queue := s.queue ++ [e.to] }
  else s

/-- One iteration of the inner `while`, `mml/algorithms/GraphAlgorithms.h:371-385`. -/
def ccStep (g : Graph V E) (num : Nat) (s : CcState) : Option CcState :=
  match s.queue with
  | [] => none
  | u :: q =>
    some ((g.nbrs u).foldl (ccVisit num) { s with queue := q, component := s.component ++ [u] })

/-- State of the outer loop of `ConnectedComponents`: `componentId`, `components`, `componentNum`;
`mml/algorithms/GraphAlgorithms.h:353-360`. -/
structure CcOuter where
  componentId : Nat → Option Nat
  components : List (List Nat)
  num : Nat

/-- Body of the outer `for`, `mml/algorithms/GraphAlgorithms.h:358-389`. -/
def ccBody (g : Graph V E) (s : CcOuter) (v : Nat) : Option CcOuter :=
  if s.componentId v ≠ none then some s
  else
    (whileFuel (ccStep g s.num) (g.numVertices + 1)
      { componentId := Function.update s.componentId v (some s.num), queue := [v], component := [] }).map
      (fun t => { componentId := t.componentId, components := s.components ++ [t.component],
                  num := s.num + 1 })

/-- `ComponentsResult`, `mml/base/Graph.h:63-70`. -/
structure Components where
  componentId : List (Option Nat) := []
  components : List (List Nat) := []
  numComponents : Nat := 0
  deriving DecidableEq

/-- `mml/algorithms/GraphAlgorithms.h:346-393`, `ConnectedComponents`. -/
def connectedComponents (g : Graph V E) : Option Components :=
  if g.numVertices = 0 then some {}
  else
    ((List.range g.numVertices).foldlM (ccBody g) { componentId := fun _ => none, components := [], num := 0 }).map
      (fun s => { componentId := (List.range g.numVertices).map s.componentId
                  components := s.components
                  numComponents := s.num })

end Verif.Graph
