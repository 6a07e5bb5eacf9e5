import Verif.GraphAlg.TraverseModel

/-! # Model of `TopologicalSort` and `IsDAG` (`mml/algorithms/GraphAlgorithms.h:578-648`) -/

set_option autoImplicit false

namespace Verif.Graph

variable {V E : Type}

/-- `TopologicalSortResult`, `mml/base/Graph.h:84-91` (without the diagnostics text). -/
structure TopoResult where
  isDAG : Bool
  order : List Nat
  deriving DecidableEq

/-- The in-degree loop, `mml/algorithms/GraphAlgorithms.h:597-605`.  The counters (`size_t`) are
integers, so that a decrement below zero is not zero, as with the wrapping type. -/
def topoInDegree (g : Graph V E) : Nat → Int :=
  (List.range g.numVertices).foldl
    (fun d u => (g.nbrs u).foldl (fun d e => Function.update d e.to (d e.to + 1)) d) (fun _ => 0)

/-- Local variables of the main loop, `mml/algorithms/GraphAlgorithms.h:597-613`. -/
structure TopoState where
  inDegree : Nat → Int
  queue : List Nat
  order : List Nat

/-- Body of the neighbour loop, `mml/algorithms/GraphAlgorithms.h:622-626`. -/
def topoVisit (s : TopoState) (e : Edge E) : TopoState :=
  let d := Function.update s.inDegree e.to (s.inDegree e.to - 1)
  if d e.to = 0 then { s with inDegree := d, queue := s.queue ++ [e.to] }
  else { s with inDegree := d }

/-- One iteration of the main loop, `mml/algorithms/GraphAlgorithms.h:616-627`. -/
def topoStep (g : Graph V E) (s : TopoState) : Option TopoState :=
  match s.queue with
  | [] => none
  | u :: q => some ((g.nbrs u).foldl topoVisit { s with queue := q, order := s.order ++ [u] })

/-- State before the main loop, `mml/algorithms/GraphAlgorithms.h:597-613`. -/
def topoInit (g : Graph V E) : TopoState where
  inDegree := topoInDegree g
  queue := (List.range g.numVertices).filter (fun v => topoInDegree g v == 0)
  order := []

/-- `mml/algorithms/GraphAlgorithms.h:578-640`, `TopologicalSort`. -/
def topologicalSort (g : Graph V E) : Option TopoResult :=
  if g.numVertices = 0 then some ⟨true, []⟩
  else if g.type = .undirected then some ⟨false, []⟩
  else
    (whileFuel (topoStep g) (g.numVertices + 1) (topoInit g)).map fun s =>
      if s.order.length ≠ g.numVertices then ⟨false, []⟩ else ⟨true, s.order⟩

/-- `mml/algorithms/GraphAlgorithms.h:643-648`, `IsDAG`. -/
def isDAG (g : Graph V E) : Option Bool := (topologicalSort g).map TopoResult.isDAG

end Verif.Graph
