import Verif.GraphAlg.TraverseModel
import Mathlib.Algebra.Order.Monoid.WithTop
import Mathlib.Algebra.Order.Group.Defs

/-! # Model of `BellmanFord` and `HasNegativeCycle` (`mml/algorithms/GraphAlgorithms.h:488-566`) -/

set_option autoImplicit false

namespace Verif.Graph

variable {V K : Type} [AddCommGroup K] [LinearOrder K]

/-- The edge list collected at `mml/algorithms/GraphAlgorithms.h:502-509`. -/
def bfEdges (g : Graph V K) : List (Nat × Nat × K) :=
  (List.range g.numVertices).flatMap (fun u => (g.nbrs u).map (fun e => (u, e.to, e.weight)))

/-- Local variables, `mml/algorithms/GraphAlgorithms.h:491-500` and the flag of line 514. -/
structure BfState (K : Type) where
  dist : Nat → WithTop K
  parent : Nat → Option Nat
  changed : Bool

/-- Body of the edge loop, `mml/algorithms/GraphAlgorithms.h:515-527`. -/
def bfRelax (s : BfState K) (e : Nat × Nat × K) : BfState K :=
  if s.dist e.1 ≠ ⊤ then
    let newDist := s.dist e.1 + (e.2.2 : WithTop K)
    if newDist < s.dist e.2.1 then
      { dist := Function.update s.dist e.2.1 newDist
        parent := Function.update s.parent e.2.1 (some e.1)
        changed := true }
    else s
  else s

/-- One pass over all edges, `mml/algorithms/GraphAlgorithms.h:514-527`. -/
def bfPass (edges : List (Nat × Nat × K)) (s : BfState K) : BfState K :=
  edges.foldl bfRelax { s with changed := false }

/-- The loop of at most `k` passes with early termination, `mml/algorithms/GraphAlgorithms.h:512-531`. -/
def bfPasses (edges : List (Nat × Nat × K)) : Nat → BfState K → BfState K
  | 0, s => s
  | k + 1, s =>
    let s' := bfPass edges s
    if s'.changed then bfPasses edges k s' else s'

/-- State before the passes, `mml/algorithms/GraphAlgorithms.h:497-499`. -/
def bfInit (start : Nat) : BfState K where
  dist := Function.update (fun _ => ⊤) start 0
  parent := fun _ => none
  changed := false

/-- The check of `mml/algorithms/GraphAlgorithms.h:534-548`: some edge can still be relaxed. -/
def bfViolated (edges : List (Nat × Nat × K)) (s : BfState K) : Bool :=
  edges.any (fun e => decide (s.dist e.1 ≠ ⊤) &&
    decide (s.dist e.1 + (e.2.2 : WithTop K) < s.dist e.2.1))

/-- `mml/algorithms/GraphAlgorithms.h:488-558`, `BellmanFord`. -/
def bellmanFord (g : Graph V K) (start : Nat) : Traversal (WithTop K) :=
  if start ≥ g.numVertices then {}
  else
    let s := bfPasses (bfEdges g) (g.numVertices - 1) (bfInit start)
    if bfViolated (bfEdges g) s then {}
    else
      { visitOrder := []
        parent := (List.range g.numVertices).map s.parent
        distance := (List.range g.numVertices).map s.dist
        nodesVisited := ((List.range g.numVertices).filter (fun i => decide (s.dist i ≠ ⊤))).length }

/-- `mml/algorithms/GraphAlgorithms.h:561-566`, `HasNegativeCycle`. -/
def hasNegativeCycle (g : Graph V K) (start : Nat) : Bool := (bellmanFord g start).parent.isEmpty

end Verif.Graph
