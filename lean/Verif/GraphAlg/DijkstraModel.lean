import Verif.GraphAlg.TraverseModel
import Verif.GraphAlg.PQ
import Mathlib.Algebra.Order.Monoid.WithTop
import Mathlib.Algebra.Order.Group.Defs

/-!
# Model of `Dijkstra` and `DijkstraPath` (`mml/algorithms/GraphAlgorithms.h:214-335`)

Weights are elements of an ordered additive group (exact arithmetic); `WithTop K` adds the value
`infinity` of a distance.
-/

set_option autoImplicit false

namespace Verif.Graph

variable {V K : Type} [AddCommGroup K] [LinearOrder K]

/-- Local variables of `Dijkstra`, `mml/algorithms/GraphAlgorithms.h:217-232`. -/
structure DjState (K : Type) where
  dist : Nat → WithTop K
  parent : Nat → Option Nat
  pq : List (K × Nat)
  nodesVisited : Nat

/-- Body of the neighbour loop, `mml/algorithms/GraphAlgorithms.h:245-255` (the same code is at
`318-328`).  A new entry is pushed only when it improves on the stored distance; it is then finite because
`u` was taken from the queue. -/
def relax (u : Nat) (s : DjState K) (e : Edge K) : DjState K :=
  match s.dist u with
  | ⊤ => s
  | (du : K) =>
    let newDist := du + e.weight
    if (newDist : WithTop K) < s.dist e.to then
      { s with
        dist := Function.update s.dist e.to newDist
        parent := Function.update s.parent e.to (some u)
        pq := s.pq ++ [(newDist, e.to)] }
    else s

/-- One iteration of the main loop, `mml/algorithms/GraphAlgorithms.h:234-256`. -/
def djStep (g : Graph V K) (s : DjState K) : Option (DjState K) :=
  match popMin pairLe s.pq with
  | none => none
  | some ((d, u), rest) =>
    if s.dist u < (d : WithTop K) then some { s with pq := rest }
    else
      some ((g.nbrs u).foldl (relax u) { s with pq := rest, nodesVisited := s.nodesVisited + 1 })

/-- State before the main loop, `mml/algorithms/GraphAlgorithms.h:223-232`. -/
def djInit (start : Nat) : DjState K where
  dist := Function.update (fun _ => ⊤) start 0
  parent := fun _ => none
  pq := [(0, start)]
  nodesVisited := 0

/-- `mml/algorithms/GraphAlgorithms.h:214-259`, `Dijkstra`. -/
def dijkstra (g : Graph V K) (start : Nat) : Option (Traversal (WithTop K)) :=
  if start ≥ g.numVertices then some {}
  else
    (whileFuel (djStep g) (g.entries + 2) (djInit start)).map fun s =>
      { visitOrder := []
        parent := (List.range g.numVertices).map s.parent
        distance := (List.range g.numVertices).map s.dist
        nodesVisited := s.nodesVisited }

/-- Local variables of `DijkstraPath`, `mml/algorithms/GraphAlgorithms.h:281-289`; `hit` is set when
the target has been taken from the queue (line 298). -/
structure DpState (K : Type) where
  core : DjState K
  hit : Bool

/-- One iteration of the main loop of `DijkstraPath`, `mml/algorithms/GraphAlgorithms.h:291-330`.
`core.nodesVisited` stands for `result.nodesExplored`. -/
def dpStep (g : Graph V K) (target : Nat) (s : DpState K) : Option (DpState K) :=
  if s.hit then none
  else
    match popMin pairLe s.core.pq with
    | none => none
    | some ((d, u), rest) =>
      let c := { s.core with pq := rest, nodesVisited := s.core.nodesVisited + 1 }
      if u = target then some { core := c, hit := true }
      else if c.dist u < (d : WithTop K) then some { s with core := c }
      else some { s with core := (g.nbrs u).foldl (relax u) c }

/-- The loop that follows the parent pointers, `mml/algorithms/GraphAlgorithms.h:304-309`. -/
def chaseStep (parent : Nat → Option Nat) (s : Option Nat × List Nat) : Option (Option Nat × List Nat) :=
  match s.1 with
  | none => none
  | some c => some (parent c, s.2 ++ [c])

/-- `mml/algorithms/GraphAlgorithms.h:263-335`, `DijkstraPath`. -/
def dijkstraPath (g : Graph V K) (start target : Nat) : Option (PathResult (WithTop K)) :=
  if start ≥ g.numVertices ∨ target ≥ g.numVertices then some ⟨false, [], 0, 0⟩
  else if start = target then some ⟨true, [start], 0, 1⟩
  else
    match whileFuel (dpStep g target) (g.entries + 2) { core := djInit start, hit := false } with
    | none => none
    | some s =>
      if s.hit then
        (whileFuel (chaseStep s.core.parent) (g.numVertices + 2) (some target, [])).map fun t =>
          ⟨true, t.2.reverse, s.core.dist target, s.core.nodesVisited⟩
      else some ⟨false, [], 0, s.core.nodesVisited⟩

end Verif.Graph
