import Verif.GraphAlg.UnionFindModel
import Verif.GraphAlg.TraverseModel
import Verif.GraphAlg.PQ
import Mathlib.Algebra.Group.Defs
import Mathlib.Data.List.Sort

/-! # Model of `Kruskal` and `Prim` (`mml/algorithms/GraphAlgorithms.h:700-811`) -/

set_option autoImplicit false

namespace Verif.Graph

variable {V K : Type}

/-- `MSTResult`, `mml/base/Graph.h:73-81` (without the diagnostics text). -/
structure MstResult (K : Type) where
  isComplete : Bool
  edges : List (Nat × Nat × K)
  totalWeight : K
  deriving DecidableEq

/-- The order of `std::tuple<E, size_t, size_t>`: lexicographic. -/
def tripleLe [LinearOrder K] (a b : K × Nat × Nat) : Bool :=
  decide (a.1 < b.1) || (decide (a.1 = b.1) &&
    (decide (a.2.1 < b.2.1) || (decide (a.2.1 = b.2.1) && decide (a.2.2 ≤ b.2.2))))

/-- The edges collected at `mml/algorithms/GraphAlgorithms.h:713-722`. -/
def kruskalEdges (g : Graph V K) : List (K × Nat × Nat) :=
  (List.range g.numVertices).flatMap (fun u =>
    ((g.nbrs u).filter (fun e => decide (g.type = .directed) || decide (u < e.to))).map
      (fun e => (e.weight, u, e.to)))

/-- The main loop, `mml/algorithms/GraphAlgorithms.h:730-741`. -/
def kruskalLoop [Add K] (n : Nat) : List (K × Nat × Nat) → UF → List (Nat × Nat × K) → K →
    Option (Outcome (List (Nat × Nat × K) × K))
  | [], _, edges, total => some (.ret (edges, total))
  | (w, u, v) :: es, uf, edges, total =>
    match uf.unite u v with
    | some (.ret (uf', true)) =>
      let edges' := edges ++ [(u, v, w)]
      let total' := total + w
      if edges'.length = n - 1 then some (.ret (edges', total'))
      else kruskalLoop n es uf' edges' total'
    | some (.ret (uf', false)) => kruskalLoop n es uf' edges total
    | some (.exn e) => some (.exn e)
    | some .ub => some .ub
    | none => none

/-- `mml/algorithms/GraphAlgorithms.h:700-750`, `Kruskal`.  `std::sort` (line 725) is a sorted
permutation; the order is total, so there is only one. -/
def kruskal [AddMonoid K] [LinearOrder K] (g : Graph V K) : Option (Outcome (MstResult K)) :=
  if g.numVertices = 0 then some (.ret ⟨true, [], 0⟩)
  else
    (kruskalLoop g.numVertices ((kruskalEdges g).insertionSort (fun a b => tripleLe a b = true)) (UF.new g.numVertices) [] 0).map
      fun o => do
        let (edges, total) ← o
        return ⟨edges.length == g.numVertices - 1, edges, total⟩

/-- Local variables of `Prim`, `mml/algorithms/GraphAlgorithms.h:770-786`. -/
structure PrimState (K : Type) where
  inMST : Nat → Bool
  pq : List (K × Nat × Nat)
  edges : List (Nat × Nat × K)
  total : K
  edgesAdded : Nat

/-- One iteration of the loop, `mml/algorithms/GraphAlgorithms.h:787-806`. -/
def primStep [Add K] [LinearOrder K] (g : Graph V K) (s : PrimState K) : Option (PrimState K) :=
  if s.edgesAdded < g.numVertices - 1 then
    match popMin tripleLe s.pq with
    | none => none
    | some ((w, u, v), rest) =>
      if s.inMST v then some { s with pq := rest }
      else
        let inMST := Function.update s.inMST v true
        some
          { inMST := inMST
            edges := s.edges ++ [(u, v, w)]
            total := s.total + w
            edgesAdded := s.edgesAdded + 1
            pq := ((g.nbrs v).filter (fun e => !inMST e.to)).foldl
              (fun q e => (e.weight, v, e.to) :: q) rest }
  else none

/-- State before the loop, `mml/algorithms/GraphAlgorithms.h:778-785`. -/
def primInit [Zero K] (g : Graph V K) (start : Nat) : PrimState K where
  inMST := Function.update (fun _ => false) start true
  pq := (g.nbrs start).foldl (fun q e => (e.weight, start, e.to) :: q) []
  edges := []
  total := 0
  edgesAdded := 0

/-- `mml/algorithms/GraphAlgorithms.h:755-811`, `Prim`. -/
def prim [AddMonoid K] [LinearOrder K] (g : Graph V K) (start : Nat) : Option (MstResult K) :=
  if g.numVertices = 0 then some ⟨true, [], 0⟩
  else
    let start := if start ≥ g.numVertices then 0 else start
    (whileFuel (primStep g) (g.entries + g.numVertices + 1) (primInit g start)).map fun s =>
      ⟨s.edges.length == g.numVertices - 1, s.edges, s.total⟩

end Verif.Graph
