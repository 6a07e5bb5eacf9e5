import Verif.GraphAlg.TraverseModel
import Mathlib.Analysis.SpecialFunctions.Trigonometric.Basic
import Mathlib.Order.WithBot

/-!
# Model of `AlgebraicConnectivityBound` (`mml/algorithms/GraphSpectral.h`)
-/

set_option autoImplicit false

namespace Verif.Graph.Conn

variable {V E : Type}

/-- `mml/algorithms/GraphSpectral.h:132-138`: the least degree; `numeric_limits<Real>::max()`, the value before the
first vertex, is `⊤`.  `degree(v)` at a valid vertex is the length of its neighbour list. -/
def minDegree (g : Graph V E) : WithTop ℕ :=
  (List.range g.numVertices).foldl
    (fun m v => if ((g.nbrs v).length : WithTop ℕ) < m then ((g.nbrs v).length : WithTop ℕ) else m) ⊤

/-- `mml/algorithms/GraphSpectral.h:119-141`, `AlgebraicConnectivityBound`.  The branches `.ub` stand for a component
search that does not end and for a graph without vertices at line 141; neither is reached. -/
noncomputable def connBound (g : Graph V E) : Outcome ℝ :=
  if g.numVertices ≤ 1 then .ret 0
  else
    match connectedComponents g with
    | none => .ub
    | some c =>
      if 1 < c.numComponents then .ret 0
      else
        match minDegree g with
        | ⊤ => .ub
        | some d => .ret (if 0 < d then 2 * (1 - Real.cos (Real.pi / g.numVertices)) * d else 0)

end Verif.Graph.Conn
