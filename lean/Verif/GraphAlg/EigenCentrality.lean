import Verif.GraphAlg.Paths
import Mathlib.Analysis.Real.Sqrt
import Mathlib.Algebra.BigOperators.Group.Finset.Basic

/-!
# Model of `EigenvectorCentrality` (`mml/algorithms/GraphSpectral.h`)

The arrays have `n` entries and are functions on indices, used below `n` only.  `Real` is exact.
-/

set_option autoImplicit false

namespace Verif.Graph.EigenC

variable {V : Type}

/-- Entry `(i, j)` of `toAdjacencyMatrix()` (`mml/algorithms/GraphSpectral.h:346`, `mml/base/Graph.h:374-394`) at valid
indices; `entry_eq` ties it to `Graph.adjacencyMatrix`. -/
noncomputable def entry (g : Graph V ℝ) (i j : ℕ) : ℝ := fillRow id (g.nbrs i) j

/-- `mml/algorithms/GraphSpectral.h:350-358`: matrix times vector. -/
noncomputable def apply (g : Graph V ℝ) (c : ℕ → ℝ) (i : ℕ) : ℝ :=
  ∑ j ∈ Finset.range g.numVertices, entry g i j * c j

/-- `mml/algorithms/GraphSpectral.h:361-366`: the Euclidean norm. -/
noncomputable def norm (n : ℕ) (x : ℕ → ℝ) : ℝ := Real.sqrt (∑ i ∈ Finset.range n, x i * x i)

open Classical in
/-- `mml/algorithms/GraphSpectral.h:350-374`: one round up to the normalisation. -/
noncomputable def next (g : Graph V ℝ) (c : ℕ → ℝ) : ℕ → ℝ :=
  if norm g.numVertices (apply g c) > 0 then fun i => apply g c i / norm g.numVertices (apply g c)
  else apply g c

open Classical in
/-- `mml/algorithms/GraphSpectral.h:348-387`: at most as many rounds as the first number, left early when the 1-norm of
the change is below the tolerance. -/
noncomputable def loop (g : Graph V ℝ) (tol : ℝ) : ℕ → (ℕ → ℝ) → ℕ → ℝ
  | 0, c => c
  | k + 1, c =>
    if (∑ i ∈ Finset.range g.numVertices, |next g c i - c i|) < tol then next g c
    else loop g tol k (next g c)

/-- `mml/algorithms/GraphSpectral.h:332-390`, `EigenvectorCentrality`. -/
noncomputable def eigenvectorCentrality (g : Graph V ℝ) (maxIterations : ℕ) (tol : ℝ) : List ℝ :=
  if g.numVertices = 0 then []
  else (List.range g.numVertices).map
    (loop g tol maxIterations fun _ => 1 / Real.sqrt (g.numVertices : ℝ))

end Verif.Graph.EigenC
