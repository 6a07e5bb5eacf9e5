import Verif.GraphAlg.Paths
import Mathlib.Data.Real.Basic
import Mathlib.Algebra.BigOperators.Group.Finset.Basic

/-!
# Model of `PageRank` (`mml/algorithms/GraphSpectral.h`)

The arrays `rank` and `next` have `n` entries; they are functions on indices, read and written at
indices below `n` only (the targets stored in a well-formed graph are below `n`).  `Real` is exact.
-/

set_option autoImplicit false

namespace Verif.Graph.PageRank

variable {V E : Type}

/-- `mml/algorithms/GraphSpectral.h:427-430`: the loop over the edges of one vertex that adds the same
contribution to the entry of each target. -/
noncomputable def spread (c : ℝ) (es : List (Edge E)) (next : ℕ → ℝ) : ℕ → ℝ :=
  es.foldl (fun next e => Function.update next e.to (next e.to + c)) next

/-- `mml/algorithms/GraphSpectral.h:423-440`: the contribution of vertex `v`, along its edges or, for a
dangling vertex, to all vertices. -/
noncomputable def vertexStep (g : Graph V E) (d : ℝ) (rank : ℕ → ℝ) (next : ℕ → ℝ) (v : ℕ) : ℕ → ℝ :=
  if 0 < (g.nbrs v).length then spread (d * rank v / (g.nbrs v).length) (g.nbrs v) next
  else fun u => if u < g.numVertices then next u + d * rank v / g.numVertices else next u

/-- `mml/algorithms/GraphSpectral.h:413,418-441`: `next` before normalisation. -/
noncomputable def nextRaw (g : Graph V E) (d : ℝ) (rank : ℕ → ℝ) : ℕ → ℝ :=
  (List.range g.numVertices).foldl (vertexStep g d rank) (fun _ => (1 - d) / g.numVertices)

open Classical in
/-- `mml/algorithms/GraphSpectral.h:444-448`: divide by the sum of the entries; a zero sum would give
infinities or NaN, recorded as `.ub`. -/
noncomputable def normalise (n : ℕ) (next : ℕ → ℝ) : Outcome (ℕ → ℝ) :=
  if (∑ i ∈ Finset.range n, next i) = 0 then .ub
  else .ret (fun i => next i / ∑ i ∈ Finset.range n, next i)

open Classical in
/-- `mml/algorithms/GraphSpectral.h:415-463`: the iteration, at most as many rounds as the first
argument, left early when the 1-norm of the change is below the tolerance. -/
noncomputable def loop (g : Graph V E) (d tol : ℝ) : ℕ → (ℕ → ℝ) → Outcome (ℕ → ℝ)
  | 0, rank => .ret rank
  | k + 1, rank => do
    let next ← normalise g.numVertices (nextRaw g d rank)
    if (∑ i ∈ Finset.range g.numVertices, |next i - rank i|) < tol then .ret next
    else loop g d tol k next

/-- `mml/algorithms/GraphSpectral.h:400-464`, `PageRank`. -/
noncomputable def pageRank (g : Graph V E) (d : ℝ) (maxIterations : ℕ) (tol : ℝ) :
    Outcome (List ℝ) :=
  if g.numVertices = 0 then .ret []
  else do
    let r ← loop g d tol maxIterations (fun _ => 1 / (g.numVertices : ℝ))
    .ret ((List.range g.numVertices).map r)

end Verif.Graph.PageRank
