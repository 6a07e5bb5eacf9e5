import Verif.Graph.Model
import Mathlib.Data.Finset.Card
import Mathlib.Data.Finset.Prod
import Mathlib.Data.Finset.Range

/-!
# Independent specification of the graph container

An abstract graph is a number of vertices and a partial map from ordered pairs to weights.
Nothing here mentions adjacency lists.
-/

set_option autoImplicit false

namespace Verif.Graph

/-- The mathematical object a `Graph` stands for. -/
structure AbsGraph (E : Type) where
  n : Nat
  undirected : Bool
  selfLoopsOk : Bool
  w : Nat → Nat → Option E

namespace AbsGraph

variable {V E : Type}

/-- No vertices, no edges. -/
def empty (undirected selfLoopsOk : Bool) : AbsGraph E :=
  ⟨0, undirected, selfLoopsOk, fun _ _ => none⟩

/-- Overwrite the weight of the ordered pair `(s,d)`, and of `(d,s)` in an undirected graph. -/
def put (a : AbsGraph E) (s d : Nat) (x : Option E) : AbsGraph E :=
  { a with w := fun u v =>
      if (u = s ∧ v = d) ∨ (a.undirected = true ∧ u = d ∧ v = s) then x else a.w u v }

/-- What each public call is supposed to do, and what the caller should see. -/
def step (a : AbsGraph E) : Op V E → AbsGraph E × Obs
  | .addVertex _ => ({ a with n := a.n + 1 }, .index a.n)
  | .addEdge s d x =>
    if ¬ (s < a.n ∧ d < a.n) then (a, .threw .outOfRange)
    else if (a.selfLoopsOk = false ∧ s = d) ∨ (a.w s d).isSome then (a, .threw .invalidArgument)
    else (a.put s d (some x), .unit)
  | .removeEdge s d =>
    if s < a.n ∧ d < a.n ∧ (a.w s d).isSome then (a.put s d none, .flag true)
    else (a, .flag false)
  | .clear => ({ a with n := 0, w := fun _ _ => none }, .unit)

/-- A whole history. -/
def run (a : AbsGraph E) : List (Op V E) → AbsGraph E × List Obs
  | [] => (a, [])
  | op :: ops => ((run (a.step op).1 ops).1, (a.step op).2 :: (run (a.step op).1 ops).2)

/-- The pairs that carry an edge: ordered pairs in a directed graph; pairs `u ≤ v` (one
representative per unordered pair, a self loop once) in an undirected one. -/
def edgePairs (a : AbsGraph E) : Finset (Nat × Nat) :=
  (Finset.range a.n ×ˢ Finset.range a.n).filter
    (fun p => (a.undirected = true → p.1 ≤ p.2) ∧ (a.w p.1 p.2).isSome = true)

end AbsGraph

end Verif.Graph
