import Verif.GraphAlg.Paths

/-! # Specification of depth-first order -/

set_option autoImplicit false

namespace Verif.Graph

variable {V E : Type}

/-- `Preorder g todo before after`: visiting the vertices of `todo` in turn by the textbook recursion
(skip a vertex already visited; otherwise record it, then visit its neighbours in adjacency order)
turns the list `before` of recorded vertices into `after`. -/
inductive Preorder (g : Graph V E) : List Nat → List Nat → List Nat → Prop
  | done {before : List Nat} : Preorder g [] before before
  | skip {v : Nat} {rest before after : List Nat} : v ∈ before → Preorder g rest before after →
      Preorder g (v :: rest) before after
  | visit {v : Nat} {rest : List Nat} {nb : List (Edge E)} {before mid after : List Nat} :
      v ∉ before → g.neighbors v = .ret nb →
      Preorder g (nb.map Edge.to) (before ++ [v]) mid → Preorder g rest mid after →
      Preorder g (v :: rest) before after

end Verif.Graph
