import Verif.Common

/-!
# Model of `mml/base/Graph.h`

Vertex payloads and edge weights are arbitrary types.  Simplifications common to the whole file:
memory exhaustion is not modelled, and `_numEdges` (`size_t`) is an integer, so that a decrement
below zero would be visible instead of wrapping.
-/

set_option autoImplicit false

namespace Verif.Graph

/-- `mml/base/Graph.h:97-106`, struct `Edge`. -/
structure Edge (E : Type) where
  to : Nat
  weight : E
  deriving DecidableEq, Repr

/-- `mml/base/Graph.h:141`, `enum class Type { Directed, Undirected }`. -/
inductive GType where
  | directed
  | undirected
  deriving DecidableEq, Repr

/-- `mml/base/Graph.h:143-148`, the private members of `Graph`. -/
structure Graph (V E : Type) where
  type : GType
  vertexData : List V
  adjList : List (List (Edge E))
  numEdges : Int
  allowSelfLoops : Bool
  deriving DecidableEq, Repr

variable {V E : Type}

/-- `mml/base/Graph.h:156-158`, `Graph(Type type, bool allowSelfLoops)`. -/
def Graph.empty (type : GType) (allowSelfLoops : Bool) : Graph V E :=
  { type := type, vertexData := [], adjList := [], numEdges := 0, allowSelfLoops := allowSelfLoops }

/-- `mml/base/Graph.h:161-168`, `Graph(size_t numVertices, Type type, bool allowSelfLoops)`.
`cast` stands for `static_cast<V>(size_t)`. -/
def Graph.ofSize (cast : Nat → V) (numVertices : Nat) (type : GType) (allowSelfLoops : Bool) :
    Graph V E :=
  { type := type
    vertexData := (List.range numVertices).map cast
    adjList := List.replicate numVertices []
    numEdges := 0
    allowSelfLoops := allowSelfLoops }

/-- `mml/base/Graph.h:200`. -/
def Graph.numVertices (g : Graph V E) : Nat := g.vertexData.length

/-- `mml/base/Graph.h:175-181`, `addVertex`: returns the new graph and the index of the vertex. -/
def Graph.addVertex (g : Graph V E) (data : V) : Graph V E × Nat :=
  ({ g with vertexData := g.vertexData ++ [data], adjList := g.adjList ++ [[]] },
    g.vertexData.length)

/-- `mml/base/Graph.h:208-231`, `addEdge`. -/
def Graph.addEdge (g : Graph V E) (src dst : Nat) (weight : E) : Outcome (Graph V E) :=
  if src ≥ g.vertexData.length ∨ dst ≥ g.vertexData.length then .exn .outOfRange
  else if g.allowSelfLoops = false ∧ src = dst then .exn .invalidArgument
  else
    match g.adjList[src]? with
    | none => .ub
    | some edges =>
      if edges.any (fun e => e.to == dst) then .exn .invalidArgument
      else
        let adj1 := g.adjList.set src (edges ++ [⟨dst, weight⟩])
        if g.type = .undirected ∧ src ≠ dst then
          match adj1[dst]? with
          | none => .ub
          | some redges =>
            .ret { g with
              adjList := adj1.set dst (redges ++ [⟨src, weight⟩])
              numEdges := g.numEdges + 1 }
        else
          .ret { g with adjList := adj1, numEdges := g.numEdges + 1 }

/-- `mml/base/Graph.h:234-245`, `hasEdge`. -/
def Graph.hasEdge (g : Graph V E) (src dst : Nat) : Outcome Bool :=
  if src ≥ g.vertexData.length ∨ dst ≥ g.vertexData.length then .ret false
  else
    match g.adjList[src]? with
    | none => .ub
    | some edges => .ret (edges.any (fun e => e.to == dst))

/-- `mml/base/Graph.h:248-259`, `edgeWeight`. -/
def Graph.edgeWeight (g : Graph V E) (src dst : Nat) : Outcome E :=
  if src ≥ g.vertexData.length ∨ dst ≥ g.vertexData.length then .exn .outOfRange
  else
    match g.adjList[src]? with
    | none => .ub
    | some edges =>
      match edges.find? (fun e => e.to == dst) with
      | some e => .ret e.weight
      | none => .exn .invalidArgument

/-- `mml/base/Graph.h:265-290`, `removeEdge`: returns the new graph and the returned flag.
`List.eraseP` is `std::find_if` followed by `erase(it)`, which removes the first match. -/
def Graph.removeEdge (g : Graph V E) (src dst : Nat) : Outcome (Graph V E × Bool) :=
  if src ≥ g.vertexData.length ∨ dst ≥ g.vertexData.length then .ret (g, false)
  else
    match g.adjList[src]? with
    | none => .ub
    | some edges =>
      if edges.any (fun e => e.to == dst) then
        let adj1 := g.adjList.set src (edges.eraseP (fun e => e.to == dst))
        if g.type = .undirected ∧ src ≠ dst then
          match adj1[dst]? with
          | none => .ub
          | some redges =>
            .ret ({ g with
              adjList := adj1.set dst (redges.eraseP (fun e => e.to == src))
              numEdges := g.numEdges - 1 }, true)
        else
          .ret ({ g with adjList := adj1, numEdges := g.numEdges - 1 }, true)
      else .ret (g, false)

/-- `mml/base/Graph.h:297-302`, `neighbors`. -/
def Graph.neighbors (g : Graph V E) (v : Nat) : Outcome (List (Edge E)) :=
  if v ≥ g.adjList.length then .exn .outOfRange
  else .index g.adjList v

/-- `mml/base/Graph.h:305-310`, `degree` (also `outDegree`, line 313). -/
def Graph.degree (g : Graph V E) (v : Nat) : Outcome Nat :=
  if v ≥ g.adjList.length then .exn .outOfRange
  else do
    let edges ← Outcome.index g.adjList v
    return edges.length

/-- `mml/base/Graph.h:316-334`, `inDegree`. -/
def Graph.inDegree (g : Graph V E) (v : Nat) : Outcome Nat :=
  if v ≥ g.adjList.length then .exn .outOfRange
  else if g.type = .undirected then g.degree v
  else .ret ((g.adjList.map (fun edges => edges.countP (fun e => e.to == v))).sum)

/-- `mml/base/Graph.h:494-499`, `clear`. -/
def Graph.clear (g : Graph V E) : Graph V E :=
  { g with vertexData := [], adjList := [], numEdges := 0 }

/-! ## Histories of public calls -/

/-- A mutating public call with its arguments (`mml/base/Graph.h:175,208,265,494`). -/
inductive Op (V E : Type) where
  | addVertex (data : V)
  | addEdge (src dst : Nat) (weight : E)
  | removeEdge (src dst : Nat)
  | clear
  deriving Repr

/-- What the caller observes from a mutating call. -/
inductive Obs where
  | index (i : Nat)
  | unit
  | flag (b : Bool)
  | threw (e : Exn)
  | undefined
  deriving DecidableEq, Repr

/-- One public call.  A throwing call leaves the object as it was: all `throw`s of
`mml/base/Graph.h:208-231` come before the first modification. -/
def Graph.step (g : Graph V E) : Op V E → Graph V E × Obs
  | .addVertex d => ((g.addVertex d).1, .index (g.addVertex d).2)
  | .addEdge s d w =>
    match g.addEdge s d w with
    | .ret g' => (g', .unit)
    | .exn e => (g, .threw e)
    | .ub => (g, .undefined)
  | .removeEdge s d =>
    match g.removeEdge s d with
    | .ret (g', b) => (g', .flag b)
    | .exn e => (g, .threw e)
    | .ub => (g, .undefined)
  | .clear => (g.clear, .unit)

/-- A history of public calls: the final object and everything the caller observed.
Models a client program calling the methods above in sequence. -/
def Graph.run (g : Graph V E) : List (Op V E) → Graph V E × List Obs
  | [] => (g, [])
  | op :: ops =>
    let r := g.step op
    let rs := Graph.run r.1 ops
    (rs.1, r.2 :: rs.2)

end Verif.Graph
