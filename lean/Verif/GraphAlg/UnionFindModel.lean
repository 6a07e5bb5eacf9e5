import Verif.Common

/-! # Model of `detail::UnionFind` (`mml/algorithms/GraphAlgorithms.h:657-692`) -/

set_option autoImplicit false

namespace Verif.Graph

/-- `mml/algorithms/GraphAlgorithms.h:689-691`, the private members. -/
structure UF where
  parent : List Nat
  rank : List Nat
  deriving DecidableEq, Repr

/-- `mml/algorithms/GraphAlgorithms.h:660-664`, constructor. -/
def UF.new (n : Nat) : UF := ⟨List.range n, List.replicate n 0⟩

/-- `mml/algorithms/GraphAlgorithms.h:666-671`, `find`: the recursion with path compression on the vector
`parent`.  Reading or writing out of range is undefined behaviour.  `none` would mean that the recursion
does not end within the fuel. -/
def ufFind : Nat → List Nat → Nat → Option (Outcome (List Nat × Nat))
  | 0, _, _ => none
  | fuel + 1, p, x =>
    match p[x]? with
    | none => some .ub
    | some px =>
      if px ≠ x then
        match ufFind fuel p px with
        | none => none
        | some (.ret (p', r)) => some (.ret (p'.set x r, r))
        | some (.exn e) => some (.exn e)
        | some .ub => some .ub
      else some (.ret (p, px))

/-- `find` as called by a user.  The fuel is one more than the sum of the ranks, which bounds the depth
(`ufFind_spec`). -/
def UF.find (u : UF) (x : Nat) : Option (Outcome (UF × Nat)) :=
  (ufFind (u.rank.sum + 1) u.parent x).map fun o => do
    let (p, r) ← o
    return (⟨p, u.rank⟩, r)

/-- `mml/algorithms/GraphAlgorithms.h:673-687`, the part of `unite` after the two calls of `find`. -/
def UF.link (u : UF) (px py : Nat) : Outcome (UF × Bool) :=
  if px = py then .ret (u, false)
  else
    match u.rank[px]?, u.rank[py]? with
    | some rx, some ry =>
      let (px, py, rx, ry) := if rx < ry then (py, px, ry, rx) else (px, py, rx, ry)
      let parent := u.parent.set py px
      let rank := if rx = ry then u.rank.set px (rx + 1) else u.rank
      .ret (⟨parent, rank⟩, true)
    | _, _ => .ub

/-- `mml/algorithms/GraphAlgorithms.h:673-687`, `unite`. -/
def UF.unite (u : UF) (x y : Nat) : Option (Outcome (UF × Bool)) :=
  match u.find x with
  | none => none
  | some (.ret (u1, px)) =>
    match u1.find y with
    | none => none
    | some (.ret (u2, py)) => some (u2.link px py)
    | some (.exn e) => some (.exn e)
    | some .ub => some .ub
  | some (.exn e) => some (.exn e)
  | some .ub => some .ub

/-- A call on the structure. -/
inductive UFOp where
  | find (x : Nat)
  | unite (x y : Nat)
  deriving DecidableEq

/-- State after one call. -/
def UF.apply (u : UF) : UFOp → Option (Outcome UF)
  | .find x => (u.find x).map (fun o => do let (u', _) ← o; return u')
  | .unite x y => (u.unite x y).map (fun o => do let (u', _) ← o; return u')

/-- Continue a history by one call; an exception or undefined behaviour ends it. -/
def UF.next (r : Option (Outcome UF)) (op : UFOp) : Option (Outcome UF) :=
  match r with
  | some (.ret u) => u.apply op
  | r => r

/-- State after a history of calls, oldest first, on a structure of size `n`. -/
def UF.run (n : Nat) (ops : List UFOp) : Option (Outcome UF) :=
  ops.foldl UF.next (some (.ret (UF.new n)))

end Verif.Graph
