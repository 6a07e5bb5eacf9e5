import Verif.GraphAlg.PQ
import Mathlib.Data.Real.Sqrt
import Mathlib.Data.List.FinRange

/-!
# Model of `mml/algorithms/CompGeometry/KDTree.h`

A point of dimension `d` is a function `Fin d → ℝ` (`VectorN<Real, Dim>`); the stored copy `_points` of `n`
points is a function on `Fin n`, and a point index is an element of `Fin n`: the code starts from the indices
`0 .. n-1` (lines 182-185) and only permutes and splits them, so no index is ever out of range.
`std::numeric_limits<Real>::max()` as the initial best distance is infinity (`none`).  The statistics and the
`nodes_visited` counters are not modelled.
-/

set_option autoImplicit false

namespace Verif.KD

open Verif.Graph (popMin)

variable {n d : ℕ}

/-- `Node`, `mml/algorithms/CompGeometry/KDTree.h:127-135`; `nil` is the null pointer. -/
inductive Tree (n d : ℕ) where
  | nil
  | leaf (indices : List (Fin n))
  | split (axis : Fin d) (value : ℝ) (left right : Tree n d)

/-- Postcondition of `std::nth_element(first, first + mid, last)` with the order of line 361-364: the result
`r` is a permutation of `l`, nothing before position `mid` is greater than the element `m` at `mid`, nothing
after it is smaller. -/
def NthElement (pts : Fin n → Fin d → ℝ) (axis : Fin d) (mid : ℕ) (l r : List (Fin n)) (m : Fin n) : Prop :=
  r.Perm l ∧ r[mid]? = some m ∧ (∀ a ∈ r.take mid, ¬ pts m axis < pts a axis) ∧
    ∀ b ∈ r.drop mid, ¬ pts b axis < pts m axis

/-- `depth % Dim`, `mml/algorithms/CompGeometry/KDTree.h:356`.  (`Dim` is positive.) -/
def axisAt [NeZero d] (depth : ℕ) : Fin d := ⟨depth % d, Nat.mod_lt _ (Nat.pos_of_ne_zero (NeZero.ne d))⟩

/-- `buildRecursive`, `mml/algorithms/CompGeometry/KDTree.h:337-377`: `Built pts maxLeaf depth l t` says that
the call on the index vector `l` can return the tree `t`, for some of the results that `nth_element` may
produce.  A call that does not return (an endless recursion) has no derivation. -/
inductive Built [NeZero d] (pts : Fin n → Fin d → ℝ) (maxLeaf : ℤ) : ℕ → List (Fin n) → Tree n d → Prop
  /-- lines 339-341 -/
  | nil (depth : ℕ) : Built pts maxLeaf depth [] .nil
  /-- lines 349-353 -/
  | leaf (depth : ℕ) (l : List (Fin n)) (hl : l ≠ []) (h : (l.length : ℤ) ≤ maxLeaf) :
      Built pts maxLeaf depth l (.leaf l)
  /-- lines 356-376 -/
  | split (depth : ℕ) (l r : List (Fin n)) (m : Fin n) (left right : Tree n d) (hl : l ≠ [])
      (h : ¬ (l.length : ℤ) ≤ maxLeaf)
      (hn : NthElement pts (axisAt depth) (l.length / 2) l r m)
      (h1 : Built pts maxLeaf (depth + 1) (r.take (l.length / 2)) left)
      (h2 : Built pts maxLeaf (depth + 1) (r.drop (l.length / 2)) right) :
      Built pts maxLeaf depth l (.split (axisAt depth) (pts m (axisAt depth)) left right)

/-- `build`, `mml/algorithms/CompGeometry/KDTree.h:166-192`: the tree starts from all indices at depth 0. -/
def BuiltAll [NeZero d] (pts : Fin n → Fin d → ℝ) (maxLeaf : ℤ) (t : Tree n d) : Prop :=
  Built pts maxLeaf 0 (List.finRange n) t

/-- `distanceSquared`, `mml/algorithms/CompGeometry/KDTree.h:384-391`. -/
noncomputable def distanceSquared (a b : Fin d → ℝ) : ℝ :=
  (List.finRange d).foldl (fun sum i => sum + (a i - b i) * (a i - b i)) 0

/-- Best index and best squared distance; `none` is `SIZE_MAX` with infinity
(`mml/algorithms/CompGeometry/KDTree.h:212-213`). -/
abbrev Best (n : ℕ) := Option (Fin n × ℝ)

/-- The comparison `x < bestDistSq`. -/
noncomputable def ltBest (x : ℝ) : Best n → Bool
  | none => true
  | some (_, b) => decide (x < b)

/-- Leaf loop of `nearestRecursive`, `mml/algorithms/CompGeometry/KDTree.h:402-408`. -/
noncomputable def nearestLeaf (pts : Fin n → Fin d → ℝ) (q : Fin d → ℝ) (best : Best n) (idx : Fin n) : Best n :=
  if ltBest (distanceSquared q (pts idx)) best then some (idx, distanceSquared q (pts idx)) else best

/-- `nearestRecursive`, `mml/algorithms/CompGeometry/KDTree.h:393-427`. -/
noncomputable def nearestRec (pts : Fin n → Fin d → ℝ) (q : Fin d → ℝ) : Tree n d → Best n → Best n
  | .nil, best => best
  | .leaf idx, best => idx.foldl (nearestLeaf pts q) best
  | .split axis v l r, best =>
    let diff := q axis - v
    if diff < 0 then
      let best := nearestRec pts q l best
      if ltBest (diff * diff) best then nearestRec pts q r best else best
    else
      let best := nearestRec pts q r best
      if ltBest (diff * diff) best then nearestRec pts q l best else best

/-- `NearestNeighborResult`, `mml/algorithms/CompGeometry/KDTree.h:74-80`; `ok` is
`status == AlgorithmStatus::Success`, the index is `none` for `SIZE_MAX`. -/
structure NearestResult (n : ℕ) where
  index : Option (Fin n)
  distance : ℝ
  found : Bool
  ok : Bool

/-- `findNearest`, `mml/algorithms/CompGeometry/KDTree.h:204-224`. -/
noncomputable def findNearest (pts : Fin n → Fin d → ℝ) (t : Tree n d) (q : Fin d → ℝ) : NearestResult n :=
  match t with
  | .nil => ⟨none, 0, false, false⟩
  | t =>
    match nearestRec pts q t none with
    | some (i, dsq) => ⟨some i, Real.sqrt dsq, true, true⟩
    | none => ⟨none, 0, false, true⟩

/-- Order of the max-heap of `std::pair<Real, size_t>` (line 242-243), greatest first. -/
noncomputable def entryGe (a b : ℝ × Fin n) : Bool :=
  decide (b.1 < a.1) || (decide (b.1 = a.1) && decide (b.2 ≤ a.2))

/-- Leaf loop of `kNearestRecursive`, `mml/algorithms/CompGeometry/KDTree.h:437-446`. -/
noncomputable def kNearestLeaf (pts : Fin n → Fin d → ℝ) (q : Fin d → ℝ) (k : ℕ) (heap : List (ℝ × Fin n))
    (idx : Fin n) : List (ℝ × Fin n) :=
  let dsq := distanceSquared q (pts idx)
  if heap.length < k then (dsq, idx) :: heap
  else
    match popMin entryGe heap with
    | some (top, rest) => if dsq < top.1 then (dsq, idx) :: rest else heap
    | none => heap

/-- The test of `mml/algorithms/CompGeometry/KDTree.h:459-461`. -/
noncomputable def kNearestGo (k : ℕ) (heap : List (ℝ × Fin n)) (x : ℝ) : Bool :=
  decide (heap.length < k) ||
    match popMin entryGe heap with
    | some (top, _) => decide (x < top.1)
    | none => true

/-- `kNearestRecursive`, `mml/algorithms/CompGeometry/KDTree.h:429-464`. -/
noncomputable def kNearestRec (pts : Fin n → Fin d → ℝ) (q : Fin d → ℝ) (k : ℕ) :
    Tree n d → List (ℝ × Fin n) → List (ℝ × Fin n)
  | .nil, heap => heap
  | .leaf idx, heap => idx.foldl (kNearestLeaf pts q k) heap
  | .split axis v l r, heap =>
    let diff := q axis - v
    if diff < 0 then
      let heap := kNearestRec pts q k l heap
      if kNearestGo k heap (diff * diff) then kNearestRec pts q k r heap else heap
    else
      let heap := kNearestRec pts q k r heap
      if kNearestGo k heap (diff * diff) then kNearestRec pts q k l heap else heap

/-- The extraction loop, `mml/algorithms/CompGeometry/KDTree.h:251-257`: the heap is emptied from the greatest
entry, filling the vectors from the end. -/
noncomputable def extract : ℕ → List (ℝ × Fin n) → List (ℝ × Fin n) → List (ℝ × Fin n)
  | 0, _, acc => acc
  | m + 1, heap, acc =>
    match popMin entryGe heap with
    | some (top, rest) => extract m rest (top :: acc)
    | none => acc

/-- `KNearestResult`, `mml/algorithms/CompGeometry/KDTree.h:83-88`. -/
structure KNearestResult (n : ℕ) where
  indices : List (Fin n)
  distances : List ℝ
  ok : Bool

/-- `findKNearest`, `mml/algorithms/CompGeometry/KDTree.h:233-260`. -/
noncomputable def findKNearest (pts : Fin n → Fin d → ℝ) (t : Tree n d) (q : Fin d → ℝ) (k : ℤ) :
    KNearestResult n :=
  if k ≤ 0 then ⟨[], [], false⟩
  else
    match t with
    | .nil => ⟨[], [], true⟩
    | t =>
      let heap := kNearestRec pts q k.toNat t []
      let out := extract heap.length heap []
      ⟨out.map Prod.snd, out.map (fun e => Real.sqrt e.1), true⟩

/-- Leaf loop of `radiusRecursive`, `mml/algorithms/CompGeometry/KDTree.h:472-478`. -/
noncomputable def radiusLeaf (pts : Fin n → Fin d → ℝ) (q : Fin d → ℝ) (rsq : ℝ) (out : List (Fin n × ℝ))
    (idx : Fin n) : List (Fin n × ℝ) :=
  if distanceSquared q (pts idx) ≤ rsq then out ++ [(idx, distanceSquared q (pts idx))] else out

/-- `radiusRecursive`, `mml/algorithms/CompGeometry/KDTree.h:466-498`; the two output vectors are one list of
pairs. -/
noncomputable def radiusRec (pts : Fin n → Fin d → ℝ) (q : Fin d → ℝ) (rsq : ℝ) :
    Tree n d → List (Fin n × ℝ) → List (Fin n × ℝ)
  | .nil, out => out
  | .leaf idx, out => idx.foldl (radiusLeaf pts q rsq) out
  | .split axis v l r, out =>
    let diff := q axis - v
    if diff < 0 then
      let out := radiusRec pts q rsq l out
      if diff * diff ≤ rsq then radiusRec pts q rsq r out else out
    else
      let out := radiusRec pts q rsq r out
      if diff * diff ≤ rsq then radiusRec pts q rsq l out else out

/-- `RadiusSearchResult`, `mml/algorithms/CompGeometry/KDTree.h:91-95`. -/
structure RadiusResult (n : ℕ) where
  indices : List (Fin n)
  distances : List ℝ
  ok : Bool

/-- `findInRadius`, `mml/algorithms/CompGeometry/KDTree.h:269-290`. -/
noncomputable def findInRadius (pts : Fin n → Fin d → ℝ) (t : Tree n d) (q : Fin d → ℝ) (radius : ℝ) :
    RadiusResult n :=
  match t with
  | .nil => ⟨[], [], true⟩
  | t =>
    if radius < 0 then ⟨[], [], false⟩
    else
      let out := radiusRec pts q (radius * radius) t []
      ⟨out.map Prod.fst, out.map (fun e => Real.sqrt e.2), true⟩

/-- Leaf loop of `boxRecursive`, `mml/algorithms/CompGeometry/KDTree.h:505-516`. -/
noncomputable def boxLeaf (pts : Fin n → Fin d → ℝ) (lo hi : Fin d → ℝ) (out : List (Fin n)) (idx : Fin n) :
    List (Fin n) :=
  if (List.finRange d).all (fun i => !(decide (pts idx i < lo i) || decide (pts idx i > hi i))) then out ++ [idx]
  else out

/-- `boxRecursive`, `mml/algorithms/CompGeometry/KDTree.h:500-531`. -/
noncomputable def boxRec (pts : Fin n → Fin d → ℝ) (lo hi : Fin d → ℝ) : Tree n d → List (Fin n) → List (Fin n)
  | .nil, out => out
  | .leaf idx, out => idx.foldl (boxLeaf pts lo hi) out
  | .split axis v l r, out =>
    let out := if lo axis ≤ v then boxRec pts lo hi l out else out
    if hi axis ≥ v then boxRec pts lo hi r out else out

/-- `findInBox`, `mml/algorithms/CompGeometry/KDTree.h:297-307`. -/
noncomputable def findInBox (pts : Fin n → Fin d → ℝ) (t : Tree n d) (lo hi : Fin d → ℝ) : List (Fin n) :=
  boxRec pts lo hi t []

/-- `FindNearestBruteForce2D` and `3D`, `mml/algorithms/CompGeometry/KDTree.h:663-723`, for any dimension (the
two functions differ in the number of coordinates only; the squares are of `point - query`). -/
noncomputable def bruteForce (pts : Fin n → Fin d → ℝ) (q : Fin d → ℝ) : NearestResult n :=
  if n = 0 then ⟨none, 0, false, true⟩
  else
    match (List.finRange n).foldl (fun best i =>
      if ltBest (distanceSquared (pts i) q) best then some (i, distanceSquared (pts i) q) else best) none with
    | some (i, dsq) => ⟨some i, Real.sqrt dsq, true, true⟩
    | none => ⟨none, 0, true, true⟩

end Verif.KD
