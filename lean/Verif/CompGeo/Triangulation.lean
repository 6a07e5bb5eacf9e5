import Mathlib.Data.List.InsertIdx
import Verif.CompGeo.Closest
import Verif.Loops

/-!
# Model of the triangulations

`/repo/mml/algorithms/CompGeometry/Triangulation.h`.  `Real` is the field of real numbers and `int` is `ℕ` (`ℤ` where -1 occurs).  A `Triangle2D` is
the triple of its corners.
-/

set_option autoImplicit false

namespace Verif.CompGeo

namespace Del

abbrev Pt := ℝ × ℝ

/-- `std::array<int, 3>`: the indexes of the corners of a triangle (Triangulation.h:28). -/
abbrev Tri := ℕ × ℕ × ℕ

/-! ## The incremental algorithm -/

/-- The determinant of `InCircumcircle` (Triangulation.h:425-438). -/
def det (p a b c : Pt) : ℝ :=
  (a.1 - p.1) * ((b.2 - p.2) * ((c.1 - p.1) * (c.1 - p.1) + (c.2 - p.2) * (c.2 - p.2)) - ((b.1 - p.1) * (b.1 - p.1) + (b.2 - p.2) * (b.2 - p.2)) * (c.2 - p.2)) -
  (a.2 - p.2) * ((b.1 - p.1) * ((c.1 - p.1) * (c.1 - p.1) + (c.2 - p.2) * (c.2 - p.2)) - ((b.1 - p.1) * (b.1 - p.1) + (b.2 - p.2) * (b.2 - p.2)) * (c.1 - p.1)) +
  ((a.1 - p.1) * (a.1 - p.1) + (a.2 - p.2) * (a.2 - p.2)) * ((b.1 - p.1) * (c.2 - p.2) - (b.2 - p.2) * (c.1 - p.1))

open Classical in
/-- `InCircumcircle` (Triangulation.h:416-441). -/
noncomputable def inCircle (p a b c : Pt) : Bool := decide (geomEps < det p a b c)

/-- The constructor of `EdgeKey` (Triangulation.h:446). -/
def key (e : ℕ × ℕ) : ℕ × ℕ := (min e.1 e.2, max e.1 e.2)

/-- `operator<` of `EdgeKey` (Triangulation.h:450-452). -/
def keyLt (k l : ℕ × ℕ) : Bool := k.1 < l.1 || (k.1 == l.1 && k.2 < l.2)

/-- Entering a value under a key in a `std::map` ordered by `keyLt`, the map being the list of its entries in order.  The value joins the list of the
values entered under that key before (Triangulation.h:472; lines 304 and 305 keep only the length of that list and its last element). -/
def enter {β : Type} : List ((ℕ × ℕ) × List β) → (ℕ × ℕ) → β → List ((ℕ × ℕ) × List β)
  | [], k, x => [(k, [x])]
  | (l, xs) :: r, k, x => if k = l then (l, xs ++ [x]) :: r else if keyLt k l then (k, [x]) :: (l, xs) :: r else (l, xs) :: enter r k x

/-- The map after a sequence of entries (Triangulation.h:299-307, 467-474). -/
def enterAll {β : Type} (xs : List ((ℕ × ℕ) × β)) : List ((ℕ × ℕ) × List β) := xs.foldl (fun m x => enter m x.1 x.2) []

/-- The three edges `(v[j], v[(j + 1) % 3])` of a triangle (Triangulation.h:300-302, 468-470). -/
def sides (t : Tri) : List (ℕ × ℕ) := [(t.1, t.2.1), (t.2.1, t.2.2), (t.2.2, t.1)]

/-- Is this triangle valid, and the new point in its circumcircle (Triangulation.h:284-290)? -/
noncomputable def isBad (wp : List Pt) (p : Pt) (t : Tri × Bool) : Outcome Bool :=
  if t.2 = false then .ret false else do
    let a ← Outcome.index wp t.1.1
    let b ← Outcome.index wp t.1.2.1
    let c ← Outcome.index wp t.1.2.2
    .ret (inCircle p a b c)

/-- The search for the bad triangles (Triangulation.h:282-293).  Instead of the list of their indexes the result says of every triangle whether it is in it. -/
noncomputable def marks (wp : List Pt) (p : Pt) : List (Tri × Bool) → Outcome (List Bool)
  | [] => .ret []
  | t :: ts => do
    let b ← isBad wp p t
    let bs ← marks wp p ts
    .ret (b :: bs)

/-- The bad triangles in order (Triangulation.h:299, 318). -/
def badTris (ts : List (Tri × Bool)) (bs : List Bool) : List Tri := ((ts.zip bs).filter (fun x => x.2)).map (fun x => x.1.1)

/-- The edges that occur exactly once, in the order of the map, each in the direction entered last (Triangulation.h:296-315). -/
def boundary (bad : List Tri) : List (ℕ × ℕ) :=
  (enterAll ((bad.flatMap sides).map (fun e => (key e, e)))).filterMap (fun g => if g.2.length = 1 then g.2.getLast? else none)

/-- `tris[t].valid = false` for the bad triangles (Triangulation.h:318-320). -/
def invalidate (ts : List (Tri × Bool)) (bs : List Bool) : List (Tri × Bool) := List.zipWith (fun t b => (t.1, t.2 && !b)) ts bs

/-- The insertion of the point with index `i` (Triangulation.h:278-326). -/
noncomputable def insertPoint (wp : List Pt) (ts : List (Tri × Bool)) (i : ℕ) : Outcome (List (Tri × Bool)) := do
  let p ← Outcome.index wp i
  let bs ← marks wp p ts
  .ret (invalidate ts bs ++ (boundary (badTris ts bs)).map (fun e => ((i, e.1, e.2), true)))

/-- The least of the numbers, starting from the first (Triangulation.h:232-239). -/
noncomputable def minOf (x : ℝ) (xs : List ℝ) : ℝ := xs.foldl min x
/-- The greatest of the numbers, starting from the first (Triangulation.h:232-239). -/
noncomputable def maxOf (x : ℝ) (xs : List ℝ) : ℝ := xs.foldl max x

/-- `deltaMax` (Triangulation.h:243-250). -/
noncomputable def deltaMax (minX maxX minY maxY : ℝ) : ℝ :=
  max (max (max (max (maxX - minX) (maxY - minY)) (max |minX| |minY| * (1 / 10 ^ 10))) (max |maxX| |maxY| * (1 / 10 ^ 10))) (1 / 10 ^ 10)

/-- The three corners of the super-triangle for a bounding box (Triangulation.h:252-258). -/
noncomputable def superOf (minX maxX minY maxY : ℝ) : List Pt :=
  [((minX + maxX) / 2 - 20 * deltaMax minX maxX minY maxY, (minY + maxY) / 2 - deltaMax minX maxX minY maxY),
   ((minX + maxX) / 2 + 20 * deltaMax minX maxX minY maxY, (minY + maxY) / 2 - deltaMax minX maxX minY maxY),
   ((minX + maxX) / 2, (minY + maxY) / 2 + 20 * deltaMax minX maxX minY maxY)]

/-- The super-triangle of a list of points, the first of which is `p` (Triangulation.h:231-258). -/
noncomputable def superTri (p : Pt) (ps : List Pt) : List Pt :=
  superOf (minOf p.1 (ps.map Prod.fst)) (maxOf p.1 (ps.map Prod.fst)) (minOf p.2 (ps.map Prod.snd)) (maxOf p.2 (ps.map Prod.snd))

/-- The triangles that are valid and have no corner of the super-triangle (Triangulation.h:331-346). -/
def extract (n : ℕ) (ts : List (Tri × Bool)) : List Tri :=
  (ts.filter (fun t => t.2 && decide (t.1.1 < n) && decide (t.1.2.1 < n) && decide (t.1.2.2 < n))).map Prod.fst

/-- A side of a triangle of a list: the index of the triangle and the number of the side (the pair of Triangulation.h:466). -/
abbrev Slot := ℕ × Fin 3

/-- The sides of a triangle with their numbers, as entered in `edgeToTri` (Triangulation.h:468-473). -/
def slots (t : Tri) (i : ℕ) : List ((ℕ × ℕ) × Slot) := [(key (t.1, t.2.1), (i, 0)), (key (t.2.1, t.2.2), (i, 1)), (key (t.2.2, t.1), (i, 2))]

/-- `edgeToTri` (Triangulation.h:466-474). -/
def edgeToTri (ts : List Tri) : List ((ℕ × ℕ) × List Slot) := enterAll (ts.zipIdx.flatMap (fun x => slots x.1 x.2))

/-- `dt.neighbors[s.first][s.second] = t`.  The index comes from the loop over the triangles (Triangulation.h:483-484). -/
def link (nb : List (Fin 3 → ℤ)) (s : Slot) (t : ℕ) : List (Fin 3 → ℤ) := nb.modify s.1 (fun f => Function.update f s.2 (t : ℤ))

/-- The assignments for one edge (Triangulation.h:477-486). -/
def linkPair (nb : List (Fin 3 → ℤ)) : List Slot → List (Fin 3 → ℤ)
  | [s, t] => link (link nb s t.1) t s.1
  | _ => nb

/-- `BuildNeighborInfo` (Triangulation.h:456-487). -/
def neighborsOf (ts : List Tri) : List (Fin 3 → ℤ) :=
  (edgeToTri ts).foldl (fun nb g => linkPair nb g.2) (List.replicate ts.length (fun _ => -1))

/-- `DelaunayTriangulation` (Triangulation.h:26-29). -/
structure Mesh where
  points : List Pt
  triangles : List Tri
  neighbors : List (Fin 3 → ℤ)

/-- `ComputeDelaunay` (Triangulation.h:222-352). -/
noncomputable def compute : List Pt → Outcome Mesh
  | p :: q :: r :: rest => do
    let ts ← forRange (rest.length + 3) [((rest.length + 3, rest.length + 4, rest.length + 5), true)]
      (insertPoint ((p :: q :: r :: rest) ++ superTri p (p :: q :: r :: rest)))
    .ret ⟨p :: q :: r :: rest, extract (rest.length + 3) ts, neighborsOf (extract (rest.length + 3) ts)⟩
  | ps => .ret ⟨ps, [], []⟩

/-- `GetTrianglePoints` and `GetTriangle` (Triangulation.h:38-47), for a triangle of the list. -/
def corners (ps : List Pt) (t : Tri) : Outcome (Pt × Pt × Pt) := do
  let a ← Outcome.index ps t.1
  let b ← Outcome.index ps t.2.1
  let c ← Outcome.index ps t.2.2
  .ret (a, b, c)

/-- The corners of every triangle (Triangulation.h:359-364). -/
def cornersAll (ps : List Pt) : List Tri → Outcome (List (Pt × Pt × Pt))
  | [] => .ret []
  | t :: ts => do
    let x ← corners ps t
    let xs ← cornersAll ps ts
    .ret (x :: xs)

/-- `DelaunayTriangulate` (Triangulation.h:357-365). -/
noncomputable def triangulate (ps : List Pt) : Outcome (List (Pt × Pt × Pt)) := do
  let m ← compute ps
  cornersAll m.points m.triangles

/-! ## Queries -/

/-- `Sign` (Triangulation.h:123-127). -/
def sign (p1 p2 p3 : Pt) : ℝ := (p1.1 - p3.1) * (p2.2 - p3.2) - (p2.1 - p3.1) * (p1.2 - p3.2)

open Classical in
/-- The test of `LocatePoint` for one triangle (Triangulation.h:60-67). -/
noncomputable def holds (p a b c : Pt) : Bool :=
  !(decide (sign p a b < 0 ∨ sign p b c < 0 ∨ sign p c a < 0) && decide (0 < sign p a b ∨ 0 < sign p b c ∨ 0 < sign p c a))

/-- The loop of `LocatePoint` from the triangle with index `i` on (Triangulation.h:53-70). -/
noncomputable def locateFrom (ps : List Pt) (p : Pt) : List Tri → ℕ → Outcome ℤ
  | [], _ => .ret (-1)
  | t :: ts, i => do
    let x ← corners ps t
    if holds p x.1 x.2.1 x.2.2 then .ret (i : ℤ) else locateFrom ps p ts (i + 1)

/-- `LocatePoint` (Triangulation.h:52-71). -/
noncomputable def locate (m : Mesh) (p : Pt) : Outcome ℤ := locateFrom m.points p m.triangles 0

/-- `denom` in `Interpolate` (Triangulation.h:94). -/
def denom (a b c : Pt) : ℝ := (b.2 - c.2) * (a.1 - c.1) + (c.1 - b.1) * (a.2 - c.2)

/-- The three weights in `Interpolate` (Triangulation.h:98-100). -/
noncomputable def weights (p a b c : Pt) : ℝ × ℝ × ℝ :=
  (((b.2 - c.2) * (p.1 - c.1) + (c.1 - b.1) * (p.2 - c.2)) / denom a b c,
   ((c.2 - a.2) * (p.1 - c.1) + (a.1 - c.1) * (p.2 - c.2)) / denom a b c,
   1 - ((b.2 - c.2) * (p.1 - c.1) + (c.1 - b.1) * (p.2 - c.2)) / denom a b c - ((c.2 - a.2) * (p.1 - c.1) + (a.1 - c.1) * (p.2 - c.2)) / denom a b c)

open Classical in
/-- `Interpolate` after the triangle is found (Triangulation.h:88-102). -/
noncomputable def blend (m : Mesh) (p : Pt) (values : List ℝ) (dflt : ℝ) (i : ℕ) : Outcome ℝ := do
  let t ← Outcome.index m.triangles i
  let x ← corners m.points t
  if |denom x.1 x.2.1 x.2.2| < 1 / 10 ^ 10 then .ret dflt else do
    let u ← Outcome.index values t.1
    let v ← Outcome.index values t.2.1
    let w ← Outcome.index values t.2.2
    .ret ((weights p x.1 x.2.1 x.2.2).1 * u + (weights p x.1 x.2.1 x.2.2).2.1 * v + (weights p x.1 x.2.1 x.2.2).2.2 * w)

/-- `Interpolate` (Triangulation.h:78-103). -/
noncomputable def interpolate (m : Mesh) (p : Pt) (values : List ℝ) (dflt : ℝ) : Outcome ℝ :=
  if values.length ≠ m.points.length then .ret dflt else do
    let i ← locate m p
    if i < 0 then .ret dflt else blend m p values dflt i.toNat

/-- The boundary edges of one triangle (Triangulation.h:110-117). -/
def openSides (t : Tri) (nb : Fin 3 → ℤ) : List (ℕ × ℕ) :=
  (if nb 0 = -1 then [(t.1, t.2.1)] else []) ++ (if nb 1 = -1 then [(t.2.1, t.2.2)] else []) ++ (if nb 2 = -1 then [(t.2.2, t.1)] else [])

/-- `GetConvexHullEdges` (Triangulation.h:107-120).  Reading `neighbors[i]` out of range is undefined. -/
def hullEdges : List Tri → List (Fin 3 → ℤ) → Outcome (List (ℕ × ℕ))
  | [], _ => .ret []
  | _ :: _, [] => .ub
  | t :: ts, nb :: nbs => do
    let r ← hullEdges ts nbs
    .ret (openSides t nb ++ r)

end Del

/-! ## Ear clipping -/

namespace Ear

abbrev Pt := ℝ × ℝ

/-- `Cross` (Triangulation.h:373-375). -/
def cross (o a b : Pt) : ℝ := (a.1 - o.1) * (b.2 - o.2) - (a.2 - o.2) * (b.1 - o.1)

open Classical in
/-- `IsPointInTriangle` (Triangulation.h:403-413). -/
noncomputable def inTri (p a b c : Pt) : Bool :=
  !(decide (cross a b p < -geomEps ∨ cross b c p < -geomEps ∨ cross c a p < -geomEps) &&
    decide (geomEps < cross a b p ∨ geomEps < cross b c p ∨ geomEps < cross c a p))

/-- The loop of `IsEar` over the other vertices, from index `j` on with `k` indexes left (Triangulation.h:391-399). -/
noncomputable def noneInside (vs : List Pt) (prev i next : ℕ) (a b c : Pt) : ℕ → ℕ → Outcome Bool
  | _, 0 => .ret true
  | j, k + 1 => if j = prev ∨ j = i ∨ j = next then noneInside vs prev i next a b c (j + 1) k else do
      let p ← Outcome.index vs j
      if inTri p a b c then .ret false else noneInside vs prev i next a b c (j + 1) k

open Classical in
/-- `IsEar` (Triangulation.h:378-400). -/
noncomputable def isEar (vs : List Pt) (i : ℕ) : Outcome Bool := do
  let a ← Outcome.index vs ((i + vs.length - 1) % vs.length)
  let b ← Outcome.index vs i
  let c ← Outcome.index vs ((i + 1) % vs.length)
  if cross a b c ≤ geomEps then .ret false
  else noneInside vs ((i + vs.length - 1) % vs.length) i ((i + 1) % vs.length) a b c 0 vs.length

/-- The search for an ear, from index `i` on with `k` indexes left (Triangulation.h:181-192). -/
noncomputable def findEar (vs : List Pt) : ℕ → ℕ → Outcome (Option ℕ)
  | _, 0 => .ret none
  | i, k + 1 => do
    let e ← isEar vs i
    if e then .ret (some i) else findEar vs (i + 1) k

/-- The triangle cut off at index `i` (Triangulation.h:184-187). -/
def earAt (vs : List Pt) (i : ℕ) : Outcome (Pt × Pt × Pt) := do
  let a ← Outcome.index vs ((i + vs.length - 1) % vs.length)
  let b ← Outcome.index vs i
  let c ← Outcome.index vs ((i + 1) % vs.length)
  .ret (a, b, c)

/-- The fan from the first vertex (Triangulation.h:197-199). -/
def fan : List Pt → List (Pt × Pt × Pt)
  | a :: b :: c :: r => (a, b, c) :: fan (a :: c :: r)
  | _ => []
termination_by vs => vs.length

/-- The clipping loop and the last triangle (Triangulation.h:177-209); the first argument bounds the number of rounds. -/
noncomputable def clip : ℕ → List Pt → Outcome (List (Pt × Pt × Pt))
  | 0, _ => .ub
  | k + 1, vs =>
    if 3 < vs.length then do
      let e ← findEar vs 0 vs.length
      match e with
      | some i => do
        let t ← earAt vs i
        let r ← clip k (vs.eraseIdx i)
        .ret (t :: r)
      | none => .ret (fan vs)
    else if vs.length = 3 then do
      let a ← Outcome.index vs 0
      let b ← Outcome.index vs 1
      let c ← Outcome.index vs 2
      .ret [(a, b, c)]
    else .ret []

/-- One term of the signed area (Triangulation.h:168-170). -/
def areaStep (vs : List Pt) (s : ℝ) (i : ℕ) : Outcome ℝ := do
  let a ← Outcome.index vs i
  let b ← Outcome.index vs ((i + 1) % vs.length)
  .ret (s + a.1 * b.2 - a.2 * b.1)

open Classical in
/-- `EarClipTriangulation` (Triangulation.h:150-210). -/
noncomputable def earClip (vs : List Pt) : Outcome (List (Pt × Pt × Pt)) :=
  if vs.length < 3 then .ret []
  else if vs.length = 3 then do
    let a ← Outcome.index vs 0
    let b ← Outcome.index vs 1
    let c ← Outcome.index vs 2
    .ret [(a, b, c)]
  else do
    let s ← forRange vs.length (0 : ℝ) (areaStep vs)
    clip vs.length (if s < 0 then vs.reverse else vs)

end Ear

end Verif.CompGeo
