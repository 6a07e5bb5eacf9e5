import Verif.LinAlg.LU
import Mathlib.Analysis.SpecialFunctions.Sqrt

/-!
# Model of the SVD solver

`SVDecompositionSolver` (`mml/core/LinAlgEqSolvers/LinAlgSVD.h`) for real elements, exact.  `eps` is
`std::numeric_limits<Type>::epsilon()`.  `decompose` (220-442), the reduction to bidiagonal form and its diagonalisation, is not
modelled: the constructor takes it as a parameter, and the theorems assume that what it returns is a singular value decomposition
in any order and with any signs.  Everything the class does with that decomposition is modelled: `reorder`, the solvers, rank and
nullity, bases of range and null space.
-/

set_option autoImplicit false

namespace Verif.LinAlg.SVD

open Verif.Mat

/-- The members `u`, `w` and `v` (LinAlgSVD.h:31-32); `m` and `n` are the dimensions of `u`. -/
structure Fac where
  u : Dense ℝ
  w : List ℝ
  v : Dense ℝ

/-! ## `reorder` -/

/-- Column `j` copied into a vector (LinAlgSVD.h:459, 460). -/
def readCol (r : ℕ) (a : Dense ℝ) (j : ℕ) (buf : List ℝ) : Outcome (List ℝ) :=
  forRange r buf (fun b k => do
    let x ← a.get k j
    Outcome.store b k x)

/-- A vector copied into column `j` (LinAlgSVD.h:471, 472). -/
def writeCol (r : ℕ) (a : Dense ℝ) (j : ℕ) (buf : List ℝ) : Outcome (Dense ℝ) :=
  forRange r a (fun a k => do
    let x ← Outcome.index buf k
    a.set k j x)

/-- Column `j'` copied to column `j` (LinAlgSVD.h:465, 466). -/
def copyCol (r : ℕ) (a : Dense ℝ) (j j' : ℕ) : Outcome (Dense ℝ) :=
  forRange r a (fun a k => do
    let x ← a.get k j'
    a.set k j x)

/-- The sign of column `j` changed (LinAlgSVD.h:484, 485). -/
def negCol (r : ℕ) (a : Dense ℝ) (j : ℕ) : Outcome (Dense ℝ) :=
  forRange r a (fun a k => do
    let x ← a.get k j
    a.set k j (-x))

/-- The body of the inner loop (LinAlgSVD.h:464-466). -/
def shiftOne (m n inc : ℕ) (s : Fac) (j : ℕ) : Outcome Fac := do
  let x ← Outcome.index s.w (j - inc)
  let w ← Outcome.store s.w j x
  let u ← copyCol m s.u j (j - inc)
  let v ← copyCol n s.v j (j - inc)
  .ret ⟨u, w, v⟩

/-- The inner loop (LinAlgSVD.h:462-469): the state and `j` after it.  The first argument bounds the number of rounds; it is shown
never to be reached.  A negative index would be undefined. -/
noncomputable def shift (m n inc : ℕ) (sw : ℝ) : ℕ → Fac → ℕ → Outcome (Fac × ℕ)
  | 0, _, _ => .ub
  | fuel + 1, s, j =>
    if j < inc then .ub
    else do
      let x ← Outcome.index s.w (j - inc)
      if x < sw then do
        let s ← shiftOne m n inc s j
        if j - inc < inc then .ret (s, j - inc) else shift m n inc sw fuel s (j - inc)
      else .ret (s, j)

/-- One round of the insertion (LinAlgSVD.h:458-472). -/
noncomputable def insertOne (m n inc : ℕ) (s : Fac) (i : ℕ) : Outcome Fac := do
  let sw ← Outcome.index s.w i
  let su ← readCol m s.u i (List.replicate m 0)
  let sv ← readCol n s.v i (List.replicate n 0)
  let r ← shift m n inc sw (i + 1) s i
  let w ← Outcome.store r.1.w r.2 sw
  let u ← writeCol m r.1.u r.2 su
  let v ← writeCol n r.1.v r.2 sv
  .ret ⟨u, w, v⟩

/-- The search for the first increment (LinAlgSVD.h:453), with a bound on the number of rounds that is not reached. -/
def grow (n : ℕ) : ℕ → ℕ → Outcome ℕ
  | 0, _ => .ub
  | fuel + 1, inc => if inc * 3 + 1 ≤ n then grow n fuel (inc * 3 + 1) else .ret (inc * 3 + 1)

/-- The passes of the sort (LinAlgSVD.h:454-474), with a bound on the number of rounds that is not reached. -/
noncomputable def passes (m n : ℕ) : ℕ → ℕ → Fac → Outcome Fac
  | 0, _, _ => .ub
  | fuel + 1, inc, s => do
    let s ← forFromTo (inc / 3) n s (insertOne m n (inc / 3))
    if inc / 3 > 1 then passes m n fuel (inc / 3) s else .ret s

/-- The number of negative elements in column `k` (LinAlgSVD.h:480, 481), added to `c`. -/
noncomputable def negatives (r : ℕ) (a : Dense ℝ) (k c : ℕ) : Outcome ℕ :=
  forRange r c (fun c i => do
    let x ← a.get i k
    if x < 0 then .ret (c + 1) else .ret c)

/-- The sign convention for column `k` (LinAlgSVD.h:479-486). -/
noncomputable def flip (m n : ℕ) (s : Fac) (k : ℕ) : Outcome Fac := do
  let c ← negatives m s.u k 0
  let c ← negatives n s.v k c
  if c > (m + n) / 2 then do
    let u ← negCol m s.u k
    let v ← negCol n s.v k
    .ret ⟨u, s.w, v⟩
  else .ret s

/-- `reorder` (LinAlgSVD.h:446-488). -/
noncomputable def reorder (m n : ℕ) (s : Fac) : Outcome Fac := do
  let inc ← grow n (n + 1) 1
  let s ← passes m n (inc + 1) inc s
  forRange n s (flip m n)

/-- The constructor (LinAlgSVD.h:63-72) with the routine `decompose` it calls as a parameter. -/
noncomputable def new (decompose : Dense ℝ → Outcome Fac) (a : Dense ℝ) : Outcome Fac :=
  if a.rows = 0 ∨ a.cols = 0 then .exn (.mml "MatrixDimensionError")
  else do
    let s ← decompose a
    reorder a.rows a.cols s

/-! ## The solver -/

/-- The threshold for singular values (LinAlgSVD.h:102, 162, 171, 180, 199). -/
noncomputable def threshold (eps thresh : ℝ) (s : Fac) : Outcome ℝ :=
  if thresh ≥ 0 then .ret thresh
  else do
    let w0 ← Outcome.index s.w 0
    .ret (0.5 * Real.sqrt (s.u.rows + s.u.cols + 1.0) * w0 * eps)

/-- `inv_condition` (LinAlgSVD.h:77-79). -/
noncomputable def invCondition (s : Fac) : Outcome ℝ := do
  let a ← Outcome.index s.w 0
  let b ← Outcome.index s.w (s.u.cols - 1)
  if a ≤ 0 ∨ b ≤ 0 then .ret 0 else divU b a

/-- One component of the right-hand side in the new basis (LinAlgSVD.h:108-115). -/
noncomputable def coord (s : Fac) (tsh : ℝ) (b : List ℝ) (tmp : List ℝ) (j : ℕ) : Outcome (List ℝ) := do
  let wj ← Outcome.index s.w j
  if wj > tsh then do
    let t ← forRange s.u.rows (0 : ℝ) (fun t i => do
      let x ← s.u.get i j
      let y ← Outcome.index b i
      .ret (t + x * y))
    let t ← divU t wj
    Outcome.store tmp j t
  else Outcome.store tmp j 0

/-- One component of the solution (LinAlgSVD.h:121-124). -/
noncomputable def component (s : Fac) (tmp : List ℝ) (x : List ℝ) (j : ℕ) : Outcome (List ℝ) := do
  let t ← forRange s.u.cols (0 : ℝ) (fun t jj => do
    let a ← s.v.get j jj
    let y ← Outcome.index tmp jj
    .ret (t + a * y))
  Outcome.store x j t

/-- `Solve(b, x, thresh)` (LinAlgSVD.h:88-126).  A vector `x` of another size is resized, and every element is assigned, so that
the old contents do not matter; they are taken to be zero. -/
noncomputable def solve (eps thresh : ℝ) (s : Fac) (b : List ℝ) : Outcome (List ℝ) :=
  if b.length ≠ s.u.rows then .exn (.mml "VectorDimensionError")
  else do
    let tsh ← threshold eps thresh s
    let tmp ← forRange s.u.cols (List.replicate s.u.cols 0) (coord s tsh b)
    forRange s.u.cols (List.replicate s.u.cols 0) (component s tmp)

/-- `Rank` (LinAlgSVD.h:161-167). -/
noncomputable def rank (eps thresh : ℝ) (s : Fac) : Outcome ℕ := do
  let tsh ← threshold eps thresh s
  forRange s.u.cols 0 (fun c j => do
    let wj ← Outcome.index s.w j
    if wj > tsh then .ret (c + 1) else .ret c)

/-- `Nullity` (LinAlgSVD.h:170-176). -/
noncomputable def nullity (eps thresh : ℝ) (s : Fac) : Outcome ℕ := do
  let tsh ← threshold eps thresh s
  forRange s.u.cols 0 (fun c j => do
    let wj ← Outcome.index s.w j
    if wj ≤ tsh then .ret (c + 1) else .ret c)

/-- Column `j` appended to the basis (LinAlgSVD.h:189-191, 208-210). -/
def putCol (r : ℕ) (a : Dense ℝ) (j : ℕ) (o : Dense ℝ × ℕ) : Outcome (Dense ℝ × ℕ) := do
  let d ← forRange r o.1 (fun d i => do
    let x ← a.get i j
    d.set i o.2 x)
  .ret (d, o.2 + 1)

/-- `Range` (LinAlgSVD.h:179-195). -/
noncomputable def rangeBasis (eps thresh : ℝ) (s : Fac) : Outcome (Dense ℝ) := do
  let tsh ← threshold eps thresh s
  let rk ← rank eps tsh s
  let d ← Dense.new (K := ℝ) s.u.rows rk
  let r ← forRange s.u.cols (d, 0) (fun o j => do
    let wj ← Outcome.index s.w j
    if wj > tsh then putCol s.u.rows s.u j o else .ret o)
  .ret r.1

/-- `Nullspace` (LinAlgSVD.h:198-214). -/
noncomputable def nullBasis (eps thresh : ℝ) (s : Fac) : Outcome (Dense ℝ) := do
  let tsh ← threshold eps thresh s
  let rk ← nullity eps tsh s
  let d ← Dense.new (K := ℝ) s.u.cols rk
  let r ← forRange s.u.cols (d, 0) (fun o j => do
    let wj ← Outcome.index s.w j
    if wj ≤ tsh then putCol s.u.cols s.v j o else .ret o)
  .ret r.1

end Verif.LinAlg.SVD
