import Verif.Mat.Dense
import Mathlib.Algebra.Order.Field.Basic
import Mathlib.Analysis.Real.Sqrt

/-!
# Model of the matrix utilities

`mml/core/MatrixUtils.h`: the structure tests, the scalar quantities, the similarity transform, the tests for
nilpotent and unipotent matrices, the Faddeev-Leverrier algorithm and the rank by elimination.  The elements are
in an ordered field and the arithmetic is exact.  The functions of that file that wrap the LU and the singular
value solvers are not modelled here.
-/

set_option autoImplicit false

namespace Verif.Mat.Utils

open Verif.Mat

variable {K : Type}

section
variable [Field K] [LinearOrder K]

/-- One test `std::abs(A(i, j)) > tol` with `return false`. -/
def small (a : Dense K) (tol : K) (i j : ℕ) : Outcome Bool := do
  let x ← a.get i j
  .ret (decide (¬ |x| > tol))

/-- `IsUpperHessenberg` (MatrixUtils.h:45-54). -/
def isUpperHessenberg (a : Dense K) (tol : K) : Outcome Bool :=
  Dense.allEntries a.rows (fun _ => 0) (fun i => i - 1) (small a tol)

/-- `IsUpperTriangular` (MatrixUtils.h:63-72). -/
def isUpperTriangular (a : Dense K) (tol : K) : Outcome Bool :=
  Dense.allEntries a.rows (fun _ => 0) (fun i => i) (small a tol)

/-- `IsLowerTriangular` (MatrixUtils.h:81-90): the column index runs up to the number of rows. -/
def isLowerTriangular (a : Dense K) (tol : K) : Outcome Bool :=
  Dense.allEntries a.rows (fun i => i + 1) (fun _ => a.rows) (small a tol)

/-- The test of `IsDiagonal` at one position (MatrixUtils.h:105). -/
def offDiagSmall (a : Dense K) (tol : K) (i j : ℕ) : Outcome Bool :=
  if i ≠ j then small a tol i j else .ret true

/-- `IsDiagonal` (MatrixUtils.h:99-108): the column index runs up to the number of rows. -/
def isDiagonal (a : Dense K) (tol : K) : Outcome Bool :=
  Dense.allEntries a.rows (fun _ => 0) (fun _ => a.rows) (offDiagSmall a tol)

/-- The test of `IsSymmetric` at one position (MatrixUtils.h:125). -/
def symSmall (a : Dense K) (tol : K) (i j : ℕ) : Outcome Bool := do
  let x ← a.get i j
  let y ← a.get j i
  .ret (decide (¬ |x - y| > tol))

/-- `IsSymmetric` (MatrixUtils.h:117-128). -/
def isSymmetric (a : Dense K) (tol : K) : Outcome Bool :=
  if a.cols ≠ a.rows then .ret false
  else Dense.allEntries a.rows (fun i => i + 1) (fun _ => a.rows) (symSmall a tol)

/-- The tests of `IsSkewSymmetric` in row `i` (MatrixUtils.h:146-150): the diagonal element is the position
`j = i` of a loop over `i ≤ j`. -/
def skewSmall (a : Dense K) (tol : K) (i j : ℕ) : Outcome Bool :=
  if j = i then small a tol i i
  else do
    let x ← a.get i j
    let y ← a.get j i
    .ret (decide (¬ |x + y| > tol))

/-- `IsSkewSymmetric` (MatrixUtils.h:137-153). -/
def isSkewSymmetric (a : Dense K) (tol : K) : Outcome Bool :=
  if a.cols ≠ a.rows then .ret false
  else Dense.allEntries a.rows (fun i => i) (fun _ => a.rows) (skewSmall a tol)

/-- `Trace` (MatrixUtils.h:165-173). -/
def trace (a : Dense K) : Outcome K :=
  forRange (min a.rows a.cols) 0 (fun s i => do
    let x ← a.get i i
    .ret (s + x))

/-- The sum of squares of `FrobeniusNorm` (MatrixUtils.h:184-187); the square root is taken in
`frobeniusNorm`. -/
def sumSq (a : Dense K) : Outcome K :=
  forRange a.rows 0 (fun s i => forRange a.cols s (fun s j => do
    let x ← a.get i j
    .ret (s + |x| * |x|)))

/-- `InfinityNorm` (MatrixUtils.h:197-209). -/
def infinityNorm (a : Dense K) : Outcome K :=
  forRange a.rows 0 (fun m i => do
    let s ← forRange a.cols 0 (fun s j => do
      let x ← a.get i j
      .ret (s + |x|))
    .ret (max m s))

/-- `OneNorm` (MatrixUtils.h:217-229). -/
def oneNorm (a : Dense K) : Outcome K :=
  forRange a.cols 0 (fun m j => do
    let s ← forRange a.rows 0 (fun s i => do
      let x ← a.get i j
      .ret (s + |x|))
    .ret (max m s))

/-- `MaxAbsDiff` (MatrixUtils.h:238-248). -/
def maxAbsDiff (a b : Dense K) : Outcome K :=
  forRange (min a.rows b.rows) 0 (fun m i => forRange (min a.cols b.cols) m (fun m j => do
    let x ← a.get i j
    let y ← b.get i j
    .ret (max m |x - y|)))

/-- The accumulation `r(i, j) = 0; for (k < n) r(i, j) += p(k) * q(k)` of `SimilarityTransform`
(MatrixUtils.h:272-274, 281-283). -/
def accum (n i j : ℕ) (r : Dense K) (term : ℕ → Outcome K) : Outcome (Dense K) := do
  let r ← r.set i j 0
  forRange n r (fun r k => do
    let s ← r.get i j
    let t ← term k
    r.set i j (s + t))

/-- The summand `A(i, k) * Q(k, j)` (MatrixUtils.h:274). -/
def termAQ (a q : Dense K) (i j k : ℕ) : Outcome K := do
  let x ← a.get i k
  let y ← q.get k j
  .ret (x * y)

/-- The summand `Q(k, i) * temp(k, j)` (MatrixUtils.h:283). -/
def termQT (q t : Dense K) (i j k : ℕ) : Outcome K := do
  let x ← q.get k i
  let y ← t.get k j
  .ret (x * y)

/-- `SimilarityTransform(Q, A)` (MatrixUtils.h:261-287). -/
def similarity (q a : Dense K) : Outcome (Dense K) := do
  let n := a.rows
  let t0 ← (Dense.new (n : ℤ) (n : ℤ) : Outcome (Dense K))
  let r0 ← (Dense.new (n : ℤ) (n : ℤ) : Outcome (Dense K))
  let t ← forRange n t0 (fun t i => forRange n t (fun t j => accum n i j t (termAQ a q i j)))
  forRange n r0 (fun r i => forRange n r (fun r j => accum n i j r (termQT q t i j)))

/-- The loop of `IsNilpotent` (MatrixUtils.h:304-309) with `k` rounds left. -/
def nilLoop (a : Dense K) (eps : K) : ℕ → Dense K → Outcome Bool
  | 0, _ => .ret false
  | k + 1, m => do
    let m ← a.mul m
    if m.isZero eps then .ret true else nilLoop a eps k m

/-- `IsNilpotent` (MatrixUtils.h:296-311).  `eps` is the default tolerance of `isZero`, `1e-10` for `double`
(MMLPrecision.h:136). -/
def isNilpotent (a : Dense K) (eps : K) : Outcome Bool :=
  if a.rows ≠ a.cols then .exn (.mml "MatrixDimensionError")
  else nilLoop a eps (a.rows - 1) a

/-- The loop of `IsUnipotent` (MatrixUtils.h:325-331) with `k` rounds left, and the test after it. -/
def uniLoop (b : Dense K) (eps : K) : ℕ → Dense K → Outcome Bool
  | 0, m => .ret (m.isZero eps)
  | k + 1, m => if m.isZero eps then .ret true else do
    let m ← b.mul m
    uniLoop b eps k m

/-- `IsUnipotent` (MatrixUtils.h:316-332). -/
def isUnipotent (a : Dense K) (eps : K) : Outcome Bool :=
  if a.rows ≠ a.cols then .exn (.mml "MatrixDimensionError")
  else do
    let e ← (Dense.identity (a.rows : ℤ) : Outcome (Dense K))
    let b ← a.sub e
    uniLoop b eps (a.rows - 1) b

/-- The outputs of `FaddeevAlg`: the coefficients, the determinant and the matrix stored in `outInv`, which is
the last assignment of the function.  Dividing by a zero coefficient fills `outInv` with infinities and NaNs;
that is `.ub` here. -/
structure Faddeev (K : Type) where
  poly : List K
  det : K
  inv : Outcome (Dense K)
  deriving DecidableEq

/-- `SetDegree(newDeg)` (Polynom.h:151): `resize` keeps what fits and fills with zeros. -/
def setDegree (p : List K) (deg : ℕ) : List K :=
  p.take (deg + 1) ++ List.replicate (deg + 1 - p.length) 0

/-- One round of the recurrence with `k = r + 1` (MatrixUtils.h:363-367). -/
def fadStep (a ident : Dense K) (n : ℕ) (s : List (Dense K) × List K) (r : ℕ) :
    Outcome (List (Dense K) × List K) := do
  let b ← Outcome.index s.1 r
  let m ← a.mul b
  let t ← trace m
  let c := -1 / ((r + 1 : ℕ) : K) * t
  let p ← Outcome.store s.2 (n - (r + 1)) c
  let m2 ← a.mul b
  let ci ← Outcome.index p (n - (r + 1))
  let e ← ident.scale ci
  let b2 ← m2.add e
  let bs ← Outcome.store s.1 (r + 1) b2
  .ret (bs, p)

/-- `outInv = -B[N - 1] / outCharPoly[0]` (MatrixUtils.h:371). -/
def fadInv (b : Dense K) (c : K) : Outcome (Dense K) :=
  if c = 0 then .ub
  else do
    let m ← b.neg
    m.mapData (· / c)

/-- `FaddeevAlg` (MatrixUtils.h:343-372); `p0` is what the caller's polynomial held. -/
def faddeev (a : Dense K) (p0 : List K) : Outcome (Faddeev K) := do
  let n := a.rows
  let ident ← (Dense.identity (n : ℤ) : Outcome (Dense K))
  let null ← (Dense.new (n : ℤ) (n : ℤ) : Outcome (Dense K))
  let bs ← Outcome.store (List.replicate (n + 1) null) 0 ident
  let p ← Outcome.store (setDegree p0 n) n 1
  let s ← forRange n (bs, p) (fadStep a ident n)
  let c0 ← Outcome.index s.2 0
  let b ← Outcome.index s.1 (n - 1)
  .ret ⟨s.2, (-1) ^ n * c0, fadInv b c0⟩

end

/-- `FrobeniusNorm` (MatrixUtils.h:181-189). -/
noncomputable def frobeniusNorm (a : Dense ℝ) : Outcome ℝ := do
  let s ← sumSq a
  .ret (Real.sqrt s)

section
variable [Field K] [LinearOrder K]

/-- The search for a pivot row in column `col` (MatrixUtils.h:397-407); `none` is `-1`. -/
def findPivot (m : Dense K) (sel : List Bool) (eps : K) (col : ℕ) : Outcome (Option ℕ × K) :=
  forRange m.rows (none, 0) (fun s row => do
    let x ← m.get row col
    let used ← Outcome.index sel row
    if !used ∧ |x| > eps ∧ |x| > s.2 then .ret (some row, |x|) else .ret s)

/-- Subtracting the pivot row from one row (MatrixUtils.h:417-422).  The pivot is not zero when this runs. -/
def elimRow (pr col : ℕ) (m : Dense K) (row : ℕ) : Outcome (Dense K) :=
  if row ≠ pr then do
    let x ← m.get row col
    let y ← m.get pr col
    let factor ← (if y = 0 then .ub else .ret (x / y) : Outcome K)
    forFromTo col m.cols m (fun m k => do
      let u ← m.get row k
      let v ← m.get pr k
      m.set row k (u - factor * v))
  else .ret m

/-- The state of `RankGaussian`: the working copy, the rows already used and the count. -/
structure RankState (K : Type) where
  mat : Dense K
  sel : List Bool
  rank : ℕ

/-- One round of the loop over the columns (MatrixUtils.h:394-424). -/
def rankStep (eps : K) (s : RankState K) (col : ℕ) : Outcome (RankState K) := do
  let p ← findPivot s.mat s.sel eps col
  match p.1 with
  | none => .ret s
  | some pr => do
    let sel ← Outcome.store s.sel pr true
    let mat ← forRange s.mat.rows s.mat (elimRow pr col)
    .ret { mat := mat, sel := sel, rank := s.rank + 1 }

/-- `RankGaussian` (MatrixUtils.h:384-426). -/
def rankGaussian (a : Dense K) (eps : K) : Outcome ℕ := do
  let s ← forRange a.cols { mat := a, sel := List.replicate a.rows false, rank := 0 } (rankStep eps)
  .ret s.rank

end

end Verif.Mat.Utils
