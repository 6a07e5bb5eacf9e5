import Verif.Mat.Dense
import Mathlib.Algebra.Field.Defs

/-!
# Model of the packed matrix classes

Symmetric (`mml/base/Matrix/MatrixSym.h`), band-diagonal (`MatrixBandDiag.h`), tridiagonal (`MatrixTriDiag.h`) and
three-dimensional (`Matrix3D.h`) storage, with the same conventions as `Verif/Mat/Dense.lean`.  Norms other than
those listed, printing and move operations are not modelled.
-/

set_option autoImplicit false

namespace Verif.Mat

variable {K : Type}

/-! ## Symmetric storage -/

/-- The members of `MatrixSym` (MatrixSym.h:111-112). -/
structure Sym (K : Type) where
  dim : ℕ
  data : List K
  deriving DecidableEq

namespace Sym

/-- `numElements` (MatrixSym.h:118). -/
def numElements (dim : ℕ) : ℕ := dim * (dim + 1) / 2

/-- `linearIndex` (MatrixSym.h:127-132). -/
def linearIndex (i j : ℕ) : ℕ := if i < j then j * (j + 1) / 2 + i else i * (i + 1) / 2 + j

/-- `validateDimension` (MatrixSym.h:135-144).  The element limit 50 000 000 can be exceeded only by a dimension
of 10 000, which needs 50 005 000 elements. -/
def validate (dim : ℤ) : Outcome Unit :=
  if dim < 0 then .exn (.mml "MatrixDimensionError")
  else if dim > 10000 then .exn (.mml "MatrixDimensionError")
  else if numElements dim.toNat > 50000000 then .exn (.mml "MatrixAllocationError")
  else .ret ()

/-- `MatrixSym(dim, val)` (MatrixSym.h:171-180) and, with `val = 0`, `MatrixSym(dim)` (157-166). -/
def newFill (dim : ℤ) (val : K) : Outcome (Sym K) :=
  if dim = 0 then .ret ⟨0, []⟩
  else do
    validate dim
    .ret ⟨dim.toNat, List.replicate (numElements dim.toNat) val⟩

/-- `MatrixSym(dim, initializer_list)` (MatrixSym.h:194-213). -/
def fromList (dim : ℤ) (values : List K) : Outcome (Sym K) :=
  if dim = 0 then (if values.length ≠ 0 then .exn (.mml "MatrixDimensionError") else .ret ⟨0, []⟩)
  else do
    validate dim
    if values.length ≠ numElements dim.toNat then .exn (.mml "MatrixDimensionError")
    else .ret ⟨dim.toNat, values⟩

/-- `operator()(i, j)` as a value (MatrixSym.h:562): unchecked. -/
def get (m : Sym K) (i j : ℕ) : Outcome K := Outcome.index m.data (linearIndex i j)

/-- Assignment through `operator()(i, j)` (MatrixSym.h:568): unchecked. -/
def set (m : Sym K) (i j : ℕ) (a : K) : Outcome (Sym K) := do
  let d ← Outcome.store m.data (linearIndex i j) a
  .ret { m with data := d }

/-- `at(i, j)` (MatrixSym.h:576-580). -/
def at_ (m : Sym K) (i j : ℤ) : Outcome K :=
  if i < 0 ∨ i ≥ m.dim ∨ j < 0 ∨ j ≥ m.dim then .exn (.mml "MatrixAccessBoundsError")
  else m.get i.toNat j.toNat

/-- Assignment through `at(i, j)` (MatrixSym.h:588-592). -/
def setAt (m : Sym K) (i j : ℤ) (a : K) : Outcome (Sym K) :=
  if i < 0 ∨ i ≥ m.dim ∨ j < 0 ∨ j ≥ m.dim then .exn (.mml "MatrixAccessBoundsError")
  else m.set i.toNat j.toNat a

/-- `Resize(newDim, true)` (MatrixSym.h:278-310); for an empty matrix and for `newDim = 0` the shorter
overload's branches (260-273). -/
def resizePreserve [Zero K] (m : Sym K) (newDim : ℤ) : Outcome (Sym K) :=
  if newDim = m.dim then .ret m
  else if newDim = 0 then .ret ⟨0, []⟩
  else do
    validate newDim
    let n := newDim.toNat
    if m.dim = 0 then .ret ⟨n, List.replicate (numElements n) 0⟩
    else do
      let d ← forRange (min m.dim n) (List.replicate (numElements n) (0 : K)) (fun d i =>
        forRange (i + 1) d (fun d j => do
          let x ← Outcome.index m.data (linearIndex i j)
          Outcome.store d (i * (i + 1) / 2 + j) x))
      .ret ⟨n, d⟩

/-- `GetAsMatrix` (MatrixSym.h:340-351). -/
def toDense [Zero K] (m : Sym K) : Outcome (Dense K) :=
  if m.dim = 0 then .ret ⟨0, 0, []⟩
  else do
    let r ← Dense.new (m.dim : ℤ) (m.dim : ℤ)
    forRange m.dim r (fun r i => forRange m.dim r (fun r j => do
      let x ← m.get i j
      r.set i j x))

/-- `FromLower` (MatrixSym.h:357-372). -/
def fromLower [Zero K] (m : Dense K) : Outcome (Sym K) :=
  if m.rows ≠ m.cols then .exn (.mml "MatrixDimensionError")
  else if m.rows = 0 then .ret ⟨0, []⟩
  else do
    let r ← newFill (m.rows : ℤ) 0
    forRange m.rows r (fun r i => forRange (i + 1) r (fun r j => do
      let x ← m.get i j
      r.set i j x))

/-- `FromUpper` (MatrixSym.h:378-394). -/
def fromUpper [Zero K] (m : Dense K) : Outcome (Sym K) :=
  if m.rows ≠ m.cols then .exn (.mml "MatrixDimensionError")
  else if m.rows = 0 then .ret ⟨0, []⟩
  else do
    let r ← newFill (m.rows : ℤ) 0
    forRange m.rows r (fun r i => forFromTo i m.rows r (fun r j => do
      let x ← m.get i j
      r.set j i x))

/-- `FromFullMatrix` (MatrixSym.h:401-416). -/
def fromFull [Field K] (m : Dense K) : Outcome (Sym K) :=
  if m.rows ≠ m.cols then .exn (.mml "MatrixDimensionError")
  else if m.rows = 0 then .ret ⟨0, []⟩
  else do
    let r ← newFill (m.rows : ℤ) 0
    forRange m.rows r (fun r i => forRange (i + 1) r (fun r j => do
      let x ← m.get i j
      let y ← m.get j i
      r.set i j ((x + y) / 2)))

/-- `operator+` (MatrixSym.h:598-607). -/
def add [Add K] [Zero K] (a b : Sym K) : Outcome (Sym K) :=
  if a.dim ≠ b.dim then .exn (.mml "MatrixDimensionError")
  else do
    let r ← newFill (a.dim : ℤ) 0
    let d ← forRange a.data.length r.data (fun d i => do
      let x ← Outcome.index a.data i
      let y ← Outcome.index b.data i
      Outcome.store d i (x + y))
    .ret { r with data := d }

/-- `operator*(MatrixSym, Vector)` (MatrixSym.h:737-750). -/
def mulVec [CommRing K] (a : Sym K) (v : List K) : Outcome (List K) :=
  if a.dim ≠ v.length then .exn (.mml "MatrixDimensionError")
  else forRange a.dim (List.replicate a.dim 0) (fun r i => do
    let s ← forRange a.dim (0 : K) (fun s j => do
      let x ← a.get i j
      let y ← Outcome.index v j
      .ret (s + x * y))
    Outcome.store r i s)

/-- `operator*(MatrixSym, MatrixSym)` (MatrixSym.h:657-672). -/
def mul [CommRing K] (a b : Sym K) : Outcome (Dense K) :=
  if a.dim ≠ b.dim then .exn (.mml "MatrixDimensionError")
  else do
    let r ← Dense.new (a.dim : ℤ) (a.dim : ℤ)
    forRange a.dim r (fun r i => forRange a.dim r (fun r j => do
      let s ← forRange a.dim (0 : K) (fun s k => do
        let x ← a.get i k
        let y ← b.get k j
        .ret (s + x * y))
      r.set i j s))

end Sym

/-! ## Band-diagonal storage -/

/-- The members of `BandDiagonalMatrix` (MatrixBandDiag.h:117-121): element `(i, j)` of the matrix is element
`(i, j - i + m1)` of the dense matrix `data`. -/
structure Band (K : Type) where
  dim : ℕ
  m1 : ℕ
  m2 : ℕ
  data : Dense K
  deriving DecidableEq

namespace Band

/-- The constructor (MatrixBandDiag.h:117-124), for non-negative arguments. -/
def new (dim m1 m2 : ℕ) (data : Dense K) : Outcome (Band K) :=
  if data.rows ≠ dim ∨ data.cols ≠ m1 + m2 + 1 then .exn (.mml "MatrixDimensionError")
  else .ret ⟨dim, m1, m2, data⟩

/-- `operator()(i, j) const` (MatrixBandDiag.h:135-140). -/
def get [Zero K] (m : Band K) (i j : ℕ) : Outcome K :=
  if i > j + m.m1 ∨ j > i + m.m2 then .ret 0
  else m.data.get i (j + m.m1 - i)

/-- Assignment through `operator()(i, j)` (MatrixBandDiag.h:148-153). -/
def set (m : Band K) (i j : ℕ) (a : K) : Outcome (Band K) :=
  if i > j + m.m1 ∨ j > i + m.m2 then .exn (.mml "MatrixAccessBoundsError")
  else do
    let d ← m.data.set i (j + m.m1 - i) a
    .ret { m with data := d }

/-- `operator*(Vector)` (MatrixBandDiag.h:167-184). -/
def mulVec [CommRing K] (m : Band K) (x : List K) : Outcome (List K) :=
  if x.length ≠ m.dim then .exn (.mml "ArgumentError")
  else forRange m.dim (List.replicate m.dim 0) (fun r i => do
    let s ← forFromTo (i - m.m1) (min (m.dim - 1) (i + m.m2) + 1) (0 : K) (fun s j => do
      let a ← m.get i j
      let b ← Outcome.index x j
      .ret (s + a * b))
    Outcome.store r i s)

/-- `ToFullMatrix` (MatrixBandDiag.h:196-204). -/
def toDense [Zero K] (m : Band K) : Outcome (Dense K) := do
  let r ← Dense.new (m.dim : ℤ) (m.dim : ℤ)
  forRange m.dim r (fun r i => forRange m.dim r (fun r j => do
    let x ← m.get i j
    r.set i j x))

/-- `Transpose` (MatrixBandDiag.h:359-374). -/
def transpose [Zero K] (m : Band K) : Outcome (Band K) := do
  let t ← Dense.new (m.dim : ℤ) ((m.m1 + m.m2 + 1 : ℕ) : ℤ)
  let t ← forRange m.dim t (fun t i =>
    forFromTo (i - m.m1) (min (m.dim - 1) (i + m.m2) + 1) t (fun t j => do
      let x ← m.data.get i (j + m.m1 - i)
      t.set j (i + m.m2 - j) x))
  new m.dim m.m2 m.m1 t

/-- `IsEqualTo` (MatrixBandDiag.h:400-405). -/
def isEqualTo [CommRing K] [LinearOrder K] (a b : Band K) (eps : K) : Outcome Bool :=
  if a.dim ≠ b.dim ∨ a.m1 ≠ b.m1 ∨ a.m2 ≠ b.m2 then .ret false
  else a.data.isEqualTo b.data eps

end Band

/-! ## Tridiagonal storage -/

/-- The members of `TridiagonalMatrix` (MatrixTriDiag.h:34-37). -/
structure Tri (K : Type) where
  dim : ℕ
  below : List K
  diag : List K
  above : List K
  deriving DecidableEq

namespace Tri

/-- The constructor from three vectors (MatrixTriDiag.h:40-47). -/
def new (dim : ℕ) (a d c : List K) : Outcome (Tri K) :=
  if dim < 3 then .exn (.mml "MatrixDimensionError")
  else if a.length ≠ dim ∨ d.length ≠ dim ∨ c.length ≠ dim then .exn (.mml "MatrixDimensionError")
  else .ret ⟨dim, a, d, c⟩

/-- The body of the loop of the list constructor (MatrixTriDiag.h:58-63); `values[t]` is the next value. -/
def listBody (values : List K) (m : Tri K) (i : ℕ) : Outcome (Tri K) := do
  let x ← Outcome.index values (3 * i - 1)
  let b ← Outcome.store m.below i x
  let y ← Outcome.index values (3 * i)
  let d ← Outcome.store m.diag i y
  let z ← Outcome.index values (3 * i + 1)
  let a ← Outcome.store m.above i z
  .ret { m with below := b, diag := d, above := a }

/-- The constructor from a list of the elements row by row (MatrixTriDiag.h:49-67) for `dim ≥ 1`.  Reading past
the end of the list is undefined behaviour. -/
def fromList [Zero K] (dim : ℕ) (values : List K) : Outcome (Tri K) :=
  if values.length ≠ 3 * dim - 2 then .exn (.mml "MatrixDimensionError")
  else do
    let z := List.replicate dim (0 : K)
    let b ← Outcome.store z 0 0
    let x ← Outcome.index values 0
    let d ← Outcome.store z 0 x
    let y ← Outcome.index values 1
    let a ← Outcome.store z 0 y
    let m ← forFromTo 1 (dim - 1) (⟨dim, b, d, a⟩ : Tri K) (listBody values)
    let x ← Outcome.index values (3 * (dim - 1) - 1)
    let b ← Outcome.store m.below (dim - 1) x
    let y ← Outcome.index values (3 * (dim - 1))
    let d ← Outcome.store m.diag (dim - 1) y
    let a ← Outcome.store m.above (dim - 1) 0
    .ret ⟨dim, b, d, a⟩

/-- `operator()(i, j) const` (MatrixTriDiag.h:72-81). -/
def get [Zero K] (m : Tri K) (i j : ℕ) : Outcome K :=
  if i = j then Outcome.index m.diag i
  else if i + 1 = j then Outcome.index m.above i
  else if i = j + 1 ∧ j + 1 < m.dim then Outcome.index m.below i
  else .ret 0

/-- Assignment through `operator()(i, j)` (MatrixTriDiag.h:82-91). -/
def set (m : Tri K) (i j : ℕ) (x : K) : Outcome (Tri K) :=
  if i = j then do
    let d ← Outcome.store m.diag i x
    .ret { m with diag := d }
  else if i + 1 = j then do
    let d ← Outcome.store m.above i x
    .ret { m with above := d }
  else if i = j + 1 ∧ j + 1 < m.dim then do
    let d ← Outcome.store m.below i x
    .ret { m with below := d }
  else .exn (.mml "MatrixAccessBoundsError")

/-- `IsEqualTo` (MatrixTriDiag.h:93-107). -/
def isEqualTo [CommRing K] [LinearOrder K] (a b : Tri K) (eps : K) : Outcome Bool :=
  if a.dim ≠ b.dim then .ret false
  else forRange a.dim true (fun ok i => if ok then do
      let x ← Outcome.index a.diag i
      let x' ← Outcome.index b.diag i
      let y ← Outcome.index a.below i
      let y' ← Outcome.index b.below i
      let z ← Outcome.index a.above i
      let z' ← Outcome.index b.above i
      .ret (decide (¬ |x - x'| > eps) && decide (¬ |y - y'| > eps) && decide (¬ |z - z'| > eps))
    else .ret false)

/-- `GetTranspose` (MatrixTriDiag.h:183-200). -/
def transpose [Zero K] (m : Tri K) : Outcome (Tri K) := do
  let z := List.replicate m.dim (0 : K)
  let b ← Outcome.store z 0 0
  let b ← forFromTo 1 m.dim b (fun b i => do
    let x ← Outcome.index m.above (i - 1)
    Outcome.store b i x)
  let a ← forRange (m.dim - 1) z (fun a i => do
    let x ← Outcome.index m.below (i + 1)
    Outcome.store a i x)
  let a ← Outcome.store a (m.dim - 1) 0
  new m.dim b m.diag a

end Tri

/-! ## Three-dimensional storage -/

/-- The dimensions and the storage of `Matrix3D` (Matrix3D.h:90-91); the pointer tables at 92-93 are rebuilt
from them. -/
structure Cube (K : Type) where
  d1 : ℕ
  d2 : ℕ
  d3 : ℕ
  data : List K
  deriving DecidableEq

namespace Cube

/-- `Matrix3D(d1, d2, d3, initVal)` (Matrix3D.h:139-143), with the test at 109-113; the product does not
overflow. -/
def newFill (d1 d2 d3 : ℤ) (val : K) : Outcome (Cube K) :=
  if d1 ≤ 0 ∨ d2 ≤ 0 ∨ d3 ≤ 0 then .exn (.mml "ArgumentError")
  else .ret ⟨d1.toNat, d2.toNat, d3.toNat, List.replicate (d1.toNat * d2.toNat * d3.toNat) val⟩

/-- `operator()(i, j, k)` as a value (Matrix3D.h:257-263) without `MML_DEBUG`; also `m[i][j][k]` through the
pointer tables (97-104, 237-240). -/
def get (m : Cube K) (i j k : ℕ) : Outcome K := Outcome.index m.data ((i * m.d2 + j) * m.d3 + k)

/-- Assignment through `operator()(i, j, k)` (Matrix3D.h:248-254). -/
def set (m : Cube K) (i j k : ℕ) (a : K) : Outcome (Cube K) := do
  let d ← Outcome.store m.data ((i * m.d2 + j) * m.d3 + k) a
  .ret { m with data := d }

/-- `At(i, j, k)` (Matrix3D.h:278-282). -/
def at_ (m : Cube K) (i j k : ℤ) : Outcome K :=
  if i < 0 ∨ i ≥ m.d1 ∨ j < 0 ∨ j ≥ m.d2 ∨ k < 0 ∨ k ≥ m.d3 then .exn (.mml "IndexError")
  else m.get i.toNat j.toNat k.toNat

/-- Assignment through `At(i, j, k)` (Matrix3D.h:271-275). -/
def setAt (m : Cube K) (i j k : ℤ) (a : K) : Outcome (Cube K) :=
  if i < 0 ∨ i ≥ m.d1 ∨ j < 0 ∨ j ≥ m.d2 ∨ k < 0 ∨ k ≥ m.d3 then .exn (.mml "IndexError")
  else m.set i.toNat j.toNat k.toNat a

end Cube

end Verif.Mat
