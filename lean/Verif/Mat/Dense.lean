import Verif.Loops
import Mathlib.Algebra.Ring.Defs
import Mathlib.Algebra.Order.Group.Nat
import Mathlib.Algebra.Order.Group.Unbundled.Abs

/-!
# Model of the dense matrix class

`mml/base/Matrix/Matrix.h`, with the elements in a commutative ring `K` (the arithmetic is exact).  The storage
is the flat row-major array of the code and every access computes the same index.  Sizes and positions handed in
by a caller as `int` are integers where their sign is checked and natural numbers where the code assumes them to
be valid; `int` arithmetic does not overflow.  Printing, iterators and the non-owning views are not modelled.
Moved-from matrices are not modelled.
-/

set_option autoImplicit false

namespace Verif.Mat

/-- The members of `Matrix` (Matrix.h:99-101). -/
structure Dense (K : Type) where
  rows : ℕ
  cols : ℕ
  data : List K
  deriving DecidableEq

namespace Dense

variable {K : Type}

/-- `Matrix::idx` (Matrix.h:104). -/
def idx (m : Dense K) (i j : ℕ) : ℕ := i * m.cols + j

/-- `Matrix::ValidateDimensions` (Matrix.h:107-122) for non-negative arguments.  The overflow test at 115-118
cannot fire for dimensions up to the limit. -/
def validate (rows cols : ℕ) : Outcome Unit :=
  if rows > 100000 ∨ cols > 100000 then .exn (.mml "MatrixDimensionError")
  else if rows * cols > 100000000 then .exn .badAlloc
  else .ret ()

/-- `Matrix(rows, cols, val)` (Matrix.h:168-180), and with `val = 0` also `Matrix(rows, cols)` (144-161). -/
def newFill (rows cols : ℤ) (val : K) : Outcome (Dense K) :=
  if rows < 0 ∨ cols < 0 then .exn (.mml "MatrixDimensionError")
  else if rows = 0 ∨ cols = 0 then .ret ⟨0, 0, []⟩
  else do
    validate rows.toNat cols.toNat
    .ret ⟨rows.toNat, cols.toNat, List.replicate (rows.toNat * cols.toNat) val⟩

/-- `Matrix(rows, cols)` (Matrix.h:144-161) for a numeric element type. -/
def new [Zero K] (rows cols : ℤ) : Outcome (Dense K) := newFill rows cols 0

/-- `operator()(i, j)` used as a value (Matrix.h:774): unchecked. -/
def get (m : Dense K) (i j : ℕ) : Outcome K := Outcome.index m.data (m.idx i j)

/-- Assignment through `operator()(i, j)` (Matrix.h:776): unchecked. -/
def set (m : Dense K) (i j : ℕ) (a : K) : Outcome (Dense K) := do
  let d ← Outcome.store m.data (m.idx i j) a
  .ret { m with data := d }

/-- `at(i, j) const` (Matrix.h:786-791). -/
def at_ (m : Dense K) (i j : ℤ) : Outcome K :=
  if i < 0 ∨ i ≥ m.rows ∨ j < 0 ∨ j ≥ m.cols then .exn (.mml "MatrixAccessBoundsError")
  else m.get i.toNat j.toNat

/-- Assignment through `at(i, j)` (Matrix.h:795-800). -/
def setAt (m : Dense K) (i j : ℤ) (a : K) : Outcome (Dense K) :=
  if i < 0 ∨ i ≥ m.rows ∨ j < 0 ∨ j ≥ m.cols then .exn (.mml "MatrixAccessBoundsError")
  else m.set i.toNat j.toNat a

/-- `std::swap` of two elements of the storage. -/
def swap (m : Dense K) (i j k l : ℕ) : Outcome (Dense K) := do
  let x ← m.get i j
  let y ← m.get k l
  let m ← m.set i j y
  m.set k l x

/-- The loop of the nested-vector constructor (Matrix.h:197-202). -/
def nestedRow (values : List (List K)) (cols : ℕ) (d : List K) (i : ℕ) : Outcome (List K) := do
  let row ← Outcome.index values i
  if row.length ≠ cols then .exn (.mml "MatrixDimensionError")
  else forRange cols d (fun d j => do
    let x ← Outcome.index row j
    .ret (d ++ [x]))

/-- `Matrix(vector<vector<Type>>)` (Matrix.h:185-203). -/
def fromNested (values : List (List K)) : Outcome (Dense K) :=
  match values with
  | [] => .ret ⟨0, 0, []⟩
  | [] :: _ => .ret ⟨0, 0, []⟩
  | r0 :: _ => do
    let rows := values.length
    let cols := r0.length
    validate rows cols
    let d ← forRange rows [] (nestedRow values cols)
    .ret ⟨rows, cols, d⟩

/-- `Matrix(rows, cols, initializer_list, strictMode)` (Matrix.h:254-280). -/
def fromList [Zero K] (rows cols : ℤ) (values : List K) (strict : Bool) : Outcome (Dense K) :=
  if rows < 0 ∨ cols < 0 then .exn (.mml "MatrixDimensionError")
  else if rows = 0 ∨ cols = 0 then .ret ⟨0, 0, []⟩
  else do
    validate rows.toNat cols.toNat
    let total := rows.toNat * cols.toNat
    if strict ∧ values.length ≠ total then .exn (.mml "MatrixDimensionError")
    else do
      let d ← forRange (min total values.length) (List.replicate total 0) (fun d i => do
        let x ← Outcome.index values i
        Outcome.store d i x)
      .ret ⟨rows.toNat, cols.toNat, d⟩

/-- The submatrix constructor and `GetSubmatrix` (Matrix.h:301-317, 548-551). -/
def submatrix (m : Dense K) (r0 c0 nr nc : ℤ) : Outcome (Dense K) :=
  if r0 < 0 ∨ r0 ≥ m.rows ∨ c0 < 0 ∨ c0 ≥ m.cols then .exn (.mml "MatrixDimensionError")
  else if nr ≤ 0 ∨ nc ≤ 0 then .exn (.mml "MatrixDimensionError")
  else if r0 + nr > m.rows ∨ c0 + nc > m.cols then .exn (.mml "MatrixDimensionError")
  else do
    let d ← forRange nr.toNat [] (fun d i => forRange nc.toNat d (fun d j => do
      let x ← m.get (r0.toNat + i) (c0.toNat + j)
      .ret (d ++ [x])))
    .ret ⟨nr.toNat, nc.toNat, d⟩

/-- `Resize(rows, cols, preserveElements)` (Matrix.h:347-374) for a numeric element type. -/
def resize [Zero K] (m : Dense K) (rows cols : ℤ) (preserve : Bool) : Outcome (Dense K) :=
  if rows = m.rows ∧ cols = m.cols then .ret m
  else if rows ≤ 0 ∨ cols ≤ 0 then .exn (.mml "MatrixDimensionError")
  else do
    let r := rows.toNat
    let c := cols.toNat
    validate r c
    if preserve then do
      let n ← forRange (min m.rows r) (⟨r, c, List.replicate (r * c) 0⟩ : Dense K) (fun n i =>
        forRange (min m.cols c) n (fun n j => do
          let x ← m.get i j
          n.set i j x))
      .ret n
    else .ret ⟨r, c, List.replicate (r * c) 0⟩

/-- `MakeUnitMatrix()` (Matrix.h:378-386). -/
def makeUnit [Zero K] [One K] (m : Dense K) : Outcome (Dense K) :=
  if m.rows ≠ m.cols then .exn (.mml "MatrixDimensionError")
  else forRange m.rows { m with data := List.replicate m.data.length 0 } (fun m i => m.set i i 1)

/-- `Identity(dim)` (Matrix.h:393-401). -/
def identity [Zero K] [One K] (dim : ℤ) : Outcome (Dense K) :=
  if dim ≤ 0 then .exn (.mml "MatrixDimensionError")
  else do
    let m ← new dim dim
    m.makeUnit

/-- `Diagonal(diagValues)` (Matrix.h:406-416). -/
def diagonalMatrix [Zero K] (v : List K) : Outcome (Dense K) :=
  if v.length = 0 then .exn (.mml "MatrixDimensionError")
  else do
    let m ← new (v.length : ℤ) (v.length : ℤ)
    forRange v.length m (fun m i => do
      let x ← Outcome.index v i
      m.set i i x)

/-- `VectorFromRow` (Matrix.h:461-470). -/
def rowVector [Zero K] (m : Dense K) (i : ℤ) : Outcome (List K) :=
  if i < 0 ∨ i ≥ m.rows then .exn (.mml "MatrixAccessBoundsError")
  else forRange m.cols (List.replicate m.cols 0) (fun v j => do
    let x ← m.get i.toNat j
    Outcome.store v j x)

/-- `VectorFromColumn` (Matrix.h:476-485). -/
def colVector [Zero K] (m : Dense K) (j : ℤ) : Outcome (List K) :=
  if j < 0 ∨ j ≥ m.cols then .exn (.mml "MatrixAccessBoundsError")
  else forRange m.rows (List.replicate m.rows 0) (fun v i => do
    let x ← m.get i j.toNat
    Outcome.store v i x)

/-- `diagonal()` (Matrix.h:493-502). -/
def diagonal [Zero K] (m : Dense K) : Outcome (List K) :=
  if m.rows ≠ m.cols then .exn (.mml "MatrixDimensionError")
  else forRange m.rows (List.replicate m.rows 0) (fun v i => do
    let x ← m.get i i
    Outcome.store v i x)

/-- `GetLower(includeDiagonal)` (Matrix.h:510-522). -/
def getLower [Zero K] (m : Dense K) (incl : Bool) : Outcome (Dense K) :=
  if m.rows ≠ m.cols then .exn (.mml "MatrixDimensionError")
  else do
    let r ← new (m.rows : ℤ) (m.cols : ℤ)
    forRange m.rows r (fun r i =>
      forRange (if incl then i + 1 else i) r (fun r j => do
        let x ← m.get i j
        r.set i j x))

/-- `GetUpper(includeDiagonal)` (Matrix.h:528-540). -/
def getUpper [Zero K] (m : Dense K) (incl : Bool) : Outcome (Dense K) :=
  if m.rows ≠ m.cols then .exn (.mml "MatrixDimensionError")
  else do
    let r ← new (m.rows : ℤ) (m.cols : ℤ)
    forRange m.rows r (fun r i =>
      forFromTo (if incl then i else i + 1) m.cols r (fun r j => do
        let x ← m.get i j
        r.set i j x))

/-- `InitRowWithVector` (Matrix.h:560-569). -/
def initRow (m : Dense K) (i : ℤ) (v : List K) : Outcome (Dense K) :=
  if i < 0 ∨ i ≥ m.rows then .exn (.mml "MatrixAccessBoundsError")
  else if v.length ≠ m.cols then .exn (.mml "MatrixDimensionError")
  else forRange m.cols m (fun m j => do
    let x ← Outcome.index v j
    m.set i.toNat j x)

/-- `InitColWithVector` (Matrix.h:576-585). -/
def initCol (m : Dense K) (j : ℤ) (v : List K) : Outcome (Dense K) :=
  if j < 0 ∨ j ≥ m.cols then .exn (.mml "MatrixAccessBoundsError")
  else if v.length ≠ m.rows then .exn (.mml "MatrixDimensionError")
  else forRange m.rows m (fun m i => do
    let x ← Outcome.index v i
    m.set i j.toNat x)

/-- `SwapRows` (Matrix.h:590-598). -/
def swapRows (m : Dense K) (k l : ℤ) : Outcome (Dense K) :=
  if k < 0 ∨ k ≥ m.rows ∨ l < 0 ∨ l ≥ m.rows then .exn (.mml "MatrixDimensionError")
  else if k = l then .ret m
  else forRange m.cols m (fun m j => m.swap k.toNat j l.toNat j)

/-- `SwapCols` (Matrix.h:603-611). -/
def swapCols (m : Dense K) (k l : ℤ) : Outcome (Dense K) :=
  if k < 0 ∨ k ≥ m.cols ∨ l < 0 ∨ l ≥ m.cols then .exn (.mml "MatrixDimensionError")
  else if k = l then .ret m
  else forRange m.rows m (fun m i => m.swap i k.toNat i l.toNat)

/-- `Transpose()` in place (Matrix.h:1176-1184). -/
def transposeInPlace (m : Dense K) : Outcome (Dense K) :=
  if m.rows ≠ m.cols then .exn (.mml "MatrixDimensionError")
  else forRange m.rows m (fun m i => forFromTo (i + 1) m.cols m (fun m j => m.swap i j j i))

/-- `transpose()` (Matrix.h:1188-1195). -/
def transpose [Zero K] (m : Dense K) : Outcome (Dense K) := do
  let r ← new (m.cols : ℤ) (m.rows : ℤ)
  forRange m.rows r (fun r i => forRange m.cols r (fun r j => do
    let x ← m.get i j
    r.set j i x))

/-- The loops `for (i < _data.size()) ret._data[i] = f(_data[i])` of the unary minus and of the operations with
a scalar (Matrix.h:925-928, 1001-1004, 1018-1021). -/
def mapData [Zero K] (m : Dense K) (f : K → K) : Outcome (Dense K) := do
  let r ← new (m.rows : ℤ) (m.cols : ℤ)
  let d ← forRange m.data.length r.data (fun d i => do
    let x ← Outcome.index m.data i
    Outcome.store d i (f x))
  .ret { r with data := d }

/-- The loops `ret._data[i] = f(_data[i], b._data[i])` of the sum and the difference (Matrix.h:935-941,
959-965). -/
def zipData [Zero K] (a b : Dense K) (f : K → K → K) : Outcome (Dense K) :=
  if a.rows ≠ b.rows ∨ a.cols ≠ b.cols then .exn (.mml "MatrixDimensionError")
  else do
    let r ← new (a.rows : ℤ) (a.cols : ℤ)
    let d ← forRange a.data.length r.data (fun d i => do
      let x ← Outcome.index a.data i
      let y ← Outcome.index b.data i
      Outcome.store d i (f x y))
    .ret { r with data := d }

/-- The loops `_data[i] op= b._data[i]` of the compound operators (Matrix.h:947-952, 971-976). -/
def zipDataInPlace (a b : Dense K) (f : K → K → K) : Outcome (Dense K) :=
  if a.rows ≠ b.rows ∨ a.cols ≠ b.cols then .exn (.mml "MatrixDimensionError")
  else do
    let d ← forRange a.data.length a.data (fun d i => do
      let x ← Outcome.index d i
      let y ← Outcome.index b.data i
      Outcome.store d i (f x y))
    .ret { a with data := d }

section
variable [CommRing K]

/-- Unary minus (Matrix.h:923-929). -/
def neg (m : Dense K) : Outcome (Dense K) := m.mapData (fun x => -x)

/-- `operator+` (Matrix.h:933-942). -/
def add (a b : Dense K) : Outcome (Dense K) := a.zipData b (· + ·)

/-- `operator-` (Matrix.h:957-966). -/
def sub (a b : Dense K) : Outcome (Dense K) := a.zipData b (· - ·)

/-- `operator+=` (Matrix.h:945-953). -/
def addAssign (a b : Dense K) : Outcome (Dense K) := a.zipDataInPlace b (· + ·)

/-- `operator-=` (Matrix.h:969-977). -/
def subAssign (a b : Dense K) : Outcome (Dense K) := a.zipDataInPlace b (· - ·)

/-- `operator*(scalar)` and `operator*(scalar, matrix)` (Matrix.h:999-1005, 1050-1053). -/
def scale (m : Dense K) (c : K) : Outcome (Dense K) := m.mapData (· * c)

/-- `operator*` (Matrix.h:981-996). -/
def mul (a b : Dense K) : Outcome (Dense K) :=
  if a.cols ≠ b.rows then .exn (.mml "MatrixDimensionError")
  else do
    let r ← new (a.rows : ℤ) (b.cols : ℤ)
    forRange a.rows r (fun r i => forRange b.cols r (fun r j => do
      let s ← forRange a.cols (0 : K) (fun s k => do
        let x ← a.get i k
        let y ← b.get k j
        .ret (s + x * y))
      r.set i j s))

/-- Matrix times vector (Matrix.h:1034-1047). -/
def mulVec (m : Dense K) (v : List K) : Outcome (List K) :=
  if m.cols ≠ v.length then .exn (.mml "MatrixDimensionError")
  else forRange m.rows (List.replicate m.rows 0) (fun r i => do
    let s ← forRange m.cols (0 : K) (fun s j => do
      let x ← m.get i j
      let y ← Outcome.index v j
      .ret (s + x * y))
    Outcome.store r i s)

/-- Vector times matrix (Matrix.h:1056-1069). -/
def vecMul (v : List K) (m : Dense K) : Outcome (List K) :=
  if v.length ≠ m.rows then .exn (.mml "MatrixDimensionError")
  else forRange m.cols (List.replicate m.cols 0) (fun r j => do
    let s ← forRange m.rows (0 : K) (fun s i => do
      let x ← Outcome.index v i
      let y ← m.get i j
      .ret (s + x * y))
    Outcome.store r j s)

/-- `trace()` (Matrix.h:1076-1085). -/
def trace (m : Dense K) : Outcome K :=
  if m.rows ≠ m.cols then .exn (.mml "MatrixDimensionError")
  else forRange m.rows (0 : K) (fun s i => do
    let x ← m.get i i
    .ret (s + x))

end

/-- `operator==` (Matrix.h:890-895), for elements compared exactly. -/
def beq [DecidableEq K] (a b : Dense K) : Bool :=
  if a.rows ≠ b.rows ∨ a.cols ≠ b.cols then false else a.data = b.data

section
variable [CommRing K] [LinearOrder K]

/-- A double loop over all elements with an early `return false`: the conjunction of the tests, evaluated in
order (the pattern of Matrix.h:649-658, 666-670, 695-699, 709-720). -/
def allEntries (rows : ℕ) (lo hi : ℕ → ℕ) (test : ℕ → ℕ → Outcome Bool) : Outcome Bool :=
  forRange rows true (fun ok i => forFromTo (lo i) (hi i) ok (fun ok j =>
    if ok then test i j else .ret false))

/-- `isIdentity(eps)` (Matrix.h:645-659). -/
def isIdentity (m : Dense K) (eps : K) : Outcome Bool :=
  if m.rows ≠ m.cols then .ret false
  else allEntries m.rows (fun _ => 0) (fun _ => m.cols) (fun i j => do
    let x ← m.get i j
    if i = j then .ret (decide (¬ |x - 1| > eps)) else .ret (decide (¬ |x| > eps)))

/-- `isDiagonal(eps)` (Matrix.h:664-671). -/
def isDiagonal (m : Dense K) (eps : K) : Outcome Bool :=
  allEntries m.rows (fun _ => 0) (fun _ => m.cols) (fun i j => do
    if i ≠ j then do
      let x ← m.get i j
      .ret (decide (¬ |x| > eps))
    else .ret true)

/-- `isSymmetric(eps)` (Matrix.h:691-700). -/
def isSymmetric (m : Dense K) (eps : K) : Outcome Bool :=
  if m.rows ≠ m.cols then .ret false
  else allEntries m.rows (fun i => i + 1) (fun _ => m.cols) (fun i j => do
    let x ← m.get i j
    let y ← m.get j i
    .ret (decide (¬ |x - y| > eps)))

/-- `isAntiSymmetric(eps)` (Matrix.h:705-721) for real elements. -/
def isAntiSymmetric (m : Dense K) (eps : K) : Outcome Bool :=
  if m.rows ≠ m.cols then .ret false
  else allEntries m.rows (fun i => i + 1) (fun _ => m.cols) (fun i j => do
    let x ← m.get i j
    let y ← m.get j i
    .ret (decide (¬ |x + y| > eps)))

/-- `IsEqualTo(b, eps)` (Matrix.h:903-912). -/
def isEqualTo (a b : Dense K) (eps : K) : Outcome Bool :=
  if a.rows ≠ b.rows ∨ a.cols ≠ b.cols then .ret false
  else forRange a.data.length true (fun ok i => if ok then do
      let x ← Outcome.index a.data i
      let y ← Outcome.index b.data i
      .ret (decide (¬ |x - y| > eps))
    else .ret false)

/-- `isZero(eps)` (Matrix.h:726-732). -/
def isZero (m : Dense K) (eps : K) : Bool := m.data.all (fun x => decide (¬ |x| > eps))

end

end Dense

end Verif.Mat
