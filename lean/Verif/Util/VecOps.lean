import Verif.Mat.Dense
import Verif.Geom.Shapes2D
import Mathlib.Data.Complex.Basic
import Mathlib.Analysis.SpecialFunctions.Trigonometric.Inverse

/-!
# Model of the vector products, the index symbols and the mixed real/complex operations

`mml/base/BaseUtils/VectorOps.h`, `SymbolUtils.h` and `MixedTypeOps.h`.  A vector is the list of its elements, a matrix the flat storage of
`Verif/Mat/Dense.lean`; the arithmetic is exact.  `Interp.fdiv` is a floating-point division, undefined here for the divisor 0 (the code goes on with a
NaN or an infinity).  `VectorN` of fixed size is a list of that size.
-/

set_option autoImplicit false

namespace Verif.Util

open Verif.Mat Verif.Geom

/-- One step of the loop of `ScalarProduct` (VectorOps.h:42-43). -/
def dotStep (a b : List ℝ) (s : ℝ) (i : ℕ) : Outcome ℝ := do
  let x ← Outcome.index a i
  let y ← Outcome.index b i
  .ret (s + x * y)

/-- `ScalarProduct` of real vectors (VectorOps.h:36-46). -/
def scalarProduct (a b : List ℝ) : Outcome ℝ :=
  if a.length ≠ b.length then .exn (.mml "VectorDimensionError") else forRange a.length 0 (dotStep a b)

/-- One step of the loop of the complex `ScalarProduct` (VectorOps.h:60-61). -/
noncomputable def dotStepC (a b : List ℂ) (s : ℂ) (i : ℕ) : Outcome ℂ := do
  let x ← Outcome.index a i
  let y ← Outcome.index b i
  .ret (s + x * (starRingEnd ℂ) y)

/-- `ScalarProduct` of complex vectors (VectorOps.h:54-64). -/
noncomputable def scalarProductC (a b : List ℂ) : Outcome ℂ :=
  if a.length ≠ b.length then .exn (.mml "VectorDimensionError") else forRange a.length 0 (dotStepC a b)

/-- `ScalarProduct` of `VectorN<Real, N>` (VectorOps.h:108-115): the same loop without the test. -/
def scalarProductN (n : ℕ) (a b : List ℝ) : Outcome ℝ := forRange n 0 (dotStep a b)

/-- `ScalarProduct` of `VectorN<Complex, N>` (VectorOps.h:123-130). -/
noncomputable def scalarProductNC (n : ℕ) (a b : List ℂ) : Outcome ℂ := forRange n 0 (dotStepC a b)

/-- `Vector::NormL2` (Vector.h:382-395) and `VectorN::NormL2` (VectorN.h:298-311) for real elements. -/
noncomputable def normL2 (a : List ℝ) : Outcome ℝ := do
  let s ← forRange a.length 0 (fun s i => do
    let x ← Outcome.index a i
    .ret (s + x * x))
  Quat.sqrtU s

/-- `std::clamp(c, -1, 1)` (VectorOps.h:77, 141). -/
noncomputable def clamp1 (v : ℝ) : ℝ := if v < -1 then -1 else if 1 < v then 1 else v

/-- The angle from a scalar product (VectorOps.h:76-78, 140-142). -/
noncomputable def angleFrom (s na nb : ℝ) : Outcome ℝ := do
  let c ← Interp.fdiv s (na * nb)
  Shp.acosU (clamp1 c)

/-- `VectorsAngle` (VectorOps.h:71-79). -/
noncomputable def vectorsAngle (a b : List ℝ) : Outcome ℝ :=
  if a.length ≠ b.length then .exn (.mml "VectorDimensionError")
  else do
    let s ← scalarProduct a b
    let na ← normL2 a
    let nb ← normL2 b
    angleFrom s na nb

/-- `VectorsAngle` of `VectorN` (VectorOps.h:137-143). -/
noncomputable def vectorsAngleN (n : ℕ) (a b : List ℝ) : Outcome ℝ := do
  let s ← scalarProductN n a b
  let na ← normL2 a
  let nb ← normL2 b
  angleFrom s na nb

/-- `VectorProjectionParallelTo` (VectorOps.h:85-88). -/
noncomputable def parallelTo (orig b : List ℝ) : Outcome (List ℝ) := do
  let s ← scalarProduct orig b
  let t ← scalarProduct b b
  let q ← Interp.fdiv s t
  .ret (b.map (fun x => q * x))

/-- `operator-` of vectors (Vector.h:232-241). -/
def vecSub (a b : List ℝ) : Outcome (List ℝ) :=
  if a.length ≠ b.length then .exn (.mml "VectorDimensionError") else .ret (List.zipWith (· - ·) a b)

/-- `VectorProjectionPerpendicularTo` (VectorOps.h:94-97). -/
noncomputable def perpendicularTo (orig b : List ℝ) : Outcome (List ℝ) := do
  let p ← parallelTo orig b
  vecSub orig p

/-- `OuterProduct` (VectorOps.h:155-165). -/
def outerProduct {K : Type} [CommRing K] (a b : List K) : Outcome (Dense K) := do
  let r ← Dense.new (a.length : ℤ) (b.length : ℤ)
  forRange a.length r (fun r i => forRange b.length r (fun r j => do
    let x ← Outcome.index a i
    let y ← Outcome.index b j
    r.set i j (x * y)))

/-! ## Index symbols -/

/-- `LeviCivita(i, j, k)` (SymbolUtils.h:25-44). -/
def leviCivita3 (i j k : ℤ) : ℤ :=
  if i = j ∨ j = k ∨ i = k then 0
  else if i = 1 ∧ j = 2 ∧ k = 3 then 1
  else if i = 2 ∧ j = 3 ∧ k = 1 then 1
  else if i = 3 ∧ j = 1 ∧ k = 2 then 1
  else if i = 3 ∧ j = 2 ∧ k = 1 then -1
  else if i = 2 ∧ j = 1 ∧ k = 3 then -1
  else if i = 1 ∧ j = 3 ∧ k = 2 then -1
  else 0

/-- The validation loop of the four-index symbol (SymbolUtils.h:60-67): `false` where the code returns 0. -/
def lcCheck (present : List Bool) : List ℤ → Outcome Bool
  | [] => .ret true
  | x :: xs =>
    if x < 1 ∨ x > 4 then .ret false
    else do
      let p ← Outcome.index present x.toNat
      if p then .ret false
      else do
        let present ← Outcome.store present x.toNat true
        lcCheck present xs

/-- The exchange step of the sorting loops (SymbolUtils.h:75-81). -/
def lcSwap (s : List ℤ × ℤ) (i j : ℕ) : Outcome (List ℤ × ℤ) := do
  let x ← Outcome.index s.1 i
  let y ← Outcome.index s.1 j
  if x > y then do
    let a ← Outcome.store s.1 i y
    let a ← Outcome.store a j x
    .ret (a, s.2 * -1)
  else .ret s

/-- The sorting loops (SymbolUtils.h:70-82). -/
def lcSort (a : List ℤ) : Outcome ℤ := do
  let s ← forRange 4 (a, 1) (fun s i => forFromTo (i + 1) 4 s (fun s j => lcSwap s i j))
  .ret s.2

/-- `LeviCivita(i, j, k, l)` (SymbolUtils.h:54-83). -/
def leviCivita4 (i j k l : ℤ) : Outcome ℤ := do
  let ok ← lcCheck [false, false, false, false, false] [i, j, k, l]
  if ok then lcSort [i, j, k, l] else .ret 0

/-- `KroneckerDelta` (SymbolUtils.h:90-93). -/
def kroneckerDelta (i j : ℤ) : ℤ := if i = j then 1 else 0

/-! ## Mixed real and complex operations -/

/-- The loop of the element-wise vector operations (MixedTypeOps.h:39-42, 55-58, 71-74, 87-90); `op` is the operation on one pair of elements. -/
noncomputable def mixLoop {A B : Type} (op : A → B → ℂ) (a : List A) (b : List B) : Outcome (List ℂ) :=
  forRange b.length (List.replicate b.length 0) (fun r i => do
    let x ← Outcome.index a i
    let y ← Outcome.index b i
    Outcome.store r i (op x y))

/-- `AddVec(complex, real)` (MixedTypeOps.h:34-43). -/
noncomputable def addVecCR (a : List ℂ) (b : List ℝ) : Outcome (List ℂ) :=
  if a.length ≠ b.length then .exn (.mml "VectorDimensionError") else mixLoop (fun (x : ℂ) (y : ℝ) => x + (y : ℂ)) a b

/-- `AddVec(real, complex)` (MixedTypeOps.h:50-59). -/
noncomputable def addVecRC (a : List ℝ) (b : List ℂ) : Outcome (List ℂ) :=
  if a.length ≠ b.length then .exn (.mml "VectorDimensionError") else mixLoop (fun (x : ℝ) (y : ℂ) => (x : ℂ) + y) a b

/-- `SubVec(complex, real)` (MixedTypeOps.h:66-75). -/
noncomputable def subVecCR (a : List ℂ) (b : List ℝ) : Outcome (List ℂ) :=
  if a.length ≠ b.length then .exn (.mml "VectorDimensionError") else mixLoop (fun (x : ℂ) (y : ℝ) => x - (y : ℂ)) a b

/-- `SubVec(real, complex)` (MixedTypeOps.h:82-91). -/
noncomputable def subVecRC (a : List ℝ) (b : List ℂ) : Outcome (List ℂ) :=
  if a.length ≠ b.length then .exn (.mml "VectorDimensionError") else mixLoop (fun (x : ℝ) (y : ℂ) => (x : ℂ) - y) a b

/-- `MulVec(complex scalar, real vector)` and `MulVec(real vector, complex scalar)` (MixedTypeOps.h:97-103, 109-115). -/
noncomputable def mulVecS (a : ℂ) (b : List ℝ) : Outcome (List ℂ) :=
  forRange b.length (List.replicate b.length 0) (fun r i => do
    let y ← Outcome.index b i
    Outcome.store r i (a * (y : ℂ)))

/-- The loops of `AddMat` and `SubMat` that update a copy `ret` in place (MixedTypeOps.h:132-134, 149-151, 166-168): `ret[i][j] op= b[i][j]`. -/
noncomputable def accLoop (op : ℂ → ℂ → ℂ) (ret : Dense ℂ) (b : Dense ℝ) : Outcome (Dense ℂ) :=
  forRange b.rows ret (fun m i => forRange b.cols m (fun m j => do
    let x ← m.get i j
    let y ← b.get i j
    m.set i j (op x (y : ℂ))))

/-- The dimension test of `AddMat` and `SubMat` (MixedTypeOps.h:128-129, 145-146, 162-163, 179-180). -/
def sameDim {A B C : Type} (a : Dense A) (b : Dense B) (k : Outcome C) : Outcome C :=
  if a.rows ≠ b.rows ∨ a.cols ≠ b.cols then .exn (.mml "MatrixDimensionError") else k

/-- `AddMat(complex, real)` (MixedTypeOps.h:126-136). -/
noncomputable def addMatCR (a : Dense ℂ) (b : Dense ℝ) : Outcome (Dense ℂ) := sameDim a b (accLoop (· + ·) a b)

/-- `AddMat(real, complex)` (MixedTypeOps.h:143-153): the copy is of `b`. -/
noncomputable def addMatRC (a : Dense ℝ) (b : Dense ℂ) : Outcome (Dense ℂ) := sameDim a b (accLoop (· + ·) b a)

/-- `SubMat(complex, real)` (MixedTypeOps.h:160-170). -/
noncomputable def subMatCR (a : Dense ℂ) (b : Dense ℝ) : Outcome (Dense ℂ) := sameDim a b (accLoop (· - ·) a b)

/-- `SubMat(real, complex)` (MixedTypeOps.h:177-187): every element is assigned. -/
noncomputable def subMatRC (a : Dense ℝ) (b : Dense ℂ) : Outcome (Dense ℂ) :=
  sameDim a b (forRange a.rows b (fun m i => forRange a.cols m (fun m j => do
    let x ← a.get i j
    let y ← b.get i j
    m.set i j ((x : ℂ) - y))))

/-- `MulMat(complex scalar, real matrix)` and `MulMat(real matrix, complex scalar)` (MixedTypeOps.h:193-203, 209-219). -/
noncomputable def mulMatS (a : ℂ) (b : Dense ℝ) : Outcome (Dense ℂ) := do
  let r ← Dense.new (b.rows : ℤ) (b.cols : ℤ)
  forRange r.rows r (fun m i => forRange r.cols m (fun m j => do
    let y ← b.get i j
    m.set i j (a * (y : ℂ))))

/-- One element of a matrix product (MixedTypeOps.h:234-236, 255-257): the sum is accumulated in the element of the result. -/
noncomputable def mulElem {A B : Type} (op : A → B → ℂ) (a : Dense A) (b : Dense B) (m : Dense ℂ) (i j : ℕ) : Outcome (Dense ℂ) := do
  let m ← m.set i j 0
  forRange a.cols m (fun m k => do
    let s ← m.get i j
    let x ← a.get i k
    let y ← b.get k j
    m.set i j (s + op x y))

/-- The matrix products after the test (MixedTypeOps.h:231-239, 252-260). -/
noncomputable def mulMat {A B : Type} (op : A → B → ℂ) (a : Dense A) (b : Dense B) : Outcome (Dense ℂ) :=
  if a.cols ≠ b.rows then .exn (.mml "MatrixDimensionError")
  else do
    let r ← Dense.new (a.rows : ℤ) (b.cols : ℤ)
    forRange r.rows r (fun m i => forRange r.cols m (fun m j => mulElem op a b m i j))

/-- `MulMat(complex, real)` (MixedTypeOps.h:226-240). -/
noncomputable def mulMatCR (a : Dense ℂ) (b : Dense ℝ) : Outcome (Dense ℂ) := mulMat (fun (x : ℂ) (y : ℝ) => x * (y : ℂ)) a b

/-- `MulMat(real, complex)` (MixedTypeOps.h:247-261). -/
noncomputable def mulMatRC (a : Dense ℝ) (b : Dense ℂ) : Outcome (Dense ℂ) := mulMat (fun (x : ℝ) (y : ℂ) => (x : ℂ) * y) a b

/-- One element of a matrix times a vector (MixedTypeOps.h:280-282, 300-302). -/
noncomputable def matVecElem {A B : Type} (op : A → B → ℂ) (a : Dense A) (b : List B) (r : List ℂ) (i : ℕ) : Outcome (List ℂ) := do
  let r ← Outcome.store r i 0
  forRange a.cols r (fun r j => do
    let s ← Outcome.index r i
    let x ← a.get i j
    let y ← Outcome.index b j
    Outcome.store r i (s + op x y))

/-- The matrix-vector products (MixedTypeOps.h:272-285, 292-305). -/
noncomputable def mulMatVec {A B : Type} (op : A → B → ℂ) (a : Dense A) (b : List B) : Outcome (List ℂ) :=
  if a.cols ≠ b.length then .exn (.mml "MatrixDimensionError")
  else forRange a.rows (List.replicate a.rows 0) (fun r i => matVecElem op a b r i)

/-- `MulMatVec(real, complex)` (MixedTypeOps.h:272-285). -/
noncomputable def mulMatVecRC (a : Dense ℝ) (b : List ℂ) : Outcome (List ℂ) := mulMatVec (fun (x : ℝ) (y : ℂ) => (x : ℂ) * y) a b

/-- `MulMatVec(complex, real)` (MixedTypeOps.h:292-305). -/
noncomputable def mulMatVecCR (a : Dense ℂ) (b : List ℝ) : Outcome (List ℂ) := mulMatVec (fun (x : ℂ) (y : ℝ) => x * (y : ℂ)) a b

/-- One element of a vector times a matrix (MixedTypeOps.h:320-322, 340-342). -/
noncomputable def vecMatElem {A B : Type} (op : A → B → ℂ) (a : List A) (b : Dense B) (r : List ℂ) (i : ℕ) : Outcome (List ℂ) := do
  let r ← Outcome.store r i 0
  forRange b.rows r (fun r j => do
    let s ← Outcome.index r i
    let x ← Outcome.index a j
    let y ← b.get j i
    Outcome.store r i (s + op x y))

/-- The vector-matrix products (MixedTypeOps.h:312-325, 332-345). -/
noncomputable def mulVecMat {A B : Type} (op : A → B → ℂ) (a : List A) (b : Dense B) : Outcome (List ℂ) :=
  if a.length ≠ b.rows then .exn (.mml "MatrixDimensionError")
  else forRange b.cols (List.replicate b.cols 0) (fun r i => vecMatElem op a b r i)

/-- `MulVecMat(complex, real)` (MixedTypeOps.h:312-325). -/
noncomputable def mulVecMatCR (a : List ℂ) (b : Dense ℝ) : Outcome (List ℂ) := mulVecMat (fun (x : ℂ) (y : ℝ) => x * (y : ℂ)) a b

/-- `MulVecMat(real, complex)` (MixedTypeOps.h:332-345). -/
noncomputable def mulVecMatRC (a : List ℝ) (b : Dense ℂ) : Outcome (List ℂ) := mulVecMat (fun (x : ℝ) (y : ℂ) => (x : ℂ) * y) a b

end Verif.Util
