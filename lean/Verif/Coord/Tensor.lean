import Verif.Deriv.Partial
import Verif.LinAlg.GaussJordan
import Mathlib.Algebra.BigOperators.Pi

/-!
# Model of tensors, of their change of coordinates and of the metric tensor

Sources: `base/Tensor.h`, `core/CoordTransf.h` (the classes `CoordTransf` and `CoordTransfWithInverse`) and `core/MetricTensor.h`.

The four classes `Tensor2` to `Tensor5` are one structure with the rank as a parameter.  The nested loops over all indices are sums over all
index tuples.  Unchecked element access outside the bounds, an assertion in the code, cannot be written.
-/

set_option autoImplicit false

namespace Verif.Coord

open Verif Deriv

/-! ## Tensors -/

/-- The fields of `Tensor2` ... `Tensor5` (Tensor.h:94-97, 373-376, 571-574, 762-765). -/
structure Tensor (r N : ℕ) where
  coeff : (Fin r → Fin N) → ℝ
  numContravar : ℤ
  numCovar : ℤ
  isContravar : Fin r → Bool

namespace Tensor

variable {r N : ℕ}

/-- The constructor with two numbers (Tensor.h:110-120, 387-397, 585-595, 776-787).  Only `Tensor2` looks at the signs; with a negative number the
loops of the others write in front of the array, or behind it. -/
def new (r N : ℕ) (nCovar nContraVar : ℤ) : Outcome (Tensor r N) :=
  if r = 2 ∧ (nContraVar < 0 ∨ nCovar < 0) then .exn (.mml "TensorCovarContravarNumError")
  else if nContraVar + nCovar ≠ r then .exn (.mml "TensorCovarContravarNumError")
  else if nContraVar < 0 ∨ nCovar < 0 then .ub
  else .ret ⟨fun _ => 0, nContraVar, nCovar, fun i => decide (nCovar ≤ i)⟩

/-- The position of an element when the last index runs first. -/
def position (m : Fin r → Fin N) : ℕ := (List.ofFn m).foldl (fun p i => p * N + i) 0

/-- The constructor with a list of values (Tensor.h:128-149 and 404-426; the higher ranks have none): the elements in order, zeros when the list
is too short. -/
def ofList (r N : ℕ) (nCovar nContraVar : ℤ) (values : List ℝ) : Outcome (Tensor r N) := do
  let t ← new r N nCovar nContraVar
  if values.length > N ^ r then .exn (.mml "TensorCovarContravarNumError")
  else .ret { t with coeff := fun m => values.getD (position m) 0 }

/-- `at` (Tensor.h:204-208, 469-473, 640-644, 834-838). -/
def at_ (t : Tensor r N) (m : Fin r → ℤ) : Outcome ℝ :=
  if h : ∀ k, 0 ≤ m k ∧ m k < N then .ret (t.coeff fun k => ⟨(m k).toNat, by have := h k; omega⟩)
  else .exn (.mml "TensorIndexError")

/-- Writing through the reference returned by `operator()` or `at`. -/
def set (t : Tensor r N) (m : Fin r → Fin N) (a : ℝ) : Tensor r N := { t with coeff := Function.update t.coeff m a }

/-- `setContravar` (Tensor.h:173, 445, 614, 806): the numbers stay as they are. -/
def setContravar (t : Tensor r N) (i : Fin r) (val : Bool) : Tensor r N := { t with isContravar := Function.update t.isContravar i val }

/-- `operator+` of `Tensor2` (Tensor.h:227-237). -/
def add (a b : Tensor 2 N) : Outcome (Tensor 2 N) :=
  if a.numContravar ≠ b.numContravar ∨ a.numCovar ≠ b.numCovar then .exn (.mml "TensorCovarContravarArithmeticError")
  else do
    let t ← new 2 N a.numCovar a.numContravar
    .ret { t with coeff := fun m => a.coeff m + b.coeff m }

/-- `operator-` of `Tensor2` (Tensor.h:241-251). -/
def sub (a b : Tensor 2 N) : Outcome (Tensor 2 N) :=
  if a.numContravar ≠ b.numContravar ∨ a.numCovar ≠ b.numCovar then .exn (.mml "TensorCovarContravarArithmeticError")
  else do
    let t ← new 2 N a.numCovar a.numContravar
    .ret { t with coeff := fun m => a.coeff m - b.coeff m }

/-- `operator*` of `Tensor2` with a number on either side (Tensor.h:254-261, 274-281). -/
def smul (a : Tensor 2 N) (c : ℝ) : Outcome (Tensor 2 N) := do
  let t ← new 2 N a.numCovar a.numContravar
  .ret { t with coeff := fun m => a.coeff m * c }

/-- `Contract` of `Tensor2` (Tensor.h:294-304). -/
def trace (t : Tensor 2 N) : Outcome ℝ :=
  if t.numContravar ≠ 1 ∨ t.numCovar ≠ 1 then .exn (.mml "TensorCovarContravarNumError")
  else .ret (∑ i, t.coeff ![i, i])

/-- `operator()` with as many vectors as indices (Tensor.h:311-319, 490-499, 661-671, 855-867). -/
def eval (t : Tensor r N) (v : Fin r → Fin N → ℝ) : ℝ := ∑ m : Fin r → Fin N, t.coeff m * ∏ k, v k (m k)

/-- The loop that finds the indices left over by a contraction (Tensor.h:519-523, 704-709, 900-905). -/
def left (i1 i2 : Fin (r + 2)) : List (Fin (r + 2)) := (List.finRange (r + 2)).filter fun i => i ≠ i1 ∧ i ≠ i2

/-- The array `idx` filled by the innermost loop of the contractions (Tensor.h:531-534, 722-726, 919-925); what it holds before is overwritten. -/
def tuple (i1 i2 : Fin (r + 2)) (s : Fin N) (a : Fin r → Fin N) : Fin (r + 2) → Fin N :=
  (List.finRange r).foldl (fun idx k => Function.update idx ((left i1 i2).getD k.1 i1) (a k)) (Function.update (Function.update (fun _ => s) i1 s) i2 s)

/-- The sums computed by `Contract` (Tensor.h:525-538, 715-730, 911-929). -/
def contractCoeff (t : Tensor (r + 2) N) (i1 i2 : Fin (r + 2)) (a : Fin r → Fin N) : ℝ := ∑ s, t.coeff (tuple i1 i2 s a)

/-- `Contract` of `Tensor3` (Tensor.h:509-541) for indices in range (`ind1 < 0 || ind1 > 2` cannot be written). -/
def contract3 (t : Tensor 3 N) (i1 i2 : Fin 3) : Outcome (Fin N → ℝ) :=
  if i1 = i2 then .exn (.mml "TensorIndexError")
  else .ret fun a => contractCoeff t (min i1 i2) (max i1 i2) ![a]

/-- One of the two lines that count the indices of the result of a contraction (Tensor.h:698-699, 894-895). -/
def drop (c : ℤ × ℤ) (contra : Bool) : ℤ × ℤ := if contra then (c.1, c.2 - 1) else (c.1 - 1, c.2)

/-- `Contract` of `Tensor4` and of `Tensor5` (Tensor.h:688-733, 884-932) for indices in range. -/
def contract (t : Tensor (r + 2) N) (i1 i2 : Fin (r + 2)) : Outcome (Tensor r N) :=
  if i1 = i2 then .exn (.mml "TensorIndexError")
  else do
    let c := drop (drop (t.numCovar, t.numContravar) (t.isContravar (min i1 i2))) (t.isContravar (max i1 i2))
    let res ← new r N c.1 c.2
    .ret { res with
      coeff := contractCoeff t (min i1 i2) (max i1 i2)
      isContravar := fun k => t.isContravar ((left (min i1 i2) (max i1 i2)).getD k.1 i1) }

end Tensor

/-! ## Vectors and tensors under a change of coordinates -/

/-- The derivative used throughout: `Derivation::NDer4Partial` with the default step (`h = none`) or the step given. -/
noncomputable def der {N : ℕ} (eps : ℝ) (h : Option ℝ) (f : (Fin N → ℝ) → ℝ) (i : Fin N) (p : Fin N → ℝ) : ℝ :=
  match nDer4Partial eps f i p h false with
  | .ret (some v, _) => v
  | _ => 0

/-- A coordinate transformation with its inverse, by components: `coordTransfFunc` and `inverseCoordTransfFunc`. -/
structure Transf (N : ℕ) where
  fwd : Fin N → (Fin N → ℝ) → ℝ
  inv : Fin N → (Fin N → ℝ) → ℝ

namespace Transf

variable {N : ℕ}

/-- `operator()` (CoordTransf.h:73-79). -/
def apply (t : Transf N) (x : Fin N → ℝ) : Fin N → ℝ := fun i => t.fwd i x

/-- `jacobian` (CoordTransf.h:111-122). -/
noncomputable def jacobian (eps : ℝ) (t : Transf N) (p : Fin N → ℝ) : Matrix (Fin N) (Fin N) ℝ := fun i j => der eps none (t.fwd i) j p

/-- `getBasisVec` (CoordTransf.h:85-93). -/
noncomputable def basisVec (eps : ℝ) (t : Transf N) (ind : Fin N) (p : Fin N → ℝ) : Fin N → ℝ := fun i => der eps none (t.fwd i) ind p

/-- `getInverseBasisVec` (CoordTransf.h:98-106). -/
noncomputable def inverseBasisVec (eps : ℝ) (t : Transf N) (ind : Fin N) (p : Fin N → ℝ) : Fin N → ℝ := fun i => der eps none (t.fwd ind) i p

/-- `transfVecContravariant` (CoordTransf.h:128-137). -/
noncomputable def vecContravariant (eps : ℝ) (t : Transf N) (v p : Fin N → ℝ) : Fin N → ℝ := fun i => ∑ j, der eps none (t.fwd i) j p * v j

/-- `transfInverseVecCovariant` (CoordTransf.h:142-152). -/
noncomputable def inverseVecCovariant (eps : ℝ) (t : Transf N) (v p : Fin N → ℝ) : Fin N → ℝ := fun i => ∑ j, der eps none (t.fwd j) i p * v j

/-- `getContravarBasisVec` (CoordTransf.h:171-179). -/
noncomputable def contravarBasisVec (eps : ℝ) (t : Transf N) (ind : Fin N) (q : Fin N → ℝ) : Fin N → ℝ := fun i => der eps none (t.inv ind) i q

/-- `getInverseContravarBasisVec` (CoordTransf.h:184-192). -/
noncomputable def inverseContravarBasisVec (eps : ℝ) (t : Transf N) (ind : Fin N) (q : Fin N → ℝ) : Fin N → ℝ :=
  fun i => der eps none (t.inv i) ind q

/-- `transfVecCovariant` (CoordTransf.h:198-209). -/
noncomputable def vecCovariant (eps : ℝ) (t : Transf N) (v q : Fin N → ℝ) : Fin N → ℝ := fun i => ∑ j, der eps none (t.inv j) i q * v j

/-- `PrecisionValues<double>::DerivativeStepSize` (MMLPrecision.h:145). -/
noncomputable def derivativeStepSize : ℝ := 1 / 10 ^ 6

/-- `transfInverseVecContravariant` (CoordTransf.h:214-225). -/
noncomputable def inverseVecContravariant (eps : ℝ) (t : Transf N) (v q : Fin N → ℝ) : Fin N → ℝ :=
  fun i => ∑ j, der eps (some derivativeStepSize) (t.inv i) j q * v j

/-- The choice of a coefficient in `transfTensor2` (CoordTransf.h:243-246, 248-251). -/
noncomputable def coef (eps : ℝ) (t : Transf N) (p : Fin N → ℝ) (contra : Bool) (i k : Fin N) : ℝ :=
  if contra then der eps none (t.fwd i) k p else der eps none (t.inv k) i p

/-- The elements computed by `transfTensor2` (CoordTransf.h:238-254). -/
noncomputable def tensor2Coeff (eps : ℝ) (t : Transf N) (a : Tensor 2 N) (p : Fin N → ℝ) (m : Fin 2 → Fin N) : ℝ :=
  ∑ k, ∑ l, coef eps t p (a.isContravar 0) (m 0) k * coef eps t p (a.isContravar 1) (m 1) l * a.coeff ![k, l]

/-- `transfTensor2` (CoordTransf.h:231-258).  The functions for the ranks three, four and five (263-395) call members the tensor classes do not have and
cannot be instantiated. -/
noncomputable def tensor2 (eps : ℝ) (t : Transf N) (a : Tensor 2 N) (p : Fin N → ℝ) : Outcome (Tensor 2 N) := do
  let r ← Tensor.new 2 N a.numContravar a.numCovar
  .ret { r with coeff := tensor2Coeff eps t a p }

end Transf

/-! ## The metric tensor -/

/-- The elements of a square matrix one row after the other (MatrixNM.h:99). -/
def toDense {N : ℕ} (m : Matrix (Fin N) (Fin N) ℝ) : Mat.Dense ℝ :=
  ⟨N, N, tab (N * N) fun t => if h : t / N < N ∧ t % N < N then m ⟨t / N, h.1⟩ ⟨t % N, h.2⟩ else 0⟩

/-- Back from the rows. -/
def ofDense (N : ℕ) (d : Mat.Dense ℝ) : Matrix (Fin N) (Fin N) ℝ := fun i j => d.data.getD (i * N + j) 0

/-- `MatrixNM<Real, N, N>::GetInverse` (MatrixNM.h:612-702): the elimination of `Matrix::Invert` (Matrix.h:1090-1163) with a right-hand side that is
not used. -/
noncomputable def inverse {N : ℕ} (eps : ℝ) (m : Matrix (Fin N) (Fin N) ℝ) : Outcome (Matrix (Fin N) (Fin N) ℝ) := do
  let d ← LinAlg.invert eps (toDense m)
  .ret (ofDense N d)

/-- A `MetricTensorField` by its virtual function `Component` (MetricTensor.h:58-286). -/
abbrev Metric (N : ℕ) := Fin N → Fin N → (Fin N → ℝ) → ℝ

namespace Metric

variable {N : ℕ}

/-- `GetCovariantMetric` (MetricTensor.h:85-92). -/
def covariant (g : Metric N) (p : Fin N → ℝ) : Matrix (Fin N) (Fin N) ℝ := fun i j => g i j p

/-- `operator()` (MetricTensor.h:69-78); `numContra` and `numCo` are the numbers given to the constructor. -/
def tensor (g : Metric N) (numContra numCo : ℤ) (p : Fin N → ℝ) : Outcome (Tensor 2 N) := do
  let t ← Tensor.new 2 N numCo numContra
  .ret { t with coeff := fun m => g (m 0) (m 1) p }

/-- `GetContravariantMetric` (MetricTensor.h:99-103). -/
noncomputable def contravariant (eps : ℝ) (g : Metric N) (p : Fin N → ℝ) : Outcome (Matrix (Fin N) (Fin N) ℝ) := inverse eps (g.covariant p)

/-- `RaiseIndex` of a vector (MetricTensor.h:109-119). -/
noncomputable def raise (eps : ℝ) (g : Metric N) (v p : Fin N → ℝ) : Outcome (Fin N → ℝ) := do
  let h ← contravariant eps g p
  .ret fun i => ∑ j, h i j * v j

/-- `LowerIndex` of a vector (MetricTensor.h:125-135). -/
def lower (g : Metric N) (v p : Fin N → ℝ) : Fin N → ℝ := fun i => ∑ j, g.covariant p i j * v j

/-- `RaiseIndex` of a tensor of rank two (MetricTensor.h:142-159): any index but `0` means the second. -/
noncomputable def raise2 (eps : ℝ) (g : Metric N) (t : Tensor 2 N) (index : ℤ) (p : Fin N → ℝ) : Outcome (Tensor 2 N) := do
  let h ← contravariant eps g p
  let r ← Tensor.new 2 N 1 1
  .ret { r with coeff := fun m => ∑ k, if index = 0 then h (m 0) k * t.coeff ![k, m 1] else h (m 1) k * t.coeff ![m 0, k] }

/-- `LowerIndex` of a tensor of rank two (MetricTensor.h:166-183). -/
def lower2 (g : Metric N) (t : Tensor 2 N) (index : ℤ) (p : Fin N → ℝ) : Outcome (Tensor 2 N) := do
  let r ← Tensor.new 2 N 1 1
  .ret { r with coeff := fun m => ∑ k, if index = 0 then g.covariant p (m 0) k * t.coeff ![k, m 1] else g.covariant p (m 1) k * t.coeff ![m 0, k] }

/-- `GetChristoffelSymbolSecondKind` (MetricTensor.h:205-223).  `NDer4Partial` of a component of a tensor field is DerivationTensorField.h:225-263. -/
noncomputable def christoffel2 (eps : ℝ) (g : Metric N) (i j k : Fin N) (p : Fin N → ℝ) : Outcome ℝ := do
  let h ← contravariant eps g p
  .ret (∑ l, 0.5 * h i l * (der eps none (g l k) j p + der eps none (g l j) k p - der eps none (g j k) l p))

/-- The loop of `GetChristoffelSymbolFirstKind` (MetricTensor.h:193-198): a call that throws ends it. -/
noncomputable def christoffel1 (eps : ℝ) (g : Metric N) (i j k : Fin N) (p : Fin N → ℝ) : Outcome ℝ :=
  (List.finRange N).foldlM (fun s m => do
    let c ← christoffel2 eps g m i j p
    .ret (s + g m k p * c)) 0

/-- `CovariantDerivativeContravarComp` (MetricTensor.h:247-256), also what the loop of `CovariantDerivativeContravar` (230-245) computes for every
component; `DeriveVecPartial` is `NDer4Partial` (DerivationVectorFunction.h:574-575). -/
noncomputable def derivContravar (eps : ℝ) (g : Metric N) (v : (Fin N → ℝ) → Fin N → ℝ) (i j : Fin N) (p : Fin N → ℝ) : Outcome ℝ :=
  (List.finRange N).foldlM (fun s k => do
    let c ← christoffel2 eps g i k j p
    .ret (s + c * v p k)) (der eps none (fun q => v q i) j p)

/-- `CovariantDerivativeCovarComp` (MetricTensor.h:276-285), also what the loop of `CovariantDerivativeCovar` (259-274) computes for every
component. -/
noncomputable def derivCovar (eps : ℝ) (g : Metric N) (v : (Fin N → ℝ) → Fin N → ℝ) (i j : Fin N) (p : Fin N → ℝ) : Outcome ℝ :=
  (List.finRange N).foldlM (fun s k => do
    let c ← christoffel2 eps g k i j p
    .ret (s - c * v p k)) (der eps none (fun q => v q i) j p)

end Metric

/-- `MetricTensorCartesian3D` (MetricTensor.h:294-300). -/
def metricCartesian : Metric 3 := fun i j _ => if i = j then 1 else 0

/-- `MetricTensorSpherical` (MetricTensor.h:312-322). -/
noncomputable def metricSpherical : Metric 3 := fun i j p =>
  if i = 0 ∧ j = 0 then 1 else if i = 1 ∧ j = 1 then p 0 ^ 2 else if i = 2 ∧ j = 2 then p 0 * p 0 * Real.sin (p 1) * Real.sin (p 1) else 0

/-- `MetricTensorCylindrical` (MetricTensor.h:356-366). -/
def metricCylindrical : Metric 3 := fun i j p => if i = 0 ∧ j = 0 then 1 else if i = 1 ∧ j = 1 then p 0 * p 0 else if i = 2 ∧ j = 2 then 1 else 0

/-- `MetricTensorMinkowski` (MetricTensor.h:400-412). -/
def metricMinkowski : Metric 4 := fun i j _ =>
  if i = 0 ∧ j = 0 then -1 else if i = 1 ∧ j = 1 then 1 else if i = 2 ∧ j = 2 then 1 else if i = 3 ∧ j = 3 then 1 else 0

/-- `MetricTensorFromCoordTransf` (MetricTensor.h:379-390); `DerivePartial` is `NDer4Partial` (DerivationScalarFunction.h:616-617). -/
noncomputable def metricOf {N : ℕ} (eps : ℝ) (t : Transf N) : Metric N := fun i j p => ∑ k, der eps none (t.fwd k) i p * der eps none (t.fwd k) j p

end Verif.Coord
