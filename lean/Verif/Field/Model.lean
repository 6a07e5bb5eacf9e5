import Verif.Coord.Tensor
import Verif.Coord.Transf

/-!
# Gradient, divergence, curl and Laplacian (C104)

Model of `FieldOperations.h` and of the safe division of `SingularityHandling.h`.  The functions with names ending in `Detailed` are not modelled.  Fields are
total functions that do not throw; `none` as a number is any number that is not finite (a NaN or an infinity): products and sums with one are not
finite either, so nothing more needs to be kept.  `eps` is the machine epsilon.
-/

set_option autoImplicit false

namespace Verif.Field

open Deriv Coord

/-! ## Singularities -/

/-- `SingularityPolicy` (SingularityHandling.h:53-74). -/
inductive Policy
  | throw
  | nan
  | inf
  | clamp
  | zero
  deriving DecidableEq

/-- `DEFAULT_SINGULARITY_TOL`, that is `NumericalZeroThreshold` of `double` (SingularityHandling.h:98, 111-113, MMLPrecision.h:142). -/
noncomputable def tol : ℝ := 1 / 10 ^ 12

/-- The part of `SafeDivide` for denominators close to zero (SingularityHandling.h:186-219). -/
noncomputable def nearZero (policy : Policy) (num den : ℝ) : Outcome (Option ℝ) :=
  match policy with
  | .throw => .exn (.mml "DomainError")
  | .nan => .ret none
  | .inf => .ret none
  | .clamp => .ret (some (num / (if 0 ≤ den then tol else -tol)))
  | .zero => .ret (some 0)

/-- `SafeDivide` with the default tolerance (SingularityHandling.h:177-221); `SafeInverseR`, `SafeInverseR2`, `SafeInverseRSinTheta`,
`SafeInverseR2Sin2Theta` and `SafeCotThetaOverR2` (228-292) are calls of it and are written out below. -/
noncomputable def safeDivide (policy : Policy) (num den : ℝ) : Outcome (Option ℝ) :=
  if |den| < tol then nearZero policy num den else .ret (some (num / den))

/-! ## Derivatives -/

variable {N : ℕ}

/-- The number returned by a rule for derivatives. -/
def value (o : Outcome (Option ℝ × Option ℝ)) : ℝ :=
  match o with
  | .ret (some v, _) => v
  | _ => 0

/-- `NDer1PartialByAll` ... `NDer8PartialByAll` with the default steps; the switch on the order (FieldOperations.h:310-319, 404-413, 509-518; the name in the message
differs).  The two functions without an order use order four (`DerivePartialAll`, DerivationScalarFunction.h:622-623). -/
noncomputable def partials (eps : ℝ) (order : ℤ) (f : (Fin N → ℝ) → ℝ) (p : Fin N → ℝ) : Outcome (Fin N → ℝ) :=
  if order = 1 then .ret fun i => value (nDer1Partial eps f i p none false)
  else if order = 2 then .ret fun i => value (nDer2Partial eps f i p none false)
  else if order = 4 then .ret fun i => value (nDer4Partial eps f i p none false)
  else if order = 6 then .ret fun i => value (nDer6Partial eps f i p none false)
  else if order = 8 then .ret fun i => value (nDer8Partial eps f i p none false)
  else .exn .invalidArgument

/-- `DeriveSecPartial`, that is `NSecDer4Partial` (DerivationScalarFunction.h:619-620), twice by the same variable. -/
noncomputable def der2 (eps : ℝ) (f : (Fin N → ℝ) → ℝ) (i : Fin N) (p : Fin N → ℝ) : ℝ := value (nSecDer4Partial eps f i i p none false)

/-! ## Scalar fields -/

/-- `GradientCart` (FieldOperations.h:292-296, 306-321). -/
noncomputable def gradientCart (eps : ℝ) (order : ℤ) (f : (Fin N → ℝ) → ℝ) (p : Fin N → ℝ) : Outcome (Fin N → ℝ) := partials eps order f p

/-- `GradientSpher` (FieldOperations.h:369-385, 395-427). -/
noncomputable def gradientSpher (eps : ℝ) (order : ℤ) (policy : Policy) (f : (Fin 3 → ℝ) → ℝ) (p : Fin 3 → ℝ) : Outcome (Fin 3 → Option ℝ) := do
  let d ← partials eps order f p
  let a ← safeDivide policy 1 (p 0)
  let b ← safeDivide policy 1 (p 0 * Real.sin (p 1))
  .ret ![some (d 0), a.map fun a => d 1 * a, b.map fun b => d 2 * b]

/-- `GradientCyl` (FieldOperations.h:478-489, 500-527). -/
noncomputable def gradientCyl (eps : ℝ) (order : ℤ) (policy : Policy) (f : (Fin 3 → ℝ) → ℝ) (p : Fin 3 → ℝ) : Outcome (Fin 3 → Option ℝ) := do
  let d ← partials eps order f p
  let a ← safeDivide policy 1 (p 0)
  .ret ![some (d 0), a.map fun a => d 1 * a, some (d 2)]

/-- `Gradient` in general coordinates (FieldOperations.h:252-273). -/
noncomputable def gradient (eps : ℝ) (g : Metric N) (f : (Fin N → ℝ) → ℝ) (p : Fin N → ℝ) : Outcome (Fin N → ℝ) := do
  let h ← g.contravariant eps p
  .ret fun i => ∑ j, h i j * der eps none f j p

/-- `LaplacianCart` (FieldOperations.h:577-585). -/
noncomputable def laplacianCart (eps : ℝ) (f : (Fin N → ℝ) → ℝ) (p : Fin N → ℝ) : ℝ := ∑ i, der2 eps f i p

/-- The sum at the end of `LaplacianSpher` (FieldOperations.h:647, 654, 659, 661) for finite factors. -/
noncomputable def lapSpherSum (eps : ℝ) (f : (Fin 3 → ℝ) → ℝ) (p : Fin 3 → ℝ) (invR invR2 cot invR2S2 : ℝ) : ℝ :=
  der2 eps f 0 p + 2 * invR * der eps none f 0 p + (cot * der eps none f 1 p + invR2 * der2 eps f 1 p) + invR2S2 * der2 eps f 2 p

/-- `LaplacianSpher` (FieldOperations.h:631-662). -/
noncomputable def laplacianSpher (eps : ℝ) (policy : Policy) (f : (Fin 3 → ℝ) → ℝ) (p : Fin 3 → ℝ) : Outcome (Option ℝ) := do
  let a ← safeDivide policy 1 (p 0)
  let b ← safeDivide policy 1 (p 0 * p 0)
  let c ← safeDivide policy (Real.cos (p 1)) (p 0 * p 0 * Real.sin (p 1))
  let d ← safeDivide policy 1 (p 0 * p 0 * Real.sin (p 1) * Real.sin (p 1))
  .ret (a.bind fun a => b.bind fun b => c.bind fun c => d.map fun d => lapSpherSum eps f p a b c d)

/-- The sum at the end of `LaplacianCyl` (FieldOperations.h:687, 692, 697) for finite factors. -/
noncomputable def lapCylSum (eps : ℝ) (f : (Fin 3 → ℝ) → ℝ) (p : Fin 3 → ℝ) (invR invR2 : ℝ) : ℝ :=
  invR * der eps none f 0 p + der2 eps f 0 p + invR2 * der2 eps f 1 p + der2 eps f 2 p

/-- `LaplacianCyl` (FieldOperations.h:675-698). -/
noncomputable def laplacianCyl (eps : ℝ) (policy : Policy) (f : (Fin 3 → ℝ) → ℝ) (p : Fin 3 → ℝ) : Outcome (Option ℝ) := do
  let a ← safeDivide policy 1 (p 0)
  let b ← safeDivide policy 1 (p 0 * p 0)
  .ret (a.bind fun a => b.map fun b => lapCylSum eps f p a b)

/-! ## Vector fields -/

/-- `DeriveVecPartial` of component `i` by variable `j` (DerivationVectorFunction.h:573-575). -/
noncomputable def derV (eps : ℝ) (v : (Fin N → ℝ) → Fin N → ℝ) (i j : Fin N) (p : Fin N → ℝ) : ℝ := der eps none (fun q => v q i) j p

/-- `DivCart` (FieldOperations.h:874-882). -/
noncomputable def divCart (eps : ℝ) (v : (Fin N → ℝ) → Fin N → ℝ) (p : Fin N → ℝ) : ℝ := ∑ i, derV eps v i i p

/-- The sum at the end of `DivSpher` (FieldOperations.h:948-956) for finite factors. -/
noncomputable def divSpherSum (eps : ℝ) (v : (Fin 3 → ℝ) → Fin 3 → ℝ) (p : Fin 3 → ℝ) (invR2 invRS : ℝ) : ℝ :=
  invR2 * (2 * p 0 * v p 0 + p 0 * p 0 * derV eps v 0 0 p) + invRS * (Real.cos (p 1) * v p 1 + Real.sin (p 1) * derV eps v 1 1 p) +
    invRS * derV eps v 2 2 p

/-- `DivSpher` (FieldOperations.h:932-957). -/
noncomputable def divSpher (eps : ℝ) (policy : Policy) (v : (Fin 3 → ℝ) → Fin 3 → ℝ) (p : Fin 3 → ℝ) : Outcome (Option ℝ) := do
  let a ← safeDivide policy 1 (p 0 * p 0)
  let b ← safeDivide policy 1 (p 0 * Real.sin (p 1))
  .ret (a.bind fun a => b.map fun b => divSpherSum eps v p a b)

/-- The sum at the end of `DivCyl` (FieldOperations.h:1010-1016) for a finite factor. -/
noncomputable def divCylSum (eps : ℝ) (v : (Fin 3 → ℝ) → Fin 3 → ℝ) (p : Fin 3 → ℝ) (invR : ℝ) : ℝ :=
  invR * (v p 0 + p 0 * derV eps v 0 0 p) + invR * derV eps v 1 1 p + derV eps v 2 2 p

/-- `DivCyl` (FieldOperations.h:996-1019). -/
noncomputable def divCyl (eps : ℝ) (policy : Policy) (v : (Fin 3 → ℝ) → Fin 3 → ℝ) (p : Fin 3 → ℝ) : Outcome (Option ℝ) := do
  let a ← safeDivide policy 1 (p 0)
  .ret (a.map fun a => divCylSum eps v p a)

/-- `CurlCart` (FieldOperations.h:1070-1087). -/
noncomputable def curlCart (eps : ℝ) (v : (Fin 3 → ℝ) → Fin 3 → ℝ) (p : Fin 3 → ℝ) : Fin 3 → ℝ :=
  ![derV eps v 2 1 p - derV eps v 1 2 p, derV eps v 0 2 p - derV eps v 2 0 p, derV eps v 1 0 p - derV eps v 0 1 p]

/-- `CurlSpher` (FieldOperations.h:1150-1184). -/
noncomputable def curlSpher (eps : ℝ) (policy : Policy) (v : (Fin 3 → ℝ) → Fin 3 → ℝ) (p : Fin 3 → ℝ) : Outcome (Fin 3 → Option ℝ) := do
  let a ← safeDivide policy 1 (p 0)
  let b ← safeDivide policy 1 (p 0 * Real.sin (p 1))
  let c ← safeDivide policy 1 (Real.sin (p 1))
  .ret ![b.map fun b => b * (Real.cos (p 1) * v p 2 + Real.sin (p 1) * derV eps v 2 1 p - derV eps v 1 2 p),
    a.bind fun a => c.map fun c => a * (c * derV eps v 0 2 p - v p 2 - p 0 * derV eps v 2 0 p),
    a.map fun a => a * (v p 1 + p 0 * derV eps v 1 0 p - derV eps v 0 1 p)]

/-- `CurlCyl` (FieldOperations.h:1223-1254). -/
noncomputable def curlCyl (eps : ℝ) (policy : Policy) (v : (Fin 3 → ℝ) → Fin 3 → ℝ) (p : Fin 3 → ℝ) : Outcome (Fin 3 → Option ℝ) := do
  let a ← safeDivide policy 1 (p 0)
  .ret ![a.map fun a => a * derV eps v 2 1 p - derV eps v 1 2 p, some (derV eps v 0 2 p - derV eps v 2 0 p),
    a.map fun a => a * (v p 1 + p 0 * derV eps v 1 0 p - derV eps v 0 1 p)]

/-- One turn of the loop of `Divergence` (FieldOperations.h:786-796). -/
noncomputable def divergenceTerm (eps : ℝ) (g : Metric N) (v : (Fin N → ℝ) → Fin N → ℝ) (p : Fin N → ℝ) (div : ℝ) (i : Fin N) : Outcome ℝ :=
  (List.finRange N).foldlM (fun s k => do
    let c ← g.christoffel2 eps i i k p
    .ret (s + v p k * c)) (div + derV eps v i i p)

/-- `Divergence` in general coordinates (FieldOperations.h:779-798). -/
noncomputable def divergence (eps : ℝ) (g : Metric N) (v : (Fin N → ℝ) → Fin N → ℝ) (p : Fin N → ℝ) : Outcome ℝ :=
  (List.finRange N).foldlM (divergenceTerm eps g v p) 0

/-- `Utils::Det` of a matrix with three rows (MatrixUtils.h:480-486). -/
def det3 (a : Matrix (Fin 3) (Fin 3) ℝ) : ℝ :=
  a 0 0 * (a 1 1 * a 2 2 - a 1 2 * a 2 1) - a 0 1 * (a 1 0 * a 2 2 - a 1 2 * a 2 0) + a 0 2 * (a 1 0 * a 2 1 - a 1 1 * a 2 0)

/-- The square root of the modulus of the determinant of the metric (FieldOperations.h:826-827, 838-839). -/
noncomputable def rootDet (g : Metric 3) (p : Fin 3 → ℝ) : ℝ := Real.sqrt |det3 (g.covariant p)|

/-- `DivergenceViaDet` in three dimensions (FieldOperations.h:821-847); `Defaults::DefaultTolerance` is `1e-6` (MMLPrecision.h:146). -/
noncomputable def divergenceViaDet (eps : ℝ) (g : Metric 3) (v : (Fin 3 → ℝ) → Fin 3 → ℝ) (p : Fin 3 → ℝ) : ℝ :=
  if rootDet g p < 1 / 10 ^ 6 then 0
  else (∑ i, der eps none (fun q => rootDet g q * v q i) i p) / rootDet g p

end Verif.Field
