import Verif.Loops
import Verif.Poly.Model
import Mathlib.Analysis.SpecialFunctions.Trigonometric.Basic

/-!
# Model of the Chebyshev approximation and of the Chebyshev polynomials

`mml/algorithms/ChebyshevApproximation.h`, `mml/base/ChebyshevPolynom.h` and
`mml/core/OrthogonalBasis/ChebyshevBasis.h`.  `Real` is ℝ, `std::cos` is `Real.cos`, `Constants::PI` is `π`.
`Vector::operator[]` is unchecked.  `int` does not overflow.  Printing is not modelled.
-/

set_option autoImplicit false

namespace Verif.Cheb

open Verif

/-- A quotient of floating-point numbers; division by zero is left undefined. -/
noncomputable def quot (a s : ℝ) : Outcome ℝ := if s = 0 then .ub else .ret (a / s)

/-! ## `ChebyshevPolynom.h` -/

/-- The three variables of the recurrence loops (ChebyshevPolynom.h:46-48, 85-87). -/
structure Rec where
  prev2 : ℝ
  prev1 : ℝ
  curr : ℝ

/-- The loop body of `ChebyshevT` and `ChebyshevU` (ChebyshevPolynom.h:52-54, 91-93): the two are the same. -/
noncomputable def recStep (x : ℝ) (s : Rec) (_k : ℕ) : Outcome Rec :=
  .ret ⟨s.prev1, 2 * x * s.prev1 - s.prev2, 2 * x * s.prev1 - s.prev2⟩

/-- `ChebyshevT` (ChebyshevPolynom.h:38-58). -/
noncomputable def chebyshevT (n : ℤ) (x : ℝ) : Outcome ℝ :=
  if n < 0 then .exn (.mml "ArgumentError")
  else if n = 0 then .ret 1
  else if n = 1 then .ret x
  else do
    let s ← forFromTo 2 (n.toNat + 1) ⟨1, x, 0⟩ (recStep x)
    .ret s.curr

/-- `ChebyshevU` (ChebyshevPolynom.h:77-97). -/
noncomputable def chebyshevU (n : ℤ) (x : ℝ) : Outcome ℝ :=
  if n < 0 then .exn (.mml "ArgumentError")
  else if n = 0 then .ret 1
  else if n = 1 then .ret (2 * x)
  else do
    let s ← forFromTo 2 (n.toNat + 1) ⟨1, 2 * x, 0⟩ (recStep x)
    .ret s.curr

/-! ## `ChebyshevApproximation` -/

/-- The data members (ChebyshevApproximation.h:44-46). -/
structure Approx where
  coef : List ℝ
  a : ℝ
  b : ℝ
  m : ℕ

/-- The default constructor (ChebyshevApproximation.h:50-54). -/
def Approx.empty : Approx := ⟨[], -1, 1, 0⟩

/-- `k`-th sampling point on `[-1, 1]` (ChebyshevApproximation.h:84, 116). -/
noncomputable def node (n k : ℕ) : ℝ := Real.cos (Real.pi * (k + 0.5) / n)

/-- The sampling loop body (ChebyshevApproximation.h:83-86, 115-118), with `bma` and `bpa` of lines 78-79 (111-112) written in place.
The callback may throw. -/
noncomputable def sampleStep (func : ℝ → Outcome ℝ) (a b : ℝ) (n : ℕ) (f : List ℝ) (k : ℕ) : Outcome (List ℝ) := do
  let v ← func (node n k * (0.5 * (b - a)) + 0.5 * (b + a))
  Outcome.store f k v

/-- The inner loop body (ChebyshevApproximation.h:93-94, 124-125). -/
noncomputable def dctStep (f : List ℝ) (n k : ℕ) (sum : ℝ) (j : ℕ) : Outcome ℝ := do
  let v ← Outcome.index f j
  .ret (sum + v * Real.cos (Real.pi * k * (j + 0.5) / n))

/-- The outer loop body (ChebyshevApproximation.h:91-96, 122-127); `fac` is `2.0 / n`. -/
noncomputable def coefStep (f : List ℝ) (n : ℕ) (c : List ℝ) (k : ℕ) : Outcome (List ℝ) := do
  let sum ← forRange n 0 (dctStep f n k)
  Outcome.store c k (2 / n * sum)

/-- The constructors from a function (ChebyshevApproximation.h:67-97 and 100-128, which are the same code).  The member `_coef(n)`
is initialised before the tests, so a negative `n` is refused by `Vector` (Vector.h:60-62). -/
noncomputable def fromFunction (func : ℝ → Outcome ℝ) (a b : ℝ) (n : ℤ) : Outcome Approx :=
  if n < 0 then .exn (.mml "VectorInitializationError")
  else if n ≤ 0 then .exn .invalidArgument
  else if a ≥ b then .exn .invalidArgument
  else do
    let f ← forRange n.toNat (List.replicate n.toNat 0) (sampleStep func a b n.toNat)
    let c ← forRange n.toNat (List.replicate n.toNat 0) (coefStep f n.toNat)
    .ret ⟨c, a, b, n.toNat⟩

/-- The constructor from coefficients (ChebyshevApproximation.h:137-146). -/
noncomputable def fromCoefficients (c : List ℝ) (a b : ℝ) : Outcome Approx :=
  if c.length = 0 then .exn .invalidArgument
  else if a ≥ b then .exn .invalidArgument
  else .ret ⟨c, a, b, c.length⟩

/-- The Clenshaw loop body (ChebyshevApproximation.h:191-195, 212-216), on `(d, dd)`. -/
noncomputable def clenshawStep (c : List ℝ) (y : ℝ) (s : ℝ × ℝ) (j : ℕ) : Outcome (ℝ × ℝ) := do
  let cj ← Outcome.index c j
  .ret (2 * y * s.1 - s.2 + cj, s.1)

/-- Lines 190-197 and 211-218: the recurrence with the first `m` coefficients. -/
noncomputable def clenshaw (c : List ℝ) (m : ℕ) (y : ℝ) : Outcome ℝ := do
  let s ← forDown 1 m (0, 0) (clenshawStep c y)
  let c0 ← Outcome.index c 0
  .ret (y * s.1 - s.2 + 0.5 * c0)

/-- `operator()` (ChebyshevApproximation.h:177-198).  A zero width `_b - _a` cannot occur: every constructor refuses it. -/
noncomputable def Approx.value (p : Approx) (x : ℝ) : Outcome ℝ :=
  if (x - p.a) * (x - p.b) > 0 then .exn (.mml "domain_error")
  else if p.m = 0 then .ret 0
  else do
    let y ← quot (2 * x - p.a - p.b) (p.b - p.a)
    clenshaw p.coef p.m y

/-- `Eval` (ChebyshevApproximation.h:201-219). -/
noncomputable def Approx.eval (p : Approx) (x : ℝ) (m : ℤ) : Outcome ℝ :=
  if m ≤ 0 ∨ m > p.m then .exn .invalidArgument
  else if (x - p.a) * (x - p.b) > 0 then .exn (.mml "domain_error")
  else do
    let y ← quot (2 * x - p.a - p.b) (p.b - p.a)
    clenshaw p.coef m.toNat y

/-- `Coefficient` (ChebyshevApproximation.h:239-243). -/
noncomputable def Approx.coefficient (p : Approx) (j : ℤ) : Outcome ℝ :=
  if j < 0 ∨ j ≥ p.coef.length then .exn .outOfRange else Outcome.index p.coef j.toNat

/-- `SetNumTerms` (ChebyshevApproximation.h:253-257). -/
def Approx.setNumTerms (p : Approx) (m : ℤ) : Outcome Approx :=
  if m ≤ 0 ∨ m > p.coef.length then .exn .invalidArgument else .ret { p with m := m.toNat }

/-- The loop of `Truncate` (ChebyshevApproximation.h:265-266), on `_m`; it runs at most `_m` times. -/
noncomputable def truncLoop (c : List ℝ) (threshold : ℝ) : ℕ → Outcome ℕ
  | 0 => .ret 0
  | m + 1 =>
    if m + 1 > 1 then do
      let v ← Outcome.index c m
      if |v| < threshold then truncLoop c threshold m else .ret (m + 1)
    else .ret (m + 1)

/-- `Truncate` (ChebyshevApproximation.h:264-268): the new object; the returned value is its `m`. -/
noncomputable def Approx.truncate (p : Approx) (threshold : ℝ) : Outcome Approx := do
  let m ← truncLoop p.coef threshold p.m
  .ret { p with m := m }

/-- The loop body of `Derivative` (ChebyshevApproximation.h:293-294). -/
noncomputable def derStep (c : List ℝ) (cder : List ℝ) (j : ℕ) : Outcome (List ℝ) := do
  let u ← Outcome.index cder (j + 1)
  let v ← Outcome.index c j
  Outcome.store cder (j - 1) (u + 2 * j * v)

/-- The scaling loop body (ChebyshevApproximation.h:298-299). -/
noncomputable def scaleStep (con : ℝ) (cder : List ℝ) (j : ℕ) : Outcome (List ℝ) := do
  let u ← Outcome.index cder j
  Outcome.store cder j (u * con)

/-- `Derivative` (ChebyshevApproximation.h:280-302). -/
noncomputable def Approx.derivative (p : Approx) : Outcome Approx :=
  if p.coef.length ≤ 1 then fromCoefficients [0] p.a p.b
  else do
    let cder ← Outcome.store (List.replicate p.coef.length 0) (p.coef.length - 1) 0
    let last ← Outcome.index p.coef (p.coef.length - 1)
    let cder ← Outcome.store cder (p.coef.length - 2) (2 * ((p.coef.length : ℝ) - 1) * last)
    let cder ← forDown 1 (p.coef.length - 1) cder (derStep p.coef)
    let con ← quot 2 (p.b - p.a)
    let cder ← forRange p.coef.length cder (scaleStep con)
    fromCoefficients cder p.a p.b

/-- `v[i]` of the unchecked `operator[]` with an `int` index. -/
def indexZ (v : List ℝ) (i : ℤ) : Outcome ℝ := if i < 0 then .ub else Outcome.index v i.toNat

/-- `v[i] = x` through the unchecked `operator[]` with an `int` index. -/
def storeZ (v : List ℝ) (i : ℤ) (x : ℝ) : Outcome (List ℝ) := if i < 0 then .ub else Outcome.store v i.toNat x

/-- The loop body of `Integral` (ChebyshevApproximation.h:321-325), on `(cint, sum, fac)`. -/
noncomputable def intStep (c : List ℝ) (con : ℝ) (s : List ℝ × ℝ × ℝ) (j : ℕ) : Outcome (List ℝ × ℝ × ℝ) := do
  let u ← Outcome.index c (j - 1)
  let v ← Outcome.index c (j + 1)
  let cint ← Outcome.store s.1 j (con * (u - v) / j)
  .ret (cint, s.2.1 + s.2.2 * (con * (u - v) / j), -s.2.2)

/-- `Integral` (ChebyshevApproximation.h:313-334). -/
noncomputable def Approx.integral (p : Approx) : Outcome Approx := do
  let s ← forFromTo 1 (p.coef.length - 1) (List.replicate p.coef.length 0, 0, 1) (intStep p.coef (0.25 * (p.b - p.a)))
  let u ← indexZ p.coef ((p.coef.length : ℤ) - 2)
  let q ← quot (0.25 * (p.b - p.a) * u) ((p.coef.length : ℝ) - 1)
  let cint ← storeZ s.1 ((p.coef.length : ℤ) - 1) q
  let cint ← Outcome.store cint 0 (2 * (s.2.1 + s.2.2 * q))
  fromCoefficients cint p.a p.b

/-- The inner loop body of `ToPolynomial` (ChebyshevApproximation.h:358-362), on `(d, dd)`. -/
noncomputable def polyInner (s : List ℝ × List ℝ) (k : ℕ) : Outcome (List ℝ × List ℝ) := do
  let sv ← Outcome.index s.1 k
  let u ← Outcome.index s.1 (k - 1)
  let w ← Outcome.index s.2 k
  let d ← Outcome.store s.1 k (2 * u - w)
  let dd ← Outcome.store s.2 k sv
  .ret (d, dd)

/-- The outer loop body (ChebyshevApproximation.h:357-366). -/
noncomputable def polyOuter (c : List ℝ) (m : ℕ) (s : List ℝ × List ℝ) (j : ℕ) : Outcome (List ℝ × List ℝ) := do
  let s ← forDown 1 (m - j + 1) s polyInner
  let sv ← Outcome.index s.1 0
  let w ← Outcome.index s.2 0
  let cj ← Outcome.index c j
  let d ← Outcome.store s.1 0 (-w + cj)
  let dd ← Outcome.store s.2 0 sv
  .ret (d, dd)

/-- The last loop body (ChebyshevApproximation.h:368-369). -/
noncomputable def polyLast (dd : List ℝ) (d : List ℝ) (j : ℕ) : Outcome (List ℝ) := do
  let u ← Outcome.index d (j - 1)
  let w ← Outcome.index dd j
  Outcome.store d j (u - w)

/-- `ToPolynomial(m)` (ChebyshevApproximation.h:348-374): the coefficients, constant term first. -/
noncomputable def Approx.toPolynomialN (p : Approx) (m : ℤ) : Outcome (List ℝ) :=
  if m ≤ 0 ∨ m > p.coef.length then .exn .invalidArgument
  else do
    let top ← Outcome.index p.coef (m.toNat - 1)
    let d ← Outcome.store (List.replicate m.toNat 0) 0 top
    let s ← forDown 1 (m.toNat - 1) (d, List.replicate m.toNat 0) (polyOuter p.coef m.toNat)
    let d ← forDown 1 m.toNat s.1 (polyLast s.2)
    let w ← Outcome.index s.2 0
    let c0 ← Outcome.index p.coef 0
    Outcome.store d 0 (-w + 0.5 * c0)

/-- `ToPolynomial()` (ChebyshevApproximation.h:345). -/
noncomputable def Approx.toPolynomial (p : Approx) : Outcome (List ℝ) := p.toPolynomialN p.m

/-- `FromPolynomial` (ChebyshevApproximation.h:378-385), with the polynomial as its list of coefficients (`Poly.eval`). -/
noncomputable def fromPolynomial (poly : List ℝ) (a b : ℝ) (n : ℤ) : Outcome Approx :=
  fromFunction (Poly.eval poly) a b (if n ≤ 0 then poly.length else n)

/-- The loop body of `MaxError` (ChebyshevApproximation.h:393-398, 404-409). -/
noncomputable def errStep (p : Approx) (func : ℝ → ℝ) (numSamples : ℤ) (maxErr : ℝ) (i : ℕ) : Outcome ℝ := do
  let t ← quot (i * (p.b - p.a)) numSamples
  let v ← p.value (p.a + t)
  .ret (if |v - func (p.a + t)| > maxErr then |v - func (p.a + t)| else maxErr)

/-- `MaxError` (ChebyshevApproximation.h:391-411; two overloads with the same code). -/
noncomputable def Approx.maxError (p : Approx) (func : ℝ → ℝ) (numSamples : ℤ) : Outcome ℝ :=
  forRange (numSamples + 1).toNat 0 (errStep p func numSamples)

/-! ## Roots and extrema -/

/-- `ChebyshevRoots` (ChebyshevApproximation.h:434-445). -/
noncomputable def chebyshevRoots (n : ℤ) : Outcome (List ℝ) :=
  if n ≤ 0 then .exn .invalidArgument
  else forRange n.toNat (List.replicate n.toNat 0) (fun v k =>
    Outcome.store v k (Real.cos (Real.pi * (2 * k + 1) / (2 * n.toNat))))

/-- `ChebyshevExtrema` (ChebyshevApproximation.h:450-461). -/
noncomputable def chebyshevExtrema (n : ℤ) : Outcome (List ℝ) :=
  if n ≤ 0 then .exn .invalidArgument
  else forRange (n.toNat + 1) (List.replicate (n.toNat + 1) 0) (fun v k =>
    Outcome.store v k (Real.cos (Real.pi * k / n.toNat)))

/-! ## `ChebyshevBasis.h` -/

/-- `ChebyshevBasis::Evaluate` (ChebyshevBasis.h:61-67). -/
noncomputable def basisEval (n : ℤ) (x : ℝ) : Outcome ℝ :=
  if n < 0 then .exn .invalidArgument else chebyshevT n x

/-- `ChebyshevBasis::WeightFunction` (ChebyshevBasis.h:70-79). -/
noncomputable def basisWeight (x : ℝ) : ℝ := if |x| ≥ 1 then 10000000000 else 1 / Real.sqrt (1 - x * x)

/-- `ChebyshevBasis::Normalization` (ChebyshevBasis.h:83-92). -/
noncomputable def basisNorm (n : ℤ) : Outcome ℝ :=
  if n < 0 then .exn .invalidArgument else if n = 0 then .ret Real.pi else .ret (Real.pi / 2)

/-- `ChebyshevBasis::RecurrenceCoefficients` and the one of the second kind (ChebyshevBasis.h:103-111, 195-203): `(a, b, c)`. -/
noncomputable def basisRec (n : ℤ) : Outcome (ℝ × ℝ × ℝ) :=
  if n < 0 then .exn .invalidArgument else .ret (2, 0, -1)

/-- `ChebyshevBasis::GetExtrema` (ChebyshevBasis.h:114-123). -/
noncomputable def basisExtrema (n : ℤ) : Outcome (List ℝ) :=
  if n < 0 then .exn .invalidArgument
  else forRange (n.toNat + 1) (List.replicate (n.toNat + 1) 0) (fun v k => do
    let t ← quot (k * Real.pi) n.toNat
    Outcome.store v k (Real.cos t))

/-- `ChebyshevBasis::GetZeros` (ChebyshevBasis.h:126-135). -/
noncomputable def basisZeros (n : ℤ) : Outcome (List ℝ) :=
  if n ≤ 0 then .exn .invalidArgument
  else forFromTo 1 (n.toNat + 1) (List.replicate n.toNat 0) (fun v k =>
    Outcome.store v (k - 1) (Real.cos ((2 * k - 1) * Real.pi / (2 * n.toNat))))

/-- `ChebyshevBasisSecondKind::Evaluate` (ChebyshevBasis.h:165-171). -/
noncomputable def basis2Eval (n : ℤ) (x : ℝ) : Outcome ℝ :=
  if n < 0 then .exn .invalidArgument else chebyshevU n x

/-- `ChebyshevBasisSecondKind::WeightFunction` (ChebyshevBasis.h:174-179). -/
noncomputable def basis2Weight (x : ℝ) : ℝ := if |x| ≥ 1 then 0 else Real.sqrt (1 - x * x)

/-- `ChebyshevBasisSecondKind::Normalization` (ChebyshevBasis.h:182-188). -/
noncomputable def basis2Norm (n : ℤ) : Outcome ℝ :=
  if n < 0 then .exn .invalidArgument else .ret (Real.pi / 2)

/-- `ChebyshevBasisSecondKind::GetZeros` (ChebyshevBasis.h:206-215). -/
noncomputable def basis2Zeros (n : ℤ) : Outcome (List ℝ) :=
  if n ≤ 0 then .exn .invalidArgument
  else forFromTo 1 (n.toNat + 1) (List.replicate n.toNat 0) (fun v k =>
    Outcome.store v (k - 1) (Real.cos (k * Real.pi / ((n.toNat : ℝ) + 1))))

end Verif.Cheb
