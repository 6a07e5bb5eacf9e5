import Verif.Loops
import Verif.While
import Verif.Cheb.Model
import Verif.Integ.Model
import Mathlib.Analysis.SpecialFunctions.Gamma.Basic
import Mathlib.Analysis.SpecialFunctions.Pow.Real
import Mathlib.Analysis.Complex.ExponentialBounds

/-!
# Model of the orthogonal bases and of the special functions they use

`mml/base/StandardFunctions.h` (the implementations of the library itself, lines 134-264, used where the standard library has no special
functions, and the factorials) and `mml/core/OrthogonalBasis.h`, `mml/core/OrthogonalBasis/*.h`.  `Real` is ℝ; `std::sqrt`, `std::exp`,
`std::cos`, `std::pow`, `std::tgamma` and `Constants::PI`, `Constants::E`, `Constants::SQRT2` are exact.  The index of a polynomial is an
`unsigned int` (`int` in the bases); arithmetic on it does not overflow except where it is written out.  Where the standard library has
special functions, `Functions::Legendre` and the others call it instead: that code is not modelled.
-/

set_option autoImplicit false

namespace Verif.Ortho

open Verif
open Verif.Cheb (quot)

/-- `std::sqrt`; the root of a negative number (NaN) is left undefined. -/
noncomputable def sqrtU (x : ℝ) : Outcome ℝ := if x < 0 then .ub else .ret (Real.sqrt x)

/-! ## Recurrences -/

/-- The variables `prev2`, `prev1` and the result of the loops (StandardFunctions.h:143, 156, 169, 208-210). -/
structure Rec where
  prev2 : ℝ
  prev1 : ℝ
  curr : ℝ

/-- Assigning the next value in the loops (StandardFunctions.h:146-147, 159-160, 172-173, 213-214; LaguerreBasis.h:165-166). -/
def Rec.push (s : Rec) (v : ℝ) : Rec := ⟨s.prev1, v, v⟩

/-- The loop body of `Legendre` (StandardFunctions.h:145-147). -/
noncomputable def legendreStep (x : ℝ) (s : Rec) (k : ℕ) : Outcome Rec := do
  let v ← quot ((2 * k - 1) * x * s.prev1 - (k - 1) * s.prev2) k
  .ret (s.push v)

/-- `Legendre` (StandardFunctions.h:140-150). -/
noncomputable def legendre (n : ℕ) (x : ℝ) : Outcome ℝ :=
  if n = 0 then .ret 1
  else if n = 1 then .ret x
  else do
    let s ← forFromTo 2 (n + 1) ⟨1, x, 0⟩ (legendreStep x)
    .ret s.curr

/-- The loop body of `Hermite` (StandardFunctions.h:158-160). -/
noncomputable def hermiteStep (x : ℝ) (s : Rec) (k : ℕ) : Outcome Rec :=
  .ret (s.push (2 * x * s.prev1 - 2 * (k - 1) * s.prev2))

/-- `Hermite` (StandardFunctions.h:153-163). -/
noncomputable def hermite (n : ℕ) (x : ℝ) : Outcome ℝ :=
  if n = 0 then .ret 1
  else if n = 1 then .ret (2 * x)
  else do
    let s ← forFromTo 2 (n + 1) ⟨1, 2 * x, 0⟩ (hermiteStep x)
    .ret s.curr

/-- The loop body of `Laguerre` (StandardFunctions.h:171-173). -/
noncomputable def laguerreStep (x : ℝ) (s : Rec) (k : ℕ) : Outcome Rec := do
  let v ← quot ((2 * k - 1 - x) * s.prev1 - (k - 1) * s.prev2) k
  .ret (s.push v)

/-- `Laguerre` (StandardFunctions.h:166-176). -/
noncomputable def laguerre (n : ℕ) (x : ℝ) : Outcome ℝ :=
  if n = 0 then .ret 1
  else if n = 1 then .ret (1 - x)
  else do
    let s ← forFromTo 2 (n + 1) ⟨1, 1 - x, 0⟩ (laguerreStep x)
    .ret s.curr

/-- The loop body of `AssocLaguerre` (StandardFunctions.h:212-214). -/
noncomputable def assocLaguerreStep (m : ℕ) (x : ℝ) (s : Rec) (k : ℕ) : Outcome Rec := do
  let v ← quot ((2 * k - 1 + m - x) * s.prev1 - (k - 1 + m) * s.prev2) k
  .ret (s.push v)

/-- `AssocLaguerre` (StandardFunctions.h:206-217). -/
noncomputable def assocLaguerre (n m : ℕ) (x : ℝ) : Outcome ℝ :=
  if n = 0 then .ret 1
  else if n = 1 then .ret (1 + m - x)
  else do
    let s ← forFromTo 2 (n + 1) ⟨1, 1 + m - x, 0⟩ (assocLaguerreStep m x)
    .ret s.curr

/-- The loop body for `P_mm` (StandardFunctions.h:187-188), on `(P_mm, fact)`. -/
noncomputable def diagStep (r : ℝ) (s : ℝ × ℝ) (_i : ℕ) : Outcome (ℝ × ℝ) := .ret (s.1 * (-s.2 * r), s.2 + 2)

/-- `P_mm` (StandardFunctions.h:182-190). -/
noncomputable def diag (m : ℕ) (x : ℝ) : Outcome ℝ :=
  if m > 0 then do
    let r ← sqrtU (1 - x * x)
    let s ← forFromTo 1 (m + 1) (1, 1) (diagStep r)
    .ret s.1
  else .ret 1

/-- The loop body of `AssocLegendre` (StandardFunctions.h:198-200); `prev2` is `P_mm` and `prev1` is `P_mp1_m`. -/
noncomputable def assocLegendreStep (m : ℕ) (x : ℝ) (s : Rec) (ll : ℕ) : Outcome Rec := do
  let v ← quot (x * (2 * ll - 1) * s.prev1 - (ll + m - 1) * s.prev2) ((ll - m : ℕ) : ℝ)
  .ret (s.push v)

/-- `AssocLegendre` (StandardFunctions.h:179-203). -/
noncomputable def assocLegendre (l m : ℕ) (x : ℝ) : Outcome ℝ :=
  if m > l then .ret 0
  else do
    let p ← diag m x
    if l = m then .ret p
    else if l = m + 1 then .ret (x * (2 * m + 1) * p)
    else do
      let s ← forFromTo (m + 2) (l + 1) ⟨p, x * (2 * m + 1) * p, 0⟩ (assocLegendreStep m x)
      .ret s.curr

/-- The loop body for `ratio` (StandardFunctions.h:228). -/
noncomputable def ratioStep (r : ℝ) (i : ℕ) : Outcome ℝ := quot r i

/-- `SphLegendre` (StandardFunctions.h:221-232).  The start `l - m + 1` of the loop wraps around at 2^32. -/
noncomputable def sphLegendre (l m : ℕ) (theta : ℝ) : Outcome ℝ := do
  let p ← assocLegendre l m (Real.cos theta)
  let ratio ← forFromTo ((l + 2 ^ 32 - m + 1) % 2 ^ 32) (l + m + 1) 1 ratioStep
  let k ← sqrtU ((2 * l + 1) / (4 * Real.pi) * ratio)
  .ret (k * p)

/-! ## Factorials -/

/-- `Factorial` (StandardFunctions.h:270-276). -/
noncomputable def factorial (n : ℤ) : Outcome ℝ :=
  if n < 0 then .exn (.mml "domain_error")
  else forFromTo 2 (n.toNat + 1) 1 (fun f i => .ret (f * i))

/-- `FactorialInt` (StandardFunctions.h:277-283); overflow of `long long` is undefined. -/
def factorialInt (n : ℤ) : Outcome ℕ :=
  if n < 0 then .exn (.mml "domain_error")
  else forFromTo 2 (n.toNat + 1) 1 (fun f i => if f * i < 2 ^ 63 then .ret (f * i) else .ub)

/-- `FactorialStirling` (StandardFunctions.h:284-289). -/
noncomputable def factorialStirling (n : ℤ) : Outcome ℝ :=
  if n < 0 then .exn (.mml "domain_error")
  else if n = 0 ∨ n = 1 then .ret 1
  else .ret (Real.sqrt (2 * Real.pi * n) * (n / Real.exp 1) ^ (n : ℝ))

/-! ## Complete elliptic integrals -/

open Classical in
/-- The loop of `Comp_ellint_1` (StandardFunctions.h:237-241) on `(a, b)`; the product under the root is never negative. -/
noncomputable def agmStep (s : ℝ × ℝ) : Option (ℝ × ℝ) :=
  if |s.1 - s.2| > 1 / 10 ^ 15 then some ((s.1 + s.2) / 2, Real.sqrt (s.1 * s.2)) else none

/-- `Comp_ellint_1` (StandardFunctions.h:235-243). -/
noncomputable def compEllint1 (k : ℝ) : Outcome ℝ := do
  let b ← sqrtU (1 - k * k)
  let s ← whileLoop agmStep (1, b)
  quot Real.pi (2 * s.1)

/-- The variables of `Comp_ellint_2` (StandardFunctions.h:247-249). -/
structure Ell where
  a : ℝ
  b : ℝ
  c : ℝ
  sum : ℝ
  pow : ℝ

open Classical in
/-- The loop of `Comp_ellint_2` (StandardFunctions.h:250-258); the product under the root is never negative. -/
noncomputable def ellStep (s : Ell) : Option Ell :=
  if |s.c| > 1 / 10 ^ 15 then
    some ⟨(s.a + s.b) / 2, Real.sqrt (s.a * s.b), (s.a - s.b) / 2, s.sum + s.pow * 2 * ((s.a - s.b) / 2) * ((s.a - s.b) / 2), s.pow * 2⟩
  else none

/-- `Comp_ellint_2` (StandardFunctions.h:246-260). -/
noncomputable def compEllint2 (k : ℝ) : Outcome ℝ := do
  let b ← sqrtU (1 - k * k)
  let s ← whileLoop ellStep ⟨1, b, k, k * k / 2, 1⟩
  let q ← quot Real.pi (2 * s.a)
  .ret (q * (1 - s.sum))

/-! ## The bases -/

/-- The members of `OrthogonalBasis` (OrthogonalBasis.h:41-57) of a basis on a bounded interval; those of the unbounded ones are given
by the definitions below. -/
structure Basis where
  evaluate : ℤ → ℝ → Outcome ℝ
  weight : ℝ → ℝ
  norm : ℤ → Outcome ℝ
  lo : ℝ
  hi : ℝ

/-- `LegendreBasis::Evaluate` (LegendreBasis.h:54-60). -/
noncomputable def legendreEval (n : ℤ) (x : ℝ) : Outcome ℝ :=
  if n < 0 then .exn .invalidArgument else legendre n.toNat x

/-- `LegendreBasis::WeightFunction` (LegendreBasis.h:63-66). -/
def legendreWeight (_x : ℝ) : ℝ := 1

/-- `LegendreBasis::Normalization` (LegendreBasis.h:69-75). -/
noncomputable def legendreNorm (n : ℤ) : Outcome ℝ :=
  if n < 0 then .exn .invalidArgument else .ret (2 / (2 * n + 1))

/-- `LegendreBasis::RecurrenceCoefficients` (LegendreBasis.h:86-95): `(a, b, c)`. -/
noncomputable def legendreRec (n : ℤ) : Outcome (ℝ × ℝ × ℝ) :=
  if n < 0 then .exn .invalidArgument else .ret ((2 * n + 1) / (n + 1), 0, -n / (n + 1))

/-- `LegendreBasis`, with `DomainMin` and `DomainMax` (LegendreBasis.h:78-79). -/
noncomputable def legendreBasis : Basis := ⟨legendreEval, legendreWeight, legendreNorm, -1, 1⟩

/-- The constructor of `AssociatedLegendreBasis` (LegendreBasis.h:112-116) followed by `Evaluate` (LegendreBasis.h:121-127). -/
noncomputable def assocLegendreEval (m l : ℤ) (x : ℝ) : Outcome ℝ :=
  if m < 0 then .exn .invalidArgument
  else if l < m then .exn .invalidArgument
  else sphLegendre l.toNat m.toNat x

/-- `HermiteBasis::Evaluate` (HermiteBasis.h:60-66). -/
noncomputable def hermiteEval (n : ℤ) (x : ℝ) : Outcome ℝ :=
  if n < 0 then .exn .invalidArgument else hermite n.toNat x

/-- `HermiteBasis::WeightFunction` (HermiteBasis.h:69-72). -/
noncomputable def hermiteWeight (x : ℝ) : ℝ := Real.exp (-x * x)

/-- The factorial loops of the bases (HermiteBasis.h:82-84, 172-174; LaguerreBasis.h:188-190). -/
noncomputable def factLoop (n : ℕ) : Outcome ℝ := forFromTo 1 (n + 1) 1 (fun f k => .ret (f * k))

/-- `HermiteBasis::Normalization` (HermiteBasis.h:75-87). -/
noncomputable def hermiteNorm (n : ℤ) : Outcome ℝ :=
  if n < 0 then .exn .invalidArgument
  else do
    let f ← factLoop n.toNat
    .ret ((2 : ℝ) ^ (n : ℝ) * f * Real.sqrt Real.pi)

/-- `HermiteBasis::RecurrenceCoefficients` (HermiteBasis.h:105-113): `(a, b, c)`. -/
noncomputable def hermiteRec (n : ℤ) : Outcome (ℝ × ℝ × ℝ) :=
  if n < 0 then .exn .invalidArgument else .ret (2, 0, -2 * n)

/-- `HermiteBasis::QuantumWavefunction` (HermiteBasis.h:117-127). -/
noncomputable def wavefunction (n : ℤ) (x : ℝ) : Outcome ℝ :=
  if n < 0 then .exn .invalidArgument
  else do
    let h ← hermiteEval n x
    let nn ← hermiteNorm n
    let r ← sqrtU nn
    let f ← quot 1 r
    .ret (f * h * Real.exp (-0.5 * x * x))

/-- `ProbabilistHermiteBasis::Evaluate` (HermiteBasis.h:147-158). -/
noncomputable def probEval (n : ℤ) (x : ℝ) : Outcome ℝ :=
  if n < 0 then .exn .invalidArgument
  else do
    let h ← hermite n.toNat (x / Real.sqrt 2)
    .ret ((2 : ℝ) ^ (-0.5 * (n : ℝ)) * h)

/-- `ProbabilistHermiteBasis::WeightFunction` (HermiteBasis.h:161-164). -/
noncomputable def probWeight (x : ℝ) : ℝ := Real.exp (-0.5 * x * x)

/-- `ProbabilistHermiteBasis::Normalization` (HermiteBasis.h:167-177). -/
noncomputable def probNorm (n : ℤ) : Outcome ℝ :=
  if n < 0 then .exn .invalidArgument
  else do
    let f ← factLoop n.toNat
    .ret (f * Real.sqrt (2 * Real.pi))

/-- `LaguerreBasis::Evaluate` (LaguerreBasis.h:60-66). -/
noncomputable def laguerreEval (n : ℤ) (x : ℝ) : Outcome ℝ :=
  if n < 0 then .exn .invalidArgument else laguerre n.toNat x

/-- `LaguerreBasis::WeightFunction` (LaguerreBasis.h:69-72). -/
noncomputable def laguerreWeight (x : ℝ) : ℝ := Real.exp (-x)

/-- `LaguerreBasis::Normalization` (LaguerreBasis.h:75-81). -/
noncomputable def laguerreNorm (n : ℤ) : Outcome ℝ := if n < 0 then .exn .invalidArgument else .ret 1

/-- `LaguerreBasis::RecurrenceCoefficients` (LaguerreBasis.h:98-109): `(a, b, c)`. -/
noncomputable def laguerreRec (n : ℤ) : Outcome (ℝ × ℝ × ℝ) :=
  if n < 0 then .exn .invalidArgument else .ret (-1 / (n + 1), (2 * n + 1) / (n + 1), -n / (n + 1))

/-- The constructor of `AssociatedLaguerreBasis` (LaguerreBasis.h:134-138): the member `_alpha`. -/
noncomputable def assocLaguerreNew (alpha : ℝ) : Outcome ℝ := if alpha ≤ -1 then .exn .invalidArgument else .ret alpha

/-- The loop body of `AssociatedLaguerreBasis::Evaluate` (LaguerreBasis.h:162-166). -/
noncomputable def genLaguerreStep (alpha x : ℝ) (s : Rec) (k : ℕ) : Outcome Rec := do
  let v ← quot ((2 * k + alpha + 1 - x) * s.prev1 - (k + alpha) * s.prev2) (k + 1)
  .ret (s.push v)

/-- `AssociatedLaguerreBasis::Evaluate` (LaguerreBasis.h:143-170). -/
noncomputable def genLaguerreEval (alpha : ℝ) (n : ℤ) (x : ℝ) : Outcome ℝ :=
  if n < 0 then .exn .invalidArgument
  else if n = 0 then .ret 1
  else if n = 1 then .ret (1 + alpha - x)
  else do
    let s ← forFromTo 1 n.toNat ⟨1, 1 + alpha - x, 0⟩ (genLaguerreStep alpha x)
    .ret s.curr

/-- `AssociatedLaguerreBasis::WeightFunction` (LaguerreBasis.h:173-176). -/
noncomputable def genLaguerreWeight (alpha x : ℝ) : ℝ := x ^ alpha * Real.exp (-x)

/-- `AssociatedLaguerreBasis::Normalization` (LaguerreBasis.h:179-198). -/
noncomputable def genLaguerreNorm (alpha : ℝ) (n : ℤ) : Outcome ℝ :=
  if n < 0 then .exn .invalidArgument
  else do
    let f ← factLoop n.toNat
    let r ← forFromTo 1 (n.toNat + 1) (Real.Gamma (alpha + 1)) (fun r k => .ret (r * (alpha + k)))
    quot r f

/-- `AssociatedLaguerreBasis::RecurrenceCoefficients` (LaguerreBasis.h:205-216): `(a, b, c)`. -/
noncomputable def genLaguerreRec (alpha : ℝ) (n : ℤ) : Outcome (ℝ × ℝ × ℝ) :=
  if n < 0 then .exn .invalidArgument
  else .ret (-1 / (n + 1), (2 * n + alpha + 1) / (n + 1), -(n + alpha) / (n + 1))

/-- `ChebyshevBasis`, with `DomainMin` and `DomainMax` (ChebyshevBasis.h:95-96). -/
noncomputable def chebyshevBasis : Basis := ⟨Cheb.basisEval, Cheb.basisWeight, Cheb.basisNorm, -1, 1⟩

/-- `ComputeCoefficient` (OrthogonalBasis.h:60-78) for a basis on a bounded interval: `evaluate` is called for one `n` at all points;
it throws for all of them or for none, so its value is asked for first (at the left end).  For the bases on unbounded intervals
`IntegrateTrap` gets infinite limits and computes NaN: not modelled. -/
noncomputable def Basis.computeCoefficient (B : Basis) (maxSteps : ℕ) (f : ℝ → ℝ) (n : ℤ) (eps : ℝ) : Outcome ℝ := do
  let _ ← B.evaluate n B.lo
  let r ← Integ.integrateTrap maxSteps (fun x => f x * (match B.evaluate n x with | .ret v => v | _ => 0) * B.weight x) B.lo B.hi eps
  let h ← B.norm n
  quot r.value h

end Verif.Ortho
