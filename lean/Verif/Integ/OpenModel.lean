import Verif.Integ.Model
import Mathlib.Analysis.SpecialFunctions.Sqrt

/-!
# Improper integrals (`core/Integration/IntegrationImproper.h`)

The integrand is a total function on the exact reals; the theorems say at which points it is evaluated.  The square root of a
negative number, a NaN in the code, is undefined here.
-/

set_option autoImplicit false

namespace Verif.Integ

open Verif

/-! ## Refining midpoint sums -/

/-- `MidpointIntegrator` (IntegrationImproper.h:40-47): the number of calls so far and the current sum. -/
@[ext] structure Mid where
  step : ℕ
  sum : ℝ

/-- The tripling loop for `it` (IntegrationImproper.h:58-59) after `n` rounds; overflow of `int` is undefined. -/
def triple : ℕ → Outcome ℕ
  | 0 => .ret 1
  | n + 1 => do
    let s ← triple n
    if s * 3 ≤ 2147483647 then .ret (s * 3) else .ub

/-- The sampling loop (IntegrationImproper.h:65-70), `n` rounds from `x`. -/
noncomputable def sampleTwo (f : ℝ → ℝ) (del ddel : ℝ) : ℕ → ℝ → ℝ → ℝ
  | 0, _, sum => sum
  | n + 1, x, sum => sampleTwo f del ddel n (x + ddel + del) (sum + f x + f (x + ddel))

/-- A stage after the first (IntegrationImproper.h:58-72). -/
noncomputable def Mid.refine (f : ℝ → ℝ) (a b : ℝ) (t : Mid) : Outcome Mid := do
  let n ← triple (t.step + 1 - 2)
  let del := (b - a) / (3 * n)
  .ret ⟨t.step + 1, (t.sum + (b - a) * sampleTwo f del (del + del) n (a + 1 / 2 * del) 0 / n) / 3⟩

/-- `MidpointIntegrator::next` (IntegrationImproper.h:49-74). -/
noncomputable def Mid.next (f : ℝ → ℝ) (a b : ℝ) (t : Mid) : Outcome Mid :=
  if t.step + 1 = 1 then .ret ⟨1, (b - a) * f (1 / 2 * (a + b))⟩ else t.refine f a b

/-- `MidpointIntegrator::next` as used by the loop (IntegrationImproper.h:149): the new state and the value returned. -/
noncomputable def Mid.emit (f : ℝ → ℝ) (a b : ℝ) (t : Mid) : Outcome (Mid × ℝ) := do
  let t ← t.next f a b
  .ret (t, t.sum)

/-! ## `IntegrateOpen` -/

/-- The stopping test of `IntegrateOpen` (IntegrationImproper.h:187). -/
def openSettled (eps ss dss : ℝ) : Prop := |dss| ≤ eps * |ss| ∨ (ss = 0 ∧ dss = 0)

/-- `IntegrateOpen` (IntegrationImproper.h:132-196), `K` points of extrapolation and at most `JMAX` stages. -/
noncomputable def integrateOpen (JMAX K : ℕ) (f : ℝ → ℝ) (a b eps : ℝ) : Outcome Result := do
  let h ← Outcome.store (List.replicate (JMAX + 1) 0) 0 1
  rombergLoop (Mid.emit f a b) (fun den => den = 0) (openSettled eps) (1 / 9) K JMAX JMAX 0 ⟨0, 0⟩ (List.replicate JMAX 0) h 0 0

/-! ## Infinite ranges -/

/-- `UpperInfTransform::operator()` (IntegrationImproper.h:93-97). -/
noncomputable def upperInf (f : ℝ → ℝ) (a t : ℝ) : ℝ := if t ≤ 0 then 0 else f (a + 1 / t - 1) / (t * t)

/-- `LowerInfTransform::operator()` (IntegrationImproper.h:116-120). -/
noncomputable def lowerInf (f : ℝ → ℝ) (b t : ℝ) : ℝ := if t ≤ 0 then 0 else f (b - 1 / t + 1) / (t * t)

/-- `IntegrateUpperInf` (IntegrationImproper.h:233-238). -/
noncomputable def integrateUpperInf (JMAX K : ℕ) (f : ℝ → ℝ) (a eps : ℝ) : Outcome Result :=
  integrateOpen JMAX K (upperInf f a) 0 1 eps

/-- `IntegrateLowerInf` (IntegrationImproper.h:262-267). -/
noncomputable def integrateLowerInf (JMAX K : ℕ) (f : ℝ → ℝ) (b eps : ℝ) : Outcome Result :=
  integrateOpen JMAX K (lowerInf f b) 0 1 eps

/-- The sum of two partial results (IntegrationImproper.h:309-314, 340-345, 518-523, 560-565). -/
noncomputable def Result.join (l r : Result) : Result :=
  ⟨l.value + r.value, l.error + r.error, l.iterations + r.iterations, l.converged && r.converged⟩

/-- `IntegrateInfSplit` (IntegrationImproper.h:334-346). -/
noncomputable def integrateInfSplit (JMAX K : ℕ) (f : ℝ → ℝ) (c eps : ℝ) : Outcome Result := do
  let l ← integrateLowerInf JMAX K f c eps
  let r ← integrateUpperInf JMAX K f c eps
  .ret (l.join r)

/-- `IntegrateInf` (IntegrationImproper.h:302-315), whose body is that of `IntegrateInfSplit` with the split point zero. -/
noncomputable def integrateInf (JMAX K : ℕ) (f : ℝ → ℝ) (eps : ℝ) : Outcome Result := do
  let l ← integrateLowerInf JMAX K f 0 eps
  let r ← integrateUpperInf JMAX K f 0 eps
  .ret (l.join r)

/-! ## Singular ends -/

/-- `LowerSingularTransform::operator()` (IntegrationImproper.h:380-384). -/
noncomputable def lowerSing (f : ℝ → ℝ) (a t : ℝ) : ℝ := f (a + t * t) * 2 * t

/-- `UpperSingularTransform::operator()` (IntegrationImproper.h:411-415). -/
noncomputable def upperSing (f : ℝ → ℝ) (b t : ℝ) : ℝ := f (b - t * t) * 2 * t

/-- `std::sqrt` of a difference of bounds (IntegrationImproper.h:453, 484). -/
noncomputable def rootOf (x : ℝ) : Outcome ℝ := if x < 0 then .ub else .ret (Real.sqrt x)

/-- `IntegrateLowerSingular` (IntegrationImproper.h:449-456). -/
noncomputable def integrateLowerSingular (JMAX K : ℕ) (f : ℝ → ℝ) (a b eps : ℝ) : Outcome Result := do
  let upper ← rootOf (b - a)
  integrateOpen JMAX K (lowerSing f a) 0 upper eps

/-- `IntegrateUpperSingular` (IntegrationImproper.h:480-486). -/
noncomputable def integrateUpperSingular (JMAX K : ℕ) (f : ℝ → ℝ) (a b eps : ℝ) : Outcome Result := do
  let upper ← rootOf (b - a)
  integrateOpen JMAX K (upperSing f b) 0 upper eps

/-- `IntegrateBothSingular` (IntegrationImproper.h:511-524). -/
noncomputable def integrateBothSingular (JMAX K : ℕ) (f : ℝ → ℝ) (a b eps : ℝ) : Outcome Result := do
  let l ← integrateLowerSingular JMAX K f a (1 / 2 * (a + b)) eps
  let r ← integrateUpperSingular JMAX K f (1 / 2 * (a + b)) b eps
  .ret (l.join r)

/-- `IntegrateInteriorSingular` (IntegrationImproper.h:551-566). -/
noncomputable def integrateInteriorSingular (JMAX K : ℕ) (f : ℝ → ℝ) (a b c eps : ℝ) : Outcome Result :=
  if c ≤ a ∨ c ≥ b then .exn .invalidArgument
  else do
    let l ← integrateUpperSingular JMAX K f a c eps
    let r ← integrateLowerSingular JMAX K f c b eps
    .ret (l.join r)

end Verif.Integ
