import Verif.Fit.Model
import Verif.LinAlg.SVD

/-!
# Model of the general linear and the polynomial fit

`GeneralLinearLeastSquares` and `PolynomialFit` (`mml/algorithms/CurveFitting.h`).  The overloads for `IRealFunction` pointers
(329-419) and for `std::function` (424-507) have the same body; the basis is a list of functions.  `decompose` is the routine of the
SVD solver that is not modelled (`Verif/LinAlg/SVD.lean`).
-/

set_option autoImplicit false

namespace Verif.Fit

open Verif.Mat Verif.LinAlg

/-- `GeneralLinearFitResult` (CurveFitting.h:254-274); `none` is an infinite condition number. -/
structure GenFit where
  coeffs : List ℝ
  norm : ℝ
  r2 : ℝ
  mse : ℝ
  adj : ℝ
  m : ℕ
  n : ℕ
  rank : ℕ
  cond : Option ℝ

/-- `evaluate` (CurveFitting.h:277-285, 288-296). -/
noncomputable def evaluate (coeffs : List ℝ) (x : ℝ) (basis : List (ℝ → ℝ)) : Outcome ℝ :=
  if coeffs.length ≠ basis.length then .exn errFit
  else forRange coeffs.length (0 : ℝ) (fun r i => do
    let c ← Outcome.index coeffs i
    let f ← Outcome.index basis i
    .ret (r + c * f x))

/-- The design matrix (CurveFitting.h:347-352, 442-447). -/
noncomputable def design (m n : ℕ) (xs : List ℝ) (basis : List (ℝ → ℝ)) : Outcome (Dense ℝ) := do
  let a ← Dense.new (K := ℝ) m n
  forRange m a (fun a i => forRange n a (fun a j => do
    let f ← Outcome.index basis j
    let x ← Outcome.index xs i
    a.set i j (f x)))

/-- The residual sum of squares (CurveFitting.h:367-374, 459-466). -/
noncomputable def genRes (m n : ℕ) (a : Dense ℝ) (c ys : List ℝ) : Outcome ℝ :=
  forRange m (0 : ℝ) (fun r i => do
    let p ← forRange n (0 : ℝ) (fun p j => do
      let cj ← Outcome.index c j
      let x ← a.get i j
      .ret (p + cj * x))
    let y ← Outcome.index ys i
    .ret (r + (y - p) * (y - p)))

/-- The adjusted coefficient (CurveFitting.h:391-401, 482-491). -/
noncomputable def adjOf (eps tot r2 : ℝ) (m n : ℕ) : ℝ :=
  if tot > eps then (if m > n then 1 - (1 - r2) * (m - 1) / (m - n) else r2) else r2

/-- The effective rank (CurveFitting.h:405-410, 494-499). -/
noncomputable def effRank (eps : ℝ) (m n : ℕ) (w : List ℝ) : Outcome ℕ := do
  let w0 ← Outcome.index w 0
  forRange n 0 (fun c i => do
    let x ← Outcome.index w i
    if x > 0.5 * Real.sqrt (m + n + 1.0) * w0 * eps then .ret (c + 1) else .ret c)

/-- The condition number (CurveFitting.h:413-416, 501-504). -/
noncomputable def condOf (w : List ℝ) (rank : ℕ) : Outcome (Option ℝ) :=
  if rank > 0 then do
    let last ← Outcome.index w (rank - 1)
    if last > 0 then do
      let w0 ← Outcome.index w 0
      let q ← divU w0 last
      .ret (some q)
    else .ret none
  else .ret none

/-- `GeneralLinearLeastSquares` (CurveFitting.h:328-419, 423-507). -/
noncomputable def generalFit (eps : ℝ) (decompose : Dense ℝ → Outcome SVD.Fac) (xs ys : List ℝ) (basis : List (ℝ → ℝ)) :
    Outcome GenFit :=
  if xs.length ≠ ys.length then .exn errFit
  else if xs.length = 0 then .exn errFit
  else if basis.length = 0 then .exn errFit
  else if xs.length < basis.length then .exn errFit
  else do
    let a ← design xs.length basis.length xs basis
    let s ← SVD.new decompose a
    let c ← SVD.solve eps (-1) s ys
    let res ← genRes xs.length basis.length a c ys
    let mse ← divU res xs.length
    let mean ← meanOf xs.length ys
    let tot ← totSum xs.length ys mean
    let rk ← effRank eps xs.length basis.length s.w
    let cond ← condOf s.w rk
    .ret ⟨c, Real.sqrt res, r2Of eps res tot, mse, adjOf eps tot (r2Of eps res tot) xs.length basis.length, xs.length,
      basis.length, rk, cond⟩

/-- The basis function of index `power` (CurveFitting.h:536-540). -/
noncomputable def monomial (power : ℕ) (x : ℝ) : ℝ := if power = 0 then 1 else x ^ power

/-- `PolynomialFit` (CurveFitting.h:526-544). -/
noncomputable def polyFit (eps : ℝ) (decompose : Dense ℝ → Outcome SVD.Fac) (xs ys : List ℝ) (degree : ℤ) : Outcome GenFit :=
  if degree < 0 then .exn errFit
  else generalFit eps decompose xs ys (tab (degree.toNat + 1) monomial)

/-- `GeneralLinearFitDetailed` (CurveFitting.h:587-609).  The result has no members for the numbers of points and of functions; they
are kept here. -/
noncomputable def generalFitDetailed (eps : ℝ) (decompose : Dense ℝ → Outcome SVD.Fac) (propagate : Bool) (xs ys : List ℝ)
    (basis : List (ℝ → ℝ)) : Outcome (Status × Option GenFit) :=
  execute propagate (generalFit eps decompose xs ys basis)

/-- `PolynomialFitDetailed` (CurveFitting.h:611-631); simplified as `generalFitDetailed`. -/
noncomputable def polyFitDetailed (eps : ℝ) (decompose : Dense ℝ → Outcome SVD.Fac) (propagate : Bool) (xs ys : List ℝ)
    (degree : ℤ) : Outcome (Status × Option GenFit) :=
  execute propagate (polyFit eps decompose xs ys degree)

end Verif.Fit
