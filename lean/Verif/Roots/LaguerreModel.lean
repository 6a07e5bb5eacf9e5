import Verif.Roots.ClosedModel

/-!
# Model of the iterative polynomial solvers (mml/algorithms/RootFinding/RootFindingPolynoms.h:204-490)

Numbers are exact.  Where the code divides by zero it gets an infinity or a NaN.  In both methods no test is passed by such an
iterate or its successors, so that the iterations run out and the function throws; the model throws at once.
-/

set_option autoImplicit false

namespace Verif.Roots

open Verif Outcome

/-! ## Laguerre -/

/-- The values `(p, dp, d2p)` of the evaluation loop. -/
structure Jet where
  p : ℂ
  dp : ℂ
  d2p : ℂ

/-- One step of the evaluation (RootFindingPolynoms.h:245-247). -/
noncomputable def lagHorner (w : List ℂ) (x : ℂ) (s : Jet) (j : ℕ) : Outcome Jet := do
  let c ← index w j
  ret ⟨s.p * x + c, s.dp * x + s.p, s.d2p * x + s.dp⟩

/-- The evaluation (RootFindingPolynoms.h:240-249) before the doubling of `d2p`, and without `d2p` at 280-286. -/
noncomputable def lagEval (w : List ℂ) (cd : ℕ) (x : ℂ) : Outcome Jet := do
  let c ← index w cd
  forDown 0 cd (⟨c, 0, 0⟩ : Jet) (lagHorner w x)

/-- `denom` (RootFindingPolynoms.h:257-264) from the degree, `G` and `H`. -/
noncomputable def lagDenom (n : ℕ) (G H : ℂ) : ℂ :=
  if ‖G + csqrt ((n - 1) * (n * H - G * G))‖ > ‖G - csqrt ((n - 1) * (n * H - G * G))‖ then
    G + csqrt ((n - 1) * (n * H - G * G))
  else G - csqrt ((n - 1) * (n * H - G * G))

/-- The correction `dx` (RootFindingPolynoms.h:257-266); `none` when it is not finite. -/
noncomputable def lagCorrection (cd : ℕ) (s : Jet) : Option ℂ :=
  if s.p = 0 ∨ lagDenom cd (s.dp / s.p) (s.dp / s.p * (s.dp / s.p) - s.d2p * 2 / s.p) = 0 then none
  else some (cd / lagDenom cd (s.dp / s.p) (s.dp / s.p * (s.dp / s.p) - s.d2p * 2 / s.p))

/-- The iteration (RootFindingPolynoms.h:237-276) with `fuel` rounds left. -/
noncomputable def lagIterate (w : List ℂ) (cd : ℕ) (tol : ℝ) : ℕ → ℂ → Outcome ℂ
  | 0, _ => exn (.mml "RootFindingError")
  | fuel + 1, x => do
    let s ← lagEval w cd x
    if ‖s.p‖ < tol then ret x
    else match lagCorrection cd s with
      | none => exn (.mml "RootFindingError")
      | some dx => if ‖dx‖ < tol then ret (x - dx) else lagIterate w cd tol fuel (x - dx)

/-- One polishing step (RootFindingPolynoms.h:279-290).  For `tol < 0` and `dp = 0` the quotient is not finite. -/
noncomputable def polish (w : List ℂ) (cd : ℕ) (tol : ℝ) (x : ℂ) (_ : ℕ) : Outcome ℂ := do
  let s ← lagEval w cd x
  if ‖s.dp‖ > tol then (if s.dp = 0 then ub else ret (x - s.p / s.dp)) else ret x

/-- One step of the deflation (RootFindingPolynoms.h:298-300) on `(workCoeffs, b)`. -/
noncomputable def deflateStep (x : ℂ) (s : List ℂ × ℂ) (j : ℕ) : Outcome (List ℂ × ℂ) := do
  let temp ← index s.1 j
  let w ← store s.1 j s.2
  ret (w, temp + x * s.2)

/-- The deflation (RootFindingPolynoms.h:295-302). -/
noncomputable def deflate (cd : ℕ) (x : ℂ) (w : List ℂ) : Outcome (List ℂ) :=
  if cd > 1 then do
    let b ← index w cd
    let s ← forDown 0 cd (w, b) (deflateStep x)
    ret s.1
  else ret w

/-- One root (RootFindingPolynoms.h:233-302) on `(workCoeffs, roots)`. -/
noncomputable def lagRoot (tol : ℝ) (maxIter : ℕ) (s : List ℂ × List ℂ) (cd : ℕ) : Outcome (List ℂ × List ℂ) := do
  let x ← lagIterate s.1 cd tol maxIter ⟨1 / 2, 1 / 2⟩
  let x ← forRange 3 x (polish s.1 cd tol)
  let w ← deflate cd x s.1
  ret (w, s.2 ++ [x])

/-- `LaguerreRoots` (RootFindingPolynoms.h:219-306).  The degree is one less than the number of coefficients; for none or one the
result is empty. -/
noncomputable def laguerreRoots (poly : List ℝ) (tol : ℝ) (maxIter : ℤ) : Outcome (List ℂ) :=
  if poly.length ≤ 1 then ret []
  else do
    let s ← forDown 1 poly.length (poly.map Complex.ofReal, []) (lagRoot tol maxIter.toNat)
    ret s.2

/-! ## Bairstow -/

/-- One step of the synthetic divisions (RootFindingPolynoms.h:408, 426): `b[i]` from the dividend `a`. -/
noncomputable def synthStep (a : List ℝ) (u v : ℝ) (b : List ℝ) (i : ℕ) : Outcome (List ℝ) := do
  let a2 ← index a (i + 2)
  let b1 ← index b (i + 1)
  let b2 ← index b (i + 2)
  store b i (a2 - u * b1 - v * b2)

/-- A synthetic division by `x² + u x + v` (RootFindingPolynoms.h:405-412, 423-430), `n ≥ 2`: the quotient and the remainder. -/
noncomputable def synth (a : List ℝ) (n : ℕ) (u v : ℝ) (b : List ℝ) : Outcome (List ℝ × ℝ × ℝ) := do
  let b ← store b n 0
  let b ← store b (n - 1) 0
  let b ← forDown 0 (n - 1) b (synthStep a u v)
  let a1 ← index a 1
  let a0 ← index a 0
  let b0 ← index b 0
  let b1 ← index b 1
  ret (b, a1 - u * b0 - v * b1, a0 - v * b0)

/-- `DeterminantZeroThreshold` (MMLPrecision.h:153). -/
noncomputable def detThreshold : ℝ := 1 / 10 ^ 15

/-- `PolynomialCoeffZeroThreshold` (MMLPrecision.h:151). -/
noncomputable def coeffThreshold : ℝ := 1 / 10 ^ 12

/-- The determinant (RootFindingPolynoms.h:434). -/
def bairstowDet (u v g h : ℝ) : ℝ := v * g * g + h * (h - u * g)

/-- `du` (RootFindingPolynoms.h:444). -/
noncomputable def bairstowDu (u v c d g h : ℝ) : ℝ := (-h * c + g * d) / bairstowDet u v g h

/-- `dv` (RootFindingPolynoms.h:445). -/
noncomputable def bairstowDv (u v c d g h : ℝ) : ℝ := (-g * v * c + (g * u - h) * d) / bairstowDet u v g h

/-- The iteration (RootFindingPolynoms.h:400-457) with `fuel` rounds left: the final `u`, `v` and `b`. -/
noncomputable def bairstowIterate (a : List ℝ) (n : ℕ) (tol : ℝ) : ℕ → ℝ → ℝ → List ℝ → List ℝ → Outcome (ℝ × ℝ × List ℝ)
  | 0, _, _, _, _ => exn (.mml "runtime_error")
  | fuel + 1, u, v, b, f => do
    let r ← synth a n u v b
    if |r.2.1| < tol ∧ |r.2.2| < tol then ret (u, v, r.1)
    else do
      let q ← synth r.1 n u v f
      if |bairstowDet u v q.2.1 q.2.2| < detThreshold then bairstowIterate a n tol fuel (u + 0.1) (v + 0.1) r.1 q.1
      else if |bairstowDu u v r.2.1 r.2.2 q.2.1 q.2.2| < tol ∧ |bairstowDv u v r.2.1 r.2.2 q.2.1 q.2.2| < tol then
        ret (u - bairstowDu u v r.2.1 r.2.2 q.2.1 q.2.2, v - bairstowDv u v r.2.1 r.2.2 q.2.1 q.2.2, r.1)
      else
        bairstowIterate a n tol fuel (u - bairstowDu u v r.2.1 r.2.2 q.2.1 q.2.2)
          (v - bairstowDv u v r.2.1 r.2.2 q.2.1 q.2.2) r.1 q.1

/-- The two roots of the quadratic factor (RootFindingPolynoms.h:461-470). -/
noncomputable def factorRoots (u v : ℝ) : List ℂ :=
  if u * u - 4 * v ≥ 0 then [⟨(-u + Real.sqrt (u * u - 4 * v)) / 2, 0⟩, ⟨(-u - Real.sqrt (u * u - 4 * v)) / 2, 0⟩]
  else [⟨-u / 2, Real.sqrt (-(u * u - 4 * v)) / 2⟩, ⟨-u / 2, -Real.sqrt (-(u * u - 4 * v)) / 2⟩]

/-- The first guess for `u` and `v` (RootFindingPolynoms.h:382-391), for the first factor (`whole`) from the given roots if there are
two. -/
noncomputable def firstGuess (init : List ℂ) (whole : Bool) : ℝ × ℝ :=
  match init, whole with
  | r1 :: r2 :: _, true => (-(r1 + r2).re, (r1 * r2).re)
  | _, _ => (0, 1)

/-- The linear factor that remains (RootFindingPolynoms.h:483-486), for `n ≤ 1`. -/
noncomputable def lastRoot (a : List ℝ) (n : ℕ) : Outcome (List ℂ) :=
  if n = 1 then do
    let a1 ← index a 1
    let a0 ← index a 0
    if |a1| > coeffThreshold then ret [((-a0 / a1 : ℝ) : ℂ)] else ret []
  else ret []

/-- The loop over the factors (RootFindingPolynoms.h:379-486).  The first `n - 1` entries of `b` are the next dividend. -/
noncomputable def bairstowLoop (init : List ℂ) (tol : ℝ) (maxIter : ℕ) : ℕ → Bool → List ℝ → Outcome (List ℂ)
  | n + 2, whole, a => do
    let r ← bairstowIterate a (n + 2) tol maxIter (firstGuess init whole).1 (firstGuess init whole).2
      (List.replicate (n + 3) 0) (List.replicate (n + 3) 0)
    let rest ← bairstowLoop init tol maxIter n false (if n > 0 then r.2.2.take (n + 1) else a)
    ret (factorRoots r.1 r.2.1 ++ rest)
  | n, _, a => lastRoot a n

/-- `BairstowRoots` (RootFindingPolynoms.h:366-489). -/
noncomputable def bairstowRoots (poly : List ℝ) (init : List ℂ) (tol : ℝ) (maxIter : ℤ) : Outcome (List ℂ) :=
  if poly.length ≤ 1 then ret [] else bairstowLoop init tol maxIter.toNat (poly.length - 1) true poly

end Verif.Roots
