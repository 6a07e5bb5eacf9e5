import Mathlib.Analysis.SpecialFunctions.Complex.Circle

/-!
# What the transforms are supposed to compute

Stated without reference to the model.  Elements of a vector are read with `getD _ 0`; all indices below
are in range.
-/

set_option autoImplicit false

noncomputable section

namespace Verif.Fourier

open Real (pi)
open Complex (I)

/-- `X` is the discrete Fourier transform of `x`:  X[k] = Σ_n x[n] exp(-2πi k n / N). -/
def IsDFT (x X : List ℂ) : Prop :=
  X.length = x.length ∧
    ∀ k < x.length, X.getD k 0 =
      ∑ n ∈ Finset.range x.length, x.getD n 0 * Complex.exp (-2 * pi * I * k * n / x.length)

/-- `x` is the inverse discrete Fourier transform of `X`:  x[n] = (1/N) Σ_k X[k] exp(2πi k n / N). -/
def IsIDFT (X x : List ℂ) : Prop :=
  x.length = X.length ∧
    ∀ n < X.length, x.getD n 0 =
      (∑ k ∈ Finset.range X.length, X.getD k 0 * Complex.exp (2 * pi * I * k * n / X.length)) / X.length

/-- The DCT-II with the code's scaling:  c[k] = (2/N) Σ_n x[n] cos(π k (n + 1/2) / N). -/
def IsDCT (x c : List ℝ) : Prop :=
  c.length = x.length ∧
    ∀ k < x.length, c.getD k 0 =
      2 / x.length * ∑ n ∈ Finset.range x.length, x.getD n 0 * Real.cos (pi * k * (n + 1 / 2) / x.length)

/-- The inverse DCT-II:  x[n] = c[0]/2 + Σ_{k≥1} c[k] cos(π k (n + 1/2) / N). -/
def IsIDCT (c x : List ℝ) : Prop :=
  x.length = c.length ∧
    ∀ n < c.length, x.getD n 0 =
      c.getD 0 0 / 2 +
        ∑ k ∈ Finset.Ico 1 c.length, c.getD k 0 * Real.cos (pi * k * (n + 1 / 2) / c.length)

/-- The orthonormal DST-I:  X[k] = √(2/(N+1)) Σ_n x[n] sin(π (k+1) (n+1) / (N+1)). -/
def IsDST (x X : List ℝ) : Prop :=
  X.length = x.length ∧
    ∀ k < x.length, X.getD k 0 =
      Real.sqrt (2 / (x.length + 1)) *
        ∑ n ∈ Finset.range x.length, x.getD n 0 * Real.sin (pi * (k + 1) * (n + 1) / (x.length + 1))

/-- `H` is the full spectrum of a real signal whose first half is `S`: conjugate symmetric, and real in
the bins 0 and N/2. -/
def IsHermitianExtension (S H : List ℂ) : Prop :=
  H.length = 2 * (S.length - 1) ∧
    H.getD 0 0 = ((S.getD 0 0).re : ℂ) ∧
    H.getD (S.length - 1) 0 = ((S.getD (S.length - 1) 0).re : ℂ) ∧
    ∀ k, 0 < k → k < S.length - 1 →
      H.getD k 0 = S.getD k 0 ∧ H.getD (H.length - k) 0 = (starRingEnd ℂ) (S.getD k 0)

end Verif.Fourier
