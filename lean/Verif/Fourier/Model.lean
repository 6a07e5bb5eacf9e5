import Verif.Loops
import Mathlib.Analysis.SpecialFunctions.Trigonometric.Basic
import Mathlib.Analysis.SpecialFunctions.Complex.Circle

/-!
# Model of the Fourier, cosine and sine transforms

`mml/algorithms/Fourier.h`, `mml/algorithms/FourierRealFFT.h`.

`Complex` is `ℂ`, `Real` is `ℝ`, `Constants::PI` is `π`, and `std::cos`, `std::sin`, `std::sqrt`, `std::exp`
are the exact functions.  A `Vector` is the list of its elements; `operator[]` is unchecked
(Vector.h), so an access out of range is undefined behaviour (`Outcome.index`, `Outcome.store`).
`int` arithmetic on sizes does not overflow in the model.
-/

set_option autoImplicit false

noncomputable section

namespace Verif.Fourier

open Real (pi)

/-- `FourierValidation::ValidateNonEmpty` (Fourier.h:97-101). -/
def validateNonEmpty (size : ℕ) : Outcome Unit := if size = 0 then .exn .invalidArgument else .ret ()

/-- `FourierValidation::IsPowerOfTwo` and `FFT::IsPowerOfTwo` (Fourier.h:121, 441):
`(n > 0) && ((n & (n - 1)) == 0)`. -/
def isPowerOfTwo (n : ℕ) : Bool := decide (n > 0) && (n &&& (n - 1)) == 0

/-- `FourierValidation::ValidatePowerOfTwo` (Fourier.h:123-127). -/
def validatePowerOfTwo (size : ℕ) : Outcome Unit :=
  if !isPowerOfTwo size then .exn .invalidArgument else .ret ()

/-- `FourierValidation::ValidateFFTSize` (Fourier.h:129-132). -/
def validateFFTSize (size : ℕ) : Outcome Unit := do
  validateNonEmpty size
  validatePowerOfTwo size

/-- `FourierValidation::ValidateRealFFTSize` (Fourier.h:134-138). -/
def validateRealFFTSize (size minSize : ℕ) : Outcome Unit :=
  if size < minSize || !isPowerOfTwo size then .exn .invalidArgument else .ret ()

/-- `FourierValidation::ValidateMinSize` (Fourier.h:111-115).  Signed: `n2` may be -1. -/
def validateMinSize (size minSize : ℤ) : Outcome Unit :=
  if size < minSize then .exn .invalidArgument else .ret ()

/-! ## DFT -/

/-- The inner loop of `DFT::Forward` for output `k` (Fourier.h:212-217). -/
def dftForwardBin (data : List ℂ) (k : ℕ) : Outcome ℂ :=
  let N := data.length
  forRange N (0 : ℂ) (fun sum n => do
    let angle : ℝ := -(2 * pi) * k * n / N
    let twiddle : ℂ := ⟨Real.cos angle, Real.sin angle⟩
    let x ← Outcome.index data n
    .ret (sum + x * twiddle))

/-- `DFT::Forward` on complex data (Fourier.h:204-222). -/
def dftForward (data : List ℂ) : Outcome (List ℂ) := do
  let N := data.length
  validateNonEmpty N
  forRange N (List.replicate N (0 : ℂ)) (fun result k => do
    let sum ← dftForwardBin data k
    Outcome.store result k sum)

/-- `DFT::Forward` on real data (Fourier.h:225-235). -/
def dftForwardReal (data : List ℝ) : Outcome (List ℂ) := do
  let N := data.length
  validateNonEmpty N
  let complexData ← forRange N (List.replicate N (0 : ℂ)) (fun c i => do
    let x ← Outcome.index data i
    Outcome.store c i (⟨x, 0⟩ : ℂ))
  dftForward complexData

/-- `DFT::Inverse` (Fourier.h:238-256). -/
def dftInverse (spectrum : List ℂ) : Outcome (List ℂ) := do
  let N := spectrum.length
  validateNonEmpty N
  forRange N (List.replicate N (0 : ℂ)) (fun result n => do
    let sum ← forRange N (0 : ℂ) (fun sum k => do
      let angle : ℝ := 2 * pi * k * n / N
      let twiddle : ℂ := ⟨Real.cos angle, Real.sin angle⟩
      let x ← Outcome.index spectrum k
      .ret (sum + x * twiddle))
    Outcome.store result n (sum / ((N : ℝ) : ℂ)))

/-- `DFT::InverseReal` (Fourier.h:259-269). -/
def dftInverseReal (spectrum : List ℂ) : Outcome (List ℝ) := do
  let c ← dftInverse spectrum
  let N := c.length
  forRange N (List.replicate N (0 : ℝ)) (fun result i => do
    let x ← Outcome.index c i
    Outcome.store result i x.re)

/-- `DFT::ComputeBin` (Fourier.h:280-294).  The index is an `int`. -/
def computeBin (data : List ℂ) (k : ℤ) : Outcome ℂ :=
  if k < 0 ∨ k ≥ data.length then .exn .invalidArgument
  else dftForwardBin data k.toNat

/-! ## FFT -/

/-- The increment of `FFT::BitReversalPermute` (Fourier.h:532-537):
`k = n >> 1; while (k <= j) { j -= k; k >>= 1; } j += k;`.  With `k = 0` the loop would never end,
which without side effects is undefined in C++: `none`. -/
def bitRevIncrement (n j : ℕ) : Option ℕ :=
  (whileFuel (fun (s : ℕ × ℕ) => if s.2 ≤ s.1 then some (s.1 - s.2, s.2 / 2) else none) (n + 2) (j, n / 2)).map
    (fun s => s.1 + s.2)

/-- `std::swap(data[i], data[j])`. -/
def swapElems {α : Type} (data : List α) (i j : ℕ) : Outcome (List α) := do
  let a ← Outcome.index data i
  let b ← Outcome.index data j
  let data ← Outcome.store data i b
  Outcome.store data j a

/-- The body of the loop of `FFT::BitReversalPermute` (Fourier.h:527-537) on the vector and `j`. -/
def bitRevStep (n : ℕ) (s : List ℂ × ℕ) (i : ℕ) : Outcome (List ℂ × ℕ) :=
  (if i < s.2 then swapElems s.1 i s.2 else .ret s.1) >>= fun data =>
    match bitRevIncrement n s.2 with
    | none => .ub
    | some j => .ret (data, j)

/-- `FFT::BitReversalPermute` (Fourier.h:522-539). -/
def bitReversalPermute (data : List ℂ) : Outcome (List ℂ) := do
  let n := data.length
  let s ← forRange (n - 1) (data, 0) (bitRevStep n)
  .ret s.1

/-- The butterfly (Fourier.h:401-407). -/
def butterfly (w : ℂ) (mmax : ℕ) (data : List ℂ) (i : ℕ) : Outcome (List ℂ) := do
  let j := i + mmax
  let xj ← Outcome.index data j
  let temp := w * xj
  let u ← Outcome.index data i
  let data ← Outcome.store data j (u - temp)
  Outcome.store data i (u + temp)

/-- One pass of the `while` loop of `FFT::Transform` (Fourier.h:392-410). -/
def fftStage (isign : ℤ) (n mmax : ℕ) (data : List ℂ) : Outcome (List ℂ) := do
  let istep := 2 * mmax
  let theta : ℝ := -isign * pi / mmax
  let wp : ℂ := ⟨Real.cos theta, Real.sin theta⟩
  let s ← forRange mmax (data, (1 : ℂ)) (fun (s : List ℂ × ℂ) m => do
    let data ← forStep m n istep s.1 (fun data i => butterfly s.2 mmax data i)
    .ret (data, s.2 * wp))
  .ret s.1

/-- The `while (n > mmax)` loop of `FFT::Transform` (Fourier.h:390-412).  `fuel` bounds the number of
passes; running out would be an infinite loop (`fftTransform_spec` shows that it does not happen). -/
def fftStages (isign : ℤ) (n : ℕ) : ℕ → ℕ → List ℂ → Outcome (List ℂ)
  | 0, _, _ => .ub
  | fuel + 1, mmax, data =>
    if n > mmax then do
      let data ← fftStage isign n mmax data
      fftStages isign n fuel (2 * mmax) data
    else .ret data

/-- `FFT::Transform` (Fourier.h:381-413): the vector after the call. -/
def fftTransform (data : List ℂ) (isign : ℤ) : Outcome (List ℂ) := do
  let n := data.length
  validateFFTSize n
  let data ← bitReversalPermute data
  fftStages isign n (n + 1) 1 data

/-- `FFT::Forward` (Fourier.h:416-420). -/
def fftForward (data : List ℂ) : Outcome (List ℂ) := fftTransform data 1

/-- `FFT::Inverse` (Fourier.h:423-434). -/
def fftInverse (spectrum : List ℂ) : Outcome (List ℂ) := do
  let result ← fftTransform spectrum (-1)
  let norm : ℝ := 1 / (result.length : ℝ)
  forRange result.length result (fun r i => do
    let x ← Outcome.index r i
    Outcome.store r i (x * (norm : ℂ)))

/-- `FFT::NextPowerOfTwo` (Fourier.h:444-455).  The doubling loop ends after at most `n` passes
(`nextPowerOfTwo_spec`). -/
def nextPowerOfTwo (n : ℤ) : Option ℕ :=
  if n ≤ 0 then some 1
  else if isPowerOfTwo n.toNat then some n.toNat
  else whileFuel (fun power => if power < n.toNat then some (2 * power) else none) (n.toNat + 1) 1

/-- `FFT::ZeroPad` (Fourier.h:458-472). -/
def zeroPad (data : List ℂ) : Outcome (List ℂ) :=
  let n := data.length
  match nextPowerOfTwo n with
  | none => .ub
  | some paddedSize =>
    if paddedSize = n then .ret data
    else forRange n (List.replicate paddedSize (0 : ℂ)) (fun padded i => do
      let x ← Outcome.index data i
      Outcome.store padded i x)

/-- `FFT::Log2` (Fourier.h:475-482). -/
def log2 (n : ℕ) : Option ℕ :=
  (whileFuel (fun (s : ℕ × ℕ) => if s.1 > 1 then some (s.1 / 2, s.2 + 1) else none) (n + 1) (n, 0)).map
    Prod.snd

/-! ## DCT and DST -/

/-- `DCT::ForwardII_Reference` (Fourier.h:714-733). -/
def dctForwardReference (data : List ℝ) : Outcome (List ℝ) :=
  let N := data.length
  if N = 0 then .exn .invalidArgument
  else
    let fac : ℝ := 2 / N
    forRange N (List.replicate N (0 : ℝ)) (fun result k => do
      let sum ← forRange N (0 : ℝ) (fun sum n => do
        let x ← Outcome.index data n
        .ret (sum + x * Real.cos (pi * k * (n + 1 / 2) / N)))
      Outcome.store result k (fac * sum))

/-- `DCT::InverseII_Reference` (Fourier.h:738-759). -/
def dctInverseReference (coefficients : List ℝ) : Outcome (List ℝ) :=
  let N := coefficients.length
  if N = 0 then .exn .invalidArgument
  else
    forRange N (List.replicate N (0 : ℝ)) (fun result n => do
      let c0 ← Outcome.index coefficients 0
      let sum ← forFromTo 1 N (c0 / 2) (fun sum k => do
        let c ← Outcome.index coefficients k
        .ret (sum + c * Real.cos (pi * k * (n + 1 / 2) / N)))
      Outcome.store result n sum)

/-- `DCT::ForwardII_Fast` (Fourier.h:630-665). -/
def dctForwardFast (data : List ℝ) : Outcome (List ℝ) :=
  let N := data.length
  if N = 0 then .exn .invalidArgument
  else if !isPowerOfTwo N then .exn .invalidArgument
  else do
    let N2 := 2 * N
    let y ← forRange N (List.replicate N2 (0 : ℂ)) (fun y n => do
      let x ← Outcome.index data n
      Outcome.store y n (⟨x, 0⟩ : ℂ))
    let y ← forFromTo N N2 y (fun y n => do
      let x ← Outcome.index data (N2 - 1 - n)
      Outcome.store y n (⟨x, 0⟩ : ℂ))
    let y ← fftTransform y 1
    let scale : ℝ := 1 / N
    forRange N (List.replicate N (0 : ℝ)) (fun result k => do
      let theta : ℝ := -pi * k / N2
      let twiddle : ℂ := ⟨Real.cos theta, Real.sin theta⟩
      let yk ← Outcome.index y k
      let product := twiddle * yk
      Outcome.store result k (scale * product.re))

/-- `DCT::InverseII_Fast` (Fourier.h:672-709). -/
def dctInverseFast (coefficients : List ℝ) : Outcome (List ℝ) :=
  let N := coefficients.length
  if N = 0 then .exn .invalidArgument
  else if !isPowerOfTwo N then .exn .invalidArgument
  else do
    let N2 := 2 * N
    let Y ← forRange N (List.replicate N2 (0 : ℂ)) (fun Y k => do
      let coeff ← Outcome.index coefficients k
      let theta : ℝ := pi * k / N2
      let twiddle : ℂ := ⟨Real.cos theta, Real.sin theta⟩
      Outcome.store Y k ((coeff : ℂ) * twiddle))
    let Y ← forFromTo 1 N Y (fun Y k => do
      let y ← Outcome.index Y k
      Outcome.store Y (N2 - k) ((starRingEnd ℂ) y))
    let Y ← fftTransform Y (-1)
    forRange N (List.replicate N (0 : ℝ)) (fun result n => do
      let y ← Outcome.index Y n
      Outcome.store result n (y.re * (1 / 2)))

/-- `DCT::FAST_DCT_THRESHOLD` (Fourier.h:580). -/
def fastDctThreshold : ℕ := 32

/-- `DCT::ForwardII` (Fourier.h:586-600). -/
def dctForward (data : List ℝ) : Outcome (List ℝ) :=
  let N := data.length
  if N = 0 then .exn .invalidArgument
  else if N < fastDctThreshold || !isPowerOfTwo N then dctForwardReference data
  else dctForwardFast data

/-- `DCT::InverseII` (Fourier.h:605-618). -/
def dctInverse (coefficients : List ℝ) : Outcome (List ℝ) :=
  let N := coefficients.length
  if N = 0 then .exn .invalidArgument
  else if N < fastDctThreshold || !isPowerOfTwo N then dctInverseReference coefficients
  else dctInverseFast coefficients

/-- `DCT::ForwardDST` (Fourier.h:774-793). -/
def dstForward (data : List ℝ) : Outcome (List ℝ) :=
  let N := data.length
  if N = 0 then .exn .invalidArgument
  else
    let norm : ℝ := Real.sqrt (2 / (N + 1))
    forRange N (List.replicate N (0 : ℝ)) (fun result k => do
      let sum ← forRange N (0 : ℝ) (fun sum n => do
        let x ← Outcome.index data n
        .ret (sum + x * Real.sin (pi * (k + 1) * (n + 1) / (N + 1))))
      Outcome.store result k (norm * sum))

/-- `DCT::InverseDST` (Fourier.h:799-801). -/
def dstInverse (coefficients : List ℝ) : Outcome (List ℝ) := dstForward coefficients

/-! ## Real FFT -/

/-- Packing pairs of reals into complex numbers (FourierRealFFT.h:56-59, 167-172). -/
def packReal (data : List ℝ) : Outcome (List ℂ) :=
  let n2 := data.length / 2
  forRange n2 (List.replicate n2 (0 : ℂ)) (fun temp i => do
    let a ← Outcome.index data (2 * i)
    let b ← Outcome.index data (2 * i + 1)
    Outcome.store temp i (⟨a, b⟩ : ℂ))

/-- The middle components of the forward real transform (FourierRealFFT.h:76-89, 184-190). -/
def realMiddle (temp : List ℂ) (n2 k : ℕ) : Outcome ℂ := do
  let theta : ℝ := -pi / n2
  let w : ℂ := Complex.exp (⟨0, k * theta⟩ : ℂ)
  let z1 ← Outcome.index temp k
  let z ← Outcome.index temp (n2 - k)
  let z2 := (starRingEnd ℂ) z
  let even := ((1 / 2 : ℝ) : ℂ) * (z1 + z2)
  let odd := (⟨0, -(1 / 2)⟩ : ℂ) * (z1 - z2)
  .ret (even + w * odd)

/-- `RealFFT::Forward` (FourierRealFFT.h:51-93). -/
def realForward (data : List ℝ) : Outcome (List ℂ) := do
  let n := data.length
  validateRealFFTSize n 2
  let n2 := n / 2
  let temp ← packReal data
  let temp ← fftTransform temp 1
  let t0 ← Outcome.index temp 0
  let result ← Outcome.store (List.replicate (n2 + 1) (0 : ℂ)) 0 (⟨t0.re + t0.im, 0⟩ : ℂ)
  let result ← Outcome.store result n2 (⟨t0.re - t0.im, 0⟩ : ℂ)
  forFromTo 1 n2 result (fun result k => do
    let x ← realMiddle temp n2 k
    Outcome.store result k x)

/-- The recombination of the inverse real transform (FourierRealFFT.h:119-130, 205-209). -/
def realRecombine (n2 k : ℕ) (z1 z2 : ℂ) : ℂ :=
  let theta : ℝ := pi / n2
  let w : ℂ := Complex.exp (⟨0, k * theta⟩ : ℂ)
  let even := ((1 / 2 : ℝ) : ℂ) * (z1 + z2)
  let odd := (⟨0, 1 / 2⟩ : ℂ) * (z1 - z2)
  even + w * odd

/-- `RealFFT::Inverse` (FourierRealFFT.h:103-148). -/
def realInverse (spectrum : List ℂ) : Outcome (List ℝ) := do
  validateMinSize ((spectrum.length : ℤ) - 1) 1
  let n2 := spectrum.length - 1
  let n := 2 * n2
  let s0 ← Outcome.index spectrum 0
  let sn ← Outcome.index spectrum n2
  let temp ← Outcome.store (List.replicate n2 (0 : ℂ)) 0
    (⟨1 / 2 * (s0.re + sn.re), 1 / 2 * (s0.re - sn.re)⟩ : ℂ)
  let temp ← forFromTo 1 n2 temp (fun temp k => do
    let z1 ← Outcome.index spectrum k
    let z ← Outcome.index spectrum (n2 - k)
    Outcome.store temp k (realRecombine n2 k z1 ((starRingEnd ℂ) z)))
  let temp ← fftTransform temp (-1)
  let result ← forRange n2 (List.replicate n (0 : ℝ)) (fun result i => do
    let t ← Outcome.index temp i
    let result ← Outcome.store result (2 * i) t.re
    Outcome.store result (2 * i + 1) t.im)
  forRange n result (fun result i => do
    let x ← Outcome.index result i
    Outcome.store result i (x / n2))

/-- `RealFFT::Transform` (FourierRealFFT.h:163-220): the vector after the call. -/
def realTransform (data : List ℝ) (isign : ℤ) : Outcome (List ℝ) := do
  let n := data.length
  validateRealFFTSize n 2
  let n2 := n / 2
  let temp ← packReal data
  let temp ← fftTransform temp isign
  if isign = 1 then do
    let t0 ← Outcome.index temp 0
    let data ← Outcome.store data 0 (t0.re + t0.im)
    let data ← Outcome.store data 1 (t0.re - t0.im)
    forFromTo 1 n2 data (fun data k => do
      let x ← realMiddle temp n2 k
      let data ← Outcome.store data (2 * k) x.re
      Outcome.store data (2 * k + 1) x.im)
  else do
    let d0 ← Outcome.index data 0
    let d1 ← Outcome.index data 1
    let temp ← Outcome.store temp 0 (⟨1 / 2 * (d0 + d1), 1 / 2 * (d0 - d1)⟩ : ℂ)
    let temp ← forFromTo 1 n2 temp (fun temp k => do
      let a ← Outcome.index data (2 * k)
      let b ← Outcome.index data (2 * k + 1)
      let c ← Outcome.index data (n - 2 * k)
      let d ← Outcome.index data (n - 2 * k + 1)
      Outcome.store temp k (realRecombine n2 k ⟨a, b⟩ ⟨c, -d⟩))
    let temp ← fftTransform temp (-1)
    forRange n2 data (fun data i => do
      let t ← Outcome.index temp i
      let data ← Outcome.store data (2 * i) (t.re / n2)
      Outcome.store data (2 * i + 1) (t.im / n2))

end Verif.Fourier
