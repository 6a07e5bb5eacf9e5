import Mathlib.Algebra.BigOperators.Group.Finset.Basic
import Mathlib.Data.Real.Sqrt
import Verif.Common

/-!
# Model of the Monte Carlo integrators

`mml/core/Integration/MonteCarloIntegration.h`.  A random stream is an arbitrary function `u : ℕ → ℝ`; the `k`-th
call of `_uniform(_rng)` after seeding is `u k`.  Real numbers are exact, counters do not wrap, the counts given as
`int` are not negative, and the clock and the status texts are left out.  A quotient with divisor zero and the
square root of a negative number are the outcome `ub`.
-/

set_option autoImplicit false

namespace Verif.Integ.MC

open Verif

variable {N : ℕ}

/-- `MonteCarloResult` (MonteCarloIntegration.h:31-38). -/
structure Result where
  value : ℝ
  error : ℝ
  variance : ℝ
  samples : ℕ
  converged : Bool

/-- The result for a region of volume zero (MonteCarloIntegration.h:112-119, 282-289). -/
noncomputable def zero : Result := ⟨0, 0, 0, 0, true⟩

/-- `std::sqrt`. -/
noncomputable def usqrt (v : ℝ) : Outcome ℝ := open Classical in if v < 0 then .ub else .ret (Real.sqrt v)

/-- The volume loop (MonteCarloIntegration.h:107-110, 275-280, 408-411). -/
noncomputable def volume (lower upper : Fin N → ℝ) : ℝ := ∏ d, (upper d - lower d)

/-- The `k`-th random point (MonteCarloIntegration.h:138-141, 160-163, 417-420). -/
noncomputable def point (lower upper : Fin N → ℝ) (u : ℕ → ℝ) (k : ℕ) : Fin N → ℝ :=
  fun d => lower d + u (k * N + d) * (upper d - lower d)

/-- The reflected point (MonteCarloIntegration.h:145-147). -/
noncomputable def reflect (lower upper p : Fin N → ℝ) : Fin N → ℝ := fun d => lower d + upper d - p d

/-- Adding a value to the sum and its square to the sum of squares (MonteCarloIntegration.h:152-153, 166-167,
331-332). -/
noncomputable def tally (s : ℝ × ℝ) (v : ℝ) : ℝ × ℝ := (s.1 + v, s.2 + v * v)

/-- The average over a point and its reflection (MonteCarloIntegration.h:138-151). -/
noncomputable def pairValue (f : (Fin N → ℝ) → ℝ) (lower upper : Fin N → ℝ) (u : ℕ → ℝ) (k : ℕ) : ℝ :=
  0.5 * (f (point lower upper u k) + f (reflect lower upper (point lower upper u k)))

open Classical in
/-- The test of convergence (MonteCarloIntegration.h:184-185, 353-354); `thr` is `DivisionSafetyThreshold`. -/
noncomputable def converged (thr target integral error : ℝ) : Bool :=
  decide (|integral| < thr ∨ error / |integral| < target)

/-- The statistics of the plain integrator (MonteCarloIntegration.h:172-192). -/
noncomputable def finish (vol thr target : ℝ) (s : ℝ × ℝ) (n samples : ℕ) : Outcome Result :=
  if n = 0 then .ub
  else do
    let mean := s.1 / n
    let variance := s.2 / n - mean * mean
    let se ← usqrt (variance / n)
    .ret ⟨vol * mean, vol * se, variance, samples, converged thr target (vol * mean) (vol * se)⟩

open Classical in
/-- `MonteCarloIntegrator::integrate` (MonteCarloIntegration.h:102-198). -/
noncomputable def integrate (f : (Fin N → ℝ) → ℝ) (lower upper : Fin N → ℝ) (u : ℕ → ℝ) (numSamples : ℕ)
    (thr target : ℝ) (antithetic : Bool) : Outcome Result :=
  if volume lower upper = 0 then .ret zero
  else if antithetic then
    finish (volume lower upper) thr target
      ((List.range (numSamples / 2)).foldl (fun s k => tally s (pairValue f lower upper u k)) (0, 0))
      (numSamples / 2) (numSamples / 2 * 2)
  else
    finish (volume lower upper) thr target
      ((List.range numSamples).foldl (fun s k => tally s (f (point lower upper u k))) (0, 0)) numSamples numSamples

/-- The increment of the stratum counter, lowest digit first (MonteCarloIntegration.h:336-341). -/
def bump (m : ℕ) : List ℕ → List ℕ
  | [] => []
  | x :: xs => if x + 1 < m then (x + 1) :: xs else 0 :: bump m xs

/-- `delta` (MonteCarloIntegration.h:278). -/
noncomputable def delta (lower upper : Fin N → ℝ) (m : ℕ) (d : Fin N) : ℝ := (upper d - lower d) / m

/-- A random point of a stratum (MonteCarloIntegration.h:313-314, 323-326). -/
noncomputable def stratumPoint (lower upper : Fin N → ℝ) (u : ℕ → ℝ) (m : ℕ) (idx : List ℕ) (k : ℕ) : Fin N → ℝ :=
  fun d => lower d + (idx.getD d 0 : ℕ) * delta lower upper m d + u (k * N + d) * delta lower upper m d

/-- The mean over a stratum; `k` counts the points drawn before (MonteCarloIntegration.h:319-330). -/
noncomputable def stratumMean (f : (Fin N → ℝ) → ℝ) (lower upper : Fin N → ℝ) (u : ℕ → ℝ) (m per : ℕ) (idx : List ℕ)
    (k : ℕ) : ℝ :=
  (List.range per).foldl (fun s i => s + f (stratumPoint lower upper u m idx (k + i))) 0 / per

/-- The state of the loop over the strata. -/
structure Strata where
  sums : ℝ × ℝ
  total : ℕ
  idx : List ℕ

/-- One stratum (MonteCarloIntegration.h:310-342). -/
noncomputable def stratum (f : (Fin N → ℝ) → ℝ) (lower upper : Fin N → ℝ) (u : ℕ → ℝ) (m per : ℕ) (s : Strata) : Strata :=
  ⟨tally s.sums (stratumMean f lower upper u m per s.idx s.total), s.total + per, bump m s.idx⟩

open Classical in
/-- `StratifiedMonteCarloIntegrator::integrate` (MonteCarloIntegration.h:266-367); `strict` is
`DefaultToleranceStrict`.  Without strata, or without samples, the means are quotients by zero. -/
noncomputable def stratified (f : (Fin N → ℝ) → ℝ) (lower upper : Fin N → ℝ) (u : ℕ → ℝ) (m per : ℕ)
    (thr strict : ℝ) : Outcome Result :=
  if m = 0 then .ub
  else if volume lower upper = 0 then .ret zero
  else if per = 0 then .ub
  else do
    let t := m ^ N
    let s := (List.range t).foldl (fun s _ => stratum f lower upper u m per s) ⟨(0, 0), 0, List.replicate N 0⟩
    let mean := s.sums.1 / t
    let variance := (s.sums.2 / t - mean * mean) / t
    let se ← usqrt variance
    .ret ⟨volume lower upper * mean, volume lower upper * se, variance, s.total,
      converged thr strict (volume lower upper * mean) (volume lower upper * se)⟩

/-- `HitOrMissIntegrator::estimateVolume` (MonteCarloIntegration.h:400-445). -/
noncomputable def hitOrMiss (inside : (Fin N → ℝ) → Bool) (lower upper : Fin N → ℝ) (u : ℕ → ℝ) (n : ℕ) : Outcome Result :=
  if n = 0 then .ub
  else do
    let hits := (List.range n).foldl (fun h k => if inside (point lower upper u k) then h + 1 else h) 0
    let p : ℝ := (hits : ℕ) / n
    let se ← usqrt (p * (1 - p) / n)
    .ret ⟨volume lower upper * p, volume lower upper * se, p * (1 - p), n, true⟩

open Classical in
/-- `EstimateUnitBallVolume` (MonteCarloIntegration.h:473-491). -/
noncomputable def unitBall (N : ℕ) (u : ℕ → ℝ) (n : ℕ) : Outcome Result :=
  hitOrMiss (N := N) (fun p => decide (∑ d, p d * p d ≤ 1)) (fun _ => -1) (fun _ => 1) u n

open Classical in
/-- `EstimatePi` (MonteCarloIntegration.h:454-467). -/
noncomputable def estimatePi (u : ℕ → ℝ) (n : ℕ) : Outcome Result :=
  hitOrMiss (N := 2) (fun p => decide (p 0 * p 0 + p 1 * p 1 ≤ 1)) (fun _ => -1) (fun _ => 1) u n

end Verif.Integ.MC
