import Verif.Mat.Dense
import Mathlib.Analysis.SpecialFunctions.Log.Basic
import Mathlib.Analysis.SpecialFunctions.Sqrt
import Mathlib.Data.EReal.Basic
import Mathlib.Data.List.Sort
import Mathlib.Algebra.Order.Floor.Ring

/-!
# Model of the descriptive statistics

`mml/algorithms/Statistics.h` and `mml/algorithms/Statistics/StatisticsRank.h`.  Data are lists of exact real numbers and
`int` arithmetic does not overflow.  A quotient by zero and the square root of a negative number are undefined (`.ub`) where the
code would produce a NaN.  Output parameters are returned as tuples.  The `...Detailed` wrappers (StatisticsRank.h:242-308),
which only add timing and catch exceptions, are not modelled.
-/

set_option autoImplicit false

namespace Verif.Stats

open Verif

/-- `StatisticsError` (MMLExceptions.h:255-261). -/
def statErr : Exn := .mml "StatisticsError"

/-- A quotient of floating-point numbers. -/
noncomputable def quot (a b : ℝ) : Outcome ℝ := if b = 0 then .ub else .ret (a / b)

/-- `std::sqrt`. -/
noncomputable def stdSqrt (a : ℝ) : Outcome ℝ := if a < 0 then .ub else .ret (Real.sqrt a)

/-! ## Mean, variance, moments -/

/-- The accumulation `s += data[j]`. -/
noncomputable def sumStep (d : List ℝ) (s : ℝ) (j : ℕ) : Outcome ℝ := do
  let x ← Outcome.index d j
  .ret (s + x)

/-- `Avg` and `Mean` (Statistics.h:26-38, 68). -/
noncomputable def avg (d : List ℝ) : Outcome ℝ :=
  if d.length ≤ 0 then .exn statErr
  else do
    let s ← forRange d.length 0 (sumStep d)
    quot s d.length

/-- The loop body of `AvgVar` (Statistics.h:51-55); the state is `(outVar, ep)`. -/
noncomputable def avgVarStep (d : List ℝ) (a : ℝ) (st : ℝ × ℝ) (j : ℕ) : Outcome (ℝ × ℝ) := do
  let x ← Outcome.index d j
  .ret (st.1 + (x - a) * (x - a), st.2 + (x - a))

/-- `AvgVar` (Statistics.h:41-57). -/
noncomputable def avgVar (d : List ℝ) : Outcome (ℝ × ℝ) :=
  if d.length ≤ 0 then .exn statErr
  else do
    let a ← avg d
    let st ← forRange d.length (0, 0) (avgVarStep d a)
    let c ← quot (st.2 * st.2) d.length
    let v ← quot (st.1 - c) ((d.length : ℝ) - 1)
    .ret (a, v)

/-- `AvgStdDev` (Statistics.h:58-65). -/
noncomputable def avgStdDev (d : List ℝ) : Outcome (ℝ × ℝ) :=
  if d.length ≤ 0 then .exn statErr
  else do
    let r ← avgVar d
    let s ← stdSqrt r.2
    .ret (r.1, s)

/-- `Variance` (Statistics.h:70-74). -/
noncomputable def variance (d : List ℝ) : Outcome ℝ := do
  let r ← avgVar d
  .ret r.2

/-- `StdDev` (Statistics.h:76-80). -/
noncomputable def stdDev (d : List ℝ) : Outcome ℝ := do
  let r ← avgStdDev d
  .ret r.2

/-- The accumulators of `Moments`: `adev, ep, var, skew, curt` (Statistics.h:95-102). -/
@[ext] structure Sums where
  adev : ℝ
  ep : ℝ
  var : ℝ
  skew : ℝ
  curt : ℝ

/-- The results of `Moments` (Statistics.h:83). -/
@[ext] structure MomentsResult where
  ave : ℝ
  adev : ℝ
  sdev : ℝ
  var : ℝ
  skew : ℝ
  curt : ℝ

/-- The loop body of `Moments` (Statistics.h:96-102). -/
noncomputable def momentsStep (d : List ℝ) (ave : ℝ) (st : Sums) (j : ℕ) : Outcome Sums := do
  let x ← Outcome.index d j
  let s := x - ave
  let p2 := s * s
  let p3 := p2 * s
  let p4 := p3 * s
  .ret ⟨st.adev + |s|, st.ep + s, st.var + p2, st.skew + p3, st.curt + p4⟩

/-- The last part of `Moments` (Statistics.h:107-111). -/
noncomputable def momentsFinish (n ave adev sdev var skew curt : ℝ) : Outcome MomentsResult :=
  if var ≠ 0 then do
    let sk ← quot skew (n * var * sdev)
    let cu ← quot curt (n * var * var)
    .ret ⟨ave, adev, sdev, var, sk, cu - 3⟩
  else .exn statErr

/-- `Moments` (Statistics.h:83-112). -/
noncomputable def moments (d : List ℝ) : Outcome MomentsResult :=
  if d.length ≤ 1 then .exn statErr
  else do
    let s ← forRange d.length 0 (sumStep d)
    let ave ← quot s d.length
    let st ← forRange d.length ⟨0, 0, 0, 0, 0⟩ (momentsStep d ave)
    let adev ← quot st.adev d.length
    let c ← quot (st.ep * st.ep) d.length
    let var ← quot (st.var - c) ((d.length : ℝ) - 1)
    let sdev ← stdSqrt var
    momentsFinish d.length ave adev sdev var st.skew st.curt

/-! ## Order statistics -/

/-- The sorted copy made by the order statistics (Statistics.h:133-137 and the like): `std::sort` of numbers. -/
noncomputable def sorted (d : List ℝ) : List ℝ := d.insertionSort (· ≤ ·)

/-- `Median` (Statistics.h:128-143). -/
noncomputable def median (d : List ℝ) : Outcome ℝ :=
  if d.length ≤ 0 then .exn statErr
  else if d.length % 2 = 0 then do
    let a ← Outcome.index (sorted d) (d.length / 2 - 1)
    let b ← Outcome.index (sorted d) (d.length / 2)
    .ret ((a + b) / 2)
  else Outcome.index (sorted d) (d.length / 2)

/-- Reading `v[i]` with an `int` index. -/
noncomputable def indexInt (v : List ℝ) (i : ℤ) : Outcome ℝ := if i < 0 then .ub else Outcome.index v i.toNat

/-- The interpolation in `Percentile` (Statistics.h:176-184). -/
noncomputable def interpolate (s : List ℝ) (rank : ℝ) : Outcome ℝ :=
  if ⌊rank⌋ = ⌈rank⌉ then indexInt s ⌊rank⌋
  else do
    let lo ← indexInt s ⌊rank⌋
    let hi ← indexInt s ⌈rank⌉
    .ret (lo + (rank - ⌊rank⌋) * (hi - lo))

/-- `Percentile` (Statistics.h:156-185). -/
noncomputable def percentile (d : List ℝ) (p : ℝ) : Outcome ℝ :=
  if d.length ≤ 0 then .exn statErr
  else if p < 0 ∨ p > 100 then .exn statErr
  else if p = 0 then Outcome.index (sorted d) 0
  else if p = 100 then Outcome.index (sorted d) (d.length - 1)
  else interpolate (sorted d) (p / 100 * ((d.length : ℝ) - 1))

/-- `Quartiles` (Statistics.h:198-206). -/
noncomputable def quartiles (d : List ℝ) : Outcome (ℝ × ℝ × ℝ) :=
  if d.length ≤ 0 then .exn statErr
  else do
    let q1 ← percentile d 25
    let q2 ← percentile d 50
    let q3 ← percentile d 75
    .ret (q1, q2, q3)

/-- The loop body of `Range` and `MinMax` (Statistics.h:224-229, 266-271). -/
noncomputable def minMaxStep (d : List ℝ) (st : ℝ × ℝ) (i : ℕ) : Outcome (ℝ × ℝ) := do
  let x ← Outcome.index d i
  let lo := if x < st.1 then x else st.1
  let hi := if x > st.2 then x else st.2
  .ret (lo, hi)

/-- `MinMax` (Statistics.h:259-272). -/
noncomputable def minMax (d : List ℝ) : Outcome (ℝ × ℝ) :=
  if d.length ≤ 0 then .exn statErr
  else do
    let x ← Outcome.index d 0
    forFromTo 1 d.length (x, x) (minMaxStep d)

/-- `Range` (Statistics.h:217-231): the same loop as `MinMax`. -/
noncomputable def range (d : List ℝ) : Outcome ℝ :=
  if d.length ≤ 0 then .exn statErr
  else do
    let x ← Outcome.index d 0
    let r ← forFromTo 1 d.length (x, x) (minMaxStep d)
    .ret (r.2 - r.1)

/-- `IQR` (Statistics.h:243-249). -/
noncomputable def iqr (d : List ℝ) : Outcome ℝ :=
  if d.length ≤ 0 then .exn statErr
  else do
    let q3 ← percentile d 75
    let q1 ← percentile d 25
    .ret (q3 - q1)

/-- The state of the loop in `Mode` (Statistics.h:305-307). -/
@[ext] structure ModeState where
  mode : ℝ
  maxCount : ℕ
  current : ℕ

/-- The end of a run in `Mode` (Statistics.h:313-317). -/
noncomputable def endRun (st : ModeState) (prev : ℝ) : ModeState :=
  if st.current > st.maxCount then ⟨prev, st.current, 1⟩ else ⟨st.mode, st.maxCount, 1⟩

/-- The loop body of `Mode` (Statistics.h:309-319). -/
noncomputable def modeStep (s : List ℝ) (st : ModeState) (i : ℕ) : Outcome ModeState := do
  let x ← Outcome.index s i
  let prev ← Outcome.index s (i - 1)
  if x = prev then .ret { st with current := st.current + 1 } else .ret (endRun st prev)

/-- `Mode` (Statistics.h:292-326). -/
noncomputable def mode (d : List ℝ) : Outcome ℝ :=
  if d.length ≤ 0 then .exn statErr
  else if d.length = 1 then Outcome.index d 0
  else do
    let x ← Outcome.index (sorted d) 0
    let st ← forFromTo 1 d.length ⟨x, 1, 1⟩ (modeStep (sorted d))
    let last ← Outcome.index (sorted d) (d.length - 1)
    if st.current > st.maxCount then .ret last else .ret st.mode

/-- The loop body of `TrimmedMean` (Statistics.h:359-362); the state is `(sum, count)`. -/
noncomputable def trimStep (s : List ℝ) (st : ℝ × ℕ) (i : ℕ) : Outcome (ℝ × ℕ) := do
  let x ← Outcome.index s i
  .ret (st.1 + x, st.2 + 1)

/-- The number of values `TrimmedMean` drops at each end (Statistics.h:354); not negative for the accepted percentages. -/
noncomputable def trimCount (n : ℕ) (p : ℝ) : ℕ := ⌊(n : ℝ) * p / 100⌋.toNat

/-- `TrimmedMean` (Statistics.h:340-368). -/
noncomputable def trimmedMean (d : List ℝ) (p : ℝ) : Outcome ℝ :=
  if d.length ≤ 0 then .exn statErr
  else if p < 0 ∨ p ≥ 50 then .exn statErr
  else do
    let st ← forFromTo (trimCount d.length p) (d.length - trimCount d.length p) (0, 0) (trimStep (sorted d))
    if st.2 = 0 then .exn statErr else quot st.1 st.2

/-- The loop filling the deviations in `MAD` (Statistics.h:391-393). -/
noncomputable def devStep (d : List ℝ) (m : ℝ) (v : List ℝ) (i : ℕ) : Outcome (List ℝ) := do
  let x ← Outcome.index d i
  Outcome.store v i |x - m|

/-- `MAD` (Statistics.h:383-396). -/
noncomputable def mad (d : List ℝ) : Outcome ℝ :=
  if d.length ≤ 0 then .exn statErr
  else do
    let m ← median d
    let v ← forRange d.length (List.replicate d.length 0) (devStep d m)
    median v

/-! ## Other means -/

/-- The loop body of `GeometricMean` (Statistics.h:416-420). -/
noncomputable def logStep (d : List ℝ) (s : ℝ) (i : ℕ) : Outcome ℝ := do
  let x ← Outcome.index d i
  if x ≤ 0 then .exn statErr else .ret (s + Real.log x)

/-- `GeometricMean` (Statistics.h:410-423). -/
noncomputable def geometricMean (d : List ℝ) : Outcome ℝ :=
  if d.length ≤ 0 then .exn statErr
  else do
    let s ← forRange d.length 0 (logStep d)
    let m ← quot s d.length
    .ret (Real.exp m)

/-- The loop body of `HarmonicMean` (Statistics.h:443-447). -/
noncomputable def recipStep (d : List ℝ) (s : ℝ) (i : ℕ) : Outcome ℝ := do
  let x ← Outcome.index d i
  if x ≤ 0 then .exn statErr
  else do
    let r ← quot 1 x
    .ret (s + r)

/-- `HarmonicMean` (Statistics.h:437-450). -/
noncomputable def harmonicMean (d : List ℝ) : Outcome ℝ :=
  if d.length ≤ 0 then .exn statErr
  else do
    let s ← forRange d.length 0 (recipStep d)
    quot d.length s

/-- The loop body of `WeightedMean` (Statistics.h:472-477); the state is `(weightedSum, totalWeight)`. -/
noncomputable def weightStep (d w : List ℝ) (st : ℝ × ℝ) (i : ℕ) : Outcome (ℝ × ℝ) := do
  let wi ← Outcome.index w i
  if wi < 0 then .exn statErr
  else do
    let x ← Outcome.index d i
    .ret (st.1 + wi * x, st.2 + wi)

/-- `WeightedMean` (Statistics.h:463-483). -/
noncomputable def weightedMean (d w : List ℝ) : Outcome ℝ :=
  if d.length ≤ 0 then .exn statErr
  else if w.length ≠ d.length then .exn statErr
  else do
    let st ← forRange d.length (0, 0) (weightStep d w)
    if st.2 ≤ 0 then .exn statErr else quot st.1 st.2

/-- The loop body of `WeightedVariance` (Statistics.h:508-514). -/
noncomputable def weightVarStep (d w : List ℝ) (m : ℝ) (st : ℝ × ℝ) (i : ℕ) : Outcome (ℝ × ℝ) := do
  let wi ← Outcome.index w i
  if wi < 0 then .exn statErr
  else do
    let x ← Outcome.index d i
    .ret (st.1 + wi * (x - m) * (x - m), st.2 + wi)

/-- `WeightedVariance` (Statistics.h:497-520). -/
noncomputable def weightedVariance (d w : List ℝ) : Outcome ℝ :=
  if d.length < 2 then .exn statErr
  else if w.length ≠ d.length then .exn statErr
  else do
    let m ← weightedMean d w
    let st ← forRange d.length (0, 0) (weightVarStep d w m)
    if st.2 ≤ 1 then .exn statErr else quot st.1 (st.2 - 1)

/-! ## Covariance and correlation -/

/-- The loop body of `Covariance` (Statistics.h:550-552). -/
noncomputable def covStep (x y : List ℝ) (mx my : ℝ) (s : ℝ) (i : ℕ) : Outcome ℝ := do
  let a ← Outcome.index x i
  let b ← Outcome.index y i
  .ret (s + (a - mx) * (b - my))

/-- `Covariance` (Statistics.h:538-555). -/
noncomputable def covariance (x y : List ℝ) : Outcome ℝ :=
  if x.length ≤ 1 then .exn statErr
  else if y.length ≠ x.length then .exn statErr
  else do
    let mx ← avg x
    let my ← avg y
    let s ← forRange x.length 0 (covStep x y mx my)
    quot s ((x.length : ℝ) - 1)

/-- The loop body of `PearsonCorrelation` (Statistics.h:588-594); the state is `(sumXY, sumX2, sumY2)`. -/
noncomputable def pearsonStep (x y : List ℝ) (mx my : ℝ) (s : ℝ × ℝ × ℝ) (i : ℕ) : Outcome (ℝ × ℝ × ℝ) := do
  let a ← Outcome.index x i
  let b ← Outcome.index y i
  .ret (s.1 + (a - mx) * (b - my), s.2.1 + (a - mx) * (a - mx), s.2.2 + (b - my) * (b - my))

/-- The last part of `PearsonCorrelation` (Statistics.h:596-601). -/
noncomputable def pearsonFinish (s : ℝ × ℝ × ℝ) : Outcome ℝ :=
  if s.2.1 = 0 then .exn statErr
  else if s.2.2 = 0 then .exn statErr
  else do
    let q ← stdSqrt (s.2.1 * s.2.2)
    quot s.1 q

/-- `PearsonCorrelation` (Statistics.h:572-602). -/
noncomputable def pearson (x y : List ℝ) : Outcome ℝ :=
  if x.length ≤ 1 then .exn statErr
  else if y.length ≠ x.length then .exn statErr
  else do
    let mx ← avg x
    let my ← avg y
    let s ← forRange x.length (0, 0, 0) (pearsonStep x y mx my)
    pearsonFinish s

/-- The `t` statistic of `PearsonCorrelationWithTest` (Statistics.h:638-645). -/
noncomputable def tStatistic (r df : ℝ) : Outcome EReal :=
  if r * r ≥ 1 then .ret (if r > 0 then ⊤ else ⊥)
  else do
    let q ← quot df (1 - r * r)
    let s ← stdSqrt q
    .ret ((r * s : ℝ) : EReal)

/-- `PearsonCorrelationWithTest` (Statistics.h:629-648): `r`, the `t` statistic and the degrees of freedom. -/
noncomputable def pearsonWithTest (x y : List ℝ) : Outcome (ℝ × EReal × ℕ) :=
  if x.length ≤ 2 then .exn statErr
  else do
    let r ← pearson x y
    let t ← tStatistic r ((x.length - 2 : ℕ) : ℝ)
    .ret (r, t, x.length - 2)

/-- `RSquared` (Statistics.h:658-661). -/
noncomputable def rSquared (x y : List ℝ) : Outcome ℝ := do
  let r ← pearson x y
  .ret (r * r)

/-- Adding up column `j` (Statistics.h:686-687). -/
noncomputable def colStep (m : Mat.Dense ℝ) (j : ℕ) (s : ℝ) (i : ℕ) : Outcome ℝ := do
  let a ← m.get i j
  .ret (s + a)

/-- One mean in `CovarianceMatrix` (Statistics.h:684-689). -/
noncomputable def meanStep (m : Mat.Dense ℝ) (v : List ℝ) (j : ℕ) : Outcome (List ℝ) := do
  let s ← forRange m.rows 0 (colStep m j)
  let q ← quot s m.rows
  Outcome.store v j q

/-- One term of a covariance (Statistics.h:696-698). -/
noncomputable def covTerm (m : Mat.Dense ℝ) (means : List ℝ) (j1 j2 : ℕ) (s : ℝ) (i : ℕ) : Outcome ℝ := do
  let a ← m.get i j1
  let ma ← Outcome.index means j1
  let b ← m.get i j2
  let mb ← Outcome.index means j2
  .ret (s + (a - ma) * (b - mb))

/-- One pair of entries of the covariance matrix (Statistics.h:694-702). -/
noncomputable def covEntry (m : Mat.Dense ℝ) (means : List ℝ) (j1 : ℕ) (c : Mat.Dense ℝ) (j2 : ℕ) :
    Outcome (Mat.Dense ℝ) := do
  let s ← forRange m.rows 0 (covTerm m means j1 j2)
  let q ← quot s ((m.rows : ℝ) - 1)
  let c ← c.set j1 j2 q
  c.set j2 j1 q

/-- `CovarianceMatrix` (Statistics.h:673-706). -/
noncomputable def covarianceMatrix (m : Mat.Dense ℝ) : Outcome (Mat.Dense ℝ) :=
  if m.rows ≤ 1 then .exn statErr
  else if m.cols ≤ 0 then .exn statErr
  else do
    let means ← forRange m.cols (List.replicate m.cols 0) (meanStep m)
    let c ← Mat.Dense.new (m.cols : ℤ) (m.cols : ℤ)
    forRange m.cols c (fun c j1 => forFromTo j1 m.cols c (covEntry m means j1))

/-- One standard deviation in `CorrelationMatrix` (Statistics.h:730-734). -/
noncomputable def sdStep (c : Mat.Dense ℝ) (v : List ℝ) (j : ℕ) : Outcome (List ℝ) := do
  let a ← c.get j j
  if a ≤ 0 then .exn statErr
  else do
    let s ← stdSqrt a
    Outcome.store v j s

/-- One entry of the correlation matrix (Statistics.h:739-741). -/
noncomputable def corrEntry (c : Mat.Dense ℝ) (sd : List ℝ) (j1 : ℕ) (r : Mat.Dense ℝ) (j2 : ℕ) :
    Outcome (Mat.Dense ℝ) := do
  let a ← c.get j1 j2
  let s1 ← Outcome.index sd j1
  let s2 ← Outcome.index sd j2
  let q ← quot a (s1 * s2)
  r.set j1 j2 q

/-- `CorrelationMatrix` (Statistics.h:716-745). -/
noncomputable def correlationMatrix (m : Mat.Dense ℝ) : Outcome (Mat.Dense ℝ) :=
  if m.rows ≤ 1 then .exn statErr
  else if m.cols ≤ 0 then .exn statErr
  else do
    let c ← covarianceMatrix m
    let sd ← forRange m.cols (List.replicate m.cols 0) (sdStep c)
    let r ← Mat.Dense.new (m.cols : ℤ) (m.cols : ℤ)
    forRange m.cols r (fun r j1 => forRange m.cols r (corrEntry c sd j1))

/-! ## Ranks -/

/-- The tie tolerance `1e-14` (StatisticsRank.h:50, 173). -/
noncomputable def eps : ℝ := 1 / 10 ^ 14

/-- A result `std::sort` may leave in the index array of `ComputeRanks` (StatisticsRank.h:36-42): the order of indices with
equal values is not specified. -/
def SortedIndices (d : List ℝ) (idx : List ℕ) : Prop :=
  idx.Perm (List.range d.length) ∧ idx.Pairwise fun a b => d.getD a 0 ≤ d.getD b 0

/-- The inner search for the end of a group of ties (StatisticsRank.h:50-51); `none` when the condition fails. -/
noncomputable def tieStep (d : List ℝ) (idx : List ℕ) (i : ℕ) (j : ℕ) : Outcome (Option ℕ) :=
  if j < d.length - 1 then do
    let b ← Outcome.index idx (j + 1)
    let a ← Outcome.index idx i
    let y ← Outcome.index d b
    let x ← Outcome.index d a
    if |y - x| < eps then .ret (some (j + 1)) else .ret none
  else .ret none

/-- The inner `while` loop (StatisticsRank.h:50-51); it runs at most `fuel` times, and `d.length` rounds suffice. -/
noncomputable def tieEnd (d : List ℝ) (idx : List ℕ) (i : ℕ) : ℕ → ℕ → Outcome ℕ
  | 0, _ => .ub
  | fuel + 1, j => do
    match ← tieStep d idx i j with
    | none => .ret j
    | some j' => tieEnd d idx i fuel j'

/-- Giving one member of a group its rank (StatisticsRank.h:55-56). -/
noncomputable def rankStep (idx : List ℕ) (r : ℝ) (ranks : List ℝ) (k : ℕ) : Outcome (List ℝ) := do
  let a ← Outcome.index idx k
  Outcome.store ranks a r

/-- The outer `while` loop (StatisticsRank.h:47-59); every round advances, so `d.length + 1` rounds suffice. -/
noncomputable def rankLoop (d : List ℝ) (idx : List ℕ) : ℕ → ℕ → List ℝ → Outcome (List ℝ)
  | 0, _, _ => .ub
  | fuel + 1, i, ranks =>
    if i < d.length then do
      let j ← tieEnd d idx i (d.length + 1) i
      let ranks ← forFromTo i (j + 1) ranks (rankStep idx (((i : ℝ) + 1 + j + 1) / 2))
      rankLoop d idx fuel (j + 1) ranks
    else .ret ranks

/-- `ComputeRanks` (StatisticsRank.h:29-62), given the order the sort leaves the indices in. -/
noncomputable def computeRanks (d : List ℝ) (idx : List ℕ) : Outcome (List ℝ) :=
  if d.length = 0 then .ret []
  else rankLoop d idx (d.length + 1) 0 (List.replicate d.length 0)

/-- `SpearmanCorrelation` (StatisticsRank.h:80-94). -/
noncomputable def spearman (x y : List ℝ) (ix iy : List ℕ) : Outcome ℝ :=
  if x.length < 2 then .exn statErr
  else if y.length ≠ x.length then .exn statErr
  else do
    let rx ← computeRanks x ix
    let ry ← computeRanks y iy
    pearson rx ry

/-- `SpearmanCorrelationWithTest` (StatisticsRank.h:124-136): the coefficient, the score and the sample size. -/
noncomputable def spearmanWithTest (x y : List ℝ) (ix iy : List ℕ) : Outcome (ℝ × ℝ × ℕ) :=
  if x.length < 3 then .exn statErr
  else do
    let r ← spearman x y ix iy
    let s ← stdSqrt ((x.length - 1 : ℕ) : ℝ)
    .ret (r, r * s, x.length)

/-- The counters of `KendallCorrelation` (StatisticsRank.h:168-171). -/
@[ext] structure Counts where
  concordant : ℤ
  discordant : ℤ
  tiedX : ℤ
  tiedY : ℤ

/-- Counting one pair (StatisticsRank.h:181-195). -/
noncomputable def countPair (dx dy : ℝ) (c : Counts) : Counts :=
  if |dx| < eps ∧ |dy| < eps then c
  else if |dx| < eps then { c with tiedX := c.tiedX + 1 }
  else if |dy| < eps then { c with tiedY := c.tiedY + 1 }
  else if (dx > 0 ∧ dy > 0) ∨ (dx < 0 ∧ dy < 0) then { c with concordant := c.concordant + 1 }
  else { c with discordant := c.discordant + 1 }

/-- The inner loop body (StatisticsRank.h:177-196). -/
noncomputable def pairStep (x y : List ℝ) (i : ℕ) (c : Counts) (j : ℕ) : Outcome Counts := do
  let xj ← Outcome.index x j
  let xi ← Outcome.index x i
  let yj ← Outcome.index y j
  let yi ← Outcome.index y i
  .ret (countPair (xj - xi) (yj - yi) c)

/-- The formula at the end of `KendallCorrelation` (StatisticsRank.h:200-207). -/
noncomputable def kendallFinish (c : Counts) : Outcome ℝ :=
  if ((c.concordant + c.discordant + c.tiedX : ℤ) : ℝ) ≤ 0 ∨ ((c.concordant + c.discordant + c.tiedY : ℤ) : ℝ) ≤ 0 then .ret 0
  else do
    let s ← stdSqrt (((c.concordant + c.discordant + c.tiedX : ℤ) : ℝ) * ((c.concordant + c.discordant + c.tiedY : ℤ) : ℝ))
    quot ((c.concordant - c.discordant : ℤ) : ℝ) s

/-- `KendallCorrelation` (StatisticsRank.h:160-208). -/
noncomputable def kendall (x y : List ℝ) : Outcome ℝ :=
  if x.length < 2 then .exn statErr
  else if y.length ≠ x.length then .exn statErr
  else do
    let c ← forRange (x.length - 1) ⟨0, 0, 0, 0⟩ (fun c i => forFromTo (i + 1) x.length c (pairStep x y i))
    kendallFinish c

/-- `KendallCorrelationWithTest` (StatisticsRank.h:222-236). -/
noncomputable def kendallWithTest (x y : List ℝ) : Outcome (ℝ × ℝ × ℕ) :=
  if x.length < 3 then .exn statErr
  else do
    let tau ← kendall x y
    let v ← quot (2 * (2 * (x.length : ℝ) + 5)) (9 * (x.length : ℝ) * ((x.length : ℝ) - 1))
    let s ← stdSqrt v
    let z ← quot tau s
    .ret (tau, z, x.length)

end Verif.Stats
