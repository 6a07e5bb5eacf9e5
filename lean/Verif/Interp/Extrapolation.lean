import Verif.Deriv.Richardson
import Verif.Interp.Model

/-!
# Extrapolation to a zero step (RichardsonExtrapolation.h)

`NevilleExtrapolate`, `Extrapolate`, `SimpleExtrapolate` and `SimpleErrorEstimate`.  Numbers are exact reals.  The tableau code is the
same as in Integration1D.h and DerivationRealFunction.h, whose models are used again.
-/

set_option autoImplicit false

namespace Verif.Interp.Ext

open Verif Integ

/-- `RichardsonResult` (RichardsonExtrapolation.h:24-33). -/
structure Res where
  value : ℝ
  err : ℝ
  iters : ℕ
  conv : Bool

/-- The test of the divisor (RichardsonExtrapolation.h:87). -/
def Bad (den : ℝ) : Prop := |den| < divisionThreshold

/-- The tableau (RichardsonExtrapolation.h:78-104) from column `m`, `n` columns left. -/
noncomputable def nevLoop (x : List ℝ) (K : ℕ) : ℕ → ℕ → Tableau → Outcome Res
  | 0, _, t => .ret ⟨t.ss, |t.dss|, K, true⟩
  | n + 1, m, t => do
    match ← forRange (K - m) (some (t.c, t.d)) (nevilleEntry Bad x 0 m) with
    | none => .ret ⟨t.ss, |t.dss|, m, false⟩
    | some (c, d) => do
      let t' ← correct K m t c d
      nevLoop x K n (m + 1) t'

/-- `NevilleExtrapolate` (RichardsonExtrapolation.h:48-105). -/
noncomputable def neville (y x : List ℝ) : Outcome Res :=
  if y.length < 2 ∨ x.length ≠ y.length then .ret ⟨if y = [] then 0 else y.headD 0, 0, 0, false⟩
  else do
    let x0 ← Outcome.index x 0
    let st ← forRange y.length ⟨0, |x0|, List.replicate y.length 0, List.replicate y.length 0⟩ (startStep x y 0)
    let ss ← Outcome.index y st.ns
    nevLoop x y.length (y.length - 1) 1 ⟨(st.ns : ℤ) - 1, ss, 0, st.c, st.d⟩

open Classical in
/-- The result of `Extrapolate` (RichardsonExtrapolation.h:173). -/
noncomputable def extResult (big err ans : ℝ) (it : ℕ) : Res := ⟨ans, err, it, decide (err < big)⟩

/-- The loop of `Extrapolate` (RichardsonExtrapolation.h:141-171) with `n` rounds left; `prev` is the last column of the tableau and
`it` is `final_iter`.  The inner loop (RichardsonExtrapolation.h:147-164) is that of DerivationRealFunction.h. -/
noncomputable def extLoop (big : ℝ) (eval : ℝ → ℝ) (con safe : ℝ) : ℕ → ℕ → List ℝ → ℝ → ℝ → ℝ → Outcome Res
  | 0, it, _, _, err, ans => .ret (extResult big err ans it)
  | n + 1, it, prev, hh, err, ans =>
    if con = 0 then .ub
    else (Deriv.richColumn (con * con) prev (eval (hh / con)) (con * con) err ans).bind fun r =>
      if safe * r.2.1 ≤ |(eval (hh / con) :: r.1).getLastD 0 - prev.getLastD 0| then .ret (extResult big r.2.1 r.2.2 (it + 1))
      else extLoop big eval con safe n (it + 1) (eval (hh / con) :: r.1) (hh / con) r.2.1 r.2.2

/-- `Extrapolate` (RichardsonExtrapolation.h:123-174); `big` is the largest finite value.  A negative depth makes the constructor of
the tableau throw; depth zero writes the first entry of an empty tableau. -/
noncomputable def extrapolateTo (big : ℝ) (eval : ℝ → ℝ) (h0 con : ℝ) (maxIter : ℤ) (safe : ℝ) : Outcome Res :=
  if |h0| < divisionThreshold then .ret ⟨0, big, 0, false⟩
  else if maxIter < 0 then .exn .lengthError
  else if maxIter = 0 then .ub
  else extLoop big eval con safe (maxIter.toNat - 1) 1 [eval h0] h0 big (eval h0)

/-- `std::pow(r, p)` with an `int` exponent: a negative power of zero is undefined here (an infinity in the code). -/
noncomputable def powInt (r : ℝ) (p : ℤ) : Outcome ℝ := if r = 0 ∧ p < 0 then .ub else .ret (r ^ p)

/-- `SimpleExtrapolate` (RichardsonExtrapolation.h:189-193). -/
noncomputable def simple (a b r : ℝ) (p : ℤ) : Outcome ℝ := do
  let rp ← powInt r p
  fdiv (rp * b - a) (rp - 1)

/-- `SimpleErrorEstimate` (RichardsonExtrapolation.h:201-205). -/
noncomputable def simpleError (a b r : ℝ) (p : ℤ) : Outcome ℝ := do
  let rp ← powInt r p
  fdiv |b - a| (rp - 1)

end Verif.Interp.Ext
