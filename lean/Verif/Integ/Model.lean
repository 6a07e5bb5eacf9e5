import Verif.Loops
import Mathlib.Data.Real.Basic

/-!
# Model of the refining one-dimensional integrators

`mml/core/Integration/Integration1D.h`.  Numbers are exact reals.  The integrand is a total function without side effects.
The limits `Defaults::...MaxSteps`, which a user may change, are parameters.
-/

set_option autoImplicit false

namespace Verif.Integ

open Verif

/-- `std::numeric_limits<Real>::epsilon()` for `double`. -/
noncomputable def machEps : ℝ := 1 / 2 ^ 52

/-- `IntegrationResult` (IntegrationBase.h:12-28). -/
@[ext] structure Result where
  value : ℝ
  error : ℝ
  iterations : ℕ
  converged : Bool

/-! ## Refining trapezoidal sums -/

/-- `TrapIntegrator` (Integration1D.h:49-56): the number of calls so far and the current sum. -/
@[ext] structure Trap where
  step : ℕ
  sum : ℝ

/-- The doubling loop for `subDivNum` (Integration1D.h:67-68) after `n` rounds; overflow of `int` is undefined. -/
def subDiv : ℕ → Outcome ℕ
  | 0 => .ret 1
  | n + 1 => do
    let s ← subDiv n
    if s * 2 ≤ 2147483647 then .ret (s * 2) else .ub

/-- The sampling loop (Integration1D.h:73-74), `n` rounds from `x`. -/
noncomputable def sample (f : ℝ → ℝ) (del : ℝ) : ℕ → ℝ → ℝ → ℝ
  | 0, _, sum => sum
  | n + 1, x, sum => sample f del n (x + del) (sum + f x)

/-- A stage after the first (Integration1D.h:67-78). -/
noncomputable def Trap.refine (f : ℝ → ℝ) (a b : ℝ) (t : Trap) : Outcome Trap := do
  let n ← subDiv (t.step + 1 - 2)
  .ret ⟨t.step + 1,
    1 / 2 * (t.sum + (b - a) * sample f ((b - a) / n) n (a + 1 / 2 * ((b - a) / n)) 0 / n)⟩

/-- `TrapIntegrator::next` (Integration1D.h:58-80). -/
noncomputable def Trap.next (f : ℝ → ℝ) (a b : ℝ) (t : Trap) : Outcome Trap :=
  if t.step + 1 = 1 then .ret ⟨1, 1 / 2 * (b - a) * (f a + f b)⟩ else t.refine f a b

/-! ## `IntegrateTrap` -/

/-- The stopping test of `IntegrateTrap` and `IntegrateSimpson` (Integration1D.h:108-110, 149-151). -/
def settled (eps : ℝ) (j : ℕ) (curr old : ℝ) : Prop :=
  j > 5 ∧ |curr - old| < eps * |old| + eps * machEps

open Classical in
/-- The loop of `IntegrateTrap` (Integration1D.h:104-120) with `n` rounds left; `curr` is `none` while the variable is
uninitialised, and reading it then is undefined. -/
noncomputable def trapLoop (f : ℝ → ℝ) (a b eps : ℝ) : ℕ → ℕ → Trap → ℝ → Option ℝ → Outcome Result
  | 0, _, _, _, none => .ub
  | 0, j, _, old, some curr => .ret ⟨curr, |curr - old|, j, false⟩
  | n + 1, j, t, old, _ => do
    let t ← t.next f a b
    if settled eps j t.sum old then .ret ⟨t.sum, |t.sum - old|, j, true⟩
    else trapLoop f a b eps n (j + 1) t t.sum (some t.sum)

/-- `IntegrateTrap` (Integration1D.h:95-121). -/
noncomputable def integrateTrap (maxSteps : ℕ) (f : ℝ → ℝ) (a b eps : ℝ) : Outcome Result :=
  trapLoop f a b eps maxSteps 0 ⟨0, 0⟩ 0 none

/-! ## `IntegrateSimpson` -/

open Classical in
/-- The loop of `IntegrateSimpson` (Integration1D.h:143-162). -/
noncomputable def simpsonLoop (f : ℝ → ℝ) (a b eps : ℝ) : ℕ → ℕ → Trap → ℝ → ℝ → Option ℝ → Outcome Result
  | 0, _, _, _, _, none => .ub
  | 0, j, _, _, old, some curr => .ret ⟨curr, |curr - old|, j, false⟩
  | n + 1, j, t, ost, old, _ => do
    let t ← t.next f a b
    if settled eps j ((4 * t.sum - ost) / 3) old
    then .ret ⟨(4 * t.sum - ost) / 3, |(4 * t.sum - ost) / 3 - old|, j, true⟩
    else simpsonLoop f a b eps n (j + 1) t t.sum ((4 * t.sum - ost) / 3) (some ((4 * t.sum - ost) / 3))

/-- `IntegrateSimpson` (Integration1D.h:133-163). -/
noncomputable def integrateSimpson (maxSteps : ℕ) (f : ℝ → ℝ) (a b eps : ℝ) : Outcome Result :=
  simpsonLoop f a b eps maxSteps 0 ⟨0, 0⟩ 0 0 none

/-! ## `IntegrateRomberg` -/

/-- `Precision::DivisionSafetyThreshold` (MMLPrecision.h:154). -/
noncomputable def divisionThreshold : ℝ := 1 / 10 ^ 30

/-- The arrays of the extrapolation with `ns` and `dif` (Integration1D.h:236-252). -/
structure Start where
  ns : ℕ
  dif : ℝ
  c : List ℝ
  d : List ℝ

/-- The choice of the nearest point (Integration1D.h:244-249). -/
noncomputable def nearest (st : Start) (i : ℕ) (dift : ℝ) : Start :=
  if dift < st.dif then { st with ns := i, dif := dift } else st

/-- The initialising loop body (Integration1D.h:242-252); `o` is `j - K + 1`. -/
noncomputable def startStep (h s : List ℝ) (o : ℕ) (st : Start) (i : ℕ) : Outcome Start := do
  let hi ← Outcome.index h (o + i)
  let si ← Outcome.index s (o + i)
  let c ← Outcome.store (nearest st i |hi|).c i si
  let d ← Outcome.store (nearest st i |hi|).d i si
  .ret ⟨(nearest st i |hi|).ns, (nearest st i |hi|).dif, c, d⟩

open Classical in
/-- One entry of a column of the tableau (Integration1D.h:261-277, IntegrationImproper.h:171-182); `none` for the early return,
taken when the divisor is `bad`. -/
noncomputable def nevilleEntry (bad : ℝ → Prop) (h : List ℝ) (o m : ℕ) (cd : Option (List ℝ × List ℝ)) (i : ℕ) :
    Outcome (Option (List ℝ × List ℝ)) :=
  match cd with
  | none => .ret none
  | some (c, d) => do
    let ho ← Outcome.index h (o + i)
    let hp ← Outcome.index h (o + i + m)
    let c1 ← Outcome.index c (i + 1)
    let d0 ← Outcome.index d i
    if bad (ho - hp) then .ret none
    else do
      let d ← Outcome.store d i (hp * ((c1 - d0) / (ho - hp)))
      let c ← Outcome.store c i (ho * ((c1 - d0) / (ho - hp)))
      .ret (some (c, d))

/-- The state of the tableau loop (Integration1D.h:255-286). -/
structure Tableau where
  ns : ℤ
  ss : ℝ
  dss : ℝ
  c : List ℝ
  d : List ℝ

/-- Reading an array at an `int` index. -/
def indexInt (v : List ℝ) (i : ℤ) : Outcome ℝ := if i < 0 then .ub else Outcome.index v i.toNat

/-- The choice of the correction (Integration1D.h:279-285). -/
noncomputable def correct (K m : ℕ) (t : Tableau) (c d : List ℝ) : Outcome Tableau :=
  if 2 * (t.ns + 1) < (K : ℤ) - m then do
    let e ← indexInt c (t.ns + 1)
    .ret ⟨t.ns, t.ss + e, e, c, d⟩
  else do
    let e ← indexInt d t.ns
    .ret ⟨t.ns - 1, t.ss + e, e, c, d⟩

/-- The tableau loop (Integration1D.h:259-286, IntegrationImproper.h:169-185) from column `m`, `n` columns left: the values `(ss, dss)` and whether all
divisors were good. -/
noncomputable def tableauLoop (bad : ℝ → Prop) (h : List ℝ) (K o : ℕ) : ℕ → ℕ → Tableau → Outcome (ℝ × ℝ × Bool)
  | 0, _, t => .ret (t.ss, t.dss, true)
  | n + 1, m, t => do
    match ← forRange (K - m) (some (t.c, t.d)) (nevilleEntry bad h o m) with
    | none => .ret (t.ss, t.dss, false)
    | some (c, d) => do
      let t' ← correct K m t c d
      tableauLoop bad h K o n (m + 1) t'

/-- The extrapolation to `h = 0` from the last `K` stages (Integration1D.h:236-286, IntegrationImproper.h:153-185), starting at index `o = j - K + 1`. -/
noncomputable def extrapolate (bad : ℝ → Prop) (h s : List ℝ) (K o : ℕ) (dss : ℝ) : Outcome (ℝ × ℝ × Bool) := do
  let h0 ← Outcome.index h o
  let st ← forRange K ⟨0, |h0|, List.replicate K 0, List.replicate K 0⟩ (startStep h s o)
  let ss ← Outcome.index s (o + st.ns)
  tableauLoop bad h K o (K - 1) 1 ⟨(st.ns : ℤ) - 1, ss, dss, st.c, st.d⟩

/-- The stopping test of `IntegrateRomberg` (Integration1D.h:289-290). -/
def rombergSettled (eps ss dss : ℝ) : Prop := |dss| ≤ eps * |ss| + eps * machEps

/-- The end of a round (Integration1D.h:297, IntegrationImproper.h:192): `h[j+1] = q*h[j]`. -/
noncomputable def shrink (q : ℝ) (h : List ℝ) (j : ℕ) : Outcome (List ℝ) := do
  let hj ← Outcome.index h j
  Outcome.store h (j + 1) (q * hj)

open Classical in
/-- The loop of `IntegrateRomberg` (Integration1D.h:228-301) and of `IntegrateOpen` (IntegrationImproper.h:147-195), `n` rounds
left.  The two differ in the generator of the stages `next`, the test of the divisors `bad`, the stopping test `stop` and the
factor `q` of the squared step, which are parameters here. -/
noncomputable def rombergLoop {τ : Type} (next : τ → Outcome (τ × ℝ)) (bad : ℝ → Prop) (stop : ℝ → ℝ → Prop) (q : ℝ)
    (K JMAX : ℕ) : ℕ → ℕ → τ → List ℝ → List ℝ → ℝ → ℝ → Outcome Result
  | 0, _, _, _, _, ss, dss => .ret ⟨ss, |dss|, JMAX, false⟩
  | n + 1, j, t, s, h, ss, dss => do
    let v ← next t
    let s ← Outcome.store s j v.2
    if j + 1 ≥ K then do
      let r ← extrapolate bad h s K (j + 1 - K) dss
      if r.2.2 = false then .ret ⟨r.1, |r.2.1|, j + 1, false⟩
      else if stop r.1 r.2.1 then .ret ⟨r.1, |r.2.1|, j + 1, true⟩
      else do
        let h ← shrink q h j
        rombergLoop next bad stop q K JMAX n (j + 1) v.1 s h r.1 r.2.1
    else do
      let h ← shrink q h j
      rombergLoop next bad stop q K JMAX n (j + 1) v.1 s h ss dss

/-- `TrapIntegrator::next` as used by the loop (Integration1D.h:58-80): the new state and the value returned. -/
noncomputable def Trap.emit (f : ℝ → ℝ) (a b : ℝ) (t : Trap) : Outcome (Trap × ℝ) := do
  let t ← t.next f a b
  .ret (t, t.sum)

/-- `IntegrateRomberg` (Integration1D.h:213-302), `K` points of extrapolation and at most `JMAX` stages. -/
noncomputable def integrateRomberg (JMAX K : ℕ) (f : ℝ → ℝ) (a b eps : ℝ) : Outcome Result := do
  let h ← Outcome.store (List.replicate (JMAX + 1) 0) 0 1
  rombergLoop (Trap.emit f a b) (fun den => |den| < divisionThreshold) (rombergSettled eps) (1 / 4) K JMAX JMAX 0 ⟨0, 0⟩ (List.replicate JMAX 0) h 0 0

end Verif.Integ
