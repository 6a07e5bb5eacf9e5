import Verif.Exit
import Mathlib.Analysis.SpecialFunctions.Pow.Real

/-!
# Model of the one-dimensional root finders

`mml/algorithms/RootFinding/RootFindingBracketing.h` and `RootFindingMethods.h`.

A function is `ℝ → Option ℝ` where the code tests its values for being finite (`none` is an infinity or a NaN), and
`ℝ → ℝ` where it does not.  The result's `status`, `algorithm_name` and `elapsed_time_ms`, which the functions never
set, and the printing with `verbose` are left out.
-/

set_option autoImplicit false

namespace Verif.Roots

/-- A function whose values can fail to be finite. -/
abbrev Fn := ℝ → Option ℝ

/-- `RootFindingResult` (RootFindingBase.h:61-92) with its default values. -/
structure Result where
  root : ℝ := 0
  functionValue : Option ℝ := some 0
  iterations : ℕ := 0
  converged : Bool := false
  achieved : ℝ := 0
  error : String := ""

/-- `(config.max_iterations > 0) ? config.max_iterations : Defaults::…MaxSteps` (RootFindingBracketing.h:287), as a
number of rounds. -/
def roundLimit (maxIterations dflt : ℤ) : ℕ := (if 0 < maxIterations then maxIterations else dflt).toNat

/-- The overloads that return the root and throw without convergence (RootFindingBracketing.h:230-239, 388-397,
RootFindingMethods.h:121-130, 285-294, 438-447, 635-644). -/
noncomputable def rootOrThrow (r : Outcome Result) : Outcome ℝ := do
  let r ← r
  if r.converged then .ret r.root else .exn (.mml "RootFindingError")

/-! ## Bracketing -/

/-- The state of `BracketRoot`: both ends and the function there. -/
structure Ends where
  x1 : ℝ
  x2 : ℝ
  f1 : ℝ
  f2 : ℝ

/-- One round of `BracketRoot` (RootFindingBracketing.h:84-92). -/
noncomputable def bracketStep (f : ℝ → ℝ) (_j : ℕ) (s : Ends) : Ends ⊕ Ends :=
  if s.f1 * s.f2 < 0 then .inr s
  else if |s.f1| < |s.f2| then
    .inl { s with x1 := s.x1 + 1.6 * (s.x1 - s.x2), f1 := f (s.x1 + 1.6 * (s.x1 - s.x2)) }
  else .inl { s with x2 := s.x2 + 1.6 * (s.x2 - s.x1), f2 := f (s.x2 + 1.6 * (s.x2 - s.x1)) }

/-- `BracketRoot` (RootFindingBracketing.h:75-94): the answer and the ends it leaves in its reference arguments. -/
noncomputable def bracketRoot (f : ℝ → ℝ) (x1 x2 : ℝ) (maxTry : ℤ) : Outcome (Bool × ℝ × ℝ) :=
  if x1 = x2 then .exn (.mml "RootFindingError")
  else match forExit (bracketStep f) 0 maxTry.toNat ⟨x1, x2, f x1, f x2⟩ with
    | .inr s => .ret (true, s.x1, s.x2)
    | .inl s => .ret (false, s.x1, s.x2)

/-- `Vector::Resize` (Vector.h:163-174). -/
noncomputable def resize (v : List ℝ) (n : ℕ) : List ℝ := v.take n ++ List.replicate (n - v.length) 0

/-- The state of `FindRootBrackets`. -/
structure Brackets where
  xb1 : List ℝ
  xb2 : List ℝ
  numBrackets : ℕ
  numRoots : ℕ
  x : ℝ
  fp : ℝ

/-- Recording a bracket (RootFindingBracketing.h:159-165). -/
noncomputable def recordBracket (s : Brackets) (a b : ℝ) : Outcome Brackets := do
  let xb1 ← Outcome.store s.xb1 s.numRoots a
  let xb2 ← Outcome.store s.xb2 s.numRoots b
  if s.numRoots + 1 = s.numBrackets then
    .ret { s with
      xb1 := resize xb1 (s.numBrackets * 2), xb2 := resize xb2 (s.numBrackets * 2),
      numBrackets := s.numBrackets * 2, numRoots := s.numRoots + 1 }
  else .ret { s with xb1 := xb1, xb2 := xb2, numRoots := s.numRoots + 1 }

/-- One round of `FindRootBrackets` (RootFindingBracketing.h:154-168). -/
noncomputable def bracketsStep (f : ℝ → ℝ) (dx : ℝ) (s : Brackets) (_i : ℕ) : Outcome Brackets := do
  let t ← if f (s.x + dx) * s.fp ≤ 0 then recordBracket s (s.x + dx - dx) (s.x + dx) else .ret s
  .ret { t with x := s.x + dx, fp := f (s.x + dx) }

/-- `FindRootBrackets` (RootFindingBracketing.h:144-170): the number returned and the two vectors.  For `numPoints = 0`
the division gives an infinity that is not used. -/
noncomputable def findRootBrackets (f : ℝ → ℝ) (x1 x2 : ℝ) (numPoints : ℤ) (xb1 xb2 : List ℝ) :
    Outcome (ℕ × List ℝ × List ℝ) := do
  let s ← forRange numPoints.toNat (⟨resize xb1 20, resize xb2 20, 20, 0, x1, f x1⟩ : Brackets)
    (bracketsStep f ((x2 - x1) / numPoints))
  .ret (s.numRoots, s.xb1, s.xb2)

/-! ## Bisection -/

/-- One round of bisection (RootFindingBracketing.h:289-321); the state is `dx`, `rtb`. -/
noncomputable def bisectStep (f : Fn) (tol : ℝ) (j : ℕ) (s : ℝ × ℝ) : (ℝ × ℝ) ⊕ Result :=
  match f (s.2 + s.1 * (1 / 2)) with
  | none => .inr {
      root := s.2, functionValue := none, iterations := j + 1, achieved := |s.1 * (1 / 2)|,
      error := "Non-finite function value in FindRootBisection iteration" }
  | some fmid =>
    if |s.1 * (1 / 2)| < tol ∨ fmid = 0 then .inr {
      root := if fmid ≤ 0 then s.2 + s.1 * (1 / 2) else s.2
      functionValue := f (if fmid ≤ 0 then s.2 + s.1 * (1 / 2) else s.2)
      iterations := j + 1, converged := true, achieved := |s.1 * (1 / 2)| }
    else .inl (s.1 * (1 / 2), if fmid ≤ 0 then s.2 + s.1 * (1 / 2) else s.2)

/-- The bisection loop and what follows it (RootFindingBracketing.h:289-327). -/
noncomputable def bisectLoop (f : Fn) (tol : ℝ) (rounds : ℕ) (dx rtb : ℝ) : Result :=
  match forExit (bisectStep f tol) 0 rounds (dx, rtb) with
  | .inr r => r
  | .inl s => {
      root := s.2, functionValue := f s.2, iterations := rounds, achieved := |s.1|,
      error := "Too many bisections in FindRootBisection" }

/-- `FindRootBisection` with a configuration (RootFindingBracketing.h:260-328). -/
noncomputable def bisection (f : Fn) (x1 x2 tol : ℝ) (rounds : ℕ) : Result :=
  match f x1, f x2 with
  | some f1, some f2 =>
    if f1 * f2 ≥ 0 then { error := "Root must be bracketed for bisection in FindRootBisection" }
    else if f1 < 0 then bisectLoop f tol rounds (x2 - x1) x1
    else bisectLoop f tol rounds (x1 - x2) x2
  | _, _ => { error := "Non-finite function values in FindRootBisection" }

/-! ## False position -/

/-- The state of false position: the ends, the function there and the last estimate. -/
structure FP where
  x1 : ℝ
  x2 : ℝ
  f1 : ℝ
  f2 : ℝ
  rtf : ℝ

/-- The update of the bracket (RootFindingBracketing.h:436-442). -/
noncomputable def fpUpdate (s : FP) (rtf f : ℝ) : FP :=
  if f < 0 then { s with x1 := rtf, f1 := f, rtf := rtf } else { s with x2 := rtf, f2 := f, rtf := rtf }

/-- The rest of a round of false position, once the function value is known (RootFindingBracketing.h:436-457). -/
noncomputable def fpFinish (tol : ℝ) (j : ℕ) (s : FP) (f : ℝ) : FP ⊕ Outcome Result :=
  if |f| < tol ∨ |s.x2 - s.x1| < tol then .inr (.ret {
    root := s.rtf, functionValue := some f, iterations := j + 1, converged := true, achieved := |s.x2 - s.x1| })
  else .inl s

/-- One round of false position (RootFindingBracketing.h:423-458); a division by zero is undefined behaviour. -/
noncomputable def fpStep (f : Fn) (tol : ℝ) (j : ℕ) (s : FP) : FP ⊕ Outcome Result :=
  if s.f1 - s.f2 = 0 then .inr .ub
  else match f (s.x1 + (s.x2 - s.x1) * s.f1 / (s.f1 - s.f2)) with
    | none => .inr (.ret {
        root := s.x1 + (s.x2 - s.x1) * s.f1 / (s.f1 - s.f2), functionValue := none, iterations := j + 1,
        error := "Non-finite function value in FindRootFalsePosition" })
    | some y => fpFinish tol j (fpUpdate s (s.x1 + (s.x2 - s.x1) * s.f1 / (s.f1 - s.f2)) y) y

/-- The loop of false position and what follows it (RootFindingBracketing.h:421-464). -/
noncomputable def fpLoop (f : Fn) (tol : ℝ) (rounds : ℕ) (x1 x2 f1 f2 : ℝ) : Outcome Result :=
  match forExit (fpStep f tol) 0 rounds ⟨x1, x2, f1, f2, x1⟩ with
  | .inr r => r
  | .inl s => .ret {
      root := s.rtf, functionValue := f s.rtf, iterations := rounds, achieved := |s.x2 - s.x1|,
      error := "Maximum number of iterations exceeded in FindRootFalsePosition" }

/-- `FindRootFalsePosition` with a configuration (RootFindingBracketing.h:400-465). -/
noncomputable def falsePosition (f : Fn) (x1 x2 tol : ℝ) (rounds : ℕ) : Outcome Result :=
  match f x1, f x2 with
  | some f1, some f2 =>
    if f1 * f2 ≥ 0 then .ret { error := "Root must be bracketed for false position" }
    else if f1 > 0 then fpLoop f tol rounds x2 x1 f2 f1
    else fpLoop f tol rounds x1 x2 f1 f2
  | _, _ => .ret { error := "Non-finite function values in FindRootFalsePosition" }

/-! ## Newton-Raphson -/

/-- The rest of a round of Newton's method, once `f` and `df` are known (RootFindingMethods.h:161-211); `thr` is the
square root of the machine epsilon. -/
noncomputable def newtonFinish (f : ℝ → ℝ) (x1 x2 tol thr : ℝ) (j : ℕ) (rtn y df : ℝ) : (ℝ × ℝ) ⊕ Result :=
  if |df| < thr then .inr {
    root := rtn, functionValue := some y, iterations := j + 1, error := "Zero or near-zero derivative in FindRootNewton" }
  else if (x1 - (rtn - y / df)) * ((rtn - y / df) - x2) < 0 then .inr {
    root := rtn - y / df, functionValue := some (f (rtn - y / df)), iterations := j + 1, achieved := |y / df|,
    error := "Jumped out of brackets in FindRootNewton" }
  else if |y / df| < tol then .inr {
    root := rtn - y / df, functionValue := some (f (rtn - y / df)), iterations := j + 1, converged := true,
    achieved := |y / df| }
  else .inl (rtn - y / df, y / df)

/-- `FindRootNewton` with a configuration (RootFindingMethods.h:142-221) for a function that is finite everywhere;
`der` is `Derivation::NDer4`. -/
noncomputable def newton (f der : ℝ → ℝ) (x1 x2 tol thr : ℝ) (rounds : ℕ) : Result :=
  if f x1 * f x2 > 0 then { error := "Root must be bracketed for Newton-Raphson method" }
  else match forExit (fun j (s : ℝ × ℝ) => newtonFinish f x1 x2 tol thr j s.1 (f s.1) (der s.1)) 0 rounds
      (1 / 2 * (x1 + x2), 0) with
    | .inr r => r
    | .inl s => {
        root := s.1, functionValue := some (f s.1), iterations := rounds, achieved := |s.2|,
        error := "Maximum number of iterations exceeded in FindRootNewton" }

/-! ## Secant -/

/-- The state of the secant method. -/
structure Sec where
  x1 : ℝ
  x2 : ℝ
  f1 : ℝ
  f2 : ℝ
  dx : ℝ

/-- One round of the secant method (RootFindingMethods.h:321-358); a quotient by zero is not finite. -/
noncomputable def secantStep (f : Fn) (tol : ℝ) (j : ℕ) (s : Sec) : Sec ⊕ Result :=
  if s.f2 - s.f1 = 0 then .inr {
    root := s.x2, functionValue := some s.f2, iterations := j + 1, error := "Non-finite step in FindRootSecant" }
  else match f (s.x2 - (s.x2 - s.x1) * s.f2 / (s.f2 - s.f1)) with
    | none => .inr {
        root := s.x2 - (s.x2 - s.x1) * s.f2 / (s.f2 - s.f1), functionValue := none, iterations := j + 1,
        error := "Non-finite function value in FindRootSecant" }
    | some y =>
      if |(s.x2 - s.x1) * s.f2 / (s.f2 - s.f1)| < tol then .inr {
        root := s.x2 - (s.x2 - s.x1) * s.f2 / (s.f2 - s.f1), functionValue := some y, iterations := j + 1,
        converged := true, achieved := |(s.x2 - s.x1) * s.f2 / (s.f2 - s.f1)| }
      else .inl ⟨s.x2, s.x2 - (s.x2 - s.x1) * s.f2 / (s.f2 - s.f1), s.f2, y, (s.x2 - s.x1) * s.f2 / (s.f2 - s.f1)⟩

/-- The loop of the secant method and what follows it (RootFindingMethods.h:318-365). -/
noncomputable def secantLoop (f : Fn) (tol : ℝ) (rounds : ℕ) (x1 x2 f1 f2 : ℝ) : Result :=
  match forExit (secantStep f tol) 0 rounds ⟨x1, x2, f1, f2, 0⟩ with
  | .inr r => r
  | .inl s => {
      root := s.x2, functionValue := some s.f2, iterations := rounds, achieved := |s.dx|,
      error := "Maximum number of iterations exceeded in FindRootSecant" }

/-- `FindRootSecant` with a configuration (RootFindingMethods.h:297-366). -/
noncomputable def secant (f : Fn) (x1 x2 tol : ℝ) (rounds : ℕ) : Result :=
  match f x1, f x2 with
  | some f1, some f2 =>
    if f1 * f2 > 0 then { error := "Root must be bracketed for Secant method" }
    else if |f1| < |f2| then secantLoop f tol rounds x2 x1 f2 f1
    else secantLoop f tol rounds x1 x2 f1 f2
  | _, _ => { error := "Non-finite function values in FindRootSecant" }

/-! ## Ridders -/

/-- `std::copysign`, without signed zeros. -/
noncomputable def copysign (a b : ℝ) : ℝ := if b < 0 then -|a| else |a|

/-- The state of Ridders' method. -/
structure Rid where
  x1 : ℝ
  x2 : ℝ
  f1 : ℝ
  f2 : ℝ
  ans : ℝ

/-- The update of the bracket (RootFindingMethods.h:526-537). -/
noncomputable def ridUpdate (s : Rid) (xm fm ans fnew : ℝ) : Rid :=
  if copysign fm fnew ≠ fm then ⟨xm, ans, fm, fnew, ans⟩
  else if copysign s.f1 fnew ≠ s.f1 then ⟨s.x1, ans, s.f1, fnew, ans⟩
  else ⟨ans, s.x2, fnew, s.f2, ans⟩

/-- The rest of a round of Ridders' method after the new estimate has been evaluated (RootFindingMethods.h:515-546). -/
noncomputable def ridFinish (tol : ℝ) (j : ℕ) (s : Rid) (xm fm ans fnew : ℝ) : Rid ⊕ Outcome Result :=
  if |fnew| < tol then .inr (.ret {
    root := ans, functionValue := some fnew, iterations := j + 1, converged := true, achieved := |fnew| })
  else if |(ridUpdate s xm fm ans fnew).x2 - (ridUpdate s xm fm ans fnew).x1| ≤ tol then .inr (.ret {
    root := ans, functionValue := some fnew, iterations := j + 1, converged := true,
    achieved := |(ridUpdate s xm fm ans fnew).x2 - (ridUpdate s xm fm ans fnew).x1| })
  else .inl (ridUpdate s xm fm ans fnew)

/-- Ridders' new estimate (RootFindingMethods.h:490). -/
noncomputable def ridNew (s : Rid) (xm fm sq : ℝ) : ℝ := xm + (xm - s.x1) * ((if s.f1 ≥ s.f2 then 1 else -1) * fm / sq)

/-- A round of Ridders' method after the midpoint has been evaluated (RootFindingMethods.h:480-546); the root of a
negative number is undefined behaviour in the model. -/
noncomputable def ridMid (f : Fn) (tol : ℝ) (j : ℕ) (s : Rid) (xm fm : ℝ) : Rid ⊕ Outcome Result :=
  if fm * fm - s.f1 * s.f2 < 0 then .inr .ub
  else if Real.sqrt (fm * fm - s.f1 * s.f2) = 0 then .inr (.ret {
    root := s.ans, functionValue := f s.ans, iterations := j + 1, converged := true, achieved := |s.x2 - s.x1| })
  else if |ridNew s xm fm (Real.sqrt (fm * fm - s.f1 * s.f2)) - s.ans| ≤ tol then .inr (.ret {
    root := s.ans, functionValue := f s.ans, iterations := j + 1, converged := true,
    achieved := |ridNew s xm fm (Real.sqrt (fm * fm - s.f1 * s.f2)) - s.ans| })
  else match f (ridNew s xm fm (Real.sqrt (fm * fm - s.f1 * s.f2))) with
    | none => .inr (.ret {
        root := ridNew s xm fm (Real.sqrt (fm * fm - s.f1 * s.f2)), functionValue := none, iterations := j + 1,
        error := "Non-finite function value in FindRootRidders" })
    | some fnew => ridFinish tol j s xm fm (ridNew s xm fm (Real.sqrt (fm * fm - s.f1 * s.f2))) fnew

/-- One round of Ridders' method (RootFindingMethods.h:468-547). -/
noncomputable def ridStep (f : Fn) (tol : ℝ) (j : ℕ) (s : Rid) : Rid ⊕ Outcome Result :=
  match f (1 / 2 * (s.x1 + s.x2)) with
  | none => .inr (.ret {
      root := s.ans, functionValue := none, iterations := j + 1,
      error := "Non-finite function value in FindRootRidders" })
  | some fm => ridMid f tol j s (1 / 2 * (s.x1 + s.x2)) fm

/-- `FindRootRidders` with a configuration (RootFindingMethods.h:450-556). -/
noncomputable def ridders (f : Fn) (x1 x2 tol : ℝ) (rounds : ℕ) : Outcome Result :=
  match f x1, f x2 with
  | some f1, some f2 =>
    if f1 * f2 ≥ 0 then .ret { error := "Root must be bracketed for Ridders method" }
    else match forExit (ridStep f tol) 0 rounds ⟨x1, x2, f1, f2, -10 ^ 99⟩ with
      | .inr r => r
      | .inl s => .ret {
          root := s.ans, functionValue := f s.ans, iterations := rounds, achieved := |s.x2 - s.x1|,
          error := "Maximum number of iterations exceeded in FindRootRidders" }
  | _, _ => .ret { error := "Non-finite function values in FindRootRidders" }

/-! ## Brent -/

/-- The state of Brent's method. -/
structure Br where
  a : ℝ
  b : ℝ
  c : ℝ
  d : ℝ
  e : ℝ
  fa : ℝ
  fb : ℝ
  fc : ℝ
  xm : Option ℝ

/-- The first rearrangement of a round (RootFindingMethods.h:675-679). -/
noncomputable def brBracket (s : Br) : Br :=
  if (s.fb > 0 ∧ s.fc > 0) ∨ (s.fb < 0 ∧ s.fc < 0) then
    { s with c := s.a, fc := s.fa, e := s.b - s.a, d := s.b - s.a }
  else s

/-- The exchange that makes `b` the better end (RootFindingMethods.h:680-687). -/
noncomputable def brSwap (s : Br) : Br :=
  if |s.fc| < |s.fb| then { s with a := s.b, b := s.c, c := s.b, fa := s.fb, fb := s.fc, fc := s.fb } else s

/-- The numbers `p` and `q` of the interpolation (RootFindingMethods.h:707-719) after the sign of `q` has been adapted
and `p` made positive. -/
noncomputable def brPQ (s : Br) (xm : ℝ) : Outcome (ℝ × ℝ) :=
  if s.fa = 0 then .ub
  else if s.a = s.c then
    .ret (|2 * xm * (s.fb / s.fa)|,
      if 2 * xm * (s.fb / s.fa) > 0 then -(1 - s.fb / s.fa) else 1 - s.fb / s.fa)
  else if s.fc = 0 then .ub
  else
    .ret (|s.fb / s.fa * (2 * xm * (s.fa / s.fc) * (s.fa / s.fc - s.fb / s.fc) - (s.b - s.a) * (s.fb / s.fc - 1))|,
      if s.fb / s.fa * (2 * xm * (s.fa / s.fc) * (s.fa / s.fc - s.fb / s.fc) - (s.b - s.a) * (s.fb / s.fc - 1)) > 0
      then -((s.fa / s.fc - 1) * (s.fb / s.fc - 1) * (s.fb / s.fa - 1))
      else (s.fa / s.fc - 1) * (s.fb / s.fc - 1) * (s.fb / s.fa - 1))

/-- The test of the interpolation and the choice of the step (RootFindingMethods.h:721-730): new `d` and `e`. -/
noncomputable def brAccept (s : Br) (xm tol1 : ℝ) (pq : ℝ × ℝ) : Outcome (ℝ × ℝ) :=
  if 2 * pq.1 < (if 3 * xm * pq.2 - |tol1 * pq.2| < |s.e * pq.2| then 3 * xm * pq.2 - |tol1 * pq.2| else |s.e * pq.2|)
  then (if pq.2 = 0 then .ub else .ret (pq.1 / pq.2, s.d))
  else .ret (xm, xm)

/-- The choice of the step (RootFindingMethods.h:705-734): new `d` and `e`. -/
noncomputable def brChoose (s : Br) (xm tol1 : ℝ) : Outcome (ℝ × ℝ) :=
  if |s.e| ≥ tol1 ∧ |s.fa| > |s.fb| then (brPQ s xm).bind (brAccept s xm tol1) else .ret (xm, xm)

/-- The new point (RootFindingMethods.h:738-741). -/
noncomputable def brNext (b d xm tol1 : ℝ) : ℝ := if |d| > tol1 then b + d else b + copysign tol1 xm

/-- The step of a round (RootFindingMethods.h:705-751). -/
noncomputable def brMove (f : Fn) (j : ℕ) (s : Br) (xm tol1 : ℝ) : Br ⊕ Outcome Result :=
  match brChoose s xm tol1 with
  | .ub => .inr .ub
  | .exn e => .inr (.exn e)
  | .ret de =>
    match f (brNext s.b de.1 xm tol1) with
    | none => .inr (.ret {
        root := brNext s.b de.1 xm tol1, functionValue := none, iterations := j + 1,
        error := "Non-finite function value in FindRootBrent" })
    | some y => .inl {
        a := s.b, b := brNext s.b de.1 xm tol1, c := s.c, d := de.1, e := de.2, fa := s.fb, fb := y, fc := s.fc,
        xm := some xm }

/-- The convergence test and the step (RootFindingMethods.h:689-751); `eps` is the machine epsilon. -/
noncomputable def brTest (f : Fn) (eps tol : ℝ) (j : ℕ) (s : Br) : Br ⊕ Outcome Result :=
  if |1 / 2 * (s.c - s.b)| ≤ 2 * eps * |s.b| + 1 / 2 * tol ∨ s.fb = 0 then .inr (.ret {
    root := s.b, functionValue := some s.fb, iterations := j + 1, converged := true,
    achieved := |1 / 2 * (s.c - s.b)| })
  else brMove f j s (1 / 2 * (s.c - s.b)) (2 * eps * |s.b| + 1 / 2 * tol)

/-- One round of Brent's method (RootFindingMethods.h:674-752). -/
noncomputable def brStep (f : Fn) (eps tol : ℝ) (j : ℕ) (s : Br) : Br ⊕ Outcome Result :=
  brTest f eps tol j (brSwap (brBracket s))

/-- What follows the loop (RootFindingMethods.h:754-758): `xm` has no value if there was no round. -/
noncomputable def brEnd (rounds : ℕ) (s : Br) : Outcome Result :=
  match s.xm with
  | none => .ub
  | some xm => .ret {
      root := s.b, functionValue := some s.fb, iterations := rounds, achieved := |xm|,
      error := "Maximum number of iterations exceeded in FindRootBrent" }

/-- `FindRootBrent` with a configuration (RootFindingMethods.h:656-759). -/
noncomputable def brent (f : Fn) (eps x1 x2 tol : ℝ) (rounds : ℕ) : Outcome Result :=
  match f x1, f x2 with
  | some fa, some fb =>
    if fa * fb ≥ 0 then .ret { error := "Root must be bracketed for Brent method" }
    else match forExit (brStep f eps tol) 0 rounds ⟨x1, x2, x2, 0, 0, fa, fb, fb, none⟩ with
      | .inr r => r
      | .inl s => brEnd rounds s
  | _, _ => .ret { error := "Non-finite function values in FindRootBrent" }

end Verif.Roots
