import Verif.While
import Mathlib.Data.Real.Basic
import Mathlib.Algebra.Order.Group.Abs

/-!
# Model of one-dimensional minimisation

`mml/algorithms/Optimization.h`, exact: functions and points are real, so the tests for values that are not finite
(`ValidateBounds`, `ValidateFunctionValue`) always pass and are left out.  `zeps` is `std::numeric_limits<Real>::epsilon() * 1.0e-3`.
-/

set_option autoImplicit false

namespace Verif.Optim

/-- `MinimumBracket` (Optimization.h:114-127). -/
structure Bracket where
  ax : ℝ
  bx : ℝ
  cx : ℝ
  fa : ℝ
  fb : ℝ
  fc : ℝ
  valid : Bool

/-- `MinimizationResult` (Optimization.h:85-107), without the diagnostics. -/
structure Result where
  xmin : ℝ
  fmin : ℝ
  iterations : ℕ
  converged : Bool

/-- `std::copysign(t, x)` for `t ≥ 0`; zero has a plus sign here. -/
noncomputable def copySign (t x : ℝ) : ℝ := if x < 0 then -t else t

/-! ## Bracketing -/

/-- `GOLD` (Optimization.h:209). -/
noncomputable def gold : ℝ := 1618034 / 1000000

/-- The extrapolated point (Optimization.h:245-248). -/
noncomputable def parabolic (s : Bracket) : ℝ :=
  let r := (s.bx - s.ax) * (s.fb - s.fc)
  let q := (s.bx - s.cx) * (s.fb - s.fa)
  s.bx - ((s.bx - s.cx) * q - (s.bx - s.ax) * r) /
    (2 * copySign (if |q - r| < 1 / 10 ^ 20 then 1 / 10 ^ 20 else |q - r|) (q - r))

/-- Lines 295-301. -/
noncomputable def shift (f : ℝ → ℝ) (s : Bracket) (u : ℝ) : Bracket := { s with ax := s.bx, bx := s.cx, cx := u, fa := s.fb, fb := s.fc, fc := f u }

/-- A round of the loop (Optimization.h:245-301) for the extrapolated point `u`: `inl` goes on, `inr` returns. -/
noncomputable def bracketBody (f : ℝ → ℝ) (s : Bracket) (u : ℝ) : Bracket ⊕ Bracket :=
  let ulim := s.bx + 100 * (s.cx - s.bx)
  if (s.bx - u) * (u - s.cx) > 0 then
    if f u < s.fc then .inr { s with ax := s.bx, bx := u, fa := s.fb, fb := f u, valid := true }
    else if f u > s.fb then .inr { s with cx := u, fc := f u, valid := true }
    else .inl (shift f s (s.cx + gold * (s.cx - s.bx)))
  else if (s.cx - u) * (u - ulim) > 0 then
    if f u < s.fc then
      .inl (shift f { s with bx := s.cx, cx := u, fb := s.fc, fc := f u } (u + gold * (u - s.cx)))
    else .inl (shift f s u)
  else if (u - ulim) * (ulim - s.cx) ≥ 0 then .inl (shift f s ulim)
  else .inl (shift f s (s.cx + gold * (s.cx - s.bx)))

/-- The loop (Optimization.h:238-305); the first argument counts the rounds left. -/
noncomputable def bracketLoop (f : ℝ → ℝ) : ℕ → Bracket → Bracket
  | 0, s => if s.fb > s.fc then { s with valid := false } else { s with valid := true }
  | k + 1, s =>
    if s.fb > s.fc then
      match bracketBody f s (parabolic s) with
      | .inl s' => bracketLoop f k s'
      | .inr r => r
    else { s with valid := true }

/-- The first three points (Optimization.h:213-231). -/
noncomputable def bracketStart (f : ℝ → ℝ) (a b : ℝ) : Bracket :=
  if f b > f a then ⟨b, a, a + gold * (a - b), f b, f a, f (a + gold * (a - b)), false⟩
  else ⟨a, b, b + gold * (b - a), f a, f b, f (b + gold * (b - a)), false⟩

/-- `BracketMinimum` (Optimization.h:205-306). -/
noncomputable def bracketMinimum (f : ℝ → ℝ) (a b : ℝ) : Bracket := bracketLoop f 200 (bracketStart f a b)

/-! ## Golden section -/

/-- The variables of the golden section search. -/
structure Gold where
  x0 : ℝ
  x1 : ℝ
  x2 : ℝ
  x3 : ℝ
  f1 : ℝ
  f2 : ℝ
  iterations : ℕ

/-- `R` (Optimization.h:365). -/
noncomputable def goldR : ℝ := 61803399 / 100000000

/-- `C` (Optimization.h:366). -/
noncomputable def goldC : ℝ := 1 - goldR

/-- The first points (Optimization.h:368-386). -/
noncomputable def goldStart (f : ℝ → ℝ) (br : Bracket) : Gold :=
  if |br.cx - br.bx| > |br.bx - br.ax| then
    ⟨br.ax, br.bx, br.bx + goldC * (br.cx - br.bx), br.cx, f br.bx, f (br.bx + goldC * (br.cx - br.bx)), 0⟩
  else ⟨br.ax, br.bx - goldC * (br.bx - br.ax), br.bx, br.cx, f (br.bx - goldC * (br.bx - br.ax)), f br.bx, 0⟩

/-- The body of the loop (Optimization.h:390-406). -/
noncomputable def goldBody (f : ℝ → ℝ) (s : Gold) : Gold :=
  if s.f2 < s.f1 then ⟨s.x1, s.x2, goldR * s.x2 + goldC * s.x3, s.x3, s.f2, f (goldR * s.x2 + goldC * s.x3), s.iterations + 1⟩
  else ⟨s.x0, goldR * s.x1 + goldC * s.x0, s.x1, s.x2, f (goldR * s.x1 + goldC * s.x0), s.f1, s.iterations + 1⟩

/-- The loop's test and body (Optimization.h:389-407). -/
noncomputable def goldStep (f : ℝ → ℝ) (tol : ℝ) (s : Gold) : Option Gold :=
  if |s.x3 - s.x0| > tol * (|s.x1| + |s.x2|) then some (goldBody f s) else none

/-- The result (Optimization.h:409-419). -/
noncomputable def goldResult (s : Gold) : Result :=
  if s.f1 < s.f2 then ⟨s.x1, s.f1, s.iterations, true⟩ else ⟨s.x2, s.f2, s.iterations, true⟩

/-- `GoldenSectionSearch` for a bracket (Optimization.h:358-420). -/
noncomputable def golden (f : ℝ → ℝ) (br : Bracket) (tol : ℝ) : Outcome Result :=
  if tol ≤ 0 then .exn (.mml "NumericInputError")
  else if br.valid = false then .exn (.mml "NumericInputError")
  else do
    let s ← whileLoop (goldStep f tol) (goldStart f br)
    .ret (goldResult s)

/-- `GoldenSectionSearch` for an interval (Optimization.h:429-436). -/
noncomputable def goldenAB (f : ℝ → ℝ) (a b tol : ℝ) : Outcome Result :=
  if tol ≤ 0 then .exn (.mml "NumericInputError")
  else if (bracketMinimum f a b).valid = false then .exn (.mml "OptimizationError")
  else golden f (bracketMinimum f a b) tol

/-! ## Brent's method -/

/-- The variables of `BrentMinimize` that live from one iteration to the next. -/
structure Brent where
  a : ℝ
  b : ℝ
  d : ℝ
  e : ℝ
  x : ℝ
  w : ℝ
  v : ℝ
  fx : ℝ
  fw : ℝ
  fv : ℝ

/-- The first values (Optimization.h:513-523). -/
noncomputable def brentStart (f : ℝ → ℝ) (br : Bracket) : Brent :=
  ⟨if br.ax < br.cx then br.ax else br.cx, if br.ax > br.cx then br.ax else br.cx, 0, 0, br.bx, br.bx, br.bx, f br.bx, f br.bx, f br.bx⟩

/-- `tol1` (Optimization.h:528). -/
noncomputable def tol1 (tol zeps x : ℝ) : ℝ := tol * |x| + zeps

/-- The test for convergence (Optimization.h:527-532). -/
noncomputable def brentDone (tol zeps a b x : ℝ) : Prop := |x - 1 / 2 * (a + b)| ≤ 2 * tol1 tol zeps x - 1 / 2 * (b - a)

/-- A golden section step, `(e, d)` (Optimization.h:555-556, 567-568). -/
noncomputable def sectionStep (s : Brent) : ℝ × ℝ :=
  if s.x ≥ 1 / 2 * (s.a + s.b) then (s.a - s.x, 381966 / 1000000 * (s.a - s.x)) else (s.b - s.x, 381966 / 1000000 * (s.b - s.x))

/-- The numerator `p` and the denominator `q` of the parabolic step (Optimization.h:542-548). -/
noncomputable def parabolaPQ (s : Brent) : ℝ × ℝ :=
  let r := (s.x - s.w) * (s.fx - s.fv)
  let q := (s.x - s.v) * (s.fx - s.fw)
  let p := (s.x - s.v) * q - (s.x - s.w) * r
  (if 2 * (q - r) > 0 then -p else p, |2 * (q - r)|)

/-- The parabolic step is rejected (Optimization.h:553). -/
def parabolaBad (s : Brent) : Prop :=
  |(parabolaPQ s).1| ≥ |1 / 2 * (parabolaPQ s).2 * s.e| ∨ (parabolaPQ s).1 ≤ (parabolaPQ s).2 * (s.a - s.x) ∨
    (parabolaPQ s).1 ≥ (parabolaPQ s).2 * (s.b - s.x)

/-- The parabolic step, kept away from the ends (Optimization.h:559-563).  The denominator is not zero when the step is accepted. -/
noncomputable def parabolaStep (t1 : ℝ) (s : Brent) : ℝ :=
  if s.x + (parabolaPQ s).1 / (parabolaPQ s).2 - s.a < 2 * t1 ∨ s.b - (s.x + (parabolaPQ s).1 / (parabolaPQ s).2) < 2 * t1 then
    copySign t1 (1 / 2 * (s.a + s.b) - s.x)
  else (parabolaPQ s).1 / (parabolaPQ s).2

open Classical in
/-- The step chosen (Optimization.h:539-569), `(e, d)`. -/
noncomputable def brentChoose (t1 : ℝ) (s : Brent) : ℝ × ℝ :=
  if |s.e| > t1 then (if parabolaBad s then sectionStep s else (s.d, parabolaStep t1 s)) else sectionStep s

/-- The new point (Optimization.h:572). -/
noncomputable def brentPoint (t1 x d : ℝ) : ℝ := if |d| ≥ t1 then x + d else x + copySign t1 d

/-- The new bracket and best points (Optimization.h:576-602), with `e` and `d` already set. -/
noncomputable def brentUpdate (s : Brent) (u fu : ℝ) : Brent :=
  if fu ≤ s.fx then
    { s with a := if u ≥ s.x then s.x else s.a, b := if u ≥ s.x then s.b else s.x,
             v := s.w, w := s.x, x := u, fv := s.fw, fw := s.fx, fx := fu }
  else
    let s' := { s with a := if u < s.x then u else s.a, b := if u < s.x then s.b else u }
    if fu ≤ s.fw ∨ s.w = s.x then { s' with v := s.w, w := u, fv := s.fw, fw := fu }
    else if fu ≤ s.fv ∨ s.v = s.x ∨ s.v = s.w then { s' with v := u, fv := fu }
    else s'

/-- An iteration that does not return (Optimization.h:539-602). -/
noncomputable def brentIter (f : ℝ → ℝ) (tol zeps : ℝ) (s : Brent) : Brent :=
  let ed := brentChoose (tol1 tol zeps s.x) s
  let u := brentPoint (tol1 tol zeps s.x) s.x ed.2
  brentUpdate { s with e := ed.1, d := ed.2 } u (f u)

open Classical in
/-- The loop (Optimization.h:525-609); the first argument counts the iterations left. -/
noncomputable def brentLoop (f : ℝ → ℝ) (tol zeps : ℝ) : ℕ → ℕ → Brent → Outcome Result
  | 0, _, _ => .exn (.mml "OptimizationError")
  | k + 1, iter, s =>
    if brentDone tol zeps s.a s.b s.x then .ret ⟨s.x, s.fx, iter + 1, true⟩
    else brentLoop f tol zeps k (iter + 1) (brentIter f tol zeps s)

/-- `BrentMinimize` for a bracket (Optimization.h:495-610). -/
noncomputable def brent (f : ℝ → ℝ) (zeps : ℝ) (br : Bracket) (tol : ℝ) (maxIter : ℤ) : Outcome Result :=
  if tol ≤ 0 then .exn (.mml "NumericInputError")
  else if br.valid = false then .exn (.mml "NumericInputError")
  else if maxIter ≤ 0 then .exn (.mml "NumericInputError")
  else brentLoop f tol zeps maxIter.toNat 0 (brentStart f br)

/-- `BrentMinimize` for an interval (Optimization.h:621-632). -/
noncomputable def brentAB (f : ℝ → ℝ) (zeps a b tol : ℝ) (maxIter : ℤ) : Outcome Result :=
  if tol ≤ 0 then .exn (.mml "NumericInputError")
  else if maxIter ≤ 0 then .exn (.mml "NumericInputError")
  else if (bracketMinimum f a b).valid = false then .exn (.mml "OptimizationError")
  else brent f zeps (bracketMinimum f a b) tol maxIter

/-! ## Brent's method with derivatives -/

/-- The variables of `BrentMinimizeWithDeriv` that live from one iteration to the next. -/
structure DBrent where
  a : ℝ
  b : ℝ
  d : ℝ
  e : ℝ
  x : ℝ
  w : ℝ
  v : ℝ
  fx : ℝ
  fw : ℝ
  fv : ℝ
  dx : ℝ
  dw : ℝ
  dv : ℝ

/-- The first values (Optimization.h:702-715). -/
noncomputable def dbrentStart (f df : ℝ → ℝ) (br : Bracket) : DBrent :=
  ⟨if br.ax < br.cx then br.ax else br.cx, if br.ax > br.cx then br.ax else br.cx, 0, 0, br.bx, br.bx, br.bx, f br.bx, f br.bx, f br.bx,
    df br.bx, df br.bx, df br.bx⟩

/-- A bisection step, `(e, d)` (Optimization.h:766-767, 771-772, 776-777). -/
noncomputable def bisectStep (s : DBrent) : ℝ × ℝ :=
  if s.dx ≥ 0 then (s.a - s.x, 1 / 2 * (s.a - s.x)) else (s.b - s.x, 1 / 2 * (s.b - s.x))

/-- A secant step (Optimization.h:733-739). -/
noncomputable def secant (s : DBrent) (w dw : ℝ) : ℝ := if dw ≠ s.dx then (w - s.x) * s.dx / (s.dx - dw) else 2 * (s.b - s.a)

/-- `ok1`, `ok2` (Optimization.h:741-746). -/
noncomputable def secantOk (s : DBrent) (d : ℝ) : Prop := (s.a - (s.x + d)) * (s.x + d - s.b) > 0 ∧ s.dx * d ≤ 0

open Classical in
/-- The secant step chosen, if there is one (Optimization.h:751-758). -/
noncomputable def secantChoose (s : DBrent) : Option ℝ :=
  let d1 := secant s s.w s.dw
  let d2 := secant s s.v s.dv
  if secantOk s d1 then (if secantOk s d2 then (if |d1| < |d2| then some d1 else some d2) else some d1)
  else if secantOk s d2 then some d2 else none

/-- The step chosen, `(e, d)` (Optimization.h:731-778). -/
noncomputable def dbrentChoose (t1 : ℝ) (s : DBrent) : ℝ × ℝ :=
  if |s.e| > t1 then
    match secantChoose s with
    | none => bisectStep s
    | some d =>
      if |d| ≤ |1 / 2 * s.e| then
        (s.d, if s.x + d - s.a < 2 * t1 ∨ s.b - (s.x + d) < 2 * t1 then copySign t1 (1 / 2 * (s.a + s.b) - s.x) else d)
      else bisectStep s
  else bisectStep s

/-- The new bracket and best points (Optimization.h:801-834), with `e` and `d` already set. -/
noncomputable def dbrentUpdate (s : DBrent) (u fu du : ℝ) : DBrent :=
  if fu ≤ s.fx then
    { s with a := if u ≥ s.x then s.x else s.a, b := if u ≥ s.x then s.b else s.x,
             v := s.w, w := s.x, x := u, fv := s.fw, fw := s.fx, fx := fu, dv := s.dw, dw := s.dx, dx := du }
  else
    let s' := { s with a := if u < s.x then u else s.a, b := if u < s.x then s.b else u }
    if fu ≤ s.fw ∨ s.w = s.x then { s' with v := s.w, w := u, fv := s.fw, fw := fu, dv := s.dw, dw := du }
    else if fu < s.fv ∨ s.v = s.x ∨ s.v = s.w then { s' with v := u, fv := fu, dv := du }
    else s'

open Classical in
/-- The loop (Optimization.h:717-841); the first argument counts the iterations left. -/
noncomputable def dbrentLoop (f df : ℝ → ℝ) (tol zeps : ℝ) : ℕ → ℕ → DBrent → Outcome Result
  | 0, _, _ => .exn (.mml "OptimizationError")
  | k + 1, iter, s =>
    if brentDone tol zeps s.a s.b s.x then .ret ⟨s.x, s.fx, iter + 1, true⟩
    else
      let ed := dbrentChoose (tol1 tol zeps s.x) s
      let u := brentPoint (tol1 tol zeps s.x) s.x ed.2
      if |ed.2| < tol1 tol zeps s.x ∧ f u > s.fx then .ret ⟨s.x, s.fx, iter + 1, true⟩
      else dbrentLoop f df tol zeps k (iter + 1) (dbrentUpdate { s with e := ed.1, d := ed.2 } u (f u) (df u))

/-- `BrentMinimizeWithDeriv` for a bracket (Optimization.h:687-842). -/
noncomputable def dbrent (f df : ℝ → ℝ) (zeps : ℝ) (br : Bracket) (tol : ℝ) (maxIter : ℤ) : Outcome Result :=
  if tol ≤ 0 then .exn (.mml "NumericInputError")
  else if maxIter ≤ 0 then .exn (.mml "NumericInputError")
  else if br.valid = false then .exn (.mml "NumericInputError")
  else dbrentLoop f df tol zeps maxIter.toNat 0 (dbrentStart f df br)

/-- `BrentMinimizeWithDeriv` for an interval (Optimization.h:854-866). -/
noncomputable def dbrentAB (f df : ℝ → ℝ) (zeps a b tol : ℝ) (maxIter : ℤ) : Outcome Result :=
  if tol ≤ 0 then .exn (.mml "NumericInputError")
  else if maxIter ≤ 0 then .exn (.mml "NumericInputError")
  else if (bracketMinimum f a b).valid = false then .exn (.mml "OptimizationError")
  else dbrent f df zeps (bracketMinimum f a b) tol maxIter

/-! ## Maximisation -/

/-- The end of the wrappers (Optimization.h:882-883, 897-898). -/
noncomputable def negResult (r : Outcome Result) : Outcome Result := do
  let r ← r
  .ret { r with fmin := -r.fmin }

/-- `GoldenSectionMaximize` (Optimization.h:878-884). -/
noncomputable def goldenMax (f : ℝ → ℝ) (a b tol : ℝ) : Outcome Result := negResult (goldenAB (fun x => -f x) a b tol)

/-- `BrentMaximize` (Optimization.h:894-899). -/
noncomputable def brentMax (f : ℝ → ℝ) (zeps a b tol : ℝ) (maxIter : ℤ) : Outcome Result :=
  negResult (brentAB (fun x => -f x) zeps a b tol maxIter)

end Verif.Optim
