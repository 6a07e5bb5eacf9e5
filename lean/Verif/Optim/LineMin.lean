import Verif.Optim.Model
import Verif.Optim.BFGS

/-!
# Model of line minimisation, Powell's method and the conjugate gradient method

`mml/algorithms/OptimizationMultidim.h`, exact: coordinates and values are real, so the tests for values that are not
finite always pass and are left out.  Built on the model of `BracketMinimum` and `BrentMinimize`; `zeps` is the constant of
the latter.  The matrix of directions is a function of two indexes; that `Powell::Minimize` leaves its last value in the
caller's matrix is not modelled.
-/

set_option autoImplicit false

namespace Verif.Optim.QN

variable {N : ℕ}

/-- The result of a line minimisation: the new point, the displacement left in `xi` and the value returned. -/
structure Line (N : ℕ) where
  p : Pt N
  xi : Pt N
  value : ℝ

/-- The function along the line (OptimizationMultidim.h:723-728). -/
def lineFun (f : Pt N → ℝ) (p xi : Pt N) (t : ℝ) : ℝ := f (along p xi t)

/-- The bracket (OptimizationMultidim.h:797-801). -/
noncomputable def lineBracket (phi : ℝ → ℝ) : Bracket :=
  if (bracketMinimum phi 0 1).valid = false then bracketMinimum phi 0 (1 / 10) else bracketMinimum phi 0 1

/-- `LineMinimizer::Minimize` (OptimizationMultidim.h:792-814); 100 is the default of `BrentMinimize`. -/
noncomputable def lineMin (f : Pt N → ℝ) (zeps : ℝ) (p xi : Pt N) (tol : ℝ) : Outcome (Line N) := do
  let r ← brent (lineFun f p xi) zeps (lineBracket (lineFun f p xi)) tol 100
  .ret ⟨fun j => p j + xi j * r.xmin, fun j => xi j * r.xmin, r.fmin⟩

/-! ## Powell's method -/

/-- The variables of the loop over the directions (OptimizationMultidim.h:916-918); `big` is `ibig - 1`, `none` for
`ibig = 0`. -/
structure Sweep (N : ℕ) where
  p : Pt N
  fret : ℝ
  del : ℝ
  big : Option (Fin N)

open Classical in
/-- The direction of the largest decrease (OptimizationMultidim.h:930-933), after a line minimisation. -/
noncomputable def track (s : Sweep N) (i : Fin N) (l : Line N) : Sweep N :=
  if s.fret - l.value > s.del then ⟨l.p, l.value, s.fret - l.value, some i⟩ else ⟨l.p, l.value, s.del, s.big⟩

/-- The first `k` rounds of the loop over the directions, the columns of the matrix (OptimizationMultidim.h:921-934). -/
noncomputable def sweep (f : Pt N → ℝ) (zeps ftol : ℝ) (X : Fin N → Fin N → ℝ) (s : Sweep N) : (k : ℕ) → k ≤ N → Outcome (Sweep N)
  | 0, _ => .ret s
  | k + 1, h => do
    let s' ← sweep f zeps ftol X s k (by omega)
    let l ← lineMin f zeps s'.p (fun j => X j ⟨k, h⟩) ftol
    .ret (track s' ⟨k, h⟩ l)

/-- The new direction matrix (OptimizationMultidim.h:960-963).  With `ibig = 0` the code writes to column -1. -/
def replaceCol (X : Fin N → Fin N → ℝ) (big : Option (Fin N)) (xi : Pt N) : Outcome (Fin N → Fin N → ℝ) :=
  match big with
  | none => .ub
  | some b => .ret (fun j k => if k.val = N - 1 then xi j else if k = b then X j ⟨N - 1, by have := b.2; omega⟩ else X j k)

/-- The variables of `Powell::Minimize` that live from one iteration to the next. -/
structure PSt (N : ℕ) where
  p : Pt N
  pt : Pt N
  fret : ℝ
  X : Fin N → Fin N → ℝ

/-- The convergence test (OptimizationMultidim.h:903, 937). -/
noncomputable def powellTest (ftol fp fret : ℝ) : Prop := 2 * (fp - fret) ≤ ftol * (|fp| + |fret|) + 1 / 10 ^ 25

/-- Whether the new direction is taken (OptimizationMultidim.h:953-956); `fe` is the value at the extrapolated point. -/
def takeNew (fp fret fe del : ℝ) : Prop :=
  fe < fp ∧ 2 * (fp - 2 * fret + fe) * (fp - fret - del) * (fp - fret - del) - del * (fp - fe) * (fp - fe) < 0

open Classical in
/-- The end of an iteration (OptimizationMultidim.h:945-965). -/
noncomputable def powellNext (f : Pt N → ℝ) (zeps ftol : ℝ) (s : PSt N) (w : Sweep N) : Outcome (PSt N) :=
  if takeNew s.fret w.fret (f fun j => 2 * w.p j - s.pt j) w.del then do
    let l ← lineMin f zeps w.p (fun j => w.p j - s.pt j) ftol
    let X ← replaceCol s.X w.big l.xi
    .ret ⟨l.p, w.p, l.value, X⟩
  else .ret ⟨w.p, w.p, w.fret, s.X⟩

open Classical in
/-- The main loop (OptimizationMultidim.h:915-972); the first argument counts the iterations left. -/
noncomputable def powellRun (f : Pt N → ℝ) (zeps ftol : ℝ) : ℕ → ℕ → PSt N → Outcome (Result N)
  | 0, iter, s => .ret ⟨s.p, s.fret, iter, false⟩
  | k + 1, iter, s => do
    let w ← sweep f zeps ftol s.X ⟨s.p, s.fret, 0, none⟩ N (le_refl N)
    if powellTest ftol s.fret w.fret then .ret ⟨w.p, w.fret, iter + 1, true⟩
    else do
      let s' ← powellNext f zeps ftol s w
      powellRun f zeps ftol k (iter + 1) s'

/-- `Powell::Minimize` with a matrix of directions (OptimizationMultidim.h:888-973). -/
noncomputable def powell (f : Pt N → ℝ) (zeps ftol : ℝ) (maxIter : ℤ) (x0 : Pt N) (X : Fin N → Fin N → ℝ) : Outcome (Result N) :=
  if ftol ≤ 0 then .exn (.mml "MultidimOptimizationInputError")
  else if maxIter ≤ 0 then .exn (.mml "MultidimOptimizationInputError")
  else powellRun f zeps ftol maxIter.toNat 0 ⟨x0, x0, f x0, X⟩

/-- `Powell::Minimize` from the unit directions (OptimizationMultidim.h:868-882). -/
noncomputable def powellUnit (f : Pt N → ℝ) (zeps ftol : ℝ) (maxIter : ℤ) (x0 : Pt N) : Outcome (Result N) :=
  if ftol ≤ 0 then .exn (.mml "MultidimOptimizationInputError")
  else if maxIter ≤ 0 then .exn (.mml "MultidimOptimizationInputError")
  else powell f zeps ftol maxIter x0 (fun i j => if i = j then 1 else 0)

/-! ## The conjugate gradient method -/

/-- The variables of `ConjugateGradient::Minimize` that live from one iteration to the next (OptimizationMultidim.h:1057-1070). -/
structure CSt (N : ℕ) where
  p : Pt N
  g : Pt N
  h : Pt N
  xi : Pt N
  fp : ℝ

/-- `dgg` (OptimizationMultidim.h:1109-1113): `fr` is the method of Fletcher and Reeves. -/
def dgg (fr : Bool) (g xi : Pt N) : ℝ := if fr then ∑ j, xi j * xi j else ∑ j, (xi j + g j) * xi j

/-- The new direction (OptimizationMultidim.h:1124-1130); `xi` is the gradient at the new point. -/
noncomputable def cgDir (fr : Bool) (g h xi : Pt N) : Pt N := fun j => -xi j + dgg fr g xi / dot g g * h j

/-- The next state (OptimizationMultidim.h:1084, 1087, 1124-1130). -/
noncomputable def cgNext (G : Pt N → Pt N) (fr : Bool) (s : CSt N) (l : Line N) : CSt N :=
  ⟨l.p, fun j => -G l.p j, cgDir fr s.g s.h (G l.p), cgDir fr s.g s.h (G l.p), l.value⟩

open Classical in
/-- The main loop (OptimizationMultidim.h:1072-1137); the first argument counts the iterations left. -/
noncomputable def cgRun (f : Pt N → ℝ) (G : Pt N → Pt N) (zeps ftol gtol : ℝ) (fr : Bool) : ℕ → ℕ → CSt N → Outcome (Result N)
  | 0, iter, s => .ret ⟨s.p, s.fp, iter, false⟩
  | k + 1, iter, s => do
    let l ← lineMin f zeps s.p s.xi ftol
    if valueTest ftol l.value s.fp then .ret ⟨l.p, l.value, iter + 1, true⟩
    else if gradTest l.value l.p (G l.p) < gtol then .ret ⟨l.p, l.value, iter + 1, true⟩
    else if dot s.g s.g = 0 then .ret ⟨l.p, l.value, iter + 1, true⟩
    else cgRun f G zeps ftol gtol fr k (iter + 1) (cgNext G fr s l)

/-- `ConjugateGradient::Minimize` (OptimizationMultidim.h:1046-1138). -/
noncomputable def cg (f : Pt N → ℝ) (G : Pt N → Pt N) (zeps ftol gtol : ℝ) (maxIter : ℤ) (fr : Bool) (x0 : Pt N) : Outcome (Result N) :=
  if ftol ≤ 0 then .exn (.mml "MultidimOptimizationInputError")
  else if gtol ≤ 0 then .exn (.mml "MultidimOptimizationInputError")
  else if maxIter ≤ 0 then .exn (.mml "MultidimOptimizationInputError")
  else cgRun f G zeps ftol gtol fr maxIter.toNat 0 ⟨x0, fun j => -G x0 j, fun j => -G x0 j, fun j => -G x0 j, f x0⟩

end Verif.Optim.QN
