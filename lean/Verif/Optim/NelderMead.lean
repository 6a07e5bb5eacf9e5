import Verif.Common
import Mathlib.Data.Real.Basic
import Mathlib.Algebra.BigOperators.Group.Finset.Basic
import Mathlib.Algebra.Order.Group.Abs
import Mathlib.Data.Fintype.BigOperators

/-!
# Model of the downhill simplex method

`mml/algorithms/OptimizationMultidim.h`, exact: coordinates and values are real, so the tests for values that are not
finite always pass and are left out.  A `VectorN<Real, N>` and a row of the simplex matrix are functions on `Fin N`; the
matrix `_p` and the vector `_y`, which have exactly `N + 1` rows, are functions on `Fin (N + 1)`.  Loops that handle
coordinates one by one without reading what they wrote are written as one function, and accumulation loops as sums.

The objective is a pure function.  The state carries, beside the fields of the class, the list `log` of all the points at
which the objective has been called, in the order of the calls.  It is not a field of the class and nothing reads it; it
is what the statements about the number of evaluations and about the best point seen speak of.
-/

set_option autoImplicit false

namespace Verif.Optim.NM

/-- `VectorN<Real, N>` (OptimizationMultidim.h:62). -/
abbrev Pt (N : ℕ) := Fin N → ℝ

/-- The fields `_nfunc`, `_p`, `_y` (OptimizationMultidim.h:223-228), the local `psum` (line 381) and the call log. -/
structure State (N : ℕ) where
  p : Fin (N + 1) → Pt N
  y : Fin (N + 1) → ℝ
  psum : Pt N
  nfunc : ℕ
  log : List (Pt N)

/-- `MultidimMinimizationResult` (OptimizationMultidim.h:113-137) without names and times, together with what
`getSimplex`, `getSimplexValues` return afterwards (OptimizationMultidim.h:251-259), and the call log. -/
structure Result (N : ℕ) where
  xmin : Pt N
  fmin : ℝ
  iterations : ℕ
  converged : Bool
  simplex : Fin (N + 1) → Pt N
  values : Fin (N + 1) → ℝ
  log : List (Pt N)

/-- `ALPHA` (OptimizationMultidim.h:215). -/
def alpha : ℝ := 1
/-- `GAMMA` (OptimizationMultidim.h:216). -/
def gamma : ℝ := 2
/-- `RHO` (OptimizationMultidim.h:217). -/
noncomputable def rho : ℝ := 1 / 2
/-- `SIGMA` (OptimizationMultidim.h:218). -/
noncomputable def sigma : ℝ := 1 / 2
/-- `TINY` (OptimizationMultidim.h:378). -/
noncomputable def tiny : ℝ := 1 / 10 ^ 10

section
variable {N : ℕ}

/-- `GetPsum` (OptimizationMultidim.h:495-502). -/
def getPsum (p : Fin (N + 1) → Pt N) : Pt N := fun j => ∑ i, p i j

/-- The trial point of `Amotry` (OptimizationMultidim.h:523-528). -/
noncomputable def trial (s : State N) (ihi : Fin (N + 1)) (fac : ℝ) : Pt N :=
  let fac1 := (1 - fac) / (N : ℝ)
  let fac2 := fac1 - fac
  fun j => s.psum j * fac1 - s.p ihi j * fac2

/-- Accepting the trial point (OptimizationMultidim.h:533-538). -/
def accept (s : State N) (ihi : Fin (N + 1)) (q : Pt N) (v : ℝ) : State N :=
  { s with y := Function.update s.y ihi v, psum := fun j => s.psum j + (q j - s.p ihi j), p := Function.update s.p ihi q }

open Classical in
/-- `Amotry` (OptimizationMultidim.h:521-541), with the increment of `_nfunc` that follows each call (lines 446, 451,
456). -/
noncomputable def amotry (f : Pt N → ℝ) (s : State N) (ihi : Fin (N + 1)) (fac : ℝ) : State N × ℝ :=
  let q := trial s ihi fac
  let s' : State N := { s with nfunc := s.nfunc + 1, log := s.log ++ [q] }
  if f q < s.y ihi then (accept s' ihi q (f q), f q) else (s', f q)

/-- The indices `ilo`, `ihi`, `inhi` (OptimizationMultidim.h:379). -/
structure Idx (N : ℕ) where
  lo : Fin (N + 1)
  hi : Fin (N + 1)
  nhi : Fin (N + 1)

open Classical in
/-- Before the scan (OptimizationMultidim.h:398-405). -/
noncomputable def scan0 (y : Fin (N + 1) → ℝ) : Idx N := if y 0 > y 1 then ⟨0, 0, 1⟩ else ⟨0, 1, 0⟩

open Classical in
/-- The two indices of high values in one step of the scan (OptimizationMultidim.h:410-415). -/
noncomputable def scanHi (y : Fin (N + 1) → ℝ) (a : Idx N) (i : Fin (N + 1)) : Fin (N + 1) × Fin (N + 1) :=
  if y i > y a.hi then (i, a.hi) else if y i > y a.nhi ∧ i ≠ a.hi then (a.hi, i) else (a.hi, a.nhi)

open Classical in
/-- One step of the scan (OptimizationMultidim.h:408-415). -/
noncomputable def scanStep (y : Fin (N + 1) → ℝ) (a : Idx N) (i : Fin (N + 1)) : Idx N :=
  ⟨if y i ≤ y a.lo then i else a.lo, (scanHi y a i).1, (scanHi y a i).2⟩

/-- Best, worst and second worst vertex (OptimizationMultidim.h:398-416). -/
noncomputable def scan (y : Fin (N + 1) → ℝ) : Idx N := (List.finRange (N + 1)).foldl (scanStep y) (scan0 y)

/-- `rtol` (OptimizationMultidim.h:419). -/
noncomputable def rtol (y : Fin (N + 1) → ℝ) (a : Idx N) : ℝ := 2 * |y a.hi - y a.lo| / (|y a.hi| + |y a.lo| + tiny)

/-- The shrunken vertices (OptimizationMultidim.h:460-468). -/
noncomputable def shrunk (p : Fin (N + 1) → Pt N) (ilo : Fin (N + 1)) : Fin (N + 1) → Pt N :=
  fun i => if i = ilo then p i else fun j => sigma * (p i j + p ilo j)

/-- The shrink (OptimizationMultidim.h:460-470). -/
noncomputable def shrink (f : Pt N → ℝ) (s : State N) (ilo : Fin (N + 1)) : State N :=
  { p := shrunk s.p ilo
    y := fun i => if i = ilo then s.y i else f (shrunk s.p ilo i)
    psum := getPsum (shrunk s.p ilo)
    nfunc := s.nfunc + N
    log := s.log ++ ((List.finRange (N + 1)).filter (· ≠ ilo)).map (shrunk s.p ilo) }

open Classical in
/-- Contraction and, if it fails, the shrink (OptimizationMultidim.h:454-471). -/
noncomputable def contract (f : Pt N → ℝ) (s : State N) (a : Idx N) : State N :=
  let t := amotry f s a.hi rho
  if t.2 ≥ s.y a.hi then shrink f t.1 a.lo else t.1

open Classical in
/-- Reflection and what follows it (OptimizationMultidim.h:445-472). -/
noncomputable def move (f : Pt N → ℝ) (s : State N) (a : Idx N) : State N :=
  let t := amotry f s a.hi (-alpha)
  if t.2 ≤ t.1.y a.lo then (amotry f t.1 a.hi gamma).1
  else if t.2 ≥ t.1.y a.nhi then contract f t.1 a
  else t.1

/-- The result on convergence, with the best vertex swapped to the front (OptimizationMultidim.h:422-433). -/
def converged (s : State N) (ilo : Fin (N + 1)) : Result N :=
  let y' := s.y ∘ Equiv.swap 0 ilo
  let p' := s.p ∘ Equiv.swap 0 ilo
  ⟨p' 0, y' 0, s.nfunc, true, p', y', s.log⟩

/-- The result when the limit is reached (OptimizationMultidim.h:438-441 and 481-485). -/
def stopped (s : State N) (ilo : Fin (N + 1)) : Result N := ⟨s.p ilo, s.y ilo, s.nfunc, false, s.p, s.y, s.log⟩

open Classical in
/-- The lowest vertex after the last round (OptimizationMultidim.h:476-479). -/
noncomputable def finalLow (y : Fin (N + 1) → ℝ) : Fin (N + 1) :=
  (List.finRange (N + 1)).tail.foldl (fun l i => if y i < y l then i else l) 0

open Classical in
/-- The main loop with `k` rounds left (OptimizationMultidim.h:396-485). -/
noncomputable def loop (f : Pt N → ℝ) (ftol : ℝ) (maxIter : ℤ) : ℕ → State N → Result N
  | 0, s => stopped s (finalLow s.y)
  | k + 1, s =>
    if rtol s.y (scan s.y) < ftol then converged s (scan s.y).lo
    else if (s.nfunc : ℤ) ≥ maxIter then stopped s (scan s.y).lo
    else loop f ftol maxIter k (move f s (scan s.y))

/-- The state before the loop (OptimizationMultidim.h:383-393). -/
noncomputable def start (f : Pt N → ℝ) (p : Fin (N + 1) → Pt N) : State N :=
  ⟨p, fun i => f (p i), getPsum p, N + 1, (List.finRange (N + 1)).map p⟩

open Classical in
/-- `MinimizeFromSimplex` (OptimizationMultidim.h:371-486).  For `N = 0` line 399 reads `_y[1]`, past the end. -/
noncomputable def fromSimplex (f : Pt N → ℝ) (ftol : ℝ) (maxIter : ℤ) (p : Fin (N + 1) → Pt N) : Outcome (Result N) :=
  if ftol ≤ 0 then .exn (.mml "MultidimOptimizationInputError")
  else if maxIter ≤ 0 then .exn (.mml "MultidimOptimizationInputError")
  else if N = 0 then .ub
  else .ret (loop f ftol maxIter maxIter.toNat (start f p))

/-- The initial simplex of a point and displacements (OptimizationMultidim.h:319-328). -/
def axisSimplex (x0 : Pt N) (d : Pt N) : Fin (N + 1) → Pt N :=
  Fin.cases x0 (fun i => Function.update x0 i (x0 i + d i))

open Classical in
/-- `Minimize(func, start, deltas)` (OptimizationMultidim.h:300-331).  `deltas` is a `Vector<Real>` of any length. -/
noncomputable def minimizeDeltas (f : Pt N → ℝ) (ftol : ℝ) (maxIter : ℤ) (x0 : Pt N) (deltas : List ℝ) :
    Outcome (Result N) :=
  if deltas.length ≠ N then .exn (.mml "MultidimOptimizationError")
  else if ∃ d ∈ deltas, d = 0 then .exn (.mml "MultidimOptimizationInputError")
  else fromSimplex f ftol maxIter (axisSimplex x0 (fun j => deltas.getD j 0))

open Classical in
/-- `Minimize(func, start, delta)` (OptimizationMultidim.h:275-284). -/
noncomputable def minimize (f : Pt N → ℝ) (ftol : ℝ) (maxIter : ℤ) (x0 : Pt N) (delta : ℝ) : Outcome (Result N) :=
  if delta = 0 then .exn (.mml "MultidimOptimizationInputError")
  else minimizeDeltas f ftol maxIter x0 (List.replicate N delta)

/-- `NelderMeadMaximize(func, start, config)` (OptimizationMultidim.h:656-673): the method on the negated function
(`NegatedScalarFunction`, lines 587-597), with the value negated again. -/
noncomputable def maximize (f : Pt N → ℝ) (ftol : ℝ) (maxIter : ℤ) (x0 : Pt N) (delta : ℝ) : Outcome (Result N) := do
  let r ← minimize (fun x => -f x) ftol maxIter x0 delta
  .ret { r with fmin := -r.fmin }

end

end Verif.Optim.NM
