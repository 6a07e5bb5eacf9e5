import Verif.Mat.Packed
import Verif.LinAlg.LU
import Verif.LinAlg.GaussJordan

/-!
# Model of the band solver

`BandDiagonalSolver` (`mml/core/LinAlgEqSolvers/LinAlgDirect.h`), for elements in an exact ordered field.  `eps` is
`std::numeric_limits<Real>::epsilon()`.
-/

set_option autoImplicit false

namespace Verif.LinAlg

open Verif.Mat

variable {K : Type} [Field K] [LinearOrder K]

/-- The members of the solver (LinAlgDirect.h:661-667). -/
structure BandLU (K : Type) where
  n : ℕ
  m1 : ℕ
  m2 : ℕ
  au : Dense K
  al : Dense K
  indx : List ℕ
  d : K

namespace BandLU

/-- One round of the inner copying loop (LinAlgDirect.h:694-702); the state holds `_au` and `row_sum`. -/
def copyStep (a : Band K) (n m1 i : ℕ) (s : Dense K × K) (j : ℕ) : Outcome (Dense K × K) :=
  if m1 ≤ j + i ∧ j + i - m1 < n then do
    let x ← a.get i (j + i - m1)
    let au ← s.1.set i j x
    .ret (au, s.2 + |x|)
  else do
    let au ← s.1.set i j 0
    .ret (au, s.2)

/-- One round of the outer copying loop (LinAlgDirect.h:691-704); the state holds `_au` and `norm_a`. -/
def copyRow (a : Band K) (n m1 mm : ℕ) (s : Dense K × K) (i : ℕ) : Outcome (Dense K × K) := do
  let r ← forRange mm (s.1, (0 : K)) (copyStep a n m1 i)
  .ret (r.1, if r.2 > s.2 then r.2 else s.2)

/-- One round of the rearranging loop (LinAlgDirect.h:711-718); the state holds `_au` and `l`. -/
def shiftRow (m1 mm : ℕ) (s : Dense K × ℕ) (i : ℕ) : Outcome (Dense K × ℕ) := do
  let au ← forFromTo (m1 - i) mm s.1 (fun au j => do
    let x ← au.get i j
    au.set i (j - s.2) x)
  let l := s.2 - 1
  let au ← forFromTo (mm - l - 1) mm au (fun au j => au.set i j 0)
  .ret (au, l)

/-- The search for the pivot (LinAlgDirect.h:730-737); the state holds `dum` and `i`. -/
def pivotStep (au : Dense K) (s : K × ℕ) (j : ℕ) : Outcome (K × ℕ) := do
  let x ← au.get j 0
  .ret (if |x| > |s.1| then (x, j) else s)

/-- One round of the elimination (LinAlgDirect.h:753-760); the state holds `_au` and `_al`. -/
def elimStep (mm k : ℕ) (s : Dense K × Dense K) (i2 : ℕ) : Outcome (Dense K × Dense K) := do
  let x ← s.1.get i2 0
  let p ← s.1.get k 0
  let dum ← divU x p
  let al ← s.2.set k (i2 - k - 1) dum
  let au ← forFromTo 1 mm s.1 (fun au j => do
    let y ← au.get i2 j
    let z ← au.get k j
    au.set i2 (j - 1) (y - dum * z))
  let au ← au.set i2 (mm - 1) 0
  .ret (au, al)

/-- The row exchange (LinAlgDirect.h:745-750), over the `mm` columns of `_au`. -/
def exchange (mm k i : ℕ) (au : Dense K) : Outcome (Dense K) :=
  if i ≠ k then forRange mm au (fun au j => au.swap k j i j) else .ret au

/-- One round of the decomposition (LinAlgDirect.h:723-761); the state also holds `l`. -/
def step (n mm : ℕ) (thr : K) (s : BandLU K × ℕ) (k : ℕ) : Outcome (BandLU K × ℕ) := do
  let dum ← s.1.au.get k 0
  let l := if s.2 < n then s.2 + 1 else s.2
  let p ← forFromTo (k + 1) l (dum, k) (pivotStep s.1.au)
  let indx ← Outcome.store s.1.indx k (p.2 + 1)
  if |p.1| < thr then .exn (.mml "SingularMatrixError")
  else do
    let au ← exchange mm k p.2 s.1.au
    let e ← forFromTo (k + 1) l (au, s.1.al) (elimStep mm k)
    .ret ({ s.1 with au := e.1, al := e.2, indx := indx, d := if p.2 ≠ k then -s.1.d else s.1.d }, l)

/-- The constructor (LinAlgDirect.h:678-762). -/
def new (eps : K) (a : Band K) : Outcome (BandLU K) := do
  let n := a.dim
  let m1 := a.m1
  let mm := a.m1 + a.m2 + 1
  let au ← Dense.new (n : ℤ) (mm : ℤ)
  let al ← Dense.new (n : ℤ) (m1 : ℤ)
  let c ← forRange n (au, (0 : K)) (copyRow a n m1 mm)
  let sh ← forRange m1 (c.1, m1) (shiftRow m1 mm)
  let s ← forRange n ((⟨n, m1, a.m2, sh.1, al, List.replicate n 0, 1⟩ : BandLU K), m1) (step n mm (eps * c.2 * n))
  .ret s.1

/-- The exchange of `x[k]` and `x[j]` (LinAlgDirect.h:785-786). -/
def exchangeRhs (x : List K) (k j : ℕ) : Outcome (List K) :=
  if j ≠ k then do
    let u ← Outcome.index x k
    let v ← Outcome.index x j
    let x ← Outcome.store x k v
    Outcome.store x j u
  else .ret x

/-- One round of the forward substitution (LinAlgDirect.h:783-792); the state holds `x` and `l`. -/
def forwardStep (s : BandLU K) (t : List K × ℕ) (k : ℕ) : Outcome (List K × ℕ) := do
  let j ← Outcome.index s.indx k
  let x ← exchangeRhs t.1 k (j - 1)
  let l := if t.2 < s.n then t.2 + 1 else t.2
  let x ← forFromTo (k + 1) l x (fun x j2 => do
    let y ← Outcome.index x j2
    let m ← s.al.get k (j2 - k - 1)
    let z ← Outcome.index x k
    Outcome.store x j2 (y - m * z))
  .ret (x, l)

/-- One round of the back substitution (LinAlgDirect.h:797-804); the state holds `x` and `l`. -/
def backStep (s : BandLU K) (mm : ℕ) (t : List K × ℕ) (i : ℕ) : Outcome (List K × ℕ) := do
  let dum ← Outcome.index t.1 i
  let dum ← forFromTo 1 t.2 dum (fun dum k => do
    let y ← s.au.get i k
    let z ← Outcome.index t.1 (k + i)
    .ret (dum - y * z))
  let p ← s.au.get i 0
  let q ← divU dum p
  let x ← Outcome.store t.1 i q
  .ret (x, if t.2 < mm then t.2 + 1 else t.2)

/-- `bool Solve(b, x)` (LinAlgDirect.h:770-807): the result and the new value of `x`.  Every element of `x` is first
assigned from `b` (778-780). -/
def solveInto (s : BandLU K) (b x : List K) : Outcome (Bool × List K) :=
  if b.length ≠ s.n ∨ x.length ≠ s.n then .ret (false, x)
  else do
    let mm := s.m1 + s.m2 + 1
    let f ← forRange s.n (b, s.m1) (forwardStep s)
    let r ← forDown 0 s.n (f.1, 1) (backStep s mm)
    .ret (true, r.1)

/-- `Solve(b)` (LinAlgDirect.h:815-822). -/
def solve (s : BandLU K) (b : List K) : Outcome (List K) := do
  let r ← solveInto s b (List.replicate s.n 0)
  if r.1 then .ret r.2 else .exn (.mml "VectorDimensionError")

/-- One column of `Solve(B)` (LinAlgDirect.h:838-847); the state holds `X` and `x`. -/
def solveColumn (s : BandLU K) (rhs : Dense K) (t : Dense K × List K) (j : ℕ) : Outcome (Dense K × List K) := do
  let b ← forRange s.n (List.replicate s.n (0 : K)) (fun b i => do
    let y ← rhs.get i j
    Outcome.store b i y)
  let r ← solveInto s b t.2
  let out ← forRange s.n t.1 (fun out i => do
    let y ← Outcome.index r.2 i
    out.set i j y)
  .ret (out, r.2)

/-- `Solve(B)` for a matrix (LinAlgDirect.h:829-850).  The scratch vector `b` is assigned completely for each column. -/
def solveM (s : BandLU K) (rhs : Dense K) : Outcome (Dense K) :=
  if rhs.rows ≠ s.n then .exn (.mml "MatrixDimensionError")
  else do
    let out ← Dense.new (s.n : ℤ) (rhs.cols : ℤ)
    let t ← forRange rhs.cols (out, List.replicate s.n (0 : K)) (solveColumn s rhs)
    .ret t.1

/-- `Det()` (LinAlgDirect.h:856-862). -/
def det (s : BandLU K) : Outcome K :=
  forRange s.n s.d (fun dd i => do
    let x ← s.au.get i 0
    .ret (dd * x))

end BandLU

end Verif.LinAlg
